import Verif.Spec.Meaning
import Verif.Lemmas.Counter
/-!
# Two evaluations side by side
-/

namespace Yupp
open Spec

/-- Two towers of scopes that agree but for the names `W`, and go on doing so. -/
structure Base where
  W : Str → Bool
  R : Scopes → Scopes → Prop
  look : ∀ {x y}, R x y → ∀ k, W k = false → Scopes.lookup x k = Scopes.lookup y k
  upd : ∀ {x y}, R x y → ∀ a v, R ((Scopes.update x a v).getD x) ((Scopes.update y a v).getD y)

/-- The same scopes opened since, over others that agree. -/
structure Beneath (W : Base) (d n : Nat) (s t : ESt) : Prop where
  split : ∃ pre s0 t0, s.env = pre ++ s0 ∧ t.env = pre ++ t0 ∧ pre.length = n ∧ s0.length = d ∧ W.R s0 t0
  rest : t = { s with env := t.env }

/-- The second outcome is that of the first, unless this gave up. -/
def TwinOut (W : Base) (d n : Nat) : PRes (α × ESt) → PRes (α × ESt) → Prop
  | .timeout, _ => True
  | .err, r => r = .err
  | .ok (a, s), r => ∃ t, r = .ok (a, t) ∧ Beneath W d n s t

/-- Two computations side by side. -/
structure Twin (W : Base) (d n : Nat) (m m' : EM α) : Prop where
  run : ∀ s t, Beneath W d n s t → TwinOut W d n (m s) (m' t)

section
variable {W : Base} {d n : Nat}

theorem Twin.pure (a : α) : Twin W d n (Pure.pure a : EM α) (Pure.pure a) := ⟨fun _ t h => ⟨t, rfl, h⟩⟩

theorem Twin.err : Twin W d n (EM.err : EM α) EM.err := ⟨fun _ _ _ => rfl⟩

theorem Twin.ofOption (o : Option α) : Twin W d n (EM.ofOption o) (EM.ofOption o) := by
  cases o with
  | none => exact ⟨fun _ _ _ => rfl⟩
  | some a => exact ⟨fun _ t h => ⟨t, rfl, h⟩⟩

theorem Twin.bind {m m' : EM α} {f f' : α → EM β} (h : Twin W d n m m') (hf : ∀ a, Twin W d n (f a) (f' a)) :
    Twin W d n (m >>= f) (m' >>= f') := by
  refine ⟨fun s t hst => ?_⟩
  have h1 := h.run s t hst
  rw [em_bind]
  cases hm : m s with
  | timeout => trivial
  | err => rw [hm] at h1; rw [em_bind, show m' t = .err from h1]; rfl
  | ok r =>
    obtain ⟨a, s1⟩ := r
    rw [hm] at h1
    obtain ⟨t1, h2, h3⟩ := h1
    rw [em_bind_ok h2]
    exact (hf a).run s1 t1 h3

/-- What is looked up in the state is not in the scopes. -/
theorem Twin.get {f f' : ESt → EM β} (hf : ∀ s, Twin W d n (f s) (f' s)) (hi : ∀ s env, f' { s with env := env } = f' s) :
    Twin W d n (EM.get >>= f) (EM.get >>= f') := by
  refine ⟨fun s t hst => ?_⟩
  rw [em_bind, em_get, em_bind, em_get]
  have : f' t = f' s := by rw [hst.rest]; exact hi s _
  dsimp only
  rw [this]
  exact (hf s).run s t hst

theorem Beneath.push {s t : ESt} (h : Beneath W d n s t) (f : Frame) :
    Beneath W d (n + 1) { s with env := f :: s.env } { t with env := f :: t.env } := by
  obtain ⟨⟨pre, s0, t0, h1, h2, h3, h4⟩, hr⟩ := h
  refine ⟨⟨f :: pre, s0, t0, by rw [h1]; rfl, by rw [h2]; rfl, by rw [List.length_cons, h3], h4⟩, ?_⟩
  rw [hr]

theorem Twin.inFrame (f : Frame) {m m' : EM α} (h : Twin W d (n + 1) m m') : Twin W d n (EM.inFrame f m) (EM.inFrame f m') := by
  refine ⟨fun s t hst => ?_⟩
  have h1 := h.run _ _ (hst.push f)
  unfold EM.inFrame
  cases hm : m { s with env := f :: s.env } with
  | timeout => trivial
  | err => rw [hm] at h1; rw [show m' { t with env := f :: t.env } = .err from h1]; rfl
  | ok r =>
    obtain ⟨a, s1⟩ := r
    rw [hm] at h1
    obtain ⟨t1, h2, ⟨pre, s0, t0, h3, h4, h5, h6⟩, hr⟩ := h1
    rw [h2]
    cases pre with
    | nil => cases h5
    | cons g pre =>
      simp only [h3, h4, List.cons_append]
      refine ⟨_, rfl, ⟨pre, s0, t0, rfl, rfl, by simpa using h5, h6⟩, ?_⟩
      rw [hr]

/-- A step that has nothing to do with the scopes. -/
theorem Twin.steady {m : EM α} (h : ∀ s env, m { s with env := env } = match m s with
      | .ok (a, s') => .ok (a, { s' with env := env })
      | .err => .err
      | .timeout => .timeout) (he : ∀ s a s', m s = .ok (a, s') → s'.env = s.env) : Twin W d n m m := by
  refine ⟨fun s t hst => ?_⟩
  have hr := hst.rest
  obtain ⟨⟨pre, s0, t0, h1, h2, h3⟩, -⟩ := hst
  have ht := h s t.env
  rw [← hr] at ht
  rw [ht]
  cases hm : m s with
  | timeout => trivial
  | err => rfl
  | ok r =>
    obtain ⟨a, s1⟩ := r
    exact ⟨_, rfl, ⟨⟨pre, s0, t0, (he _ _ _ hm).trans h1, h2, h3⟩, rfl⟩⟩

/-! ## Names -/

theorem lookup_append (k : Str) : ∀ (x y : Scopes), Scopes.lookup (x ++ y) k = (Scopes.lookup x k).or (Scopes.lookup y k) := by
  intro x y
  induction x with
  | nil => rfl
  | cons f x ih =>
    rw [List.cons_append]
    conv => lhs; unfold Scopes.lookup
    conv => rhs; lhs; unfold Scopes.lookup
    cases Frame.get f k with
    | some v => rfl
    | none => exact ih

theorem Beneath.lookup {s t : ESt} (h : Beneath W d n s t) {k : Str} (hk : outerName W.W d s k = false) :
    Scopes.lookup s.env k = Scopes.lookup t.env k := by
  obtain ⟨⟨pre, s0, t0, h1, h2, h3, h4, h5⟩, -⟩ := h
  unfold outerName at hk
  rw [h1, List.length_append, h4, Nat.add_sub_cancel, List.take_left] at hk
  rw [h1, h2, lookup_append, lookup_append]
  cases hl : Scopes.lookup pre k with
  | some v => rfl
  | none =>
    rw [hl] at hk
    simp only [Option.isNone_none, Bool.and_true] at hk
    exact congrArg _ (W.look h5 k hk)

theorem update_length {env env' : Scopes} {a : Str} {v : Node} (h : Scopes.update env a v = some env') : env'.length = env.length := by
  induction env generalizing env' with
  | nil => cases h
  | cons f fs ih =>
    unfold Scopes.update at h
    cases hf : Frame.get f a with
    | some w => rw [hf] at h; cases h; rfl
    | none =>
      rw [hf] at h
      cases hu : Scopes.update fs a v with
      | none => rw [hu] at h; cases h
      | some z => rw [hu] at h; cases h; simp [ih hu]

theorem update_append (a : Str) (v : Node) : ∀ (x y : Scopes),
    Scopes.update (x ++ y) a v = ((Scopes.update x a v).map (· ++ y)).or ((Scopes.update y a v).map (x ++ ·)) := by
  intro x y
  induction x with
  | nil =>
    rw [List.nil_append]
    unfold Scopes.update
    cases y with
    | nil => rfl
    | cons f y =>
      dsimp only
      split
      · rfl
      · cases Scopes.update y a v <;> rfl
  | cons f x ih =>
    rw [List.cons_append]
    conv => lhs; unfold Scopes.update
    conv => rhs; lhs; unfold Scopes.update
    cases Frame.get f a with
    | some w => rfl
    | none =>
      dsimp only
      rw [ih]
      cases Scopes.update x a v with
      | some z => rfl
      | none => cases Scopes.update y a v <;> rfl

theorem getD_update_lookup (a : Str) (v : Node) (k : Str) : ∀ (env : Scopes), Scopes.lookup ((Scopes.update env a v).getD env) k =
    if k = a then (Scopes.lookup env k).map (fun _ => v) else Scopes.lookup env k := by
  intro env
  induction env with
  | nil => split <;> rfl
  | cons f fs ih =>
    unfold Scopes.update
    cases hf : Frame.get f a with
    | some w =>
      dsimp only [Option.getD_some]
      unfold Scopes.lookup
      rw [put_get]
      by_cases hk : k = a
      · subst hk; simp [hf]
      · simp [hk]
    | none =>
      have e1 : ((Scopes.update fs a v).map (f :: ·)).getD (f :: fs) = f :: (Scopes.update fs a v).getD fs := by
        cases Scopes.update fs a v <;> rfl
      dsimp only
      rw [e1]
      unfold Scopes.lookup
      by_cases hk : k = a
      · subst hk
        rw [hf]
        exact ih
      · cases Frame.get f k with
        | some w => simp [hk]
        | none => exact ih

theorem update_twin (a : Str) (v : Node) : Twin W d n (EM.update a v) (EM.update a v) := by
  refine ⟨?_⟩
  rintro s t ⟨⟨pre, s0, t0, h1, h2, h3, h4, h5⟩, hr⟩
  unfold EM.update
  refine ⟨_, rfl, ?_, by rw [hr]⟩
  dsimp only
  rw [h1, h2, update_append, update_append]
  cases hp : Scopes.update pre a v with
  | some p => exact ⟨p, s0, t0, rfl, rfl, by rw [update_length hp, h3], h4, h5⟩
  | none =>
    simp only [Option.map_none, Option.none_or]
    have e1 : ∀ z : Scopes, ((Scopes.update z a v).map (pre ++ ·)).getD (pre ++ z) = pre ++ (Scopes.update z a v).getD z := by
      intro z; cases Scopes.update z a v <;> rfl
    refine ⟨pre, (Scopes.update s0 a v).getD s0, (Scopes.update t0 a v).getD t0, e1 _, e1 _, h3, ?_, W.upd h5 a v⟩
    · cases hu : Scopes.update s0 a v with
      | none => exact h4
      | some z => rw [Option.getD_some, update_length hu, h4]

/-- Scopes that agree but for the names `W`. -/
def Base.agree (W : Str → Bool) : Base where
  W := W
  R := fun x y => ∀ k, W k = false → Scopes.lookup x k = Scopes.lookup y k
  look := fun h => h
  upd := fun h a v k hk => by rw [getD_update_lookup, getD_update_lookup, h k hk]

/-- Two scopes that define different names, in either order. -/
def Base.swap : Base where
  W := noName
  R := fun x y => ∃ f g r, x = g :: f :: r ∧ y = f :: g :: r ∧ ∀ k, definesName f k = true → definesName g k = false
  look := by
    rintro _ _ ⟨f, g, r, rfl, rfl, h⟩ k -
    have := h k
    unfold definesName at this
    simp only [Scopes.lookup]
    cases hf : Frame.get f k with
    | none => cases hg : Frame.get g k <;> rfl
    | some v =>
      rw [hf] at this
      cases hg : Frame.get g k with
      | none => rfl
      | some w => rw [hg] at this; cases this rfl
  upd := by
    rintro _ _ ⟨f, g, r, rfl, rfl, h⟩ a v
    have hput : ∀ (u : Frame) k, (Frame.get u a).isSome = true → definesName (Frame.put u a v) k = definesName u k := by
      intro u k hu
      unfold definesName
      rw [put_get]
      by_cases hk : k = a
      · subst hk; simp [hu]
      · simp [hk]
    have h1 := h a
    unfold definesName at h1
    simp only [Scopes.update]
    cases hf : Frame.get f a with
    | none =>
      cases hg : Frame.get g a with
      | none => cases Scopes.update r a v <;> exact ⟨_, _, _, rfl, rfl, h⟩
      | some w =>
        refine ⟨_, _, _, rfl, rfl, fun k hk => ?_⟩
        rw [hput g k (by rw [hg]; rfl)]
        exact h k hk
    | some u =>
      rw [hf] at h1
      cases hg : Frame.get g a with
      | none =>
        refine ⟨_, _, _, rfl, rfl, fun k hk => ?_⟩
        rw [hput f k (by rw [hf]; rfl)] at hk
        exact h k hk
      | some w => rw [hg] at h1; cases h1 rfl

/-! ## Steps that do not look at names -/

theorem finishT_twin (e : EEnv) (indent ys) : Twin W d n (finishT e indent ys) (finishT e indent ys) :=
  Twin.steady (fun _ _ => rfl) (fun s a s' h => by unfold finishT at h; cases h; rfl)

theorem applyFunction_twin (e : EEnv) (a sp args loc) : Twin W d n (applyFunction e a sp args loc) (applyFunction e a sp args loc) := by
  refine Twin.steady (fun s env => ?_) (fun s v s' h => ?_)
  · unfold applyFunction
    split
    · show (match e.call s.py a.txt args s.seen with | some (v, seen) => _ | none => _) = _
      cases e.call s.py a.txt args s.seen with
      | none => rfl
      | some r => rfl
    · split <;> rfl
  · unfold applyFunction at h
    repeat' split at h
    all_goals first | (cases h; done) | (cases h; rfl)

theorem applyPassage_twin (e : EEnv) (xs) : Twin W d n (applyPassage e xs) (applyPassage e xs) :=
  Twin.steady (fun _ _ => rfl) (fun s a s' h => by unfold applyPassage at h; cases h; rfl)

theorem setOutput_twin (e : EEnv) (v) : Twin W d n (setOutput e v) (setOutput e v) := by
  refine Twin.steady (fun s env => ?_) (fun s a s' h => ?_)
  · unfold setOutput
    split <;> rfl
  · unfold setOutput at h
    cases h
    split <;> rfl

theorem register_twin (decl call t) : Twin W d n (register decl call t) (register decl call t) :=
  Twin.steady (fun _ _ => rfl) (fun s a s' h => by unfold register at h; cases h; rfl)

theorem parse_twin (m : PM α) : Twin W d n (EM.parse m) (EM.parse m) := by
  refine Twin.steady (fun s env => ?_) (fun s a s' h => ?_)
  · unfold EM.parse
    show (match m s.p with | .ok (a, p) => _ | .err => _ | .timeout => _) = _
    cases m s.p with
    | ok r => rfl
    | err => rfl
    | timeout => rfl
  · unfold EM.parse at h
    split at h <;> cases h
    rfl

theorem applyBuiltin_twin (e : EEnv) (a special args named loc) :
    Twin W d n (applyBuiltin e a special args named loc) (applyBuiltin e a special args named loc) := by
  unfold applyBuiltin
  split
  · exact Twin.err
  · split
    · unfold applySpecial applyConst
      repeat' (first
        | with_reducible exact Twin.pure _
        | with_reducible exact Twin.err
        | with_reducible exact Twin.ofOption _
        | with_reducible exact applyPassage_twin e _
        | ((with_reducible refine Twin.get (fun s => ?_) ?_); rotate_left; (intro _ _; rfl))
        | split)
    · refine Twin.get (fun s => ?_) (fun _ _ => rfl)
      split
      · unfold applyConst
        split
        · exact Twin.pure _
        · exact Twin.err
      · exact applyFunction_twin e _ _ _ _

theorem applyNumber_twin (fn pos args named loc) : Twin W d n (applyNumber fn pos args named loc) (applyNumber fn pos args named loc) := by
  unfold applyNumber
  repeat' (first
    | with_reducible exact Twin.pure _
    | with_reducible exact Twin.err
    | with_reducible exact Twin.ofOption _
    | split)

end

/-! ## The rules -/

section
variable {W : Base} {d n : Nat} {r r' : Node → EM Node}

/-- Goes through a rule: the parts of a computation, recursive calls by hypothesis. -/
local macro "etwin " h:ident : tactic => `(tactic| repeat' (first
  | with_reducible exact Twin.pure _
  | with_reducible exact Twin.err
  | with_reducible exact ($h) _ _
  | with_reducible assumption
  | with_reducible exact Twin.ofOption _
  | with_reducible refine Twin.inFrame _ ?_
  | ((with_reducible refine Twin.get (fun s => ?_) ?_); rotate_left; (intro _ _; rfl))
  | with_reducible refine Twin.bind ?_ (fun a => ?_)
  | split))

variable (h : ∀ n x, Twin W d n (r x) (r' x))
include h

theorem evalT_twin : ∀ xs indent level tr, Twin W d n (evalT r indent level tr xs) (evalT r' indent level tr xs) := by
  intro xs
  induction xs with
  | nil => intro indent level tr; rw [evalT.eq_def, evalT.eq_def]; exact Twin.pure _
  | cons x rest ih =>
    intro indent level tr
    cases level with
    | succ level => simp only [evalT]; exact ih _ _ _
    | zero =>
      simp only [evalT]
      generalize (if tr then setTrim x else x) = x
      split
      · exact ih _ _ _
      · refine Twin.bind (h _ _) (fun y => ?_)
        split
        · exact ih _ _ _
        · exact ih _ _ _
        · etwin h
        · etwin h
        · exact Twin.bind (ih _ _ _) (fun _ => Twin.pure _)

theorem evalList_twin : ∀ xs, Twin W d n (evalList r xs) (evalList r' xs) := by
  intro xs
  induction xs with
  | nil => exact Twin.pure _
  | cons x xs ih => unfold evalList; etwin h

theorem listEval1_twin : ∀ xs, Twin W d n (listEval1 r xs) (listEval1 r' xs) := by
  intro xs
  induction xs with
  | nil => exact Twin.pure _
  | cons x xs ih =>
    unfold listEval1
    refine Twin.bind (h _ _) (fun y => ?_)
    split <;> first | exact ih | exact Twin.pure _

theorem evalLocal_twin : ∀ f, Twin W d n (evalLocal r f) (evalLocal r' f) := by
  intro f
  induction f with
  | nil => exact Twin.pure _
  | cons p f ih => obtain ⟨k, v⟩ := p; unfold evalLocal; etwin h

theorem evalNamed_twin : ∀ f, Twin W d n (evalNamed r f) (evalNamed r' f) := by
  intro f
  induction f with
  | nil => exact Twin.pure _
  | cons p f ih => obtain ⟨k, v⟩ := p; unfold evalNamed; etwin h

theorem applyEach_twin : ∀ fs x, Twin W d n (applyEach r fs x) (applyEach r' fs x) := by
  intro fs
  induction fs with
  | nil => intro x; exact Twin.pure _
  | cons f fs ih => intro x; unfold applyEach; exact Twin.bind (h _ _) (fun _ => ih _)

theorem foreach_twin (fs : List Node) : ∀ xs, Twin W d n (foreach r fs xs) (foreach r' fs xs) := by
  intro xs
  induction xs with
  | nil => exact Twin.pure _
  | cons x xs ih =>
    unfold foreach
    exact Twin.bind (applyEach_twin h _ _) (fun _ => Twin.bind ih (fun _ => Twin.pure _))

theorem bindArg_twin (fn frame late dflt var val args named loc) :
    Twin W d n (bindArg r fn frame late dflt var val args named loc) (bindArg r' fn frame late dflt var val args named loc) := by
  unfold bindArg
  refine Twin.bind ?_ (fun a => ?_)
  · unfold lateVal; etwin h
  · unfold applyNext; etwin h

theorem applyClosure_twin (fn frame late dflt args named loc) :
    Twin W d n (applyClosure r fn frame late dflt args named loc) (applyClosure r' fn frame late dflt args named loc) := by
  have hb := bindArg_twin (n := n) h
  have hl := listEval1_twin (n := n) h
  unfold applyClosure
  split
  · split
    · exact Twin.bind (h _ _) (fun _ => hb _ _ _ _ _ _ _ _ _)
    · exact Twin.err
  · split
    · exact h _ _
    · split
      · exact hb _ _ _ _ _ _ _ _ _
      · refine Twin.bind (hl _) (fun a => ?_)
        obtain ⟨v, as⟩ := a
        cases v
        · exact Twin.pure _
        · exact hb _ _ _ _ _ _ _ _ _
    · exact h _ _
    · split
      · exact Twin.pure _
      · exact Twin.bind (h _ _) (fun _ => hb _ _ _ _ _ _ _ _ _)

theorem applyStr_twin (e : EEnv) (fn args named loc) : Twin W d n (applyStr e r fn args named loc) (applyStr e r' fn args named loc) := by
  have hn := evalNamed_twin (n := n) h
  unfold applyStr
  split
  · exact Twin.pure _
  · refine Twin.bind (hn _) (fun _ => ?_)
    etwin h

theorem applyTo_twin (e : EEnv) (fn args named loc) : Twin W d n (applyTo e r fn args named loc) (applyTo e r' fn args named loc) := by
  have hs := applyStr_twin (n := n) h e
  have hc := applyClosure_twin (n := n) h
  have hf := foreach_twin (n := n) h
  unfold applyTo
  split
  all_goals first
    | exact applyBuiltin_twin e _ _ _ _ _
    | exact applyNumber_twin _ _ _ _ _
    | exact Twin.pure _
    | exact hs _ _ _ _
    | exact hc _ _ _ _ _ _ _
    | exact h _ _
    | skip
  · etwin h
  · etwin h
  · etwin h
  · split
    · exact Twin.bind (hf _ _) (fun _ => Twin.pure _)
    · exact Twin.err

theorem evalApply_twin (e : EEnv) (fn args named loc) : Twin W d n (evalApply e r fn args named loc) (evalApply e r' fn args named loc) := by
  unfold evalApply
  exact Twin.bind (h _ _) (fun _ => Twin.bind (evalList_twin h _) (fun _ => applyTo_twin h e _ _ _ _))

theorem evalBound_twin : ∀ bs env late dflt, Twin W d n (evalBound r bs env late dflt) (evalBound r' bs env late dflt) := by
  intro bs
  induction bs with
  | nil => intro env late dflt; exact Twin.pure _
  | cons b bs ih =>
    obtain ⟨ls, a, d⟩ := b
    intro env late dflt
    unfold evalBound
    refine Twin.bind ?_ (fun _ => ih _ _ _)
    etwin h

theorem evalLambda_twin (bs form) : Twin W d n (evalLambda r bs form) (evalLambda r' bs form) := by
  unfold evalLambda
  exact Twin.bind (evalBound_twin h _ _ _ _) (fun _ => h _ _)

theorem evalAssign_twin (lval ast) : Twin W d n (evalAssign r lval ast) (evalAssign r' lval ast) := by
  unfold evalAssign
  etwin h

theorem evalLet_twin (lval ast form) : Twin W d n (evalLet r lval ast form) (evalLet r' lval ast form) := by
  have := evalAssign_twin (n := n) h
  unfold evalLet
  refine Twin.bind (this _ _) (fun _ => ?_)
  etwin h

theorem evalMacro_twin (e : EEnv) (text frame decl call) : Twin W d n (evalMacro e r text frame decl call) (evalMacro e r' text frame decl call) := by
  have := evalLocal_twin (n := n) h
  unfold evalMacro
  refine Twin.bind (this _) (fun _ => ?_)
  etwin h

theorem evalInfixClosure_twin (e : EEnv) (code frame loc) : Twin W d n (evalInfixClosure e r code frame loc) (evalInfixClosure e r' code frame loc) := by
  have := evalLocal_twin (n := n) h
  unfold evalInfixClosure
  refine Twin.bind (this _) (fun _ => ?_)
  etwin h

omit h in
theorem evalVar_twin (e : EEnv) {s t : ESt} (hst : Beneath W d n s t) {late : Bool} {reg : List Src} {a : Src}
    (hk : outerName W.W d s a.txt = false) : TwinOut W d n (evalVar e late reg a s) (evalVar e late reg a t) := by
  have hl := hst.lookup hk
  have hr := hst.rest
  unfold evalVar
  rw [← hl]
  have hp : t.p = s.p := by rw [hr]
  rw [hp]
  repeat' split
  all_goals first | rfl | exact ⟨t, rfl, hst⟩

theorem evalLambdaVar_twin {s t : ESt} (hst : Beneath W d n s t) {late : Bool} {reg : List Src} {a : Src} {form : Node}
    (hk : outerName W.W d s a.txt = false) : TwinOut W d n (evalLambdaVar r late reg a form s) (evalLambdaVar r' late reg a form t) := by
  have hl := hst.lookup hk
  unfold evalLambdaVar
  rw [em_bind, em_get, em_bind, em_get]
  dsimp only
  rw [← hl]
  refine Twin.run ?_ s t hst
  have hlam := evalLambda_twin (n := n) h
  split
  · exact Twin.err
  · split
    · exact Twin.pure _
    · split
      · exact hlam _ _
      · exact Twin.err

theorem evalEmit_twin {s t : ESt} (hst : Beneath W d n s t) {late : Bool} {reg : List Src} {a : Src} {ast : Node}
    (hk : outerName W.W d s a.txt = false) : TwinOut W d n (evalEmit r late reg a ast s) (evalEmit r' late reg a ast t) := by
  have hl := hst.lookup hk
  unfold evalEmit
  rw [em_bind, em_get, em_bind, em_get]
  dsimp only
  rw [← hl]
  refine Twin.run ?_ s t hst
  split
  · exact Twin.err
  · split
    · exact Twin.pure _
    · refine Twin.bind (update_twin _ _) (fun _ => ?_)
      split
      · exact Twin.bind (h _ _) (fun _ => Twin.bind (update_twin _ _) (fun _ => Twin.pure _))
      · exact Twin.pure _

theorem evalInfix_twin (e : EEnv) (hstop : ∀ c f l s, c.names.any (outerName W.W d s) = true → r (.infixClosure c f l) s = .timeout) (ast loc) :
    Twin W d n (evalInfix e r ast loc) (evalInfix e r' ast loc) := by
  unfold evalInfix
  refine Twin.bind (h _ _) (fun v => ?_)
  split
  · exact Twin.pure _
  · refine ⟨fun s t hst => ?_⟩
    rw [em_bind, em_get, em_bind, em_get]
    dsimp only
    have hx : textExt e t = textExt e s := by rw [hst.rest]; rfl
    rw [hx]
    cases hp : e.pyParse (lstrip (strOf (textExt e s) v)) with
    | none => rfl
    | some code =>
      show TwinOut W d n (r (.infixClosure code _ loc) s) (r' (.infixClosure code _ loc) t)
      cases ha : code.names.any (outerName W.W d s) with
      | true => rw [hstop _ _ _ _ ha]; trivial
      | false =>
        have hf : code.names.filter (fun k => (Scopes.lookup s.env k).isSome) = code.names.filter (fun k => (Scopes.lookup t.env k).isSome) := by
          apply List.filter_congr
          intro k hk
          rw [hst.lookup (by rw [List.any_eq_false] at ha; simpa using ha k hk)]
        rw [hf]
        exact (h _ _).run _ _ hst

end

/-- Every evaluation that does not look at the names of `W` goes as well with other values of them. -/
theorem untilIn_twin (e : EEnv) (W : Base) (d : Nat) : ∀ N n x, Twin W d n (untilIn e (looksOut W.W d) N x) (E e N x) := by
  intro N
  induction N with
  | zero => intro n x; exact ⟨fun _ _ _ => trivial⟩
  | succ N ih =>
    have hstop : ∀ c f l s, c.names.any (outerName W.W d s) = true → untilIn e (looksOut W.W d) N (.infixClosure c f l) s = .timeout := by
      intro c f l s hc
      cases N with
      | zero => rfl
      | succ N => unfold untilIn; rw [if_pos (by unfold looksOut; exact hc)]
    intro n x
    refine ⟨fun s t hst => ?_⟩
    unfold untilIn E
    split
    · trivial
    · next hx =>
      have hx : looksOut W.W d x s = false := by simpa using hx
      have h := ih
      generalize untilIn e (looksOut W.W d) N = r at h hstop ⊢
      generalize E e N = r' at h ⊢
      cases x
      case var => exact evalVar_twin e hst hx
      case lambdaVar => exact evalLambdaVar_twin h hst hx
      case emit => exact evalEmit_twin h hst hx
      all_goals (refine Twin.run ?_ s t hst; unfold evalStep; dsimp only)
      case «infix» => exact evalInfix_twin h e hstop _ _
      case apply => exact evalApply_twin h e _ _ _ _
      case lambda => exact evalLambda_twin h _ _
      case t => exact Twin.bind (evalT_twin h _ _ _ _) (fun _ => finishT_twin e _ _)
      case list => exact Twin.bind (evalList_twin h _) (fun _ => Twin.pure _)
      case letn => exact evalLet_twin h _ _ _
      case mclosure => exact evalMacro_twin h e _ _ _ _
      case infixClosure => exact evalInfixClosure_twin h e _ _ _
      case lclosure =>
        unfold evalClosure
        refine Twin.bind (Twin.inFrame _ (h _ _)) (fun p => ?_)
        obtain ⟨v, f⟩ := p
        dsimp only
        split <;> exact Twin.pure _
      case setClosure =>
        unfold evalSetClosure
        refine Twin.bind (Twin.inFrame _ (h _ _)) (fun p => ?_)
        obtain ⟨v, f⟩ := p
        dsimp only
        split <;> exact Twin.pure _
      case cond =>
        unfold evalCond
        refine Twin.bind (h _ _) (fun _ => ?_)
        split
        · exact h _ _
        · exact Twin.pure _
      case condClosure =>
        unfold evalCondClosure
        refine Twin.bind (h _ _) (fun _ => ?_)
        split
        · exact Twin.bind (h _ _) (fun _ => h _ _)
        · exact Twin.bind (h _ _) (fun _ => Twin.bind (h _ _) (fun _ => Twin.pure _))
      case set =>
        unfold evalSet
        split
        · exact Twin.bind (h _ _) (fun v => Twin.bind (setOutput_twin e v) (fun _ => Twin.pure _))
        · exact Twin.bind (evalAssign_twin h _ _) (fun _ => Twin.pure _)
      case eval =>
        unfold evalEval
        refine Twin.bind (h _ _) (fun v => ?_)
        split
        · exact Twin.pure _
        · refine Twin.get (fun s => ?_) (fun _ _ => rfl)
          refine Twin.bind (register_twin _ _ _) (fun key => Twin.bind (parse_twin _) (fun xs => ?_))
          split
          · exact Twin.pure _
          · split
            · exact Twin.pure _
            · split
              · exact h _ _
              · exact h _ _
      case text => exact h _ _
      case embed => exact Twin.bind (h _ _) (fun _ => Twin.pure _)
      case trim => exact Twin.bind (h _ _) (fun _ => Twin.pure _)
      all_goals exact Twin.pure _

end Yupp
