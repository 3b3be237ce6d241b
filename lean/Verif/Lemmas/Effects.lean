import Verif.Lemmas.Beta
import Verif.Lemmas.EvalMono
import Verif.Spec.Effects
/-!
# Changes of the state that an evaluation carries out
-/

namespace Yupp
open Spec

/-- A relation of states that holds of evaluation as a whole if it holds of its elementary steps. -/
structure Law (R : ESt → ESt → Prop) : Prop where
  refl : ∀ s, R s s
  trans : ∀ {a b c}, R a b → R b c → R a c
  pop : ∀ {s s' f f' env}, R { s with env := f :: s.env } s' → s'.env = f' :: env → R s { s' with env := env }
  seen : ∀ s x, R s { s with seen := x }
  rept : ∀ s x, R s { s with rept := x }

/-- A computation changes the state according to `R`. -/
def Orderly (R : ESt → ESt → Prop) (m : EM α) : Prop := ∀ s a s', m s = .ok (a, s') → R s s'

section
variable {R : ESt → ESt → Prop} (L : Law R)
include L

theorem Orderly.pure (a : α) : Orderly R (Pure.pure a : EM α) := by
  intro s b s' h; cases h; exact L.refl _

omit L in
theorem Orderly.err : Orderly R (EM.err : EM α) := by intro s b s' h; cases h

omit L in
theorem Orderly.timeout : Orderly R (EM.timeout : EM α) := by intro s b s' h; cases h

theorem Orderly.get : Orderly R EM.get := by intro s b s' h; cases h; exact L.refl _

theorem Orderly.ofOption (o : Option α) : Orderly R (EM.ofOption o) := by
  cases o
  · exact Orderly.err
  · exact Orderly.pure L _

theorem Orderly.bind {m : EM α} {f : α → EM β} (h : Orderly R m) (hf : ∀ a, Orderly R (f a)) : Orderly R (m >>= f) := by
  intro s b s' hb
  obtain ⟨a, s1, h1, h2⟩ := em_bind_inv hb
  exact L.trans (h _ _ _ h1) (hf _ _ _ _ h2)

theorem Orderly.inFrame (f : Frame) {m : EM α} (h : Orderly R m) : Orderly R (EM.inFrame f m) := by
  intro s b s' hb
  unfold EM.inFrame at hb
  cases hm : m { s with env := f :: s.env } with
  | err => rw [hm] at hb; cases hb
  | timeout => rw [hm] at hb; cases hb
  | ok r =>
    obtain ⟨a, s1⟩ := r
    rw [hm] at hb
    cases he : s1.env with
    | nil => simp only [he] at hb; cases hb
    | cons f' env =>
      simp only [he] at hb
      cases hb
      exact L.pop (h _ _ _ hm) he

/-- Goes through a rule: the parts of a computation, recursive calls by hypothesis. -/
local macro "eord " h:ident L:ident : tactic => `(tactic| repeat' (first
  | exact Orderly.pure $L _
  | exact Orderly.err
  | exact ($h) _
  | assumption
  | exact Orderly.get $L
  | exact Orderly.ofOption $L _
  | refine Orderly.inFrame $L _ ?_
  | refine Orderly.bind $L ?_ (fun a => ?_)
  | split))

variable {r : Node → EM Node} (h : ∀ x, Orderly R (r x))
include h

theorem evalT_orderly : ∀ xs indent level tr, Orderly R (evalT r indent level tr xs) := by
  intro xs
  induction xs with
  | nil => intro indent level tr; rw [evalT.eq_def]; exact Orderly.pure L _
  | cons x rest ih =>
    intro indent level tr
    cases level with
    | succ level => simp only [evalT]; exact ih _ _ _
    | zero =>
      simp only [evalT]
      generalize (if tr then setTrim x else x) = x
      split
      · exact ih _ _ _
      · refine Orderly.bind L (h _) (fun y => ?_)
        split
        · exact ih _ _ _
        · exact ih _ _ _
        · eord h L
        · eord h L
        · exact Orderly.bind L (ih _ _ _) (fun _ => Orderly.pure L _)

theorem evalList_orderly : ∀ xs, Orderly R (evalList r xs) := by
  intro xs
  induction xs with
  | nil => exact Orderly.pure L _
  | cons x xs ih => unfold evalList; eord h L

theorem listEval1_orderly : ∀ xs, Orderly R (listEval1 r xs) := by
  intro xs
  induction xs with
  | nil => exact Orderly.pure L _
  | cons x xs ih =>
    unfold listEval1
    refine Orderly.bind L (h _) (fun y => ?_)
    split <;> first | exact ih | exact Orderly.pure L _

theorem evalLocal_orderly : ∀ f, Orderly R (evalLocal r f) := by
  intro f
  induction f with
  | nil => exact Orderly.pure L _
  | cons p f ih => obtain ⟨k, v⟩ := p; unfold evalLocal; eord h L

theorem evalNamed_orderly : ∀ f, Orderly R (evalNamed r f) := by
  intro f
  induction f with
  | nil => exact Orderly.pure L _
  | cons p f ih => obtain ⟨k, v⟩ := p; unfold evalNamed; eord h L

theorem applyEach_orderly : ∀ fs x, Orderly R (applyEach r fs x) := by
  intro fs
  induction fs with
  | nil => intro x; exact Orderly.pure L _
  | cons f fs ih => intro x; unfold applyEach; exact Orderly.bind L (h _) (fun _ => ih _)

theorem foreach_orderly (fs : List Node) : ∀ xs, Orderly R (foreach r fs xs) := by
  intro xs
  induction xs with
  | nil => exact Orderly.pure L _
  | cons x xs ih =>
    unfold foreach
    exact Orderly.bind L (applyEach_orderly L h _ _) (fun _ => Orderly.bind L ih (fun _ => Orderly.pure L _))

theorem bindArg_orderly (fn frame late dflt var val args named loc) :
    Orderly R (bindArg r fn frame late dflt var val args named loc) := by
  unfold bindArg
  refine Orderly.bind L ?_ (fun a => ?_)
  · unfold lateVal; eord h L
  · unfold applyNext; eord h L

theorem applyClosure_orderly (fn frame late dflt args named loc) :
    Orderly R (applyClosure r fn frame late dflt args named loc) := by
  have hb := bindArg_orderly L h
  have hl := listEval1_orderly L h
  unfold applyClosure
  split
  · split
    · exact Orderly.bind L (h _) (fun _ => hb _ _ _ _ _ _ _ _ _)
    · exact Orderly.err
  · split
    · exact h _
    · split
      · exact hb _ _ _ _ _ _ _ _ _
      · refine Orderly.bind L (hl _) (fun a => ?_)
        obtain ⟨v, as⟩ := a
        cases v
        · exact Orderly.pure L _
        · exact hb _ _ _ _ _ _ _ _ _
    · exact h _
    · split
      · exact Orderly.pure L _
      · exact Orderly.bind L (h _) (fun _ => hb _ _ _ _ _ _ _ _ _)

theorem applyStr_orderly (e : EEnv) (fn args named loc) : Orderly R (applyStr e r fn args named loc) := by
  have hn := evalNamed_orderly L h
  unfold applyStr
  split
  · exact Orderly.pure L _
  · refine Orderly.bind L (hn _) (fun _ => ?_)
    eord h L

omit h in
theorem applyConst_orderly (v : Node) (args : List Node) : Orderly R (applyConst v args) := by
  unfold applyConst
  split
  · exact Orderly.pure L _
  · exact Orderly.err

omit h in
theorem applyFunction_orderly (e : EEnv) (a special args loc) : Orderly R (applyFunction e a special args loc) := by
  intro s v s' hv
  unfold applyFunction at hv
  split at hv
  · split at hv
    · cases hv; exact L.seen _ _
    · cases hv
  · split at hv
    · cases hv
    · cases hv; exact L.refl _

omit h in
theorem applyPassage_orderly (e : EEnv) (xs) : Orderly R (applyPassage e xs) := by
  intro s v s' hv
  unfold applyPassage at hv
  cases hv
  exact L.rept _ _

omit h in
theorem applyBuiltin_orderly (e : EEnv) (a special args named loc) :
    Orderly R (applyBuiltin e a special args named loc) := by
  unfold applyBuiltin
  split
  · exact Orderly.err
  · split
    · unfold applySpecial
      repeat' (first
        | exact Orderly.pure L _
        | exact Orderly.err
        | exact Orderly.get L
        | exact Orderly.ofOption L _
        | exact applyPassage_orderly L e _
        | exact applyConst_orderly L _ _
        | refine Orderly.bind L ?_ (fun a => ?_)
        | split)
    · refine Orderly.bind L (Orderly.get L) (fun s => ?_)
      split
      · exact applyConst_orderly L _ _
      · exact applyFunction_orderly L e _ _ _ _

omit h in
theorem applyNumber_orderly (fn pos args named loc) : Orderly R (applyNumber fn pos args named loc) := by
  unfold applyNumber
  repeat' (first
    | exact Orderly.pure L _
    | exact Orderly.err
    | exact Orderly.ofOption L _
    | split)

theorem applyTo_orderly (e : EEnv) (fn args named loc) : Orderly R (applyTo e r fn args named loc) := by
  have hs := applyStr_orderly L h e
  have hc := applyClosure_orderly L h
  have hf := foreach_orderly L h
  unfold applyTo
  split
  all_goals first
    | exact applyBuiltin_orderly L e _ _ _ _ _
    | exact applyNumber_orderly L _ _ _ _ _
    | exact Orderly.pure L _
    | exact hs _ _ _ _
    | exact hc _ _ _ _ _ _ _
    | exact h _
    | skip
  · eord h L
  · eord h L
  · eord h L
  · split
    · exact Orderly.bind L (hf _ _) (fun _ => Orderly.pure L _)
    · exact Orderly.err

theorem evalApply_orderly (e : EEnv) (fn args named loc) : Orderly R (evalApply e r fn args named loc) := by
  unfold evalApply
  exact Orderly.bind L (h _) (fun _ => Orderly.bind L (evalList_orderly L h _) (fun _ => applyTo_orderly L h e _ _ _ _))

omit h in
theorem evalVar_orderly (e : EEnv) (late reg a) : Orderly R (evalVar e late reg a) := by
  intro s v s' hv
  unfold evalVar at hv
  repeat' (first | (cases hv; first | exact L.refl _ | done) | split at hv)

theorem evalBound_orderly : ∀ bs env late dflt, Orderly R (evalBound r bs env late dflt) := by
  intro bs
  induction bs with
  | nil => intro env late dflt; exact Orderly.pure L _
  | cons b bs ih =>
    obtain ⟨ls, a, d⟩ := b
    intro env late dflt
    unfold evalBound
    refine Orderly.bind L ?_ (fun _ => ih _ _ _)
    eord h L

theorem evalLambda_orderly (bs form) : Orderly R (evalLambda r bs form) := by
  unfold evalLambda
  exact Orderly.bind L (evalBound_orderly L h _ _ _ _) (fun _ => h _)

theorem evalLambdaVar_orderly (late reg a form) : Orderly R (evalLambdaVar r late reg a form) := by
  have := evalLambda_orderly L h
  unfold evalLambdaVar
  refine Orderly.bind L (Orderly.get L) (fun s => ?_)
  split
  · exact Orderly.err
  · split
    · exact Orderly.pure L _
    · split
      · exact this _ _
      · exact Orderly.err

theorem evalAssign_orderly (lval ast) : Orderly R (evalAssign r lval ast) := by
  unfold evalAssign
  eord h L

theorem evalLet_orderly (lval ast form) : Orderly R (evalLet r lval ast form) := by
  have := evalAssign_orderly L h
  unfold evalLet
  refine Orderly.bind L (this _ _) (fun _ => ?_)
  eord h L

theorem evalMacro_orderly (e : EEnv) (text frame decl call) : Orderly R (evalMacro e r text frame decl call) := by
  have := evalLocal_orderly L h
  unfold evalMacro
  refine Orderly.bind L (this _) (fun _ => ?_)
  eord h L

theorem evalInfixClosure_orderly (e : EEnv) (code frame loc) : Orderly R (evalInfixClosure e r code frame loc) := by
  have := evalLocal_orderly L h
  unfold evalInfixClosure
  refine Orderly.bind L (this _) (fun _ => ?_)
  eord h L

omit h in
theorem finishT_orderly (e : EEnv) (indent ys) : Orderly R (finishT e indent ys) := by
  intro s v s' hv
  unfold finishT at hv
  cases hv
  exact L.refl _

/-- All rules but three need no more than `L`. -/
theorem evalStep_orderly (e : EEnv) (p : Parsers) (n : Node)
    (hset : ∀ l ast, n = .set l ast → l.isOutput = true → ∀ v, Orderly R (setOutput e v))
    (heval : ∀ ast d c, n = .eval ast d c →
      (∀ t, Orderly R (register d c t)) ∧ (∀ key, Orderly R (EM.parse (p.parse key))))
    (hemit : ∀ late reg a ast, n = .emit late reg a ast → Orderly R (evalEmit r late reg a ast)) :
    Orderly R (evalStep e p r n) := by
  unfold evalStep
  split
  all_goals first
    | exact Orderly.pure L _
    | exact h _
    | exact Orderly.bind L (h _) (fun _ => Orderly.pure L _)
    | exact Orderly.bind L (evalT_orderly L h _ _ _ _) (fun _ => finishT_orderly L e _ _)
    | exact Orderly.bind L (evalList_orderly L h _) (fun _ => Orderly.pure L _)
    | exact evalApply_orderly L h e _ _ _ _
    | exact evalVar_orderly L e _ _ _
    | exact evalLambda_orderly L h _ _
    | exact evalLambdaVar_orderly L h _ _ _ _
    | exact evalLet_orderly L h _ _ _
    | exact evalMacro_orderly L h e _ _ _ _
    | exact evalInfixClosure_orderly L h e _ _ _
    | exact hemit _ _ _ _ rfl
    | (unfold evalClosure; eord h L)
    | (unfold evalSetClosure; eord h L)
    | (unfold evalCond; eord h L)
    | (unfold evalCondClosure; eord h L)
    | (unfold evalInfix; eord h L; done)
    | skip
  · unfold evalSet
    split
    · next hl =>
      exact Orderly.bind L (h _) (fun v => Orderly.bind L (hset _ _ rfl hl v) (fun _ => Orderly.pure L _))
    · exact Orderly.bind L (evalAssign_orderly L h _ _) (fun _ => Orderly.pure L _)
  · obtain ⟨hr, hp⟩ := heval _ _ _ rfl
    unfold evalEval
    refine Orderly.bind L (h _) (fun v => ?_)
    split
    · exact Orderly.pure L _
    · refine Orderly.bind L (Orderly.get L) (fun s => Orderly.bind L (hr _) (fun key => Orderly.bind L (hp _) (fun xs => ?_)))
      eord h L

end

theorem until_le (e : EEnv) (stop : Node → Bool) : ∀ n x, (until' e stop n x).Le (E e n x) := by
  intro n
  induction n with
  | zero => intro x; exact EM.le_refl _
  | succ n ih =>
    intro x
    unfold until' E
    split
    · exact fun s => .inl rfl
    · exact evalStep_le e (P_le e.pe (Nat.le_refl n)) ih x

theorem until_succ (e : EEnv) (stop : Node → Bool) : ∀ n x, (until' e stop n x).Le (until' e stop (n + 1) x) := by
  intro n
  induction n with
  | zero => intro x s; exact .inl rfl
  | succ n ih =>
    intro x
    unfold until'
    split
    · exact EM.le_refl _
    · exact evalStep_le e (P_le e.pe (Nat.le_succ n)) ih x

theorem until_mono (e : EEnv) (stop : Node → Bool) {n m : Nat} (h : n ≤ m) (x : Node) :
    (until' e stop n x).Le (until' e stop m x) := by
  induction h with
  | refl => exact EM.le_refl _
  | step _ ih => exact EM.le_trans ih (until_succ e stop _ x)

theorem until_never (e : EEnv) : ∀ n, until' e (fun _ => false) n = E e n := by
  intro n
  induction n with
  | zero => rfl
  | succ n ih => funext x; unfold until' E; rw [ih]; rfl

/-! ## Scopes -/

theorem SameScope.refl (W : Str → Bool) (f : Frame) : SameScope W f f := ⟨rfl, rfl, fun _ h => h⟩

theorem SameScope.trans {W : Str → Bool} {f g k : Frame} (h : SameScope W f g) (h' : SameScope W g k) : SameScope W f k :=
  ⟨h'.names.trans h.names, h'.others.trans h.others, fun a ha => h'.waiting a (h.waiting a ha)⟩

theorem SameScopes.refl (W : Str → Bool) : ∀ s, SameScopes W s s
  | [] => .nil
  | f :: fs => .cons (SameScope.refl W f) (SameScopes.refl W fs)

theorem SameScopes.trans {W : Str → Bool} {a b c : Scopes} (h : SameScopes W a b) : SameScopes W b c → SameScopes W a c := by
  intro h'
  unfold SameScopes at *
  induction h generalizing c with
  | nil => exact h'
  | cons hx hr ih =>
    cases h' with
    | cons hy hr' => exact .cons (SameScope.trans hx hy) (ih hr')

theorem get_names {f g : Frame} (h : g.map (·.1) = f.map (·.1)) (k : Str) : (Frame.get g k).isSome = (Frame.get f k).isSome := by
  have hk : ∀ f : Frame, (Frame.get f k).isSome = (f.map (·.1)).any (· == k) := by
    intro f
    induction f with
    | nil => rfl
    | cons p f ih =>
      rw [get_cons, List.map_cons, List.any_cons, ← ih]
      by_cases hp : p.1 = k
      · simp [hp]
      · have : (p.1 == k) = false := by simpa using hp
        simp [this, hp]
  rw [hk, hk, h]

theorem put_sameScope {W : Str → Bool} {f g : Frame} (h : SameScope W f g) {k : Str} (hk : W k = true) (x : Node)
    {v : Node} (hv : Frame.get f k = some v) (hb : v.isBound = false) : SameScope W f (Frame.put g k x) := by
  have h1 : ∀ g : Frame, (Frame.put g k x).map (·.1) = g.map (·.1) := by
    intro g; unfold Frame.put; rw [List.map_map]; congr 1; funext p; simp only [Function.comp]; split <;> rfl
  have h2 : ∀ g : Frame, (Frame.put g k x).filter (fun p => !W p.1) = g.filter (fun p => !W p.1) := by
    intro g
    induction g with
    | nil => rfl
    | cons p g ih =>
      unfold Frame.put at ih ⊢
      rw [List.map_cons, List.filter_cons, List.filter_cons, ih]
      by_cases hp : p.1 = k
      · simp [hp, hk]
      · have : (p.1 == k) = false := by simpa using hp
        simp [this]
  refine ⟨(h1 g).trans h.names, (h2 g).trans h.others, fun a ha => ?_⟩
  by_cases hak : a = k
  · subst hak
    rw [lookup_get, hv] at ha
    cases ha
    cases hb
  · have := h.waiting a ha
    rw [lookup_get] at this ⊢
    rw [← this]
    clear this hv ha h h1 h2
    induction g with
    | nil => rfl
    | cons p g ih =>
      unfold Frame.put at ih ⊢
      rw [List.map_cons, get_cons, get_cons, ih]
      by_cases hp : p.1 = k
      · subst hp; simp [Ne.symm hak]
      · have : (p.1 == k) = false := by simpa using hp
        simp [this]

/-- A variable that had a value gets another one. -/
theorem update_sameScopes {W : Str → Bool} {a b : Scopes} (h : SameScopes W a b) {k : Str} (hk : W k = true) (x : Node)
    {v : Node} (hv : Scopes.lookup a k = some v) (hb : v.isBound = false) :
    SameScopes W a ((Scopes.update b k x).getD b) := by
  unfold SameScopes at *
  induction h with
  | nil => cases hv
  | @cons f g fs gs hx hr ih =>
    have hn := get_names hx.names k
    unfold Scopes.lookup at hv
    unfold Scopes.update
    cases hf : Frame.get f k with
    | some w =>
      rw [hf] at hv hn
      cases hg : Frame.get g k with
      | none => rw [hg] at hn; cases hn
      | some u =>
        cases hv
        exact .cons (put_sameScope hx hk x hf hb) hr
    | none =>
      rw [hf] at hv hn
      cases hg : Frame.get g k with
      | some u => rw [hg] at hn; cases hn
      | none =>
        have := ih hv
        cases hu : Scopes.update gs k x with
        | none => rw [hu] at this; exact .cons hx this
        | some gs' => rw [hu] at this; exact .cons hx this

theorem scopes_law (W : Str → Bool) : Law (fun s s' => SameScopes W s.env s'.env) where
  refl s := SameScopes.refl W _
  trans h h' := SameScopes.trans h h'
  pop h he := by
    simp only [he] at h
    cases h with
    | cons _ hr => exact hr
  seen s x := SameScopes.refl W _
  rept s x := SameScopes.refl W _

theorem emit_scopes {W : Str → Bool} {r : Node → EM Node}
    (h : ∀ x, Orderly (fun s s' => SameScopes W s.env s'.env) (r x)) (late reg) {a : Src} (ast) (ha : W a.txt = true) :
    Orderly (fun s s' => SameScopes W s.env s'.env) (evalEmit r late reg a ast) := by
  intro s x s' hx
  unfold evalEmit at hx
  obtain ⟨s0, s1, h0, hx⟩ := em_bind_inv hx
  cases h0
  cases hl : Scopes.lookup s.env a.txt with
  | none => rw [hl] at hx; cases hx
  | some v =>
    rw [hl] at hx
    cases hb : v.isBound with
    | true => simp only [hb, if_true] at hx; cases hx; exact SameScopes.refl W _
    | false =>
      simp only [hb] at hx
      obtain ⟨u, s2, h2, hx⟩ := em_bind_inv hx
      have e2 : SameScopes W s.env s2.env := by
        cases h2
        exact update_sameScopes (SameScopes.refl W _) ha _ hl hb
      cases ht : truthy ast with
      | false => simp only [ht] at hx; cases hx; exact e2
      | true =>
        simp only [ht, if_true] at hx
        obtain ⟨y, s3, h3, hx⟩ := em_bind_inv hx
        obtain ⟨w, s4, h4, hx⟩ := em_bind_inv hx
        cases hx
        cases h4
        exact update_sameScopes (SameScopes.trans e2 (h _ _ _ _ h3)) ha _ hl hb

theorem until_scopes (e : EEnv) (stop : Node → Bool) (W : Str → Bool)
    (hs : ∀ late reg a ast, W a.txt = false → stop (.emit late reg a ast) = true) :
    ∀ n x, Orderly (fun s s' => SameScopes W s.env s'.env) (until' e stop n x) := by
  intro n
  induction n with
  | zero => intro x; exact Orderly.timeout
  | succ n ih =>
    intro x
    unfold until'
    split
    · exact Orderly.timeout
    · next hx =>
      refine evalStep_orderly (scopes_law W) ih e _ x ?_ ?_ ?_
      · intro l ast _ _ v s b s' h
        unfold setOutput at h
        cases h
        split <;> exact SameScopes.refl W _
      · intro ast d c _
        refine ⟨fun t s b s' h => by unfold register at h; cases h; exact SameScopes.refl W _, fun key s b s' h => ?_⟩
        unfold EM.parse at h
        split at h <;> cases h
        exact SameScopes.refl W _
      · rintro late reg a ast rfl
        cases ha : W a.txt with
        | false => exact absurd (hs late reg a ast ha) hx
        | true => exact emit_scopes ih late reg ast ha

/-! ## The name of the output, the tables -/

theorem emit_other {R : ESt → ESt → Prop} (L : Law R) (hu : ∀ s env, R s { s with env := env }) {r : Node → EM Node}
    (h : ∀ x, Orderly R (r x)) (late reg) (a : Src) (ast) : Orderly R (evalEmit r late reg a ast) := by
  have hup : ∀ k v, Orderly R (EM.update k v) := by
    intro k v s b s' hs
    unfold EM.update at hs
    cases hs
    exact hu _ _
  unfold evalEmit
  refine Orderly.bind L (Orderly.get L) (fun s => ?_)
  split
  · exact Orderly.err
  · split
    · exact Orderly.pure L _
    · refine Orderly.bind L (hup _ _) (fun _ => ?_)
      cases truthy ast
      · exact Orderly.pure L _
      · exact Orderly.bind L (h _) (fun _ => Orderly.bind L (hup _ _) (fun _ => Orderly.pure L _))

theorem output_law : Law (fun s s' => s'.outputFile = s.outputFile) where
  refl s := rfl
  trans h h' := h'.trans h
  pop h _ := h
  seen s x := rfl
  rept s x := rfl

theorem until_output (e : EEnv) (stop : Node → Bool) (hs : ∀ l ast, l.isOutput = true → stop (.set l ast) = true) :
    ∀ n x, Orderly (fun s s' => s'.outputFile = s.outputFile) (until' e stop n x) := by
  intro n
  induction n with
  | zero => intro x; exact Orderly.timeout
  | succ n ih =>
    intro x
    unfold until'
    split
    · exact Orderly.timeout
    · next hx =>
      refine evalStep_orderly output_law ih e _ x ?_ ?_ ?_
      · rintro l ast rfl hl
        exact absurd (hs l ast hl) hx
      · intro ast d c _
        refine ⟨fun t s b s' h => by unfold register at h; cases h; rfl, fun key s b s' h => ?_⟩
        unfold EM.parse at h
        split at h <;> cases h
        rfl
      · rintro late reg a ast rfl
        exact emit_other output_law (fun _ _ => rfl) ih late reg a ast

theorem tables_law : Law (fun s s' => s'.p = s.p) where
  refl s := rfl
  trans h h' := h'.trans h
  pop h _ := h
  seen s x := rfl
  rept s x := rfl

theorem until_tables (e : EEnv) (stop : Node → Bool) (hs : ∀ ast d c, stop (.eval ast d c) = true) :
    ∀ n x, Orderly (fun s s' => s'.p = s.p) (until' e stop n x) := by
  intro n
  induction n with
  | zero => intro x; exact Orderly.timeout
  | succ n ih =>
    intro x
    unfold until'
    split
    · exact Orderly.timeout
    · next hx =>
      refine evalStep_orderly tables_law ih e _ x ?_ ?_ ?_
      · intro l ast _ _ v s b s' h
        unfold setOutput at h
        cases h
        split <;> rfl
      · rintro ast d c rfl
        exact absurd (hs ast d c) hx
      · rintro late reg a ast rfl
        exact emit_other tables_law (fun _ _ => rfl) ih late reg a ast

end Yupp
