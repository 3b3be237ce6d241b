import Verif.Lemmas.EvalMono
/-!
# The evaluator as a fixed point

`ev e` is the evaluator with unlimited nesting. It satisfies the equation of the loop, `ev_eq`.
-/

namespace Yupp

/-- The computations `m k` become `m'`. -/
def EM.Lim (m : Nat → EM α) (m' : EM α) : Prop := ∀ s, ∃ n, ∀ k, n ≤ k → m k s = m' s

/-- The computations `m k` become `m'`. -/
def PM.Lim (m : Nat → PM α) (m' : PM α) : Prop := ∀ s, ∃ n, ∀ k, n ≤ k → m k s = m' s

namespace EM

theorem lim_refl (m : EM α) : Lim (fun _ => m) m := fun _ => ⟨0, fun _ _ => rfl⟩

theorem lim_bind {m : Nat → EM α} {m' : EM α} {f : Nat → α → EM β} {f' : α → EM β} (h : Lim m m')
    (hf : ∀ a, Lim (fun k => f k a) (f' a)) : Lim (fun k => m k >>= f k) (m' >>= f') := by
  intro s
  change ∃ n, ∀ k, n ≤ k → EM.bind (m k) (f k) s = EM.bind m' f' s
  unfold EM.bind
  obtain ⟨n, hn⟩ := h s
  cases hm : m' s with
  | ok r =>
    obtain ⟨n', hn'⟩ := hf r.1 r.2
    refine ⟨max n n', fun k hk => ?_⟩
    rw [hn k (by omega), hm]
    exact hn' k (by omega)
  | err => exact ⟨n, fun k hk => by rw [hn k hk, hm]⟩
  | timeout => exact ⟨n, fun k hk => by rw [hn k hk, hm]⟩

theorem lim_inFrame (f : Frame) {m : Nat → EM α} {m' : EM α} (h : Lim m m') :
    Lim (fun k => inFrame f (m k)) (inFrame f m') := by
  intro s
  obtain ⟨n, hn⟩ := h { s with env := f :: s.env }
  refine ⟨n, fun k hk => ?_⟩
  have := hn k hk
  change inFrame f (m k) s = inFrame f m' s
  unfold inFrame
  rw [this]

theorem lim_parse {m : Nat → PM α} {m' : PM α} (h : PM.Lim m m') : Lim (fun k => parse (m k)) (parse m') := by
  intro s
  obtain ⟨n, hn⟩ := h s.p
  refine ⟨n, fun k hk => ?_⟩
  have := hn k hk
  change parse (m k) s = parse m' s
  unfold parse
  rw [this]

end EM

/-- Goes through a rule: same branches on both sides, recursive calls by hypothesis. -/
macro "elim " h:ident : tactic => `(tactic| repeat' (first
  | exact EM.lim_refl _
  | exact ($h) _
  | assumption
  | refine EM.lim_inFrame _ ?_
  | refine EM.lim_bind ?_ (fun a => ?_)
  | split))

section
variable {r : Nat → Node → EM Node} {r' : Node → EM Node}

theorem evalT_lim (h : ∀ x, EM.Lim (fun k => r k x) (r' x)) : ∀ xs indent level tr,
    EM.Lim (fun k => evalT (r k) indent level tr xs) (evalT r' indent level tr xs) := by
  intro xs
  induction xs with
  | nil => intro indent level tr; cases level <;> exact EM.lim_refl _
  | cons x rest ih =>
    intro indent level tr
    cases level with
    | succ level => simp only [evalT]; exact ih _ _ _
    | zero =>
      simp only [evalT]
      generalize (if tr then setTrim x else x) = x
      split
      · exact ih _ _ _
      · refine EM.lim_bind (h _) (fun y => ?_)
        split
        · exact ih _ _ _
        · exact ih _ _ _
        · elim h
        · elim h
        · exact EM.lim_bind (ih _ _ _) (fun _ => EM.lim_refl _)

theorem evalList_lim (h : ∀ x, EM.Lim (fun k => r k x) (r' x)) : ∀ xs, EM.Lim (fun k => evalList (r k) xs) (evalList r' xs) := by
  intro xs
  induction xs with
  | nil => exact EM.lim_refl _
  | cons x xs ih => unfold evalList; elim h

theorem listEval1_lim (h : ∀ x, EM.Lim (fun k => r k x) (r' x)) : ∀ xs, EM.Lim (fun k => listEval1 (r k) xs) (listEval1 r' xs) := by
  intro xs
  induction xs with
  | nil => exact EM.lim_refl _
  | cons x xs ih =>
    unfold listEval1
    refine EM.lim_bind (h _) (fun y => ?_)
    split <;> first | exact ih | exact EM.lim_refl _

theorem evalLocal_lim (h : ∀ x, EM.Lim (fun k => r k x) (r' x)) : ∀ f, EM.Lim (fun k => evalLocal (r k) f) (evalLocal r' f) := by
  intro f
  induction f with
  | nil => exact EM.lim_refl _
  | cons p f ih => obtain ⟨k, v⟩ := p; unfold evalLocal; elim h

theorem evalNamed_lim (h : ∀ x, EM.Lim (fun k => r k x) (r' x)) : ∀ f, EM.Lim (fun k => evalNamed (r k) f) (evalNamed r' f) := by
  intro f
  induction f with
  | nil => exact EM.lim_refl _
  | cons p f ih => obtain ⟨k, v⟩ := p; unfold evalNamed; elim h

theorem applyEach_lim (h : ∀ x, EM.Lim (fun k => r k x) (r' x)) : ∀ fs x, EM.Lim (fun k => applyEach (r k) fs x) (applyEach r' fs x) := by
  intro fs
  induction fs with
  | nil => intro x; exact EM.lim_refl _
  | cons f fs ih => intro x; unfold applyEach; exact EM.lim_bind (h _) (fun _ => ih _)

theorem foreach_lim (h : ∀ x, EM.Lim (fun k => r k x) (r' x)) (fs : List Node) : ∀ xs, EM.Lim (fun k => foreach (r k) fs xs) (foreach r' fs xs) := by
  intro xs
  induction xs with
  | nil => exact EM.lim_refl _
  | cons x xs ih =>
    unfold foreach
    exact EM.lim_bind (applyEach_lim h _ _) (fun _ => EM.lim_bind ih (fun _ => EM.lim_refl _))

theorem bindArg_lim (h : ∀ x, EM.Lim (fun k => r k x) (r' x)) (fn frame late dflt var val args named loc) :
    EM.Lim (fun k => bindArg (r k) fn frame late dflt var val args named loc) (bindArg r' fn frame late dflt var val args named loc) := by
  unfold bindArg
  refine EM.lim_bind ?_ (fun a => ?_)
  · unfold lateVal; elim h
  · unfold applyNext; elim h

theorem applyClosure_lim (h : ∀ x, EM.Lim (fun k => r k x) (r' x)) (fn frame late dflt args named loc) :
    EM.Lim (fun k => applyClosure (r k) fn frame late dflt args named loc) (applyClosure r' fn frame late dflt args named loc) := by
  have hb := @bindArg_lim r r' h
  have hl := @listEval1_lim r r' h
  unfold applyClosure
  split
  · split
    · exact EM.lim_bind (h _) (fun _ => hb _ _ _ _ _ _ _ _ _)
    · exact EM.lim_refl _
  · split
    · exact h _
    · split
      · exact hb _ _ _ _ _ _ _ _ _
      · refine EM.lim_bind (hl _) (fun a => ?_)
        obtain ⟨v, as⟩ := a
        cases v
        · exact EM.lim_refl _
        · exact hb _ _ _ _ _ _ _ _ _
    · exact h _
    · split
      · exact EM.lim_refl _
      · exact EM.lim_bind (h _) (fun _ => hb _ _ _ _ _ _ _ _ _)

theorem applyStr_lim (e : EEnv) (h : ∀ x, EM.Lim (fun k => r k x) (r' x)) (fn args named loc) :
    EM.Lim (fun k => applyStr e (r k) fn args named loc) (applyStr e r' fn args named loc) := by
  have hn := @evalNamed_lim r r' h
  unfold applyStr
  split
  · exact EM.lim_refl _
  · refine EM.lim_bind (hn _) (fun _ => ?_)
    elim h

theorem applyTo_lim (e : EEnv) (h : ∀ x, EM.Lim (fun k => r k x) (r' x)) (fn args named loc) :
    EM.Lim (fun k => applyTo e (r k) fn args named loc) (applyTo e r' fn args named loc) := by
  have hs := @applyStr_lim r r' e h
  have hc := @applyClosure_lim r r' h
  have hf := @foreach_lim r r' h
  unfold applyTo
  split
  all_goals first
    | exact EM.lim_refl _
    | exact hs _ _ _ _
    | exact hc _ _ _ _ _ _ _
    | exact h _
    | skip
  · elim h
  · elim h
  · split
    · exact EM.lim_bind (hf _ _) (fun _ => EM.lim_refl _)
    · exact EM.lim_refl _

theorem evalApply_lim (e : EEnv) (h : ∀ x, EM.Lim (fun k => r k x) (r' x)) (fn args named loc) :
    EM.Lim (fun k => evalApply e (r k) fn args named loc) (evalApply e r' fn args named loc) := by
  unfold evalApply
  exact EM.lim_bind (h _) (fun _ => EM.lim_bind (evalList_lim h _) (fun _ => applyTo_lim e h _ _ _ _))

theorem evalBound_lim (h : ∀ x, EM.Lim (fun k => r k x) (r' x)) : ∀ bs env late dflt,
    EM.Lim (fun k => evalBound (r k) bs env late dflt) (evalBound r' bs env late dflt) := by
  intro bs
  induction bs with
  | nil => intro env late dflt; exact EM.lim_refl _
  | cons b bs ih =>
    obtain ⟨ls, a, d⟩ := b
    intro env late dflt
    unfold evalBound
    refine EM.lim_bind ?_ (fun _ => ih _ _ _)
    elim h

theorem evalLambda_lim (h : ∀ x, EM.Lim (fun k => r k x) (r' x)) (bs form) : EM.Lim (fun k => evalLambda (r k) bs form) (evalLambda r' bs form) := by
  unfold evalLambda
  exact EM.lim_bind (evalBound_lim h _ _ _ _) (fun _ => h _)

theorem evalLambdaVar_lim (h : ∀ x, EM.Lim (fun k => r k x) (r' x)) (late reg a form) :
    EM.Lim (fun k => evalLambdaVar (r k) late reg a form) (evalLambdaVar r' late reg a form) := by
  have := @evalLambda_lim r r' h
  unfold evalLambdaVar
  refine EM.lim_bind (EM.lim_refl _) (fun s => ?_)
  split
  · exact EM.lim_refl _
  · split
    · exact EM.lim_refl _
    · split
      · exact this _ _
      · exact EM.lim_refl _

theorem evalAssign_lim (h : ∀ x, EM.Lim (fun k => r k x) (r' x)) (lval ast) : EM.Lim (fun k => evalAssign (r k) lval ast) (evalAssign r' lval ast) := by
  unfold evalAssign
  elim h

theorem evalSet_lim (e : EEnv) (h : ∀ x, EM.Lim (fun k => r k x) (r' x)) (lval ast) :
    EM.Lim (fun k => evalSet e (r k) lval ast) (evalSet e r' lval ast) := by
  have := @evalAssign_lim r r' h
  unfold evalSet
  split
  · elim h
  · exact EM.lim_bind (this _ _) (fun _ => EM.lim_refl _)

theorem evalLet_lim (h : ∀ x, EM.Lim (fun k => r k x) (r' x)) (lval ast form) :
    EM.Lim (fun k => evalLet (r k) lval ast form) (evalLet r' lval ast form) := by
  have := @evalAssign_lim r r' h
  unfold evalLet
  refine EM.lim_bind (this _ _) (fun _ => ?_)
  elim h

theorem evalMacro_lim (e : EEnv) (h : ∀ x, EM.Lim (fun k => r k x) (r' x)) (text frame decl call) :
    EM.Lim (fun k => evalMacro e (r k) text frame decl call) (evalMacro e r' text frame decl call) := by
  have := @evalLocal_lim r r' h
  unfold evalMacro
  refine EM.lim_bind (this _) (fun _ => ?_)
  elim h

theorem evalEval_lim (e : EEnv) {p : Nat → Parsers} {q : Parsers} (hp : ∀ a, PM.Lim (fun k => (p k).parse a) (q.parse a)) (h : ∀ x, EM.Lim (fun k => r k x) (r' x)) (ast decl call) :
    EM.Lim (fun k => evalEval e (p k) (r k) ast decl call) (evalEval e q r' ast decl call) := by
  unfold evalEval
  refine EM.lim_bind (h _) (fun v => ?_)
  split
  · exact EM.lim_refl _
  · refine EM.lim_bind (EM.lim_refl _) (fun s => EM.lim_bind (EM.lim_refl _) (fun key => ?_))
    refine EM.lim_bind (EM.lim_parse (hp _)) (fun xs => ?_)
    elim h

theorem evalInfixClosure_lim (e : EEnv) (h : ∀ x, EM.Lim (fun k => r k x) (r' x)) (code frame loc) :
    EM.Lim (fun k => evalInfixClosure e (r k) code frame loc) (evalInfixClosure e r' code frame loc) := by
  have := @evalLocal_lim r r' h
  unfold evalInfixClosure
  refine EM.lim_bind (this _) (fun _ => ?_)
  elim h

theorem evalStep_lim (e : EEnv) {p : Nat → Parsers} {q : Parsers} (hp : ∀ a, PM.Lim (fun k => (p k).parse a) (q.parse a)) (h : ∀ x, EM.Lim (fun k => r k x) (r' x)) (n : Node) :
    EM.Lim (fun k => evalStep e (p k) (r k) n) (evalStep e q r' n) := by
  unfold evalStep
  split
  all_goals first
    | exact EM.lim_refl _
    | exact h _
    | exact EM.lim_bind (h _) (fun _ => EM.lim_refl _)
    | exact EM.lim_bind (evalT_lim h _ _ _ _) (fun _ => EM.lim_refl _)
    | exact EM.lim_bind (evalList_lim h _) (fun _ => EM.lim_refl _)
    | exact evalApply_lim e h _ _ _ _
    | exact evalLambda_lim h _ _
    | exact evalLambdaVar_lim h _ _ _ _
    | exact evalSet_lim e h _ _
    | exact evalLet_lim h _ _ _
    | exact evalMacro_lim e h _ _ _ _
    | exact evalEval_lim e hp h _ _ _
    | exact evalInfixClosure_lim e h _ _ _
    | (unfold evalClosure; elim h)
    | (unfold evalSetClosure; elim h)
    | (unfold evalCond; elim h)
    | (unfold evalCondClosure; elim h)
    | (unfold evalInfix; elim h)
    | (unfold evalEmit; elim h)

end


open Classical in
/-- The evaluator with unlimited nesting; `timeout` if it never ends. -/
noncomputable def ev (e : EEnv) (x : Node) : EM Node := fun s =>
  if h : ∃ n, E e n x s ≠ .timeout then E e h.choose x s else .timeout

open Classical in
/-- The parser with unlimited nesting (only `parse` is used). -/
noncomputable def parsers (e : PEnv) : Parsers :=
  { P e 0 with parse := fun a s => if h : ∃ n, (P e n).parse a s ≠ .timeout then (P e h.choose).parse a s else .timeout }

theorem E_stable (e : EEnv) {n k : Nat} {x : Node} {s : ESt} (h : E e n x s ≠ .timeout) (hk : n ≤ k) :
    E e k x s = E e n x s := by
  rcases E_le e hk x s with h' | h'
  · exact absurd h' h
  · exact h'.symm

theorem ev_lim (e : EEnv) (x : Node) : EM.Lim (fun k => E e k x) (ev e x) := by
  intro s
  unfold ev
  split
  · next h => exact ⟨h.choose, fun k hk => E_stable e h.choose_spec hk⟩
  · next h =>
    refine ⟨0, fun k _ => ?_⟩
    exact Classical.byContradiction fun hc => h ⟨k, hc⟩

theorem parsers_lim (e : PEnv) (a : Str) : PM.Lim (fun k => (P e k).parse a) ((parsers e).parse a) := by
  intro s
  unfold parsers
  simp only []
  split
  · next h =>
    refine ⟨h.choose, fun k hk => ?_⟩
    rcases (P_le e hk).parse a s with h' | h'
    · exact absurd h' h.choose_spec
    · exact h'.symm
  · next h =>
    refine ⟨0, fun k _ => ?_⟩
    exact Classical.byContradiction fun hc => h ⟨k, hc⟩

/-- The loop of `yueval`. -/
theorem ev_eq (e : EEnv) (x : Node) : ev e x = evalStep e (parsers e.pe) (ev e) x := by
  funext s
  obtain ⟨n, hn⟩ := ev_lim e x s
  obtain ⟨m, hm⟩ := evalStep_lim e (parsers_lim e.pe) (ev_lim e) x s
  rw [← hn (max n m + 1) (by omega), ← hm (max n m) (by omega)]
  rfl

theorem ev_ok {e : EEnv} {x : Node} {s : ESt} {r : Node × ESt} : ev e x s = .ok r ↔ ∃ n, E e n x s = .ok r := by
  obtain ⟨m, hm⟩ := ev_lim e x s
  have hm : ∀ k, m ≤ k → E e k x s = ev e x s := hm
  constructor
  · intro h; exact ⟨m, by rw [hm m (Nat.le_refl _), h]⟩
  · rintro ⟨n, hn⟩
    rw [← hm (max n m) (by omega), E_stable e (n := n) (k := max n m) (by rw [hn]; simp) (by omega), hn]

theorem ev_err {e : EEnv} {x : Node} {s : ESt} : ev e x s = .err ↔ ∃ n, E e n x s = .err := by
  obtain ⟨m, hm⟩ := ev_lim e x s
  have hm : ∀ k, m ≤ k → E e k x s = ev e x s := hm
  constructor
  · intro h; exact ⟨m, by rw [hm m (Nat.le_refl _), h]⟩
  · rintro ⟨n, hn⟩
    rw [← hm (max n m) (by omega), E_stable e (n := n) (k := max n m) (by rw [hn]; simp) (by omega), hn]

theorem parsers_ok {e : PEnv} {a : Str} {s : PSt} {r : List Node × PSt} :
    (parsers e).parse a s = .ok r ↔ ∃ n, (P e n).parse a s = .ok r := by
  obtain ⟨m, hm⟩ := parsers_lim e a s
  have hm : ∀ k, m ≤ k → (P e k).parse a s = (parsers e).parse a s := hm
  constructor
  · intro h; exact ⟨m, by rw [hm m (Nat.le_refl _), h]⟩
  · rintro ⟨n, hn⟩
    rw [← hm (max n m) (by omega)]
    rcases (P_le e (show n ≤ max n m by omega)).parse a s with h' | h'
    · rw [hn] at h'; cases h'
    · rw [← h', hn]

end Yupp
