import Verif.Model.Eval
import Verif.Lemmas.ParseMono
/-!
# More nesting does not change the outcome of an evaluation
-/

namespace Yupp

/-- `m'` agrees with `m` unless `m` gives up. -/
def EM.Le (m m' : EM α) : Prop := ∀ s, m s = .timeout ∨ m s = m' s

namespace EM

theorem le_refl (m : EM α) : Le m m := fun _ => .inr rfl

theorem le_trans {m m' m'' : EM α} (h : Le m m') (h' : Le m' m'') : Le m m'' := by
  intro s
  rcases h s with h | h
  · exact .inl h
  · rw [h]; exact h' s

theorem le_bind {m m' : EM α} {f f' : α → EM β} (h : Le m m') (hf : ∀ a, Le (f a) (f' a)) :
    Le (m >>= f) (m' >>= f') := by
  intro s
  change EM.bind m f s = .timeout ∨ EM.bind m f s = EM.bind m' f' s
  unfold EM.bind
  rcases h s with h | h
  · rw [h]; exact .inl rfl
  · rw [← h]
    cases m s with
    | ok r => exact hf r.1 r.2
    | err => exact .inr rfl
    | timeout => exact .inl rfl

theorem le_inFrame (f : Frame) {m m' : EM α} (h : Le m m') : Le (inFrame f m) (inFrame f m') := by
  intro s
  unfold inFrame
  rcases h { s with env := f :: s.env } with h | h
  · rw [h]; exact .inl rfl
  · rw [← h]; exact .inr rfl

theorem le_parse {m m' : PM α} (h : m.Le m') : Le (parse m) (parse m') := by
  intro s
  unfold parse
  rcases h s.p with h | h
  · rw [h]; exact .inl rfl
  · rw [← h]; exact .inr rfl

end EM

/-- Goes through a rule: same branches on both sides, recursive calls by hypothesis. -/
macro "emono " h:ident : tactic => `(tactic| repeat' (first
  | exact EM.le_refl _
  | exact ($h) _
  | assumption
  | refine EM.le_inFrame _ ?_
  | refine EM.le_bind ?_ (fun a => ?_)
  | split))

section
variable {r r' : Node → EM Node}

theorem evalT_le (h : ∀ x, (r x).Le (r' x)) : ∀ xs indent level tr,
    (evalT r indent level tr xs).Le (evalT r' indent level tr xs) := by
  intro xs
  induction xs with
  | nil => intro indent level tr; rw [evalT.eq_def, evalT.eq_def]; exact EM.le_refl _
  | cons x rest ih =>
    intro indent level tr
    cases level with
    | succ level => simp only [evalT]; exact ih _ _ _
    | zero =>
      simp only [evalT]
      generalize (if tr then setTrim x else x) = x
      split
      · exact ih _ _ _
      · refine EM.le_bind (h _) (fun y => ?_)
        split
        · exact ih _ _ _
        · exact ih _ _ _
        · emono h
        · emono h
        · exact EM.le_bind (ih _ _ _) (fun _ => EM.le_refl _)

theorem evalList_le (h : ∀ x, (r x).Le (r' x)) : ∀ xs, (evalList r xs).Le (evalList r' xs) := by
  intro xs
  induction xs with
  | nil => exact EM.le_refl _
  | cons x xs ih => unfold evalList; emono h

theorem listEval1_le (h : ∀ x, (r x).Le (r' x)) : ∀ xs, (listEval1 r xs).Le (listEval1 r' xs) := by
  intro xs
  induction xs with
  | nil => exact EM.le_refl _
  | cons x xs ih =>
    unfold listEval1
    refine EM.le_bind (h _) (fun y => ?_)
    split <;> first | exact ih | exact EM.le_refl _

theorem evalLocal_le (h : ∀ x, (r x).Le (r' x)) : ∀ f, (evalLocal r f).Le (evalLocal r' f) := by
  intro f
  induction f with
  | nil => exact EM.le_refl _
  | cons p f ih => obtain ⟨k, v⟩ := p; unfold evalLocal; emono h

theorem evalNamed_le (h : ∀ x, (r x).Le (r' x)) : ∀ f, (evalNamed r f).Le (evalNamed r' f) := by
  intro f
  induction f with
  | nil => exact EM.le_refl _
  | cons p f ih => obtain ⟨k, v⟩ := p; unfold evalNamed; emono h

theorem applyEach_le (h : ∀ x, (r x).Le (r' x)) : ∀ fs x, (applyEach r fs x).Le (applyEach r' fs x) := by
  intro fs
  induction fs with
  | nil => intro x; exact EM.le_refl _
  | cons f fs ih => intro x; unfold applyEach; exact EM.le_bind (h _) (fun _ => ih _)

theorem foreach_le (h : ∀ x, (r x).Le (r' x)) (fs : List Node) : ∀ xs, (foreach r fs xs).Le (foreach r' fs xs) := by
  intro xs
  induction xs with
  | nil => exact EM.le_refl _
  | cons x xs ih =>
    unfold foreach
    exact EM.le_bind (applyEach_le h _ _) (fun _ => EM.le_bind ih (fun _ => EM.le_refl _))

theorem bindArg_le (h : ∀ x, (r x).Le (r' x)) (fn frame late dflt var val args named loc) :
    (bindArg r fn frame late dflt var val args named loc).Le (bindArg r' fn frame late dflt var val args named loc) := by
  unfold bindArg
  refine EM.le_bind ?_ (fun a => ?_)
  · unfold lateVal; emono h
  · unfold applyNext; emono h

theorem applyClosure_le (h : ∀ x, (r x).Le (r' x)) (fn frame late dflt args named loc) :
    (applyClosure r fn frame late dflt args named loc).Le (applyClosure r' fn frame late dflt args named loc) := by
  have hb := @bindArg_le r r' h
  have hl := @listEval1_le r r' h
  unfold applyClosure
  split
  · split
    · exact EM.le_bind (h _) (fun _ => hb _ _ _ _ _ _ _ _ _)
    · exact EM.le_refl _
  · split
    · exact h _
    · split
      · exact hb _ _ _ _ _ _ _ _ _
      · refine EM.le_bind (hl _) (fun a => ?_)
        obtain ⟨v, as⟩ := a
        cases v
        · exact EM.le_refl _
        · exact hb _ _ _ _ _ _ _ _ _
    · exact h _
    · split
      · exact EM.le_refl _
      · exact EM.le_bind (h _) (fun _ => hb _ _ _ _ _ _ _ _ _)

theorem applyStr_le (e : EEnv) (h : ∀ x, (r x).Le (r' x)) (fn args named loc) :
    (applyStr e r fn args named loc).Le (applyStr e r' fn args named loc) := by
  have hn := @evalNamed_le r r' h
  unfold applyStr
  split
  · exact EM.le_refl _
  · refine EM.le_bind (hn _) (fun _ => ?_)
    emono h

theorem applyTo_le (e : EEnv) (h : ∀ x, (r x).Le (r' x)) (fn args named loc) :
    (applyTo e r fn args named loc).Le (applyTo e r' fn args named loc) := by
  have hs := @applyStr_le r r' e h
  have hc := @applyClosure_le r r' h
  have hf := @foreach_le r r' h
  unfold applyTo
  split
  all_goals first
    | exact EM.le_refl _
    | exact hs _ _ _ _
    | exact hc _ _ _ _ _ _ _
    | exact h _
    | skip
  · emono h
  · emono h
  · split
    · exact EM.le_bind (hf _ _) (fun _ => EM.le_refl _)
    · exact EM.le_refl _

theorem evalApply_le (e : EEnv) (h : ∀ x, (r x).Le (r' x)) (fn args named loc) :
    (evalApply e r fn args named loc).Le (evalApply e r' fn args named loc) := by
  unfold evalApply
  exact EM.le_bind (h _) (fun _ => EM.le_bind (evalList_le h _) (fun _ => applyTo_le e h _ _ _ _))

theorem evalBound_le (h : ∀ x, (r x).Le (r' x)) : ∀ bs env late dflt,
    (evalBound r bs env late dflt).Le (evalBound r' bs env late dflt) := by
  intro bs
  induction bs with
  | nil => intro env late dflt; exact EM.le_refl _
  | cons b bs ih =>
    obtain ⟨ls, a, d⟩ := b
    intro env late dflt
    unfold evalBound
    refine EM.le_bind ?_ (fun _ => ih _ _ _)
    emono h

theorem evalLambda_le (h : ∀ x, (r x).Le (r' x)) (bs form) : (evalLambda r bs form).Le (evalLambda r' bs form) := by
  unfold evalLambda
  exact EM.le_bind (evalBound_le h _ _ _ _) (fun _ => h _)

theorem evalLambdaVar_le (h : ∀ x, (r x).Le (r' x)) (late reg a form) :
    (evalLambdaVar r late reg a form).Le (evalLambdaVar r' late reg a form) := by
  have := @evalLambda_le r r' h
  unfold evalLambdaVar
  refine EM.le_bind (EM.le_refl _) (fun s => ?_)
  split
  · exact EM.le_refl _
  · split
    · exact EM.le_refl _
    · split
      · exact this _ _
      · exact EM.le_refl _

theorem evalAssign_le (h : ∀ x, (r x).Le (r' x)) (lval ast) : (evalAssign r lval ast).Le (evalAssign r' lval ast) := by
  unfold evalAssign
  emono h

theorem evalSet_le (e : EEnv) (h : ∀ x, (r x).Le (r' x)) (lval ast) :
    (evalSet e r lval ast).Le (evalSet e r' lval ast) := by
  have := @evalAssign_le r r' h
  unfold evalSet
  split
  · emono h
  · exact EM.le_bind (this _ _) (fun _ => EM.le_refl _)

theorem evalLet_le (h : ∀ x, (r x).Le (r' x)) (lval ast form) :
    (evalLet r lval ast form).Le (evalLet r' lval ast form) := by
  have := @evalAssign_le r r' h
  unfold evalLet
  refine EM.le_bind (this _ _) (fun _ => ?_)
  emono h

theorem evalMacro_le (e : EEnv) (h : ∀ x, (r x).Le (r' x)) (text frame decl call) :
    (evalMacro e r text frame decl call).Le (evalMacro e r' text frame decl call) := by
  have := @evalLocal_le r r' h
  unfold evalMacro
  refine EM.le_bind (this _) (fun _ => ?_)
  emono h

theorem evalEval_le (e : EEnv) {p q : Parsers} (hp : p.Le q) (h : ∀ x, (r x).Le (r' x)) (ast decl call) :
    (evalEval e p r ast decl call).Le (evalEval e q r' ast decl call) := by
  unfold evalEval
  refine EM.le_bind (h _) (fun v => ?_)
  split
  · exact EM.le_refl _
  · refine EM.le_bind (EM.le_refl _) (fun s => EM.le_bind (EM.le_refl _) (fun key => ?_))
    refine EM.le_bind (EM.le_parse (hp.parse _)) (fun xs => ?_)
    emono h

theorem evalInfixClosure_le (e : EEnv) (h : ∀ x, (r x).Le (r' x)) (code frame loc) :
    (evalInfixClosure e r code frame loc).Le (evalInfixClosure e r' code frame loc) := by
  have := @evalLocal_le r r' h
  unfold evalInfixClosure
  refine EM.le_bind (this _) (fun _ => ?_)
  emono h

theorem evalStep_le (e : EEnv) {p q : Parsers} (hp : p.Le q) (h : ∀ x, (r x).Le (r' x)) (n : Node) :
    (evalStep e p r n).Le (evalStep e q r' n) := by
  unfold evalStep
  split
  all_goals first
    | exact EM.le_refl _
    | exact h _
    | exact EM.le_bind (h _) (fun _ => EM.le_refl _)
    | exact EM.le_bind (evalT_le h _ _ _ _) (fun _ => EM.le_refl _)
    | exact EM.le_bind (evalList_le h _) (fun _ => EM.le_refl _)
    | exact evalApply_le e h _ _ _ _
    | exact evalLambda_le h _ _
    | exact evalLambdaVar_le h _ _ _ _
    | exact evalSet_le e h _ _
    | exact evalLet_le h _ _ _
    | exact evalMacro_le e h _ _ _ _
    | exact evalEval_le e hp h _ _ _
    | exact evalInfixClosure_le e h _ _ _
    | (unfold evalClosure; emono h)
    | (unfold evalSetClosure; emono h)
    | (unfold evalCond; emono h)
    | (unfold evalCondClosure; emono h)
    | (unfold evalInfix; emono h)
    | (unfold evalEmit; emono h)

end

theorem E_succ_le (e : EEnv) : ∀ n x, (E e n x).Le (E e (n + 1) x) := by
  intro n
  induction n with
  | zero => intro x s; exact .inl rfl
  | succ n ih => exact evalStep_le e (P_le e.pe (Nat.le_succ n)) ih

theorem E_le (e : EEnv) {n m : Nat} (h : n ≤ m) (x : Node) : (E e n x).Le (E e m x) := by
  induction h with
  | refl => exact EM.le_refl _
  | step _ ih => exact EM.le_trans ih (E_succ_le e _ x)

end Yupp
