import Verif.Lemmas.Effects
import Verif.Spec.Counter
/-!
# Two evaluators that agree on a part of the runs
-/

namespace Yupp
open Spec

/-- A property of runs (their first and last states) that passes to the parts of a run. -/
structure Splits (R G : ESt → ESt → Prop) : Prop where
  split : ∀ {a b c}, R a b → R b c → G a c → G a b ∧ G b c
  pop : ∀ {s s' f f' env}, R { s with env := f :: s.env } s' → s'.env = f' :: env → G s { s' with env := env } → G { s with env := f :: s.env } s'

/-- The runs of `m` change the state according to `R`, and those with the property `G` are runs of `m'`. -/
def Follows (R G : ESt → ESt → Prop) (m m' : EM α) : Prop :=
  Orderly R m ∧ ∀ s a s', m s = .ok (a, s') → G s s' → m' s = .ok (a, s')

section
variable {R G : ESt → ESt → Prop}

theorem Follows.refl {m : EM α} (h : Orderly R m) : Follows R G m m := ⟨h, fun _ _ _ h _ => h⟩

variable (L : Law R) (K : Splits R G)
include L K

theorem Follows.bind {m m' : EM α} {f f' : α → EM β} (h : Follows R G m m') (hf : ∀ a, Follows R G (f a) (f' a)) :
    Follows R G (m >>= f) (m' >>= f') := by
  refine ⟨Orderly.bind L h.1 fun a => (hf a).1, fun s b s' hb hg => ?_⟩
  obtain ⟨a, s1, h1, h2⟩ := em_bind_inv hb
  obtain ⟨g1, g2⟩ := K.split (h.1 _ _ _ h1) ((hf _).1 _ _ _ h2) hg
  rw [em_bind_ok (h.2 _ _ _ h1 g1)]
  exact (hf _).2 _ _ _ h2 g2

theorem Follows.inFrame (f : Frame) {m m' : EM α} (h : Follows R G m m') : Follows R G (EM.inFrame f m) (EM.inFrame f m') := by
  refine ⟨Orderly.inFrame L f h.1, fun s b s' hb hg => ?_⟩
  unfold EM.inFrame at hb ⊢
  cases hm : m { s with env := f :: s.env } with
  | err => rw [hm] at hb; cases hb
  | timeout => rw [hm] at hb; cases hb
  | ok r =>
    obtain ⟨a, s1⟩ := r
    rw [hm] at hb
    cases he : s1.env with
    | nil => simp only [he] at hb; cases hb
    | cons f' env =>
      simp only [he] at hb
      cases hb
      rw [h.2 _ _ _ hm (K.pop (h.1 _ _ _ hm) he hg)]
      simp only [he]

/-- Goes through a rule: the parts of a computation, recursive calls by hypothesis. -/
local macro "efol " h:ident L:ident K:ident : tactic => `(tactic| repeat' (first
  | exact Follows.refl (Orderly.pure $L _)
  | exact Follows.refl Orderly.err
  | exact ($h) _
  | assumption
  | exact Follows.refl (Orderly.get $L)
  | exact Follows.refl (Orderly.ofOption $L _)
  | refine Follows.inFrame $L $K _ ?_
  | refine Follows.bind $L $K ?_ (fun a => ?_)
  | split))

variable {r r' : Node → EM Node} (h : ∀ x, Follows R G (r x) (r' x))
include h

theorem evalT_follows : ∀ xs indent level tr, Follows R G (evalT r indent level tr xs) (evalT r' indent level tr xs) := by
  intro xs
  induction xs with
  | nil => intro indent level tr; rw [evalT.eq_def, evalT.eq_def]; exact Follows.refl (Orderly.pure L _)
  | cons x rest ih =>
    intro indent level tr
    cases level with
    | succ level => simp only [evalT]; exact ih _ _ _
    | zero =>
      simp only [evalT]
      generalize (if tr then setTrim x else x) = x
      split
      · exact ih _ _ _
      · refine Follows.bind L K (h _) (fun y => ?_)
        split
        · exact ih _ _ _
        · exact ih _ _ _
        · efol h L K
        · efol h L K
        · exact Follows.bind L K (ih _ _ _) (fun _ => Follows.refl (Orderly.pure L _))

theorem evalList_follows : ∀ xs, Follows R G (evalList r xs) (evalList r' xs) := by
  intro xs
  induction xs with
  | nil => exact Follows.refl (Orderly.pure L _)
  | cons x xs ih => unfold evalList; efol h L K

theorem listEval1_follows : ∀ xs, Follows R G (listEval1 r xs) (listEval1 r' xs) := by
  intro xs
  induction xs with
  | nil => exact Follows.refl (Orderly.pure L _)
  | cons x xs ih =>
    unfold listEval1
    refine Follows.bind L K (h _) (fun y => ?_)
    split <;> first | exact ih | exact Follows.refl (Orderly.pure L _)

theorem evalLocal_follows : ∀ f, Follows R G (evalLocal r f) (evalLocal r' f) := by
  intro f
  induction f with
  | nil => exact Follows.refl (Orderly.pure L _)
  | cons p f ih => obtain ⟨k, v⟩ := p; unfold evalLocal; efol h L K

theorem evalNamed_follows : ∀ f, Follows R G (evalNamed r f) (evalNamed r' f) := by
  intro f
  induction f with
  | nil => exact Follows.refl (Orderly.pure L _)
  | cons p f ih => obtain ⟨k, v⟩ := p; unfold evalNamed; efol h L K

theorem applyEach_follows : ∀ fs x, Follows R G (applyEach r fs x) (applyEach r' fs x) := by
  intro fs
  induction fs with
  | nil => intro x; exact Follows.refl (Orderly.pure L _)
  | cons f fs ih => intro x; unfold applyEach; exact Follows.bind L K (h _) (fun _ => ih _)

theorem foreach_follows (fs : List Node) : ∀ xs, Follows R G (foreach r fs xs) (foreach r' fs xs) := by
  intro xs
  induction xs with
  | nil => exact Follows.refl (Orderly.pure L _)
  | cons x xs ih =>
    unfold foreach
    exact Follows.bind L K (applyEach_follows L K h _ _) (fun _ => Follows.bind L K ih (fun _ => Follows.refl (Orderly.pure L _)))

theorem bindArg_follows (fn frame late dflt var val args named loc) :
    Follows R G (bindArg r fn frame late dflt var val args named loc) (bindArg r' fn frame late dflt var val args named loc) := by
  unfold bindArg
  refine Follows.bind L K ?_ (fun a => ?_)
  · unfold lateVal; efol h L K
  · unfold applyNext; efol h L K

theorem applyClosure_follows (fn frame late dflt args named loc) :
    Follows R G (applyClosure r fn frame late dflt args named loc) (applyClosure r' fn frame late dflt args named loc) := by
  have hb := bindArg_follows L K h
  have hl := listEval1_follows L K h
  unfold applyClosure
  split
  · split
    · exact Follows.bind L K (h _) (fun _ => hb _ _ _ _ _ _ _ _ _)
    · exact Follows.refl Orderly.err
  · split
    · exact h _
    · split
      · exact hb _ _ _ _ _ _ _ _ _
      · refine Follows.bind L K (hl _) (fun a => ?_)
        obtain ⟨v, as⟩ := a
        cases v
        · exact Follows.refl (Orderly.pure L _)
        · exact hb _ _ _ _ _ _ _ _ _
    · exact h _
    · split
      · exact Follows.refl (Orderly.pure L _)
      · exact Follows.bind L K (h _) (fun _ => hb _ _ _ _ _ _ _ _ _)

theorem applyStr_follows (e : EEnv) (fn args named loc) : Follows R G (applyStr e r fn args named loc) (applyStr e r' fn args named loc) := by
  have hn := evalNamed_follows L K h
  unfold applyStr
  split
  · exact Follows.refl (Orderly.pure L _)
  · refine Follows.bind L K (hn _) (fun _ => ?_)
    efol h L K

theorem applyTo_follows (e : EEnv) (fn args named loc) : Follows R G (applyTo e r fn args named loc) (applyTo e r' fn args named loc) := by
  have hs := applyStr_follows L K h e
  have hc := applyClosure_follows L K h
  have hf := foreach_follows L K h
  unfold applyTo
  split
  all_goals first
    | exact Follows.refl (applyBuiltin_orderly L e _ _ _ _ _)
    | exact Follows.refl (applyNumber_orderly L _ _ _ _ _)
    | exact Follows.refl (Orderly.pure L _)
    | exact hs _ _ _ _
    | exact hc _ _ _ _ _ _ _
    | exact h _
    | skip
  · efol h L K
  · efol h L K
  · efol h L K
  · split
    · exact Follows.bind L K (hf _ _) (fun _ => Follows.refl (Orderly.pure L _))
    · exact Follows.refl Orderly.err

theorem evalApply_follows (e : EEnv) (fn args named loc) : Follows R G (evalApply e r fn args named loc) (evalApply e r' fn args named loc) := by
  unfold evalApply
  exact Follows.bind L K (h _) (fun _ => Follows.bind L K (evalList_follows L K h _) (fun _ => applyTo_follows L K h e _ _ _ _))

theorem evalBound_follows : ∀ bs env late dflt, Follows R G (evalBound r bs env late dflt) (evalBound r' bs env late dflt) := by
  intro bs
  induction bs with
  | nil => intro env late dflt; exact Follows.refl (Orderly.pure L _)
  | cons b bs ih =>
    obtain ⟨ls, a, d⟩ := b
    intro env late dflt
    unfold evalBound
    refine Follows.bind L K ?_ (fun _ => ih _ _ _)
    efol h L K

theorem evalLambda_follows (bs form) : Follows R G (evalLambda r bs form) (evalLambda r' bs form) := by
  unfold evalLambda
  exact Follows.bind L K (evalBound_follows L K h _ _ _ _) (fun _ => h _)

theorem evalLambdaVar_follows (late reg a form) : Follows R G (evalLambdaVar r late reg a form) (evalLambdaVar r' late reg a form) := by
  have := evalLambda_follows L K h
  unfold evalLambdaVar
  refine Follows.bind L K (Follows.refl (Orderly.get L)) (fun s => ?_)
  split
  · exact Follows.refl Orderly.err
  · split
    · exact Follows.refl (Orderly.pure L _)
    · split
      · exact this _ _
      · exact Follows.refl Orderly.err

theorem evalAssign_follows (lval ast) : Follows R G (evalAssign r lval ast) (evalAssign r' lval ast) := by
  unfold evalAssign
  efol h L K

theorem evalLet_follows (lval ast form) : Follows R G (evalLet r lval ast form) (evalLet r' lval ast form) := by
  have := evalAssign_follows L K h
  unfold evalLet
  refine Follows.bind L K (this _ _) (fun _ => ?_)
  efol h L K

theorem evalMacro_follows (e : EEnv) (text frame decl call) : Follows R G (evalMacro e r text frame decl call) (evalMacro e r' text frame decl call) := by
  have := evalLocal_follows L K h
  unfold evalMacro
  refine Follows.bind L K (this _) (fun _ => ?_)
  efol h L K

theorem evalInfixClosure_follows (e : EEnv) (code frame loc) : Follows R G (evalInfixClosure e r code frame loc) (evalInfixClosure e r' code frame loc) := by
  have := evalLocal_follows L K h
  unfold evalInfixClosure
  refine Follows.bind L K (this _) (fun _ => ?_)
  efol h L K

/-- All rules but three need no more than `L`. -/
theorem evalStep_follows (e : EEnv) (p : Parsers) (n : Node)
    (hset : ∀ l ast, n = .set l ast → l.isOutput = true → ∀ v, Orderly R (setOutput e v))
    (heval : ∀ ast d c, n = .eval ast d c →
      (∀ t, Orderly R (register d c t)) ∧ (∀ key, Orderly R (EM.parse (p.parse key))))
    (hemit : ∀ late reg a ast, n = .emit late reg a ast → Follows R G (evalEmit r late reg a ast) (evalEmit r' late reg a ast)) :
    Follows R G (evalStep e p r n) (evalStep e p r' n) := by
  unfold evalStep
  split
  all_goals first
    | exact Follows.refl (Orderly.pure L _)
    | exact h _
    | exact Follows.bind L K (h _) (fun _ => Follows.refl (Orderly.pure L _))
    | exact Follows.bind L K (evalT_follows L K h _ _ _ _) (fun _ => Follows.refl (finishT_orderly L e _ _))
    | exact Follows.bind L K (evalList_follows L K h _) (fun _ => Follows.refl (Orderly.pure L _))
    | exact evalApply_follows L K h e _ _ _ _
    | exact Follows.refl (evalVar_orderly L e _ _ _)
    | exact evalLambda_follows L K h _ _
    | exact evalLambdaVar_follows L K h _ _ _ _
    | exact evalLet_follows L K h _ _ _
    | exact evalMacro_follows L K h e _ _ _ _
    | exact evalInfixClosure_follows L K h e _ _ _
    | exact hemit _ _ _ _ rfl
    | (unfold evalClosure; efol h L K)
    | (unfold evalSetClosure; efol h L K)
    | (unfold evalCond; efol h L K)
    | (unfold evalCondClosure; efol h L K)
    | (unfold evalInfix; efol h L K; done)
    | skip
  · unfold evalSet
    split
    · next hl =>
      exact Follows.bind L K (h _) (fun v => Follows.bind L K (Follows.refl (hset _ _ rfl hl v)) (fun _ => Follows.refl (Orderly.pure L _)))
    · exact Follows.bind L K (evalAssign_follows L K h _ _) (fun _ => Follows.refl (Orderly.pure L _))
  · obtain ⟨hr, hp⟩ := heval _ _ _ rfl
    unfold evalEval
    refine Follows.bind L K (h _) (fun v => ?_)
    split
    · exact Follows.refl (Orderly.pure L _)
    · refine Follows.bind L K (Follows.refl (Orderly.get L)) (fun s => Follows.bind L K (Follows.refl (hr _)) (fun key => Follows.bind L K (Follows.refl (hp _)) (fun xs => ?_)))
      efol h L K

end

end Yupp
