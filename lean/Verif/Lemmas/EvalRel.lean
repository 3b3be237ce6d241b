import Verif.Lemmas.Eval
/-!
# What every evaluation preserves

A relation between the states before and after that is stable under the elementary steps holds between the
states before and after every evaluation.
-/

namespace Yupp

/-- The state after is related to the state before. -/
def EM.Rel (R : ESt → ESt → Prop) (m : EM α) : Prop := ∀ s a s', m s = .ok (a, s') → R s s'

/-- The elementary steps. -/
structure Stable (e : EEnv) (R : ESt → ESt → Prop) : Prop where
  refl : ∀ s, R s s
  trans : ∀ s t u, R s t → R t u → R s u
  frame : ∀ f s s1 f' env', R { s with env := f :: s.env } s1 → s1.env = f' :: env' → R s { s1 with env := env' }
  upd : ∀ s a v env', Scopes.update s.env a v = some env' → R s { s with env := env' }
  other : ∀ s o r q, R s { s with outputFile := o, rept := r, seen := q }
  reg : ∀ decl call text s key s', register decl call text s = .ok (key, s') → R s s'
  parse : ∀ n a s xs t, (P e.pe n).parse a s.p = .ok (xs, t) → R s { s with p := t }

namespace Stable
variable {e : EEnv} {R : ESt → ESt → Prop}

theorem pure (hR : Stable e R) (a : α) : EM.Rel R (Pure.pure a : EM α) := by
  intro s b s' h; cases h; exact hR.refl _

theorem err (_ : Stable e R) : EM.Rel R (EM.err : EM α) := by intro s b s' h; cases h

theorem get (hR : Stable e R) : EM.Rel R EM.get := by intro s b s' h; cases h; exact hR.refl _

theorem ofOption (hR : Stable e R) (o : Option α) : EM.Rel R (EM.ofOption o) := by
  intro s b s' h; cases o <;> cases h; exact hR.refl _

theorem bind (hR : Stable e R) {m : EM α} {f : α → EM β} (h : EM.Rel R m) (hf : ∀ a, EM.Rel R (f a)) :
    EM.Rel R (m >>= f) := by
  intro s b s' hs
  obtain ⟨a, s1, h1, h2⟩ := em_bind_inv hs
  exact hR.trans _ _ _ (h _ _ _ h1) (hf _ _ _ _ h2)

theorem inFrame (hR : Stable e R) (f : Frame) {m : EM α} (h : EM.Rel R m) : EM.Rel R (EM.inFrame f m) := by
  intro s b s' hs
  unfold EM.inFrame at hs
  split at hs
  · next a s1 h1 =>
    split at hs
    · next f' env he => cases hs; exact hR.frame f _ _ _ _ (h _ _ _ h1) he
    · cases hs
  · cases hs
  · cases hs

theorem update (hR : Stable e R) (a : Str) (v : Node) : EM.Rel R (EM.update a v) := by
  intro s b s' hs
  unfold EM.update at hs
  cases hs
  cases hu : Scopes.update s.env a v with
  | none => exact hR.refl _
  | some env => exact hR.upd _ _ _ _ hu

theorem finishT (hR : Stable e R) (indent : Indent) (ys : List Node) : EM.Rel R (finishT e indent ys) := by
  intro s b s' hs; unfold Yupp.finishT at hs; cases hs; exact hR.refl _

theorem evalVar (hR : Stable e R) (late reg a) : EM.Rel R (evalVar e late reg a) := by
  intro s b s' hs
  unfold Yupp.evalVar at hs
  repeat' split at hs
  all_goals first | (cases hs; done) | (cases hs; exact hR.refl _)

theorem applyFunction (hR : Stable e R) (a sp args loc) : EM.Rel R (applyFunction e a sp args loc) := by
  intro s b s' hs
  unfold Yupp.applyFunction at hs
  repeat' split at hs
  all_goals first | (cases hs; done) | (cases hs; exact hR.refl _) | (cases hs; exact hR.other s s.outputFile s.rept _)

theorem applyPassage (hR : Stable e R) (xs) : EM.Rel R (applyPassage e xs) := by
  intro s b s' hs
  unfold Yupp.applyPassage at hs
  cases hs
  exact hR.other s s.outputFile _ s.seen

theorem applyConst (hR : Stable e R) (v args) : EM.Rel R (applyConst v args) := by
  unfold Yupp.applyConst
  split
  · exact hR.pure _
  · exact hR.err

theorem applySpecial (hR : Stable e R) (a args loc) : EM.Rel R (applySpecial e a args loc) := by
  unfold Yupp.applySpecial
  simp only []
  repeat' split
  all_goals first
    | exact hR.err | exact hR.pure _ | exact hR.applyPassage _ | exact hR.applyConst _ _
    | exact hR.bind hR.get (fun _ => hR.ofOption _)

theorem applyBuiltin (hR : Stable e R) (a sp args named loc) : EM.Rel R (applyBuiltin e a sp args named loc) := by
  unfold Yupp.applyBuiltin
  split
  · exact hR.err
  · split
    · exact hR.applySpecial _ _ _
    · refine hR.bind hR.get (fun s => ?_)
      split
      · exact hR.applyConst _ _
      · exact hR.applyFunction _ _ _ _

theorem applyNumber (hR : Stable e R) (fn pos args named loc) : EM.Rel R (applyNumber fn pos args named loc) := by
  unfold Yupp.applyNumber
  repeat' split
  all_goals first | exact hR.err | exact hR.pure _ | exact hR.ofOption _

theorem setOutput (hR : Stable e R) (v : Node) : EM.Rel R (setOutput e v) := by
  intro s b s' hs
  unfold Yupp.setOutput at hs
  cases hs
  split
  · exact hR.other s _ s.rept s.seen
  · exact hR.refl _

theorem register (hR : Stable e R) (decl call text) : EM.Rel R (register decl call text) :=
  fun s _ _ hs => hR.reg _ _ _ s _ _ hs

end Stable

/-- Goes through a rule. -/
macro "erel " hR:ident h:ident : tactic => `(tactic| repeat' (first
  | exact ($hR).pure _
  | exact ($hR).err
  | exact ($hR).get
  | exact ($hR).ofOption _
  | exact ($hR).update _ _
  | exact ($hR).setOutput _
  | exact ($h) _
  | assumption
  | refine ($hR).inFrame _ ?_
  | refine ($hR).bind ?_ (fun a => ?_)
  | split))

/-- Steps that call nothing. -/
macro "eleaf " hR:ident : tactic => `(tactic| first | exact ($hR).pure _ | exact ($hR).err | exact ($hR).get)

theorem parse_rel {R : ESt → ESt → Prop} {m : PM α} (hp : ∀ s xs t, m s.p = .ok (xs, t) → R s { s with p := t })
    {s s' : ESt} {a : α} (h : EM.parse m s = .ok (a, s')) : R s s' := by
  unfold EM.parse at h
  split at h
  · next x p hm => cases h; exact hp _ _ _ hm
  · cases h
  · cases h

section
variable {R : ESt → ESt → Prop} {r : Node → EM Node} {e : EEnv}

theorem evalT_rel (hR : Stable e R) (h : ∀ x, EM.Rel R (r x)) : ∀ xs indent level tr,
    EM.Rel R (evalT r indent level tr xs) := by
  intro xs
  induction xs with
  | nil => intro indent level tr; cases level <;> exact hR.pure _
  | cons x rest ih =>
    intro indent level tr
    cases level with
    | succ level => simp only [evalT]; exact ih _ _ _
    | zero =>
      simp only [evalT]
      generalize (if tr then setTrim x else x) = x
      split
      · exact ih _ _ _
      · refine hR.bind (h _) (fun y => ?_)
        split
        · exact ih _ _ _
        · exact ih _ _ _
        · erel hR h
        · erel hR h
        · exact hR.bind (ih _ _ _) (fun _ => hR.pure _)

theorem evalList_rel (hR : Stable e R) (h : ∀ x, EM.Rel R (r x)) : ∀ xs, EM.Rel R (evalList r xs) := by
  intro xs
  induction xs with
  | nil => exact hR.pure _
  | cons x xs ih => unfold evalList; erel hR h

theorem listEval1_rel (hR : Stable e R) (h : ∀ x, EM.Rel R (r x)) : ∀ xs, EM.Rel R (listEval1 r xs) := by
  intro xs
  induction xs with
  | nil => exact hR.pure _
  | cons x xs ih =>
    unfold listEval1
    refine hR.bind (h _) (fun y => ?_)
    split <;> first | exact ih | exact hR.pure _

theorem evalLocal_rel (hR : Stable e R) (h : ∀ x, EM.Rel R (r x)) : ∀ f, EM.Rel R (evalLocal r f) := by
  intro f
  induction f with
  | nil => exact hR.pure _
  | cons p f ih => obtain ⟨k, v⟩ := p; unfold evalLocal; erel hR h

theorem evalNamed_rel (hR : Stable e R) (h : ∀ x, EM.Rel R (r x)) : ∀ f, EM.Rel R (evalNamed r f) := by
  intro f
  induction f with
  | nil => exact hR.pure _
  | cons p f ih => obtain ⟨k, v⟩ := p; unfold evalNamed; erel hR h

theorem applyEach_rel (hR : Stable e R) (h : ∀ x, EM.Rel R (r x)) : ∀ fs x, EM.Rel R (applyEach r fs x) := by
  intro fs
  induction fs with
  | nil => intro x; exact hR.pure _
  | cons f fs ih => intro x; unfold applyEach; exact hR.bind (h _) (fun _ => ih _)

theorem foreach_rel (hR : Stable e R) (h : ∀ x, EM.Rel R (r x)) (fs : List Node) : ∀ xs, EM.Rel R (foreach r fs xs) := by
  intro xs
  induction xs with
  | nil => exact hR.pure _
  | cons x xs ih =>
    unfold foreach
    exact hR.bind (applyEach_rel hR h _ _) (fun _ => hR.bind ih (fun _ => hR.pure _))

theorem bindArg_rel (hR : Stable e R) (h : ∀ x, EM.Rel R (r x)) (fn frame late dflt var val args named loc) :
    EM.Rel R (bindArg r fn frame late dflt var val args named loc) := by
  unfold bindArg
  refine hR.bind ?_ (fun a => ?_)
  · unfold lateVal; erel hR h
  · unfold applyNext; erel hR h

theorem applyClosure_rel (hR : Stable e R) (h : ∀ x, EM.Rel R (r x)) (fn frame late dflt args named loc) :
    EM.Rel R (applyClosure r fn frame late dflt args named loc) := by
  have hb := @bindArg_rel R r e hR h
  have hl := @listEval1_rel R r e hR h
  unfold applyClosure
  split
  · split
    · exact hR.bind (h _) (fun _ => hb _ _ _ _ _ _ _ _ _)
    · eleaf hR
  · split
    · exact h _
    · split
      · exact hb _ _ _ _ _ _ _ _ _
      · refine hR.bind (hl _) (fun a => ?_)
        obtain ⟨v, as⟩ := a
        cases v
        · eleaf hR
        · exact hb _ _ _ _ _ _ _ _ _
    · exact h _
    · split
      · eleaf hR
      · exact hR.bind (h _) (fun _ => hb _ _ _ _ _ _ _ _ _)

theorem applyStr_rel (hR : Stable e R) (h : ∀ x, EM.Rel R (r x)) (fn args named loc) :
    EM.Rel R (applyStr e r fn args named loc) := by
  have hn := @evalNamed_rel R r e hR h
  unfold applyStr
  split
  · eleaf hR
  · refine hR.bind (hn _) (fun _ => ?_)
    erel hR h

theorem applyTo_rel (hR : Stable e R) (h : ∀ x, EM.Rel R (r x)) (fn args named loc) :
    EM.Rel R (applyTo e r fn args named loc) := by
  have hs := @applyStr_rel R r e hR h
  have hc := @applyClosure_rel R r e hR h
  have hf := @foreach_rel R r e hR h
  unfold applyTo
  split
  all_goals first
    | exact hR.pure _
    | exact hR.err
    | exact hR.applyBuiltin _ _ _ _ _
    | exact hR.applyNumber _ _ _ _ _
    | exact hs _ _ _ _
    | exact hc _ _ _ _ _ _ _
    | exact h _
    | skip
  · erel hR h
  · erel hR h
  · erel hR h
  · split
    · exact hR.bind (hf _ _) (fun _ => hR.pure _)
    · eleaf hR

theorem evalApply_rel (hR : Stable e R) (h : ∀ x, EM.Rel R (r x)) (fn args named loc) :
    EM.Rel R (evalApply e r fn args named loc) := by
  unfold evalApply
  exact hR.bind (h _) (fun _ => hR.bind (evalList_rel hR h _) (fun _ => applyTo_rel hR h _ _ _ _))

theorem evalBound_rel (hR : Stable e R) (h : ∀ x, EM.Rel R (r x)) : ∀ bs env late dflt,
    EM.Rel R (evalBound r bs env late dflt) := by
  intro bs
  induction bs with
  | nil => intro env late dflt; exact hR.pure _
  | cons b bs ih =>
    obtain ⟨ls, a, d⟩ := b
    intro env late dflt
    unfold evalBound
    refine hR.bind ?_ (fun _ => ih _ _ _)
    erel hR h

theorem evalLambda_rel (hR : Stable e R) (h : ∀ x, EM.Rel R (r x)) (bs form) : EM.Rel R (evalLambda r bs form) := by
  unfold evalLambda
  exact hR.bind (evalBound_rel hR h _ _ _ _) (fun _ => h _)

theorem evalLambdaVar_rel (hR : Stable e R) (h : ∀ x, EM.Rel R (r x)) (late reg a form) :
    EM.Rel R (evalLambdaVar r late reg a form) := by
  have := @evalLambda_rel R r e hR h
  unfold evalLambdaVar
  refine hR.bind hR.get (fun s => ?_)
  split
  · eleaf hR
  · split
    · eleaf hR
    · split
      · exact this _ _
      · eleaf hR

theorem evalAssign_rel (hR : Stable e R) (h : ∀ x, EM.Rel R (r x)) (lval ast) : EM.Rel R (evalAssign r lval ast) := by
  unfold evalAssign
  erel hR h

theorem evalSet_rel (hR : Stable e R) (h : ∀ x, EM.Rel R (r x)) (lval ast) :
    EM.Rel R (evalSet e r lval ast) := by
  have := @evalAssign_rel R r e hR h
  unfold evalSet
  split
  · erel hR h
  · exact hR.bind (this _ _) (fun _ => hR.pure _)

theorem evalLet_rel (hR : Stable e R) (h : ∀ x, EM.Rel R (r x)) (lval ast form) :
    EM.Rel R (evalLet r lval ast form) := by
  have := @evalAssign_rel R r e hR h
  unfold evalLet
  refine hR.bind (this _ _) (fun _ => ?_)
  erel hR h

theorem evalMacro_rel (hR : Stable e R) (h : ∀ x, EM.Rel R (r x)) (text frame decl call) :
    EM.Rel R (evalMacro e r text frame decl call) := by
  have := @evalLocal_rel R r e hR h
  unfold evalMacro
  refine hR.bind (this _) (fun _ => ?_)
  erel hR h

theorem evalEval_rel {p : Parsers} (hR : Stable e R)
    (hp : ∀ a s xs t, p.parse a s.p = .ok (xs, t) → R s { s with p := t }) (h : ∀ x, EM.Rel R (r x)) (ast decl call) :
    EM.Rel R (evalEval e p r ast decl call) := by
  unfold evalEval
  refine hR.bind (h _) (fun v => ?_)
  split
  · eleaf hR
  · refine hR.bind hR.get (fun s => hR.bind (hR.register _ _ _) (fun key => ?_))
    refine hR.bind (fun s a s' hs => parse_rel (hp key) hs) (fun xs => ?_)
    erel hR h

theorem evalInfixClosure_rel (hR : Stable e R) (h : ∀ x, EM.Rel R (r x)) (code frame loc) :
    EM.Rel R (evalInfixClosure e r code frame loc) := by
  have := @evalLocal_rel R r e hR h
  unfold evalInfixClosure
  refine hR.bind (this _) (fun _ => ?_)
  erel hR h

theorem evalStep_rel {p : Parsers} (hR : Stable e R)
    (hp : ∀ a s xs t, p.parse a s.p = .ok (xs, t) → R s { s with p := t }) (h : ∀ x, EM.Rel R (r x)) (n : Node) :
    EM.Rel R (evalStep e p r n) := by
  unfold evalStep
  split
  all_goals first
    | exact hR.pure _
    | exact hR.evalVar _ _ _
    | exact h _
    | exact hR.bind (h _) (fun _ => hR.pure _)
    | exact hR.bind (evalT_rel hR h _ _ _ _) (fun _ => hR.finishT _ _)
    | exact hR.bind (evalList_rel hR h _) (fun _ => hR.pure _)
    | exact evalApply_rel hR h _ _ _ _
    | exact evalLambda_rel hR h _ _
    | exact evalLambdaVar_rel hR h _ _ _ _
    | exact evalSet_rel hR h _ _
    | exact evalLet_rel hR h _ _ _
    | exact evalMacro_rel hR h _ _ _ _
    | exact evalEval_rel hR hp h _ _ _
    | exact evalInfixClosure_rel hR h _ _ _
    | (unfold evalClosure; erel hR h)
    | (unfold evalSetClosure; erel hR h)
    | (unfold evalCond; erel hR h)
    | (unfold evalCondClosure; erel hR h)
    | (unfold evalInfix; erel hR h)
    | (unfold evalEmit; erel hR h)

end


theorem E_rel {e : EEnv} {R : ESt → ESt → Prop} (hR : Stable e R) : ∀ n x, EM.Rel R (E e n x) := by
  intro n
  induction n with
  | zero => intro x s a s' h; cases h
  | succ n ih => exact evalStep_rel hR (fun a s xs t h => hR.parse n a s xs t h) ih

theorem evaluates_rel {e : EEnv} {R : ESt → ESt → Prop} (hR : Stable e R) {x v : Node} {s s' : ESt}
    (h : Evaluates e x s v s') : R s s' := by
  obtain ⟨n, hn⟩ := h
  exact E_rel hR n x s v s' hn

end Yupp
