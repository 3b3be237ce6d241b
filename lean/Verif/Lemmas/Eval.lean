import Verif.Lemmas.EvalLim
import Verif.Spec.Eval
/-!
# Working with the evaluator
-/

namespace Yupp

open Spec

theorem em_bind (m : EM α) (f : α → EM β) (s : ESt) : (m >>= f) s = match m s with
    | .ok (a, s') => f a s'
    | .err => .err
    | .timeout => .timeout := rfl

theorem em_pure (a : α) (s : ESt) : (pure a : EM α) s = .ok (a, s) := rfl

theorem em_get (s : ESt) : EM.get s = .ok (s, s) := rfl

theorem em_set (s s' : ESt) : EM.set s' s = .ok ((), s') := rfl

theorem em_err (s : ESt) : (EM.err : EM α) s = .err := rfl

theorem em_bind_ok {m : EM α} {f : α → EM β} {s : ESt} {a : α} {s' : ESt} (h : m s = .ok (a, s')) :
    (m >>= f) s = f a s' := by rw [em_bind, h]

theorem em_bind_inv {m : EM α} {f : α → EM β} {s : ESt} {r : β × ESt} (h : (m >>= f) s = .ok r) :
    ∃ a s', m s = .ok (a, s') ∧ f a s' = .ok r := by
  rw [em_bind] at h
  cases hm : m s with
  | ok p => rw [hm] at h; exact ⟨p.1, p.2, rfl, h⟩
  | err => rw [hm] at h; cases h
  | timeout => rw [hm] at h; cases h

theorem inFrame_ok {m : EM α} {f f' : Frame} {env : Scopes} {s s1 : ESt} {a : α}
    (h : m { s with env := f :: s.env } = .ok (a, s1)) (he : s1.env = f' :: env) :
    EM.inFrame f m s = .ok ((a, f'), { s1 with env := env }) := by
  unfold EM.inFrame
  rw [h]
  simp only [he]

theorem inFrame_inv {m : EM α} {f f' : Frame} {s s' : ESt} {a : α} (h : EM.inFrame f m s = .ok ((a, f'), s')) :
    ∃ s1, m { s with env := f :: s.env } = .ok (a, s1) ∧ s1.env = f' :: s'.env ∧ s' = { s1 with env := s1.env.tail } := by
  unfold EM.inFrame at h
  split at h
  · next a s1 h1 =>
    split at h
    · next f' env he =>
      cases h
      exact ⟨s1, h1, he, by rw [he]; rfl⟩
    · cases h
  · cases h
  · cases h

theorem evaluates_iff {e : EEnv} {x v : Node} {s s' : ESt} : Evaluates e x s v s' ↔ ev e x s = .ok (v, s') :=
  ev_ok.symm

theorem raises_iff {e : EEnv} {x : Node} {s : ESt} : Raises e x s ↔ ev e x s = .err := ev_err.symm

theorem sameOutcome_of {e : EEnv} {x y : Node} {s t : ESt} (h : ev e x s = ev e y t) : SameOutcome e x s y t := by
  refine ⟨fun v s' => ?_, ?_⟩
  · rw [evaluates_iff, evaluates_iff, h]
  · rw [raises_iff, raises_iff, h]

theorem evaluates_det {e : EEnv} {x v w : Node} {s s' t : ESt} (h : Evaluates e x s v s') (h' : Evaluates e x s w t) :
    v = w ∧ s' = t := by
  rw [evaluates_iff] at h h'
  rw [h] at h'
  cases h'; exact ⟨rfl, rfl⟩

theorem not_raises {e : EEnv} {x v : Node} {s s' : ESt} (h : Evaluates e x s v s') : ¬ Raises e x s := by
  rw [evaluates_iff] at h
  rw [raises_iff, h]
  simp

/-- The equation of one kind of node. -/
theorem ev_at (e : EEnv) (x : Node) (s : ESt) : ev e x s = evalStep e (parsers e.pe) (ev e) x s := by rw [← ev_eq]

/-- Every list of values evaluates to itself. -/
theorem ev_value (e : EEnv) : ∀ {v : Node}, Value v → ∀ s, ev e v s = .ok (v, s) := by
  intro v hv
  induction hv with
  | list xs hx hn ih =>
    intro s
    rw [ev_at]
    change ((evalList (ev e) xs) >>= fun ys => pure (Node.list ys)) s = _
    have : ∀ s, evalList (ev e) xs s = .ok (xs, s) := by
      clear s
      induction xs with
      | nil => intro s; rfl
      | cons x xs ihx =>
        intro s
        unfold evalList
        rw [em_bind_ok (ih x (by simp) s)]
        rw [em_bind_ok (ihx (fun y hy => hx y (by simp [hy])) (fun y hy => hn y (by simp [hy]))
          (fun y hy => ih y (by simp [hy])) s)]
        have h := hn x (by simp)
        have : spread x = [x] := by
          cases hx x (by simp) <;> first | rfl | exact absurd rfl h
        rw [em_pure, this]; rfl
    rw [em_bind_ok (this s)]; rfl
  | _ => intro s; rw [ev_at]; rfl

theorem value_term : ∀ {v : Node}, Value v → isTerm v = true := by
  intro v hv
  induction hv with
  | list xs hx hn ih =>
    unfold isTerm
    clear hx hn
    induction xs with
    | nil => rfl
    | cons x xs ihx =>
      unfold areTerms
      rw [ih x (by simp), ihx (fun y hy => ih y (by simp [hy]))]; rfl
  | _ => rfl

theorem areTerms_iff (xs : List Node) : areTerms xs = true ↔ ∀ x ∈ xs, isTerm x = true := by
  induction xs with
  | nil => simp [areTerms]
  | cons x xs ih => simp [areTerms, ih]

theorem values_terms {vs : List Node} (h : ∀ v ∈ vs, Value v) : areTerms vs = true :=
  (areTerms_iff vs).2 (fun v hv => value_term (h v hv))

/-- `Args` is what the evaluator does with the arguments. -/
theorem args_ev {e : EEnv} {xs ys : List Node} {s s' : ESt} (h : Args e xs s ys s') :
    evalList (ev e) xs s = .ok (ys, s') := by
  induction h with
  | nil s => rfl
  | drop h1 _ ih =>
    unfold evalList
    rw [em_bind_ok (evaluates_iff.1 h1), em_bind_ok ih]; rfl
  | @one x xs s y s1 ys s2 h1 hn he _ ih =>
    unfold evalList
    rw [em_bind_ok (evaluates_iff.1 h1), em_bind_ok ih, em_pure]
    have : spread y = [y] := by
      cases y <;> first | rfl | exact absurd rfl hn | exact absurd rfl (he _)
    rw [this]; rfl
  | embedded h1 _ ih =>
    unfold evalList
    rw [em_bind_ok (evaluates_iff.1 h1), em_bind_ok ih]; rfl

/-- An application whose function and arguments are known. -/
theorem ev_apply {e : EEnv} {fn f : Node} {args vs : List Node} {named : List (Src × Node)} {loc : Option Loc}
    {s s1 s2 : ESt} (hf : Evaluates e fn s f s1) (ha : Args e args s1 vs s2) :
    ev e (.apply fn args named loc) s = applyTo e (ev e) (f.setCall (callOf fn)) vs named loc s2 := by
  rw [ev_at]
  change evalApply e (ev e) fn args named loc s = _
  unfold evalApply
  rw [em_bind_ok (evaluates_iff.1 hf), em_bind_ok (args_ev ha)]

theorem args_nil_iff {e : EEnv} {xs : List Node} (h : xs = []) (s : ESt) : Args e xs s [] s := by
  subst h; exact .nil s

theorem applyEach_chain {e : EEnv} : ∀ {fs : List Node} {x : Node} {s : ESt} {y : Node} {s' : ESt},
    applyEach (ev e) fs x s = .ok (y, s') ↔ Chain e fs x s y s' := by
  intro fs
  induction fs with
  | nil =>
    intro x s y s'
    constructor
    · intro h; cases h; exact .nil _ _
    · intro h; cases h; rfl
  | cons f fs ih =>
    intro x s y s'
    unfold applyEach
    constructor
    · intro h
      obtain ⟨z, s1, h1, h2⟩ := em_bind_inv h
      exact .cons (evaluates_iff.2 h1) (ih.1 h2)
    · intro h
      cases h with
      | cons h1 h2 => rw [em_bind_ok (evaluates_iff.1 h1)]; exact ih.2 h2

theorem consSome_cons {y : Node} (h : y ≠ .none) (ys : List Node) : consSome y ys = y :: ys := by
  cases y <;> first | rfl | exact absurd rfl h

theorem foreach_each {e : EEnv} {fs : List Node} : ∀ {xs : List Node} {s : ESt} {ys : List Node} {s' : ESt},
    foreach (ev e) fs xs s = .ok (ys, s') ↔ Each e fs xs s ys s' := by
  intro xs
  induction xs with
  | nil =>
    intro s ys s'
    constructor
    · intro h; cases h; exact .nil _
    · intro h; cases h; rfl
  | cons x xs ih =>
    intro s ys s'
    unfold foreach
    constructor
    · intro h
      obtain ⟨y, s1, h1, h2⟩ := em_bind_inv h
      obtain ⟨zs, s2, h3, h4⟩ := em_bind_inv h2
      rw [em_pure] at h4
      by_cases hy : y = .none
      · subst hy
        cases h4
        exact .drop (applyEach_chain.1 h1) (ih.1 h3)
      · rw [consSome_cons hy] at h4
        cases h4
        exact .keep (applyEach_chain.1 h1) hy (ih.1 h3)
    · intro h
      cases h with
      | drop h1 h2 => rw [em_bind_ok (applyEach_chain.2 h1), em_bind_ok (ih.2 h2)]; rfl
      | @keep _ _ _ y _ ys _ h1 hn h2 =>
        rw [em_bind_ok (applyEach_chain.2 h1), em_bind_ok (ih.2 h2), em_pure]
        rw [consSome_cons hn]

theorem falsy_iff (v : Node) : truthy v = false ↔ False' v := by
  constructor
  · intro h
    cases v <;> simp [truthy] at h
    · exact .none
    · exact .atom _ h
    · exact .remark _ h
    · exact .str _ h
    · exact .plain _ _ _ h
    · subst h; exact .pstr
    · exact .result _ h
    · subst h; exact .int
    · subst h; exact .bool
    · exact .float _ h
    · subst h; exact .list
    · subst h; exact .t _
    · subst h; exact .env
  · intro h
    cases h <;> simp_all [truthy]

end Yupp
