import Verif.Lemmas.Eval
/-!
# Evaluation: C24 – C27, C31
-/

namespace Yupp

open Spec

/-! ## C24 — values -/

/-- A value evaluates to itself, in every scope, and nothing else happens. -/
theorem C24_values_are_fixed_points (e : EEnv) {v : Node} (hv : Value v) (s : ESt) :
    Evaluates e v s v s ∧ ¬ Raises e v s ∧ ∀ w t, Evaluates e v s w t → w = v ∧ t = s := by
  have h : Evaluates e v s v s := evaluates_iff.2 (ev_value e hv s)
  exact ⟨h, not_raises h, fun w t hw => evaluates_det hw h⟩

/-- So evaluating again changes nothing. -/
theorem C24_evaluating_twice (e : EEnv) {x v : Node} {s s' : ESt} (_ : Evaluates e x s v s') (hv : Value v) (t : ESt) :
    Evaluates e v t v t := (C24_values_are_fixed_points e hv t).1

example : Value (.list [.int 5, .list [.str { txt := ['a'] }, .list []], .pstr []]) := by
  refine .list _ ?_ ?_
  · intro x hx
    simp at hx
    rcases hx with rfl | rfl | rfl
    · exact .int _
    · refine .list _ ?_ ?_
      · intro x hx
        simp at hx
        rcases hx with rfl | rfl
        · exact .str _
        · exact .list _ (by simp) (by simp)
      · simp
    · exact .pstr _
  · simp

/-- Nothing in a list is not a fixed point: it is dropped. -/
example (e : EEnv) (s : ESt) : Evaluates e (.list [.none, .int 1]) s (.list [.int 1]) s := ⟨2, rfl⟩

/-! ## C25 — conditionals -/

/-- If the condition is a true value, the outcome is that of the first leg, after the effects of the
    condition; the second leg plays no role. -/
theorem C25_true_leg (e : EEnv) (c a b cv : Node) (s s1 : ESt) (hc : Evaluates e c s cv s1) (hv : Value cv)
    (ht : ¬ False' cv) : SameOutcome e (.cond c a b) s a s1 := by
  apply sameOutcome_of
  rw [ev_at]
  change evalCond (ev e) c a b s = _
  unfold evalCond
  rw [em_bind_ok (evaluates_iff.1 hc), value_term hv]
  have : truthy cv = true := by
    cases h : truthy cv with
    | true => rfl
    | false => exact absurd ((falsy_iff cv).1 h) ht
  rw [this]; rfl

/-- If it is a false value, the outcome is that of the second leg. -/
theorem C25_false_leg (e : EEnv) (c a b cv : Node) (s s1 : ESt) (hc : Evaluates e c s cv s1) (hv : Value cv)
    (hf : False' cv) : SameOutcome e (.cond c a b) s b s1 := by
  apply sameOutcome_of
  rw [ev_at]
  change evalCond (ev e) c a b s = _
  unfold evalCond
  rw [em_bind_ok (evaluates_iff.1 hc), value_term hv, (falsy_iff cv).2 hf]
  rfl

/-- Without an alternative a false condition yields nothing. -/
theorem C25_no_alternative (e : EEnv) (c a cv : Node) (s s1 : ESt) (hc : Evaluates e c s cv s1) (hv : Value cv)
    (hf : False' cv) : Evaluates e (.cond c a .none) s .none s1 :=
  ((C25_false_leg e c a .none cv s s1 hc hv hf).1 _ _).2 (C24_values_are_fixed_points e .none s1).1

/-- If the condition fails, so does the conditional. -/
theorem C25_condition_fails (e : EEnv) (c a b : Node) (s : ESt) (hc : Raises e c s) : Raises e (.cond c a b) s := by
  rw [raises_iff] at *
  rw [ev_at]
  change evalCond (ev e) c a b s = _
  unfold evalCond
  rw [em_bind, hc]

/-- If the condition cannot be decided yet, neither leg is evaluated. -/
theorem C25_undecided (e : EEnv) (c a b cv : Node) (s s1 : ESt) (hc : Evaluates e c s cv s1)
    (hv : isTerm cv = false) : Evaluates e (.cond c a b) s (.condClosure cv a b) s1 := by
  rw [evaluates_iff] at *
  rw [ev_at]
  change evalCond (ev e) c a b s = _
  unfold evalCond
  rw [em_bind_ok hc, hv]; rfl

/-- A leg that would fail is harmless when the other one is taken. -/
example (e : EEnv) (s : ESt) : Evaluates e (.cond (.int 0) (.apply (.int 1) [] [({ txt := ['n'] }, .none)] none) (.int 7)) s
    (.int 7) s :=
  ((C25_false_leg e _ _ _ (.int 0) s s ⟨1, rfl⟩ (.int 0) .int).1 _ _).2 ⟨1, rfl⟩
example : Value (.str { txt := ['0'] }) ∧ ¬ False' (.str { txt := ['0'] }) :=
  ⟨.str _, by intro h; cases h; contradiction⟩

/-! ## C26 — application of a list -/

/-- Applying a list to functions: the results for the items from left to right, without those that are
    nothing; several functions are applied one after another. -/
theorem C26_list_application_is_map (e : EEnv) (fn : Node) (xs args fs : List Node) (loc : Option Loc) (s s1 s2 : ESt)
    (hf : Evaluates e fn s (.list xs) s1) (ha : Args e args s1 fs s2) (v : Node) (s' : ESt) :
    Evaluates e (.apply fn args [] loc) s v s' ↔ ∃ ys, v = .list ys ∧ Each e fs xs s2 ys s' := by
  rw [evaluates_iff, ev_apply hf ha]
  change ((foreach (ev e) fs xs) >>= fun ys => pure (Node.list ys)) s2 = _ ↔ _
  constructor
  · intro h
    obtain ⟨ys, s3, h1, h2⟩ := em_bind_inv h
    cases h2
    exact ⟨ys, rfl, foreach_each.1 h1⟩
  · rintro ⟨ys, rfl, h⟩
    rw [em_bind_ok (foreach_each.2 h)]; rfl

/-- A named argument is refused. -/
theorem C26_no_named_argument (e : EEnv) (fn : Node) (xs args fs : List Node) (named : List (Src × Node))
    (loc : Option Loc) (s s1 s2 : ESt) (hf : Evaluates e fn s (.list xs) s1) (ha : Args e args s1 fs s2)
    (hn : named ≠ []) : Raises e (.apply fn args named loc) s := by
  rw [raises_iff, ev_apply hf ha]
  cases named with
  | nil => exact absurd rfl hn
  | cons _ _ => rfl

/-- `($ ((1 2) (3) (4 5)) 0 ...)`: the number 1 takes the second item of each list, nothing for `(3)`. -/
example (e : EEnv) (s : ESt) : Each e [.int 1] [.list [.int 1, .int 2], .list [.int 3], .list [.int 4, .int 5]] s
    [.int 2, .int 5] s :=
  .keep (.cons ⟨5, rfl⟩ (.nil _ _)) (by simp) (.drop (.cons ⟨5, rfl⟩ (.nil _ _))
    (.keep (.cons ⟨5, rfl⟩ (.nil _ _)) (by simp) (.nil _)))

/-! ## C27 — application of a number -/

/-- `areTerms` and the syntactic sugar. -/
theorem applyNumber_eq {fn : Node} {vs items : List Node} {i : Int} {loc : Option Loc} (hv : ∀ v ∈ vs, Value v)
    (hne : vs ≠ []) (hq : Sequence vs items) (s : ESt) :
    applyNumber fn (some i) vs [] loc s = EM.ofOption (subscript items i) s := by
  unfold applyNumber
  rw [values_terms hv]
  have : vs.isEmpty = false := by cases vs <;> simp_all
  rw [this]
  cases hq with
  | items xs => rfl
  | args _ h =>
    simp only [List.isEmpty_nil, Bool.not_true, Bool.false_eq_true, if_false]
    split
    · next x =>
      have hx := hv x (by simp)
      cases hx <;> first | rfl | exact absurd rfl (h _)
    · rfl

theorem applyTo_index {e : EEnv} {f : Node} {i : Int} (hi : Index f i) (fn : Node) (vs : List Node) (loc : Option Loc)
    (s : ESt) : ∃ g, applyTo e (ev e) (f.setCall (callOf fn)) vs [] loc s = applyNumber g (some i) vs [] loc s := by
  cases hi with
  | int i => exact ⟨_, rfl⟩
  | no => exact ⟨_, rfl⟩
  | yes => exact ⟨_, rfl⟩
  | float f i h =>
    refine ⟨.float f, ?_⟩
    change applyNumber (.float f) f.trunc vs [] loc s = _
    rw [h]

/-- Applying a number `i` to values `vs`: with `items` the arguments themselves, or the items of the only
    argument if that is a list,
    the `i`-th item from the start, counting from zero; nothing past the end; the `-i`-th item from the end if
    `i` is negative; failure before the start. -/
theorem C27_subscript (e : EEnv) (fn f : Node) (i : Int) (args vs items : List Node) (loc : Option Loc)
    (s s1 s2 : ESt) (hf : Evaluates e fn s f s1) (hi : Index f i) (ha : Args e args s1 vs s2)
    (hv : ∀ v ∈ vs, Value v) (hne : vs ≠ []) (hq : Sequence vs items) :
    (∀ (k : Nat) (h : k < items.length), i = k → Evaluates e (.apply fn args [] loc) s items[k] s2) ∧
    ((items.length : Int) ≤ i → Evaluates e (.apply fn args [] loc) s .none s2) ∧
    (∀ (k : Nat) (h : k < items.length), i = (k : Int) - items.length →
      Evaluates e (.apply fn args [] loc) s items[k] s2) ∧
    (i < -(items.length : Int) → Raises e (.apply fn args [] loc) s) := by
  obtain ⟨g, hg⟩ := applyTo_index (e := e) hi fn vs loc s2
  have key : ev e (.apply fn args [] loc) s = EM.ofOption (subscript items i) s2 := by
    rw [ev_apply hf ha, hg, applyNumber_eq hv hne hq]
  refine ⟨fun k h hk => ?_, fun h => ?_, fun k h hk => ?_, fun h => ?_⟩
  · rw [evaluates_iff, key]
    unfold subscript
    rw [if_neg (by omega), if_pos (by omega), hk, Int.toNat_natCast, List.getElem?_eq_getElem h]; rfl
  · rw [evaluates_iff, key]
    unfold subscript
    rw [if_pos h]; rfl
  · rw [evaluates_iff, key]
    unfold subscript
    have : ((items.length : Int) + i).toNat = k := by omega
    rw [if_neg (by omega), if_neg (by omega), if_pos (by omega), this, List.getElem?_eq_getElem h]; rfl
  · rw [raises_iff, key]
    unfold subscript
    rw [if_neg (by omega), if_neg (by omega), if_neg (by omega)]; rfl

/-- Without arguments a number stands for itself. -/
theorem C27_no_arguments (e : EEnv) (fn : Node) (i : Int) (args : List Node) (loc : Option Loc) (s s1 s2 : ESt)
    (hf : Evaluates e fn s (.int i) s1) (ha : Args e args s1 [] s2) :
    Evaluates e (.apply fn args [] loc) s (.int i) s2 := by
  rw [evaluates_iff, ev_apply hf ha]; rfl

/-- `($-1 a b c)` is `c`, `($-4 a b c)` fails, `($3 a b c)` is nothing. -/
example (e : EEnv) (s : ESt) : Evaluates e (.apply (.int (-1)) [.pstr ['a'], .pstr ['b'], .pstr ['c']] [] none) s
    (.pstr ['c']) s :=
  (C27_subscript e _ _ _ _ [.pstr ['a'], .pstr ['b'], .pstr ['c']] _ none s s s ⟨1, rfl⟩ (.int _)
    (.one ⟨1, rfl⟩ (by simp) (by simp) (.one ⟨1, rfl⟩ (by simp) (by simp) (.one ⟨1, rfl⟩ (by simp) (by simp) (.nil _))))
    (by simp; exact ⟨.pstr _, .pstr _, .pstr _⟩) (by simp) (.args _ (by simp))).2.2.1 2 (by decide) (by decide)

/-! ## C31 — unbound names -/

/-- A name that is neither bound nor built in and holds no hyphen stands for itself, applied or not. -/
theorem C31_unbound_name (e : EEnv) (a : Src) (loc : Option Loc) (s : ESt)
    (hb : ∀ f ∈ s.env, ∀ b ∈ f, b.1 ≠ a.txt) (ht : e.builtin s.p.scripts a.txt = none)
    (hs : a.txt ∉ [lit "__PASSAGE__", lit "isatom", lit "lazy", lit "skip", lit "reduce", lit "repr"])
    (hh : '-' ∉ a.txt) :
    Evaluates e (.var false [] a) s (.atom a) s ∧ Evaluates e (.apply (.var false [] a) [] [] loc) s (.atom a) s := by
  have hl : ∀ env : Scopes, (∀ f ∈ env, ∀ b ∈ f, b.1 ≠ a.txt) → Scopes.lookup env a.txt = none := by
    intro env h
    induction env with
    | nil => rfl
    | cons f fs ih =>
      have hg : Frame.get f a.txt = none := by
        unfold Frame.get
        have : f.find? (fun b => b.1 == a.txt) = none := by
          rw [List.find?_eq_none]
          intro b hb
          simpa using h f (by simp) b hb
        rw [this]; rfl
      unfold Scopes.lookup
      rw [hg]
      exact ih (fun g hg => h g (by simp [hg]))
  have h1 : Evaluates e (.var false [] a) s (.atom a) s := by
    rw [evaluates_iff, ev_at]
    change evalVar e false [] a s = _
    unfold evalVar
    have hs' : isSpecial a.txt = false := by unfold isSpecial; simpa using hs
    rw [hl _ hb, ht, hs']
    simp [hh]
  refine ⟨h1, ?_⟩
  rw [evaluates_iff, ev_apply h1 (.nil s)]
  rfl

/-- With a hyphen it stays unevaluated; applied or not, the result is no value. -/
theorem C31_hyphenated_name (e : EEnv) (a : Src) (loc : Option Loc) (s : ESt)
    (hb : Scopes.lookup s.env a.txt = none) (ht : e.builtin s.p.scripts a.txt = none)
    (hs : a.txt ∉ [lit "__PASSAGE__", lit "isatom", lit "lazy", lit "skip", lit "reduce", lit "repr"])
    (hh : '-' ∈ a.txt) :
    Evaluates e (.var false [] a) s (.var true [] a) s ∧
    Evaluates e (.apply (.var false [] a) [] [] loc) s (.apply (.var true [] a) [] [] loc) s := by
  have h1 : Evaluates e (.var false [] a) s (.var true [] a) s := by
    rw [evaluates_iff, ev_at]
    change evalVar e false [] a s = _
    unfold evalVar
    have hs' : isSpecial a.txt = false := by unfold isSpecial; simpa using hs
    rw [hb, ht, hs']
    simp [hh]
  refine ⟨h1, ?_⟩
  rw [evaluates_iff, ev_apply h1 (.nil s)]
  rfl

/-- Applying an unbound name to anything fails. -/
theorem C31_unbound_with_arguments (e : EEnv) (fn : Node) (a : Src) (args vs : List Node) (named : List (Src × Node))
    (loc : Option Loc) (s s1 s2 : ESt) (hf : Evaluates e fn s (.atom a) s1) (ha : Args e args s1 vs s2)
    (hne : vs ≠ [] ∨ named ≠ []) : Raises e (.apply fn args named loc) s := by
  rw [raises_iff, ev_apply hf ha]
  change (if vs.isEmpty && named.isEmpty then pure (Node.atom a) else EM.err : EM Node) s2 = _
  have : (vs.isEmpty && named.isEmpty) = false := by
    rcases hne with h | h
    · cases vs <;> simp_all
    · cases named <;> simp_all
  rw [this]; rfl

example : Evaluates { pe := { readLib := fun _ => none, inputFile := [] } } (.var false [] { txt := lit "abc" })
    { env := [[(lit "ab", .int 1)]] } (.atom { txt := lit "abc" }) { env := [[(lit "ab", .int 1)]] } :=
  (C31_unbound_name _ _ none _ (by decide) rfl (by decide) (by decide)).1

end Yupp
