import Verif.Props.Builtin
/-!
# C54 — Arithmetic and comparison
-/

namespace Yupp

open Spec

namespace Spec

/-- The numbers of truth. -/
noncomputable def truth (p : Prop) : Node := open Classical in if p then .int 1 else .int 0

end Spec

variable {e : EEnv} {x : BExt} {l loc : Option Loc} {args : List Node} {s s' : ESt}

theorem callResult_bool {b : Bool} {p : Prop} (h : b = true ↔ p) : callResult (.bool b) = truth p := by
  unfold truth
  cases b with
  | true => rw [if_pos (h.1 rfl)]; rfl
  | false => rw [if_neg (fun hp => by have := h.2 hp; cases this)]; rfl

theorem whole_term {a : Node} {m : Int} (h : a.whole? = some m) : isTerm a = true := by
  cases a <;> first | rfl | simp [Node.whole?] at h

theorem whole_terms {a b : Node} {m n : Int} (ha : a.whole? = some m) (hb : b.whole? = some n) : areTerms [a, b] = true := by
  simp [areTerms, whole_term ha, whole_term hb]

theorem seqAdd_whole {a b : Node} {m : Int} (h : a.whole? = some m) : seqAdd a b = none := by
  cases a <;> first | (simp [Node.whole?] at h; done) | rfl

/-- **C54**. Sum, difference and product of whole numbers of any size. -/
theorem C54_arithmetic {f : Str} {op : Int → Int → Int}
    (hf : f = lit "add" ∧ op = (fun m n => m + n) ∨ f = lit "sub" ∧ op = (fun m n => m - n) ∨
      f = lit "mul" ∧ op = (fun m n => m * n))
    (hs : Standard e x f) (hu : Unbound f s) {a b : Node} {m n : Int} (ha : Args e args s [a, b] s')
    (hm : a.whole? = some m) (hn : b.whole? = some n) :
    Evaluates e (fnCall f l loc args) s (.int (op m n)) s' := by
  have h := fun v => ev_call (l := l) (loc := loc) (v := v) (seen := s'.seen) hs hu ha (whole_terms hm hn)
  rcases hf with ⟨rfl, rfl⟩ | ⟨rfl, rfl⟩ | ⟨rfl, rfl⟩ <;> exact h (.int _) (by simp [builtinCall, lit, bWhole2, hm, hn, seqAdd_whole hm])

/-- **C54**. Quotient and remainder: the remainder lies between zero and the divisor, on the side of the
    divisor. -/
theorem C54_division (hs1 : Standard e x (lit "floordiv")) (hs2 : Standard e x (lit "mod")) (hu1 : Unbound (lit "floordiv") s)
    (hu2 : Unbound (lit "mod") s) {a b : Node} {m n : Int} (ha : Args e args s [a, b] s')
    (hm : a.whole? = some m) (hn : b.whole? = some n) (h0 : n ≠ 0) :
    ∃ q r, Evaluates e (fnCall (lit "floordiv") l loc args) s (.int q) s' ∧
      Evaluates e (fnCall (lit "mod") l loc args) s (.int r) s' ∧ m = n * q + r ∧ (0 ≤ r ∧ r < n ∨ n < r ∧ r ≤ 0) := by
  refine ⟨m.fdiv n, m.fmod n, ev_call (v := .int _) (seen := s'.seen) hs1 hu1 ha (whole_terms hm hn) ?_,
    ev_call (v := .int _) (seen := s'.seen) hs2 hu2 ha (whole_terms hm hn) ?_, ?_, ?_⟩
  · simp [builtinCall, lit, bWhole2, hm, hn, h0]
  · simp [builtinCall, lit, bWhole2, hm, hn, h0]
  · have := Int.mul_fdiv_add_fmod m n; omega
  · rcases Int.lt_or_gt_of_ne h0 with h | h
    · right
      have h1 := Int.fmod_lt_of_pos (-m) (b := -n) (by omega)
      have h2 := Int.fmod_nonneg_of_pos (-m) (b := -n) (by omega)
      rw [Int.neg_fmod_neg] at h1 h2
      omega
    · exact .inl ⟨Int.fmod_nonneg_of_pos _ h, Int.fmod_lt_of_pos _ h⟩

/-- **C54**. Division by zero makes the translation fail. -/
theorem C54_division_by_zero {f : Str} (hf : f = lit "floordiv" ∨ f = lit "mod") (hs : Standard e x f) (hu : Unbound f s)
    {a b : Node} {m : Int} (ha : Args e args s [a, b] s') (hm : a.whole? = some m) (hn : b.whole? = some 0) :
    Raises e (fnCall f l loc args) s := by
  rcases hf with rfl | rfl <;>
    exact ev_call_err hs hu ha (whole_terms hm hn) (by simp [builtinCall, lit, bWhole2, hm, hn])

/-- **C54**. One argument. -/
theorem C54_unary {f : Str} {op : Int → Int}
    (hf : f = lit "neg" ∧ op = (fun m => -m) ∨ f = lit "inc" ∧ op = (fun m => m + 1) ∨ f = lit "dec" ∧ op = (fun m => m - 1))
    (hs : Standard e x f) (hu : Unbound f s) {a : Node} {m : Int} (ha : Args e args s [a] s') (hm : a.whole? = some m) :
    Evaluates e (fnCall f l loc args) s (.int (op m)) s' := by
  have h := fun v => ev_call (l := l) (loc := loc) (v := v) (seen := s'.seen) hs hu ha (by simp [areTerms, whole_term hm])
  rcases hf with ⟨rfl, rfl⟩ | ⟨rfl, rfl⟩ | ⟨rfl, rfl⟩ <;> exact h (.int _) (by simp [builtinCall, lit, bWhole1, hm])

/-- **C54**. The comparison of whole numbers gives the number 1 or 0, not a truth value of Python. -/
theorem C54_comparison {f : Str} {rel : Int → Int → Prop}
    (hf : f = lit "lt" ∧ rel = (fun m n => m < n) ∨ f = lit "le" ∧ rel = (fun m n => m ≤ n) ∨
      f = lit "gt" ∧ rel = (fun m n => n < m) ∨ f = lit "ge" ∧ rel = (fun m n => n ≤ m))
    (hs : Standard e x f) (hu : Unbound f s) {a b : Node} {m n : Int} (ha : Args e args s [a, b] s')
    (hm : a.whole? = some m) (hn : b.whole? = some n) :
    Evaluates e (fnCall f l loc args) s (truth (rel m n)) s' := by
  have h := fun v => ev_call (l := l) (loc := loc) (v := v) (seen := s'.seen) hs hu ha (whole_terms hm hn)
  rcases hf with ⟨rfl, rfl⟩ | ⟨rfl, rfl⟩ | ⟨rfl, rfl⟩ | ⟨rfl, rfl⟩
  · rw [← callResult_bool (b := decide (m < n)) (by simp)]; exact h _ (by simp [builtinCall, lit, bWhole2, hm, hn])
  · rw [← callResult_bool (b := decide (m ≤ n)) (by simp)]; exact h _ (by simp [builtinCall, lit, bWhole2, hm, hn])
  · rw [← callResult_bool (b := decide (m > n)) (by simp)]; exact h _ (by simp [builtinCall, lit, bWhole2, hm, hn])
  · rw [← callResult_bool (b := decide (m ≥ n)) (by simp)]; exact h _ (by simp [builtinCall, lit, bWhole2, hm, hn])

/-- **C54**. `$cmp` is 1, 0 or -1 as the first number is greater than, equal to or less than the second one. -/
theorem C54_cmp (hs : Standard e x (lit "cmp")) (hu : Unbound (lit "cmp") s) {a b : Node} {m n : Int} (ha : Args e args s [a, b] s')
    (hm : a.whole? = some m) (hn : b.whole? = some n) :
    (n < m → Evaluates e (fnCall (lit "cmp") l loc args) s (.int 1) s') ∧
    (m = n → Evaluates e (fnCall (lit "cmp") l loc args) s (.int 0) s') ∧
    (m < n → Evaluates e (fnCall (lit "cmp") l loc args) s (.int (-1)) s') := by
  have h := fun v => ev_call (l := l) (loc := loc) (v := .int v) (seen := s'.seen) hs hu ha (whole_terms hm hn)
  have h0 : ∀ v, v = ((if m > n then 1 else 0) - (if m < n then 1 else 0) : Int) →
      builtinCall x (lit "cmp") [a, b] s'.seen = some (.int v, s'.seen) := fun v hv => by
    rw [hv]; simp [builtinCall, textCall, lit, bWhole2, hm, hn]
  exact ⟨fun h1 => h 1 (h0 1 (by rw [if_pos h1, if_neg (by omega)]; rfl)), fun h1 => h 0 (h0 _ (by simp [h1])),
    fun h1 => h (-1) (h0 (-1) (by rw [if_pos h1, if_neg (by omega)]; rfl))⟩

/-- **C54**. `$abs` is the distance from zero; `$pos` changes nothing. -/
theorem C54_abs (hs : Standard e x (lit "abs")) (hu : Unbound (lit "abs") s) {a : Node} {m : Int} (ha : Args e args s [a] s')
    (hm : a.whole? = some m) : ∃ r, Evaluates e (fnCall (lit "abs") l loc args) s (.int r) s' ∧ 0 ≤ r ∧ (r = m ∨ r = -m) :=
  ⟨m.natAbs, ev_call (v := .int m.natAbs) (seen := s'.seen) hs hu ha (by simp [areTerms, whole_term hm])
    (by simp [builtinCall, textCall, lit, bWhole1, hm]), by omega, by omega⟩

theorem C54_pos (hs : Standard e x (lit "pos")) (hu : Unbound (lit "pos") s) {a : Node} {m : Int} (ha : Args e args s [a] s')
    (hm : a.whole? = some m) : Evaluates e (fnCall (lit "pos") l loc args) s (.int m) s' :=
  ev_call (v := .int m) (seen := s'.seen) hs hu ha (by simp [areTerms, whole_term hm])
    (by simp [builtinCall, textCall, moreCall, lit, bWhole1, hm])

/-- **C54**. Equality of texts, whole numbers and lists of them: 1 if they are the same value, whatever the kind
    of text, otherwise 0. -/
theorem C54_equality {f : Str} {rel : Node → Node → Prop}
    (hf : f = lit "eq" ∧ rel = Same ∨ f = lit "ne" ∧ rel = (fun a b => ¬ Same a b))
    (hs : Standard e x f) (hu : Unbound f s) {a b : Node} (ha : Args e args s [a, b] s') (hv : Value a) (hw : Value b)
    (hd : Datum a) (hd' : Datum b) :
    Evaluates e (fnCall f l loc args) s (truth (rel a b)) s' := by
  have ht : areTerms [a, b] = true := values_terms (fun v hv' => by
    simp only [List.mem_cons, List.not_mem_nil, or_false] at hv'
    rcases hv' with rfl | rfl
    · exact hv
    · exact hw)
  have h := fun v => ev_call (l := l) (loc := loc) (v := v) (seen := s'.seen) hs hu ha ht
  have he := pyEq_iff x hd hd'
  rcases hf with ⟨rfl, rfl⟩ | ⟨rfl, rfl⟩
  · rw [← callResult_bool he]; exact h _ (by simp [builtinCall, lit])
  · rw [← callResult_bool (b := !pyEq x a b) (by change _ ↔ ¬ Same a b; rw [← he]; simp)]; exact h _ (by simp [builtinCall, lit])

/-- **C54**. `$not`: 1 for what counts as false, otherwise 0. -/
theorem C54_not (hs : Standard e x (lit "not")) (hu : Unbound (lit "not") s) {a : Node} (ha : Args e args s [a] s') (hv : Value a) :
    Evaluates e (fnCall (lit "not") l loc args) s (truth (False' a)) s' := by
  have ht : areTerms [a] = true := values_terms (fun v hv' => by rw [List.mem_singleton] at hv'; subst hv'; exact hv)
  rw [← callResult_bool (b := !truthy a) (by rw [← falsy_iff]; simp)]
  exact ev_call (seen := s'.seen) hs hu ha ht (by simp [builtinCall, lit])

/-- **C54**. `$truth`: 0 for what counts as false, otherwise 1. -/
theorem C54_truth (hs : Standard e x (lit "truth")) (hu : Unbound (lit "truth") s) {a : Node} (ha : Args e args s [a] s') (hv : Value a) :
    Evaluates e (fnCall (lit "truth") l loc args) s (truth (¬ False' a)) s' := by
  have ht : areTerms [a] = true := values_terms (fun v hv' => by rw [List.mem_singleton] at hv'; subst hv'; exact hv)
  rw [← callResult_bool (b := truthy a) (by rw [← falsy_iff]; simp)]
  exact ev_call (seen := s'.seen) hs hu ha ht (by simp [builtinCall, textCall, moreCall, lit])

/-! The hypotheses are met, and the results have the values one expects. -/

theorem two_ints (m n : Int) (s : ESt) : Args e [.int m, .int n] s [.int m, .int n] s :=
  .one ⟨1, rfl⟩ (by simp) (by simp) (.one ⟨1, rfl⟩ (by simp) (by simp) (.nil s))

example (pe : PEnv) (s : ESt) (h : s.env = []) :
    Evaluates (stdEnv x pe) (fnCall (lit "sub") none none [.int 3, .int 5]) s (.int (-2)) s ∧
    Evaluates (stdEnv x pe) (fnCall (lit "le") none none [.int 3, .int 5]) s (.int 1) s ∧
    Evaluates (stdEnv x pe) (fnCall (lit "eq") none none [.int 3, .int 5]) s (.int 0) s := by
  have hu : ∀ f, Unbound f s := fun f => by unfold Unbound; rw [h]; rfl
  refine ⟨C54_arithmetic (.inr (.inl ⟨rfl, rfl⟩)) (stdEnv_standard x pe _) (hu _) (two_ints 3 5 s) rfl rfl, ?_, ?_⟩
  · have := C54_comparison (l := none) (loc := none) (.inr (.inl ⟨rfl, rfl⟩)) (stdEnv_standard x pe _) (hu _) (two_ints 3 5 s) rfl rfl
    simpa [truth] using this
  · have := C54_equality (l := none) (loc := none) (.inl ⟨rfl, rfl⟩) (stdEnv_standard x pe _) (hu _) (two_ints 3 5 s) (.int _) (.int _)
      (.number rfl) (.number rfl)
    have hn : ¬ Same (.int 3) (.int 5) := by
      intro h
      cases h with
      | text h1 _ => simp [Node.text?] at h1
      | number h1 h2 => simp [Node.whole?] at h1 h2; omega
    simpa [truth, hn] using this

end Yupp
