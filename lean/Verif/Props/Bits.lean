import Verif.Spec.Bits
import Verif.Props.Arith
/-!
# C84 — Bits
-/

namespace Yupp

open Spec

variable {e : EEnv} {x : BExt} {l loc : Option Loc} {args : List Node} {s s' : ESt}

theorem bit_nat (m i : Nat) : bitOf (.ofNat m) i = m.testBit i := by
  unfold bitOf
  rw [Nat.testBit_eq_decide_div_mod_eq]
  have : ((Int.ofNat m) / 2 ^ i % 2 = 1) ↔ (m / 2 ^ i % 2 = 1) := by
    have h : (Int.ofNat m) / 2 ^ i % 2 = ((m / 2 ^ i % 2 : Nat) : Int) := by
      simp
    rw [h]; omega
  simp only [this]

theorem bit_neg (m i : Nat) : bitOf (.negSucc m) i = !m.testBit i := by
  unfold bitOf
  rw [Nat.testBit_eq_decide_div_mod_eq]
  have hp : (0 : Int) < 2 ^ i := Int.pow_pos (by decide)
  have h0 : Int.negSucc m / 2 ^ i = -((m / 2 ^ i : Nat) : Int) - 1 := by
    rw [Int.negSucc_ediv _ hp, show (m : Int).ediv (2 ^ i) = ((m / 2 ^ i : Nat) : Int) by
      change (m : Int) / 2 ^ i = _; simp]
    omega
  rw [h0]
  generalize m / 2 ^ i = q
  by_cases h : q % 2 = 1
  · rw [decide_eq_true h]; simp; omega
  · rw [decide_eq_false h]; simp; omega

theorem bits_and (m n : Int) (i : Nat) : bitOf (intAnd m n) i = (bitOf m i && bitOf n i) := by
  cases m <;> cases n <;> simp only [intAnd, bit_nat, bit_neg, Nat.testBit_and, Nat.testBit_or, Nat.testBit_xor] <;>
    (generalize Nat.testBit _ i = a; generalize Nat.testBit _ i = b; revert a b; decide)

theorem bits_or (m n : Int) (i : Nat) : bitOf (intOr m n) i = (bitOf m i || bitOf n i) := by
  cases m <;> cases n <;> simp only [intOr, bit_nat, bit_neg, Nat.testBit_and, Nat.testBit_or, Nat.testBit_xor] <;>
    (generalize Nat.testBit _ i = a; generalize Nat.testBit _ i = b; revert a b; decide)

theorem bits_xor (m n : Int) (i : Nat) : bitOf (intXor m n) i = (bitOf m i != bitOf n i) := by
  cases m <;> cases n <;> simp only [intXor, bit_nat, bit_neg, Nat.testBit_and, Nat.testBit_or, Nat.testBit_xor] <;>
    (generalize Nat.testBit _ i = a; generalize Nat.testBit _ i = b; revert a b; decide)

theorem bits_invert (m : Int) (i : Nat) : bitOf (-m - 1) i = !bitOf m i := by
  cases m with
  | ofNat m =>
    rw [show -(Int.ofNat m) - 1 = .negSucc m by simp [Int.negSucc_eq]; omega, bit_nat, bit_neg]
  | negSucc m =>
    rw [show -(Int.negSucc m) - 1 = .ofNat m by simp [Int.negSucc_eq], bit_nat, bit_neg, Bool.not_not]

/-- A number is determined by its bits. -/
theorem bits_determine {m n : Int} (h : ∀ i, bitOf m i = bitOf n i) : m = n := by
  have big : ∀ k : Nat, ∃ i, k.testBit i = false ∧ ∀ j : Nat, j ≤ k → j.testBit i = false := fun k =>
    ⟨k, Nat.testBit_lt_two_pow Nat.lt_two_pow_self, fun j hj => Nat.testBit_lt_two_pow (Nat.lt_of_le_of_lt hj Nat.lt_two_pow_self)⟩
  cases m <;> cases n <;> rename_i a b
  · congr 1
    exact Nat.eq_of_testBit_eq fun i => by have := h i; rwa [bit_nat, bit_nat] at this
  · obtain ⟨i, -, hi⟩ := big (max a b)
    have := h i
    rw [bit_nat, bit_neg, hi a (Nat.le_max_left ..), hi b (Nat.le_max_right ..)] at this
    cases this
  · obtain ⟨i, -, hi⟩ := big (max a b)
    have := h i
    rw [bit_nat, bit_neg, hi a (Nat.le_max_left ..), hi b (Nat.le_max_right ..)] at this
    cases this
  · congr 1
    exact Nat.eq_of_testBit_eq fun i => by simpa [bit_neg] using h i

/-- **C84**. `$and`, `$or` and `$xor` of whole numbers work on their bits. The result is determined by this (`bits_determine`). -/
theorem C84_bits {f : Str} {op : Bool → Bool → Bool}
    (hf : f = lit "and" ∧ op = (fun a b => a && b) ∨ f = lit "or" ∧ op = (fun a b => a || b) ∨ f = lit "xor" ∧ op = (fun a b => a != b))
    (hs : Standard e x f) (hu : Unbound f s) {a b : Node} {m n : Int} (ha : Args e args s [a, b] s')
    (hm : a.whole? = some m) (hn : b.whole? = some n) :
    ∃ r, Evaluates e (fnCall f l loc args) s (.int r) s' ∧ (∀ i, bitOf r i = op (bitOf m i) (bitOf n i)) ∧
      ∀ r', (∀ i, bitOf r' i = op (bitOf m i) (bitOf n i)) → r' = r := by
  have h := fun v => ev_call (l := l) (loc := loc) (v := v) (seen := s'.seen) hs hu ha (whole_terms hm hn)
  have uniq : ∀ r, (∀ i, bitOf r i = op (bitOf m i) (bitOf n i)) → ∀ r', (∀ i, bitOf r' i = op (bitOf m i) (bitOf n i)) → r' = r :=
    fun r h1 r' h2 => bits_determine fun i => by rw [h1, h2]
  rcases hf with ⟨rfl, rfl⟩ | ⟨rfl, rfl⟩ | ⟨rfl, rfl⟩
  · exact ⟨_, h (.int (intAnd m n)) (by simp [builtinCall, textCall, moreCall, lit, bWhole2, hm, hn]), bits_and m n, uniq _ (bits_and m n)⟩
  · exact ⟨_, h (.int (intOr m n)) (by simp [builtinCall, textCall, moreCall, lit, bWhole2, hm, hn]), bits_or m n, uniq _ (bits_or m n)⟩
  · exact ⟨_, h (.int (intXor m n)) (by simp [builtinCall, textCall, moreCall, lit, bWhole2, hm, hn]), bits_xor m n, uniq _ (bits_xor m n)⟩

/-- **C84**. `$invert` turns all bits over. -/
theorem C84_invert (hs : Standard e x (lit "invert")) (hu : Unbound (lit "invert") s) {a : Node} {m : Int} (ha : Args e args s [a] s')
    (hm : a.whole? = some m) :
    ∃ r, Evaluates e (fnCall (lit "invert") l loc args) s (.int r) s' ∧ (∀ i, bitOf r i = !bitOf m i) ∧ r = -m - 1 :=
  ⟨_, ev_call (v := .int (-m - 1)) (seen := s'.seen) hs hu ha (by simp [areTerms, whole_term hm])
    (by simp [builtinCall, textCall, moreCall, lit, bWhole1, hm]), bits_invert m, rfl⟩

/-- **C84**. Of the results of comparisons, `$and` and `$or` are the conjunction and the disjunction. -/
theorem C84_conditions {f : Str} {op : Prop → Prop → Prop} (hf : f = lit "and" ∧ op = And ∨ f = lit "or" ∧ op = Or)
    (hs : Standard e x f) (hu : Unbound f s) {p q : Prop} (ha : Args e args s [truth p, truth q] s') :
    Evaluates e (fnCall f l loc args) s (truth (op p q)) s' := by
  have h0 : ∀ p : Prop, ∃ k : Int, truth p = .int k ∧ (p ∧ k = 1 ∨ ¬ p ∧ k = 0) := fun p => by
    unfold truth; by_cases h : p <;> simp [h]
  obtain ⟨k, hk, hp⟩ := h0 p
  obtain ⟨j, hj, hq⟩ := h0 q
  rw [hk, hj] at ha
  have h := fun v => ev_call (l := l) (loc := loc) (v := v) (seen := s'.seen) hs hu ha (whole_terms (m := k) (n := j) rfl rfl)
  rcases hf with ⟨rfl, rfl⟩ | ⟨rfl, rfl⟩
  · have := h (.int (intAnd k j)) (by simp [builtinCall, textCall, moreCall, lit, bWhole2, Node.whole?])
    have he : callResult (.int (intAnd k j)) = truth (p ∧ q) := by
      rcases hp with ⟨hp, rfl⟩ | ⟨hp, rfl⟩ <;> rcases hq with ⟨hq, rfl⟩ | ⟨hq, rfl⟩ <;> simp [truth, hp, hq] <;> rfl
    rw [he] at this; exact this
  · have := h (.int (intOr k j)) (by simp [builtinCall, textCall, moreCall, lit, bWhole2, Node.whole?])
    have he : callResult (.int (intOr k j)) = truth (p ∨ q) := by
      rcases hp with ⟨hp, rfl⟩ | ⟨hp, rfl⟩ <;> rcases hq with ⟨hq, rfl⟩ | ⟨hq, rfl⟩ <;> simp [truth, hp, hq] <;> rfl
    rw [he] at this; exact this

/-- **C84**. Of other numbers they are not: for every number but 0 and -1 there is another one such that both count as true
    and their `$and` as false. -/
theorem C84_and_is_no_conjunction (hs : Standard e x (lit "and")) (hu : Unbound (lit "and") s) (m : Int) (h0 : m ≠ 0) (h1 : m ≠ -1) :
    ∃ n, ¬ False' (.int m) ∧ ¬ False' (.int n) ∧ False' (.int 0) ∧
      Evaluates e (fnCall (lit "and") l loc [.int m, .int n]) s (.int 0) s := by
  refine ⟨-m - 1, ?_, ?_, ?_, ?_⟩
  · rw [← falsy_iff]; simp [truthy, h0]
  · rw [← falsy_iff]; simp [truthy]; omega
  · rw [← falsy_iff]; simp [truthy]
  · obtain ⟨r, h2, h3, h4⟩ := C84_bits (l := l) (loc := loc) (.inl ⟨rfl, rfl⟩) hs hu (two_ints m (-m - 1) s) rfl rfl
    have : (0 : Int) = r := h4 0 (fun i => by rw [bits_invert, show (0 : Int) = .ofNat 0 from rfl, bit_nat]; simp)
    rw [this]; exact h2

/-- **C84**. `$lshift` multiplies by a power of two, `$rshift` divides and rounds down; a negative count is an error. -/
theorem C84_lshift (hs : Standard e x (lit "lshift")) (hu : Unbound (lit "lshift") s) {a b : Node} {m : Int} {n : Nat}
    (ha : Args e args s [a, b] s') (hm : a.whole? = some m) (hn : b.whole? = some n) :
    Evaluates e (fnCall (lit "lshift") l loc args) s (.int (m * 2 ^ n)) s' :=
  ev_call (v := .int (m * 2 ^ n)) (seen := s'.seen) hs hu ha (whole_terms hm hn)
    (by simp [builtinCall, textCall, moreCall, lit, bWhole2, hm, hn, bShift])

theorem C84_rshift (hs : Standard e x (lit "rshift")) (hu : Unbound (lit "rshift") s) {a b : Node} {m : Int} {n : Nat}
    (ha : Args e args s [a, b] s') (hm : a.whole? = some m) (hn : b.whole? = some n) :
    ∃ r, Evaluates e (fnCall (lit "rshift") l loc args) s (.int r) s' ∧ r * 2 ^ n ≤ m ∧ m < (r + 1) * 2 ^ n := by
  have hp : (0 : Int) < 2 ^ n := Int.pow_pos (by decide)
  refine ⟨m.fdiv (2 ^ n), ev_call (v := .int (m.fdiv (2 ^ n))) (seen := s'.seen) hs hu ha (whole_terms hm hn)
    (by simp [builtinCall, textCall, moreCall, lit, bWhole2, hm, hn, bShift]), ?_, ?_⟩
  · have h1 := Int.mul_fdiv_add_fmod m (2 ^ n)
    have h2 := Int.fmod_nonneg_of_pos m hp
    rw [Int.mul_comm]; omega
  · have h1 := Int.mul_fdiv_add_fmod m (2 ^ n)
    have h2 := Int.fmod_lt_of_pos m hp
    rw [Int.add_mul, Int.one_mul, Int.mul_comm]; omega

theorem C84_shift_negative {f : Str} (hf : f = lit "lshift" ∨ f = lit "rshift") (hs : Standard e x f) (hu : Unbound f s)
    {a b : Node} {m n : Int} (ha : Args e args s [a, b] s') (hm : a.whole? = some m) (hn : b.whole? = some n) (h0 : n < 0) :
    Raises e (fnCall f l loc args) s := by
  rcases hf with rfl | rfl <;>
    exact ev_call_err hs hu ha (whole_terms hm hn) (by simp [builtinCall, textCall, moreCall, lit, bWhole2, hm, hn, bShift, h0])

/-- `($and 12 10)` is 8. -/
example (pe : PEnv) (s : ESt) (h : s.env = []) :
    Evaluates (stdEnv x pe) (fnCall (lit "and") none none [.int 12, .int 10]) s (.int 8) s := by
  have hu : ∀ f, Unbound f s := fun f => by unfold Unbound; rw [h]; rfl
  obtain ⟨r, h2, h3, h4⟩ := C84_bits (l := none) (loc := none) (.inl ⟨rfl, rfl⟩) (stdEnv_standard x pe _) (hu _) (two_ints 12 10 s) rfl rfl
  have : (8 : Int) = r := h4 8 (fun i => by rw [← bits_and]; rfl)
  rw [this]; exact h2

end Yupp
