import Verif.Spec.Builtin
import Verif.Lemmas.Eval
/-!
# Built-in functions
-/

namespace Yupp

open Spec

/-- The call of a built-in function on values. -/
theorem ev_call {e : EEnv} {x : BExt} {f : Str} {l loc : Option Loc} {args vs : List Node} {s s' : ESt} {v : Node} {seen : List Node}
    (hs : Standard e x f) (hu : Unbound f s) (ha : Args e args s vs s') (ht : areTerms vs = true)
    (hc : builtinCall x f vs s'.seen = some (v, seen)) :
    Evaluates e (fnCall f l loc args) s (callResult v) { s' with seen := seen } := by
  have h1 : Evaluates e (.var false [] ⟨f, l⟩) s (.builtin ⟨f, l⟩ false) s := by
    rw [evaluates_iff, ev_at]
    change evalVar e false [] ⟨f, l⟩ s = _
    unfold evalVar
    simp only []
    rw [show Scopes.lookup s.env f = none from hu, hs.table]
    rfl
  unfold fnCall
  rw [evaluates_iff, ev_apply h1 ha]
  change applyBuiltin e ⟨f, l⟩ false vs [] loc s' = _
  unfold applyBuiltin
  simp only [List.isEmpty_nil, Bool.not_true, Bool.false_eq_true, if_false]
  have hget : EM.get s' = .ok (s', s') := rfl
  rw [em_bind_ok hget, hs.table]
  change applyFunction e ⟨f, l⟩ false vs loc s' = _
  unfold applyFunction
  rw [if_pos ht, hs.call, hc]

/-- A call that raises. -/
theorem ev_call_err {e : EEnv} {x : BExt} {f : Str} {l loc : Option Loc} {args vs : List Node} {s s' : ESt}
    (hs : Standard e x f) (hu : Unbound f s) (ha : Args e args s vs s') (ht : areTerms vs = true)
    (hc : builtinCall x f vs s'.seen = none) : Raises e (fnCall f l loc args) s := by
  have h1 : Evaluates e (.var false [] ⟨f, l⟩) s (.builtin ⟨f, l⟩ false) s := by
    rw [evaluates_iff, ev_at]
    change evalVar e false [] ⟨f, l⟩ s = _
    unfold evalVar
    simp only []
    rw [show Scopes.lookup s.env f = none from hu, hs.table]
    rfl
  unfold fnCall
  rw [raises_iff, ev_apply h1 ha]
  change applyBuiltin e ⟨f, l⟩ false vs [] loc s' = _
  unfold applyBuiltin
  simp only [List.isEmpty_nil, Bool.not_true, Bool.false_eq_true, if_false]
  have hget : EM.get s' = .ok (s', s') := rfl
  rw [em_bind_ok hget, hs.table]
  change applyFunction e ⟨f, l⟩ false vs loc s' = _
  unfold applyFunction
  rw [if_pos ht, hs.call, hc]

/-! ## Equality -/

theorem text_whole {a : Node} {t : Str} (h : a.text? = some t) : a.whole? = none := by
  cases a <;> simp_all [Node.text?, Node.whole?]

theorem text_list {a : Node} {t : Str} (h : a.text? = some t) : a.asList = none := by
  cases a <;> simp_all [Node.text?, Node.asList]

theorem whole_list {a : Node} {n : Int} (h : a.whole? = some n) : a.asList = none := by
  cases a <;> simp_all [Node.whole?, Node.asList]

theorem whole_text {a : Node} {n : Int} (h : a.whole? = some n) : a.text? = none := by
  cases a <;> simp_all [Node.whole?, Node.text?]

theorem pyEq_simple (x : BExt) (a b : Node) (h : a.asList = none) : pyEq x a b = simpleEq x a b := by
  cases a <;> first | rfl | simp [Node.asList] at h

theorem pyEqs_iff (x : BExt) : ∀ (as bs : List Node), pyEqs x as bs = true ↔
    as.length = bs.length ∧ ∀ (i : Nat) (a b : Node), as[i]? = some a → bs[i]? = some b → pyEq x a b = true
  | [], [] => by simp [pyEqs]
  | [], b :: bs => by simp [pyEqs]
  | a :: as, [] => by simp [pyEqs]
  | a :: as, b :: bs => by
    simp only [pyEqs, Bool.and_eq_true, pyEqs_iff x as bs, List.length_cons, Nat.add_right_cancel_iff]
    constructor
    · rintro ⟨h1, h2, h3⟩
      refine ⟨h2, fun i => ?_⟩
      cases i with
      | zero => intro a' b' ha hb; simp at ha hb; subst ha hb; exact h1
      | succ i => intro a' b' ha hb; exact h3 i a' b' (by simpa using ha) (by simpa using hb)
    · rintro ⟨h1, h2⟩
      exact ⟨h2 0 a b (by simp) (by simp), h1, fun i a' b' ha hb => h2 (i + 1) a' b' (by simpa using ha) (by simpa using hb)⟩

/-- `==` is equality of values. -/
theorem pyEq_iff (x : BExt) {a b : Node} (ha : Datum a) (hb : Datum b) : pyEq x a b = true ↔ Same a b := by
  induction ha generalizing b with
  | @text a t h =>
    rw [pyEq_simple x a b (text_list h)]
    unfold simpleEq
    rw [h]
    cases hb with
    | @text b t' h' =>
      rw [h']
      simp only [beq_iff_eq]
      constructor
      · rintro rfl; exact .text h h'
      · intro hs
        cases hs with
        | text h1 h2 => rw [h] at h1; rw [h'] at h2; cases h1; cases h2; rfl
        | number h1 h2 => rw [text_whole h] at h1; cases h1
        | list => simp [Node.text?] at h
    | number h' =>
      rw [whole_text h']
      simp only [Bool.false_eq_true, false_iff]
      intro hs
      cases hs with
      | text h1 h2 => rw [whole_text h'] at h2; cases h2
      | number h1 h2 => rw [text_whole h] at h1; cases h1
      | list => simp [Node.text?] at h
    | list =>
      simp only [Node.text?, Bool.false_eq_true, false_iff]
      intro hs
      cases hs with
      | text h1 h2 => simp [Node.text?] at h2
      | number h1 h2 => simp [Node.whole?] at h2
      | list => simp [Node.text?] at h
  | @number a n h =>
    rw [pyEq_simple x a b (whole_list h)]
    unfold simpleEq
    rw [whole_text h]
    cases hb with
    | @text b t' h' =>
      rw [h']
      simp only [Bool.false_eq_true, false_iff]
      intro hs
      cases hs with
      | text h1 h2 => rw [whole_text h] at h1; cases h1
      | number h1 h2 => rw [text_whole h'] at h2; cases h2
      | list => simp [Node.whole?] at h
    | number h' =>
      rw [whole_text h', h, h']
      simp only [beq_iff_eq]
      constructor
      · rintro rfl; exact .number h h'
      · intro hs
        cases hs with
        | text h1 h2 => rw [whole_text h] at h1; cases h1
        | number h1 h2 => rw [h] at h1; rw [h'] at h2; cases h1; cases h2; rfl
        | list => simp [Node.whole?] at h
    | list =>
      rw [h]
      simp only [Node.text?, Node.whole?, Node.asList, Option.isSome_some, if_true, Bool.false_eq_true, false_iff]
      intro hs
      cases hs with
      | text h1 h2 => simp [Node.text?] at h2
      | number h1 h2 => simp [Node.whole?] at h2
      | list => simp [Node.whole?] at h
  | @list as has ih =>
    cases hb with
    | text h' =>
      simp only [pyEq, text_list h', Bool.false_eq_true, false_iff]
      intro hs
      cases hs with
      | text h1 h2 => simp [Node.text?] at h1
      | number h1 h2 => simp [Node.whole?] at h1
      | list => simp [Node.text?] at h'
    | number h' =>
      simp only [pyEq, whole_list h', Bool.false_eq_true, false_iff]
      intro hs
      cases hs with
      | text h1 h2 => simp [Node.text?] at h1
      | number h1 h2 => simp [Node.whole?] at h1
      | list => simp [Node.whole?] at h'
    | @list bs hbs =>
      simp only [pyEq, Node.asList, pyEqs_iff]
      constructor
      · rintro ⟨h1, h2⟩
        exact .list h1 fun i a b hi hj =>
          (ih a (List.mem_of_getElem? hi) (hbs b (List.mem_of_getElem? hj))).1 (h2 i a b hi hj)
      · intro hs
        cases hs with
        | text h1 h2 => simp [Node.text?] at h1
        | number h1 h2 => simp [Node.whole?] at h1
        | list h1 h2 =>
          exact ⟨h1, fun i a b hi hj =>
            (ih a (List.mem_of_getElem? hi) (hbs b (List.mem_of_getElem? hj))).2 (h2 i a b hi hj)⟩

/-! ## Positions -/

theorem indexOf_lowest (p : Node → Bool) : ∀ xs, Lowest (fun y => p y = true) xs (indexOf p xs) := by
  intro xs
  unfold indexOf
  cases h : xs.findIdx? p with
  | none =>
    right
    exact ⟨rfl, fun y hy => by simpa using List.findIdx?_eq_none_iff.1 h y hy⟩
  | some i =>
    left
    obtain ⟨hi, h1, h2⟩ := List.findIdx?_eq_some_iff_getElem.1 h
    refine ⟨i, xs[i], rfl, by simp, h1, ?_⟩
    intro j z hj hz
    have := h2 j hj
    rw [List.getElem?_eq_getElem (by omega)] at hz
    cases hz
    simpa using this

theorem rindexOf_highest (p : Node → Bool) (xs : List Node) : Highest (fun y => p y = true) xs (rindexOf p xs) := by
  have := indexOf_lowest p xs.reverse
  unfold indexOf at this
  unfold rindexOf
  cases h : xs.reverse.findIdx? p with
  | none =>
    right
    refine ⟨rfl, fun y hy => ?_⟩
    simpa using List.findIdx?_eq_none_iff.1 h y (by simpa using hy)
  | some i =>
    left
    obtain ⟨hi, h1, h2⟩ := List.findIdx?_eq_some_iff_getElem.1 h
    rw [List.length_reverse] at hi
    refine ⟨xs.length - 1 - i, xs[xs.length - 1 - i], by simp only []; omega, by simp, ?_, ?_⟩
    · rw [List.getElem_reverse] at h1; exact h1
    · intro j z hj hz
      have hlt : j < xs.length := by
        rcases Nat.lt_or_ge j xs.length with h | h
        · exact h
        · rw [List.getElem?_eq_none h] at hz; cases hz
      have := h2 (xs.length - 1 - j) (by omega)
      rw [List.getElem_reverse] at this
      rw [List.getElem?_eq_getElem hlt] at hz
      cases hz
      have e : xs.length - 1 - (xs.length - 1 - j) = j := by omega
      simp only [e] at this
      simpa using this

theorem findIdx_occurs (v : Str) : ∀ (s : Str) (i : Nat), findIdx v s = some i → OccursAt v s i ∧ ∀ j, j < i → ¬ OccursAt v s j
  | [], i, h => by
    unfold findIdx at h
    split at h
    · next hv => cases h; exact ⟨⟨[], [], by simp [List.isEmpty_iff.1 hv], rfl⟩, fun j hj => absurd hj (Nat.not_lt_zero j)⟩
    · cases h
  | c :: s, i, h => by
    unfold findIdx at h
    split at h
    · next hv =>
      cases h
      obtain ⟨b, hb⟩ := List.isPrefixOf_iff_prefix.1 hv
      exact ⟨⟨[], b, by simp [hb], rfl⟩, fun j hj => absurd hj (Nat.not_lt_zero j)⟩
    · next hv =>
      obtain ⟨k, hk, rfl⟩ := Option.map_eq_some_iff.1 h
      obtain ⟨⟨a, b, rfl, ha⟩, h2⟩ := findIdx_occurs v s k hk
      refine ⟨⟨c :: a, b, by simp, by simp [ha]⟩, ?_⟩
      rintro j hj ⟨a', b', h3, h4⟩
      cases a' with
      | nil =>
        apply hv
        exact List.isPrefixOf_iff_prefix.2 ⟨b', by simpa using h3.symm⟩
      | cons d a' =>
        simp only [List.cons_append, List.cons.injEq] at h3
        exact h2 a'.length (by simp at h4; omega) ⟨a', b', h3.2, rfl⟩

theorem findIdx_none_occurs (v : Str) (s : Str) (h : findIdx v s = none) (k : Nat) : ¬ OccursAt v s k := by
  rintro ⟨a, b, rfl, hk⟩
  clear hk k
  induction a with
  | nil =>
    unfold findIdx at h
    split at h
    · next he => split at h; · cases h
                 · next hv => simp at he; simp [he.1] at hv
    · next c t he =>
      split at h
      · cases h
      · next hv => exact hv (List.isPrefixOf_iff_prefix.2 ⟨b, by simpa using he⟩)
  | cons c a ih =>
    simp only [List.cons_append] at h
    unfold findIdx at h
    split at h
    · cases h
    · exact ih (by simpa using h)

/-! ## Ranges -/

theorem rangeFrom_eq (step : Int) : ∀ (n : Nat) (start : Int),
    rangeFrom start step n = (List.range n).map fun k : Nat => Node.int (start + step * k)
  | 0, _ => rfl
  | n + 1, start => by
    rw [rangeFrom, rangeFrom_eq step n, List.range_succ_eq_map]
    simp only [List.map_cons, List.map_map, Int.natCast_zero, Int.mul_zero, Int.add_zero, List.cons.injEq, true_and]
    apply List.map_congr_left
    intro k _
    simp only [Function.comp, Node.int.injEq, Nat.succ_eq_add_one, Int.natCast_add, Int.mul_add]
    omega

theorem rangeLen_up (start stop step : Int) (h : 0 < step) (k : Nat) :
    k < rangeLen start stop step ↔ start + step * k < stop := by
  unfold rangeLen
  rw [if_pos h, Int.lt_toNat]
  rw [show (k : Int) < (stop - start + step - 1) / step ↔ (k : Int) + 1 ≤ (stop - start + step - 1) / step from Int.lt_iff_add_one_le ..,
    Int.le_ediv_iff_mul_le h, Int.add_mul, Int.mul_comm]
  omega

theorem rangeLen_down (start stop step : Int) (h : step < 0) (k : Nat) :
    k < rangeLen start stop step ↔ stop < start + step * k := by
  unfold rangeLen
  rw [if_neg (by omega), Int.lt_toNat]
  have h' : 0 < -step := by omega
  rw [show (k : Int) < (start - stop - step - 1) / -step ↔ (k : Int) + 1 ≤ (start - stop - step - 1) / -step from Int.lt_iff_add_one_le ..,
    Int.le_ediv_iff_mul_le h', Int.add_mul, Int.mul_neg, Int.mul_comm]
  omega

/-! ## Unique -/

theorem Spec.Same.symm {a b : Node} (h : Same a b) : Same b a := by
  induction h with
  | text h1 h2 => exact .text h2 h1
  | number h1 h2 => exact .number h2 h1
  | list h1 _ ih => exact .list h1.symm fun i a b ha hb => ih i b a hb ha

theorem Spec.Same.trans {a b c : Node} (h : Same a b) (h' : Same b c) : Same a c := by
  induction h generalizing c with
  | text h1 h2 =>
    cases h' with
    | text h3 h4 => rw [h2] at h3; cases h3; exact .text h1 h4
    | number h3 h4 => rw [text_whole h2] at h3; cases h3
    | list => simp [Node.text?] at h2
  | number h1 h2 =>
    cases h' with
    | text h3 h4 => rw [whole_text h2] at h3; cases h3
    | number h3 h4 => rw [h2] at h3; cases h3; exact .number h1 h4
    | list => simp [Node.whole?] at h2
  | @list as bs h1 _ ih =>
    cases h' with
    | text h3 h4 => simp [Node.text?] at h3
    | number h3 h4 => simp [Node.whole?] at h3
    | @list _ cs h3 h4 =>
      refine .list (h1.trans h3) fun i a c ha hc => ?_
      have hlt : i < bs.length := by
        rcases Nat.lt_or_ge i cs.length with h | h
        · omega
        · rw [List.getElem?_eq_none h] at hc; cases hc
      exact ih i a bs[i] ha (by simp) (h4 i bs[i] c (by simp) hc)

/-- A text or a whole number. -/
def Scalar (a : Node) : Prop := (∃ t, a.text? = some t) ∨ ∃ n, a.whole? = some n

theorem Scalar.datum {a : Node} (h : Scalar a) : Datum a := by
  rcases h with ⟨t, h⟩ | ⟨n, h⟩
  · exact .text h
  · exact .number h

theorem Scalar.hashable {a : Node} (h : Scalar a) : hashable a = true := by
  rcases h with ⟨t, h⟩ | ⟨n, h⟩
  · cases a <;> first | rfl | simp [Node.text?] at h
  · cases a <;> first | rfl | simp [Node.whole?] at h

theorem Scalar.value {a : Node} (h : Scalar a) : Value a := by
  rcases h with ⟨t, h⟩ | ⟨n, h⟩
  · cases a <;> first | (simp [Node.text?] at h; done) | constructor
  · cases a <;> first | (simp [Node.whole?] at h; done) | constructor

theorem Scalar.not_none {a : Node} (h : Scalar a) : a ≠ .none := by
  rintro rfl
  rcases h with ⟨t, h⟩ | ⟨n, h⟩
  · simp [Node.text?] at h
  · simp [Node.whole?] at h

/-- What `unique` keeps, and what it remembers. -/
theorem uniqueGo_spec (x : BExt) : ∀ (xs old : List Node), (∀ a ∈ xs, Scalar a) → (∀ a ∈ old, Scalar a) →
    ∃ ys old', uniqueGo x xs old = some (ys, old') ∧ FirstsOf old xs ys ∧ (∀ a ∈ old', Scalar a) ∧
      (∀ c, (∃ a ∈ old', Same a c) ↔ (∃ a ∈ old, Same a c) ∨ ∃ a ∈ xs, Same a c) := by
  intro xs
  induction xs with
  | nil =>
    intro old _ ho
    exact ⟨[], old, rfl, ⟨fun _ => true, by simp, rfl⟩, ho, by simp⟩
  | cons a xs ih =>
    intro old hx ho
    have ha := hx a (by simp)
    have hx' : ∀ b ∈ xs, Scalar b := fun b hb => hx b (by simp [hb])
    have hany : old.any (fun y => pyEq x y a) = true ↔ ∃ b ∈ old, Same b a := by
      rw [List.any_eq_true]
      constructor
      · rintro ⟨b, hb, h⟩; exact ⟨b, hb, (pyEq_iff x (ho b hb).datum ha.datum).1 h⟩
      · rintro ⟨b, hb, h⟩; exact ⟨b, hb, (pyEq_iff x (ho b hb).datum ha.datum).2 h⟩
    rw [uniqueGo, ha.hashable]
    simp only [Bool.not_true, Bool.false_eq_true, if_false]
    by_cases hin : ∃ b ∈ old, Same b a
    · rw [if_pos (hany.2 hin)]
      obtain ⟨ys, old', h1, ⟨keep, hk, hys⟩, h3, h4⟩ := ih old hx' ho
      refine ⟨ys, old', h1, ⟨fun i => if i = 0 then false else keep (i - 1), ?_, ?_⟩, h3, ?_⟩
      · intro i c hc
        cases i with
        | zero =>
          simp only [List.getElem?_cons_zero, Option.some.injEq] at hc
          subst hc
          simp only [if_true, Bool.false_eq_true, false_iff]
          rintro ⟨h, _⟩
          obtain ⟨b, hb, hs⟩ := hin
          exact h b hb hs
        | succ i =>
          simp only [List.getElem?_cons_succ] at hc
          simp only [Nat.succ_ne_zero, if_false, Nat.add_sub_cancel]
          rw [hk i c hc]
          constructor
          · rintro ⟨h5, h6⟩
            refine ⟨h5, fun j y hj hy => ?_⟩
            cases j with
            | zero =>
              simp only [List.getElem?_cons_zero, Option.some.injEq] at hy
              subst hy
              intro hs
              obtain ⟨b, hb, hb'⟩ := hin
              exact h5 b hb (hb'.trans hs)
            | succ j => exact h6 j y (by omega) (by simpa using hy)
          · rintro ⟨h5, h6⟩
            exact ⟨h5, fun j y hj hy => h6 (j + 1) y (by omega) (by simpa using hy)⟩
      · rw [hys, List.zipIdx_cons, List.zipIdx_succ]
        simp [List.filter_map, Function.comp_def, List.map_map]
      · intro c
        rw [h4 c]
        constructor
        · rintro (h | ⟨b, hb, h⟩)
          · exact .inl h
          · exact .inr ⟨b, by simp [hb], h⟩
        · rintro (h | ⟨b, hb, h⟩)
          · exact .inl h
          · rcases List.mem_cons.1 hb with rfl | hb
            · obtain ⟨d, hd, hd'⟩ := hin
              exact .inl ⟨d, hd, hd'.trans h⟩
            · exact .inr ⟨b, hb, h⟩
    · rw [if_neg (fun h => hin (hany.1 h))]
      obtain ⟨ys, old', h1, ⟨keep, hk, hys⟩, h3, h4⟩ := ih (a :: old) hx' (by
        intro b hb
        rcases List.mem_cons.1 hb with rfl | hb
        · exact ha
        · exact ho b hb)
      refine ⟨a :: ys, old', by rw [h1]; rfl, ⟨fun i => if i = 0 then true else keep (i - 1), ?_, ?_⟩, h3, ?_⟩
      · intro i c hc
        cases i with
        | zero =>
          simp only [List.getElem?_cons_zero, Option.some.injEq] at hc
          subst hc
          simp only [if_true, true_iff]
          exact ⟨fun b hb hs => hin ⟨b, hb, hs⟩, fun j _ hj => absurd hj (Nat.not_lt_zero j)⟩
        | succ i =>
          simp only [List.getElem?_cons_succ] at hc
          simp only [Nat.succ_ne_zero, if_false, Nat.add_sub_cancel]
          rw [hk i c hc]
          constructor
          · rintro ⟨h5, h6⟩
            refine ⟨fun b hb => h5 b (by simp [hb]), fun j y hj hy => ?_⟩
            cases j with
            | zero =>
              simp only [List.getElem?_cons_zero, Option.some.injEq] at hy
              subst hy
              exact h5 a (by simp)
            | succ j => exact h6 j y (by omega) (by simpa using hy)
          · rintro ⟨h5, h6⟩
            refine ⟨fun b hb => ?_, fun j y hj hy => h6 (j + 1) y (by omega) (by simpa using hy)⟩
            rcases List.mem_cons.1 hb with rfl | hb
            · exact h6 0 b (by omega) (by simp)
            · exact h5 b hb
      · rw [hys, List.zipIdx_cons, List.zipIdx_succ]
        simp [List.filter_map, Function.comp_def, List.map_map]
      · intro c
        rw [h4 c]
        constructor
        · rintro (⟨b, hb, h⟩ | ⟨b, hb, h⟩)
          · rcases List.mem_cons.1 hb with rfl | hb
            · exact .inr ⟨b, by simp, h⟩
            · exact .inl ⟨b, hb, h⟩
          · exact .inr ⟨b, by simp [hb], h⟩
        · rintro (⟨b, hb, h⟩ | ⟨b, hb, h⟩)
          · exact .inl ⟨b, by simp [hb], h⟩
          · rcases List.mem_cons.1 hb with rfl | hb
            · exact .inl ⟨b, by simp, h⟩
            · exact .inr ⟨b, hb, h⟩

end Yupp
