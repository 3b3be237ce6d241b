import Verif.Spec.Sequence
import Verif.Props.Texts
import Verif.Props.Arith
/-!
# C85 — Sequences
-/

namespace Yupp

open Spec

variable {e : EEnv} {x : BExt} {l loc : Option Loc} {args : List Node} {s s' : ESt}

/-- **C85**. `$add` and `$concat` put a text behind a text. -/
theorem C85_concat_text {f : Str} (hf : f = lit "add" ∨ f = lit "concat") (hs : Standard e x f) (hu : Unbound f s) {a b : Node}
    {t u : Str} (ha : Args e args s [a, b] s') (ht : a.text? = some t) (hv : b.text? = some u) :
    Evaluates e (fnCall f l loc args) s (.pstr (t ++ u)) s' := by
  rcases hf with rfl | rfl <;>
    exact ev_call (v := .pstr (t ++ u)) (seen := s'.seen) hs hu ha (by simp [areTerms, text_isTerm ht, text_isTerm hv])
      (by simp [builtinCall, textCall, moreCall, lit, seqAdd, ht, hv])

/-- **C85**. And a list behind a list. -/
theorem C85_concat_list {f : Str} (hf : f = lit "add" ∨ f = lit "concat") (hs : Standard e x f) (hu : Unbound f s)
    {as bs : List Node} (ha : Args e args s [.list as, .list bs] s') (h1 : Value (.list as)) (h2 : Value (.list bs)) :
    Evaluates e (fnCall f l loc args) s (.list (as ++ bs)) s' := by
  rcases hf with rfl | rfl <;>
    exact ev_call (v := .list (as ++ bs)) (seen := s'.seen) hs hu ha (list_terms2 h1 h2)
      (by simp [builtinCall, textCall, moreCall, lit, seqAdd, Node.text?, Node.asList])

/-- **C85**. `$contains` of a list: 1 if an item is the same value, otherwise 0. -/
theorem C85_contains (hs : Standard e x (lit "contains")) (hu : Unbound (lit "contains") s) (xs : List Node) (w : Node)
    (ha : Args e args s [.list xs, w] s') (hx : Value (.list xs)) (hw : Value w) (hd : ∀ a ∈ xs, Datum a) (hdw : Datum w) :
    Evaluates e (fnCall (lit "contains") l loc args) s (truth (∃ a ∈ xs, Same w a)) s' := by
  rw [← callResult_bool (b := xs.any (pyEq x w)) (by
    rw [List.any_eq_true]
    exact ⟨fun ⟨a, h1, h2⟩ => ⟨a, h1, (pyEq_iff x hdw (hd a h1)).1 h2⟩, fun ⟨a, h1, h2⟩ => ⟨a, h1, (pyEq_iff x hdw (hd a h1)).2 h2⟩⟩)]
  exact ev_call (seen := s'.seen) hs hu ha (list_terms2 hx hw)
    (by simp [builtinCall, textCall, moreCall, lit, bContains, Node.text?, Node.asList])

/-- **C85**. `$contains` of a text: 1 if the other text occurs in it, otherwise 0. -/
theorem C85_contains_text (hs : Standard e x (lit "contains")) (hu : Unbound (lit "contains") s) {a v : Node} {t u : Str}
    (ha : Args e args s [a, v] s') (ht : a.text? = some t) (hv : v.text? = some u) :
    Evaluates e (fnCall (lit "contains") l loc args) s (truth (∃ k, OccursAt u t k)) s' := by
  rw [← callResult_bool (b := (findIdx u t).isSome) (by
    cases hf : findIdx u t with
    | none => simp [findIdx_none_occurs u t hf]
    | some k => simp only [Option.isSome_some, true_iff]; exact ⟨k, (findIdx_occurs u t k hf).1⟩)]
  exact ev_call (seen := s'.seen) hs hu ha (by simp [areTerms, text_isTerm ht, text_isTerm hv])
    (by simp [builtinCall, textCall, moreCall, lit, bContains, ht, hv])

/-- **C85**. To look for anything but a text in a text is an error. -/
theorem C85_contains_fails (hs : Standard e x (lit "contains")) (hu : Unbound (lit "contains") s) {a v : Node} {t : Str}
    (ha : Args e args s [a, v] s') (ht : a.text? = some t) (hw : Value v) (hv : v.text? = none) :
    Raises e (fnCall (lit "contains") l loc args) s := by
  refine ev_call_err hs hu ha ?_ (by simp [builtinCall, textCall, moreCall, lit, bContains, ht, hv])
  have := text_isTerm ht
  simp only [areTerms, this, Bool.and_true, Bool.true_and]
  exact value_term hw

theorem pyItem_at {α : Type} {xs : List α} {k : Int} {i : Nat} (h : Counts xs.length k i) : pyItem k xs = xs[i]? := by
  obtain ⟨h1, rfl | rfl⟩ := h
  · simp [pyItem]
  · unfold pyItem
    rw [if_neg (by omega), if_pos (by omega), show xs.length - (-((i : Int) - xs.length)).toNat = i by omega]

theorem pyItem_outside {α : Type} {xs : List α} {k : Int} (h : ∀ i, ¬ Counts xs.length k i) : pyItem k xs = none := by
  unfold pyItem
  split
  · have : ¬ k.toNat < xs.length := fun h1 => h k.toNat ⟨h1, .inl (by omega)⟩
    exact List.getElem?_eq_none (by omega)
  · split
    · exact absurd ⟨by omega, .inr (by omega)⟩ (h (xs.length - (-k).toNat))
    · rfl

/-- **C85**. `$getitem` of a list. (Texts become plain ones, truth values numbers, as in the result of any function.) -/
theorem C85_getitem (hs : Standard e x (lit "getitem")) (hu : Unbound (lit "getitem") s) {xs : List Node} {b : Node} {k : Int} {i : Nat}
    (ha : Args e args s [.list xs, b] s') (hx : Value (.list xs)) (hk : b.whole? = some k) (hi : Counts xs.length k i) :
    ∃ y v, xs[i]? = some y ∧ Evaluates e (fnCall (lit "getitem") l loc args) s v s' ∧
      (∀ t, y.text? = some t → v = .pstr t) ∧ (∀ n, y.whole? = some n → v = .int n) ∧ (∀ ys, y = .list ys → v = .list ys) := by
  obtain ⟨y, hy⟩ : ∃ y, xs[i]? = some y := ⟨xs[i]'hi.1, List.getElem?_eq_getElem hi.1⟩
  refine ⟨y, callResult y, hy, ev_call (seen := s'.seen) hs hu ha ?_ ?_, ?_, ?_, ?_⟩
  · simp only [areTerms, whole_term hk, Bool.and_true]; exact value_term hx
  · simp [builtinCall, textCall, moreCall, lit, bGetitem, hk, Node.asList, pyItem_at hi, hy]
  · intro t ht; cases y <;> simp_all [Node.text?, callResult, strResult]
  · intro n hn
    cases y <;> simp_all [Node.whole?, callResult, strResult]
  · rintro ys rfl; rfl

/-- **C85**. `$getitem` of a text is the text of one character. -/
theorem C85_getitem_text (hs : Standard e x (lit "getitem")) (hu : Unbound (lit "getitem") s) {a b : Node} {t : Str} {k : Int} {i : Nat}
    (ha : Args e args s [a, b] s') (ht : a.text? = some t) (hk : b.whole? = some k) (hi : Counts t.length k i) :
    ∃ c, t[i]? = some c ∧ Evaluates e (fnCall (lit "getitem") l loc args) s (.pstr [c]) s' := by
  obtain ⟨y, hy⟩ : ∃ y, t[i]? = some y := ⟨t[i]'hi.1, List.getElem?_eq_getElem hi.1⟩
  exact ⟨y, hy, ev_call (v := .pstr [y]) (seen := s'.seen) hs hu ha (by simp [areTerms, text_isTerm ht, whole_term hk])
    (by simp [builtinCall, textCall, moreCall, lit, bGetitem, hk, text_list ht, ht, pyItem_at hi, hy])⟩

/-- **C85**. A position outside the sequence is an error. (Of `$getslice` it is not, C75.) -/
theorem C85_getitem_outside (hs : Standard e x (lit "getitem")) (hu : Unbound (lit "getitem") s) {a b : Node} {k : Int}
    (ha : Args e args s [a, b] s') (hv : Value a) (hk : b.whole? = some k)
    (hi : (∃ xs, a = .list xs ∧ ∀ i, ¬ Counts xs.length k i) ∨ (∃ t, a.text? = some t ∧ ∀ i, ¬ Counts t.length k i)) :
    Raises e (fnCall (lit "getitem") l loc args) s := by
  refine ev_call_err hs hu ha ?_ ?_
  · simp only [areTerms, whole_term hk, Bool.and_true]; exact value_term hv
  · rcases hi with ⟨xs, rfl, h⟩ | ⟨t, ht, h⟩
    · simp [builtinCall, textCall, moreCall, lit, bGetitem, hk, Node.asList, pyItem_outside h]
    · simp [builtinCall, textCall, moreCall, lit, bGetitem, hk, text_list ht, ht, pyItem_outside h]

/-- **C85**. `$len`: how many items, how many characters. -/
theorem C85_len (hs : Standard e x (lit "len")) (hu : Unbound (lit "len") s) {xs : List Node} (ha : Args e args s [.list xs] s')
    (hx : Value (.list xs)) : Evaluates e (fnCall (lit "len") l loc args) s (.int xs.length) s' :=
  ev_call (v := .int xs.length) (seen := s'.seen) hs hu ha (list_terms hx) (by simp [builtinCall, lit, Node.asList])

theorem C85_len_text (hs : Standard e x (lit "len")) (hu : Unbound (lit "len") s) {a : Node} {t : Str} (ha : Args e args s [a] s')
    (ht : a.text? = some t) : Evaluates e (fnCall (lit "len") l loc args) s (.int t.length) s' :=
  ev_call (v := .int t.length) (seen := s'.seen) hs hu ha (text_term ht) (by simp [builtinCall, lit, ht, text_list ht])

/-- **C85**. `$len` of a number is an error. -/
theorem C85_len_fails (hs : Standard e x (lit "len")) (hu : Unbound (lit "len") s) {a : Node} {n : Int} (ha : Args e args s [a] s')
    (hn : a.whole? = some n) : Raises e (fnCall (lit "len") l loc args) s := by
  have ht : a.text? = none := by cases a <;> simp_all [Node.whole?, Node.text?]
  exact ev_call_err hs hu ha (by simp [areTerms, whole_term hn]) (by simp [builtinCall, lit, ht, whole_list hn])

/-- **C85**. `$list`: the list of its arguments. -/
theorem C85_list (hs : Standard e x (lit "list")) (hu : Unbound (lit "list") s) {vs : List Node} (ha : Args e args s vs s')
    (hv : ∀ v ∈ vs, Value v) : Evaluates e (fnCall (lit "list") l loc args) s (.list vs) s' :=
  ev_call (v := .list vs) (seen := s'.seen) hs hu ha (values_terms hv) (by simp [builtinCall, lit])

/-- **C85**. `$islist`: 1 for a list, 0 for any other value. -/
theorem C85_islist (hs : Standard e x (lit "islist")) (hu : Unbound (lit "islist") s) {a : Node} (ha : Args e args s [a] s')
    (hv : Value a) : Evaluates e (fnCall (lit "islist") l loc args) s (truth (∃ xs, a = .list xs)) s' := by
  rw [← callResult_bool (b := a.asList.isSome) (by cases hv <;> simp [Node.asList])]
  exact ev_call (seen := s'.seen) hs hu ha (values_terms (fun v h => by rw [List.mem_singleton] at h; subst h; exact hv))
    (by simp [builtinCall, lit])

theorem rfind_some (t : Str) : ∀ (s : Str) (i : Nat), rfindIdx t s = some i → OccursAt t s i ∧ ∀ j, i < j → ¬ OccursAt t s j
  | [], i, h => by
    simp only [rfindIdx] at h
    split at h
    · next h0 =>
      cases h; subst h0
      refine ⟨⟨[], [], rfl, rfl⟩, fun j hj ⟨a, b, h1, h2⟩ => ?_⟩
      have := congrArg List.length h1
      simp at this; omega
    · cases h
  | c :: s, i, h => by
    simp only [rfindIdx] at h
    cases hr : rfindIdx t s with
    | some k =>
      rw [hr] at h; cases h
      obtain ⟨⟨a, b, h1, h2⟩, h3⟩ := rfind_some t s k hr
      refine ⟨⟨c :: a, b, by rw [h1]; rfl, by simp [h2]⟩, fun j hj ⟨a', b', h4, h5⟩ => ?_⟩
      cases a' with
      | nil => simp at h5; omega
      | cons d a' =>
        simp only [List.cons_append, List.cons.injEq] at h4
        exact h3 (j - 1) (by omega) ⟨a', b', h4.2, by simp at h5; omega⟩
    | none =>
      rw [hr] at h
      simp only at h
      split at h
      · next hp =>
        cases h
        rw [List.isPrefixOf_iff_prefix] at hp
        obtain ⟨b, hb⟩ := hp
        refine ⟨⟨[], b, by simp [hb], rfl⟩, fun j hj ⟨a', b', h4, h5⟩ => ?_⟩
        cases a' with
        | nil => simp at h5; omega
        | cons d a' =>
          simp only [List.cons_append, List.cons.injEq] at h4
          exact rfind_none t s hr _ ⟨a', b', h4.2, rfl⟩
      · cases h
where
  rfind_none (t : Str) : ∀ (s : Str), rfindIdx t s = none → ∀ k, ¬ OccursAt t s k
  | [], h, k => by
    simp only [rfindIdx] at h
    split at h
    · cases h
    · next h0 =>
      rintro ⟨a, b, h1, -⟩
      have := congrArg List.length h1
      simp at this
      exact h0 (List.eq_nil_of_length_eq_zero (by omega))
  | c :: s, h, k => by
    simp only [rfindIdx] at h
    cases hr : rfindIdx t s with
    | some k => rw [hr] at h; cases h
    | none =>
      rw [hr] at h
      simp only at h
      split at h
      · cases h
      · next hp =>
        rintro ⟨a, b, h1, -⟩
        cases a with
        | nil => exact hp (by rw [List.isPrefixOf_iff_prefix, h1]; exact ⟨b, by simp⟩)
        | cons d a =>
          simp only [List.cons_append, List.cons.injEq] at h1
          exact rfind_none t s hr _ ⟨a, b, h1.2, rfl⟩

/-- **C85**. `$rfind`: the highest position at which the text occurs, or -1. -/
theorem C85_rfind (hs : Standard e x (lit "rfind")) (hu : Unbound (lit "rfind") s) {a v : Node} {t u : Str}
    (ha : Args e args s [a, v] s') (ht : a.text? = some t) (hv : v.text? = some u) :
    ∃ i : Int, Evaluates e (fnCall (lit "rfind") l loc args) s (.int i) s' ∧
      ((∃ k : Nat, i = k ∧ OccursAt u t k ∧ ∀ j, k < j → ¬ OccursAt u t j) ∨ (i = -1 ∧ ∀ k, ¬ OccursAt u t k)) := by
  refine ⟨_, ev_call hs hu ha (by simp [areTerms, text_isTerm ht, text_isTerm hv])
    (by simp [builtinCall, textCall, moreCall, lit, bText2, ht, hv]; exact ⟨rfl, rfl⟩), ?_⟩
  cases hf : rfindIdx u t with
  | none => exact .inr ⟨rfl, rfind_some.rfind_none u t hf⟩
  | some k => exact .inl ⟨k, rfl, (rfind_some u t k hf).1, (rfind_some u t k hf).2⟩

/-- `($getitem [abc] -1)` is `c`, `($getitem [abc] 3)` fails, `($rfind [abab] [ab])` is 2. -/
example (pe : PEnv) (s : ESt) (h : s.env = []) :
    Evaluates (stdEnv x pe) (fnCall (lit "getitem") none none [.pstr ['a', 'b', 'c'], .int (-1)]) s (.pstr ['c']) s ∧
    Raises (stdEnv x pe) (fnCall (lit "getitem") none none [.pstr ['a', 'b', 'c'], .int 3]) s ∧
    Evaluates (stdEnv x pe) (fnCall (lit "rfind") none none [.pstr ['a', 'b', 'a', 'b'], .pstr ['a', 'b']]) s (.int 2) s := by
  have hu : ∀ f, Unbound f s := fun f => by unfold Unbound; rw [h]; rfl
  refine ⟨?_, C85_getitem_outside (stdEnv_standard x pe _) (hu _) (two_values (.pstr _) (.int _) (by simp) (by simp) s) (.pstr _) rfl
    (.inr ⟨_, rfl, fun i ⟨h1, h2⟩ => by simp at h1 h2; omega⟩), ?_⟩
  · obtain ⟨c, h1, h2⟩ := C85_getitem_text (l := none) (loc := none) (i := 2) (stdEnv_standard x pe _) (hu _)
      (two_values (.pstr ['a', 'b', 'c']) (.int (-1)) (by simp) (by simp) s) rfl rfl ⟨by decide, .inr rfl⟩
    cases h1; exact h2
  · obtain ⟨i, h1, ⟨k, rfl, h2, h3⟩ | ⟨-, h2⟩⟩ := C85_rfind (l := none) (loc := none) (stdEnv_standard x pe _) (hu _)
      (two_values (.pstr ['a', 'b', 'a', 'b']) (.pstr ['a', 'b']) (by simp) (by simp) s) rfl rfl
    · have h4 : ¬ k < 2 := fun h4 => h3 2 h4 ⟨['a', 'b'], [], rfl, rfl⟩
      have h5 : k ≤ 2 := by
        obtain ⟨a, b, h5, h6⟩ := h2
        have := congrArg List.length h5
        simp at this; omega
      rw [show k = 2 by omega] at h1; exact h1
    · exact absurd ⟨['a', 'b'], [], rfl, rfl⟩ (h2 2)

end Yupp
