import Verif.Spec.Texts
import Verif.Lemmas.Builtin
/-!
# Texts in pieces, slices
-/

namespace Yupp

open Spec

/-! ## Pieces -/

theorem occursAt_zero {v s : Str} : OccursAt v s 0 ↔ v.isPrefixOf s = true := by
  rw [List.isPrefixOf_iff_prefix]
  constructor
  · rintro ⟨a, b, h, ha⟩
    rw [List.length_eq_zero_iff] at ha
    subst ha
    exact ⟨b, by simpa using h.symm⟩
  · rintro ⟨b, h⟩
    exact ⟨[], b, by simpa using h.symm, rfl⟩

theorem occursAt_succ {v s : Str} {c : Char} {k : Nat} : OccursAt v (c :: s) (k + 1) ↔ OccursAt v s k := by
  constructor
  · rintro ⟨a, b, h, ha⟩
    cases a with
    | nil => cases ha
    | cons d a =>
      simp only [List.cons_append, List.cons.injEq] at h
      exact ⟨a, b, h.2, by simpa using ha⟩
  · rintro ⟨a, b, h, ha⟩
    exact ⟨c :: a, b, by simp [h], by simp [ha]⟩

theorem splitGo_skip (sep : Str) : ∀ (k : Nat) (cur t : Str), splitGo sep k cur t = splitGo sep 0 cur (t.drop k)
  | 0, _, _ => rfl
  | k + 1, cur, [] => by simp [splitGo]
  | k + 1, cur, c :: t => by simp only [splitGo, List.drop_succ_cons]; exact splitGo_skip sep k cur t

theorem replaceGo_drop (old new : Str) : ∀ (k : Nat) (t : Str), replaceGo old new k t = replaceGo old new 0 (t.drop k)
  | 0, _ => rfl
  | k + 1, [] => by simp [replaceGo]
  | k + 1, c :: t => by simp only [replaceGo, List.drop_succ_cons]; exact replaceGo_drop old new k t

theorem splitGo_pieces {sep : Str} (hs : sep ≠ []) : ∀ (n : Nat) (t : Str), t.length ≤ n →
    ∃ a ps, (∀ cur, splitGo sep 0 cur t = (cur ++ a) :: ps) ∧ Pieces sep t (a :: ps) := by
  have hlen : 1 ≤ sep.length := by cases sep with | nil => exact absurd rfl hs | cons => simp
  intro n
  induction n with
  | zero =>
    intro t ht
    have : t = [] := List.length_eq_zero_iff.1 (by omega)
    subst this
    refine ⟨[], [], fun cur => by simp [splitGo], .last ?_⟩
    rintro k ⟨a, b, h, -⟩
    have := congrArg List.length h
    simp at this
    omega
  | succ n ih =>
    intro t ht
    cases t with
    | nil =>
      refine ⟨[], [], fun cur => by simp [splitGo], .last ?_⟩
      rintro k ⟨a, b, h, -⟩
      have := congrArg List.length h
      simp at this
      omega
    | cons c t =>
      by_cases hp : sep.isPrefixOf (c :: t) = true
      · obtain ⟨r, hr⟩ := List.isPrefixOf_iff_prefix.1 hp
        have hdrop : t.drop (sep.length - 1) = r := by
          cases sep with
          | nil => exact absurd rfl hs
          | cons d sep =>
            simp only [List.cons_append, List.cons.injEq] at hr
            rw [← hr.2]
            simp
        have hrl : r.length ≤ n := by
          have := congrArg List.length hr
          simp at this ht
          omega
        obtain ⟨a, ps, h1, h2⟩ := ih r hrl
        refine ⟨[], a :: ps, fun cur => ?_, ?_⟩
        · unfold splitGo
          rw [if_pos hp, splitGo_skip, hdrop, h1]
          simp
        · have := Pieces.cut (sep := sep) (a := []) (r := r) (by simp) h2
          simpa [hr] using this
      · obtain ⟨a, ps, h1, h2⟩ := ih t (by simp at ht; omega)
        refine ⟨c :: a, ps, fun cur => ?_, ?_⟩
        · unfold splitGo
          rw [if_neg hp, h1]
          simp
        · cases h2 with
          | last h =>
            refine .last fun k => ?_
            cases k with
            | zero => rw [occursAt_zero]; exact hp
            | succ k => rw [occursAt_succ]; exact h k
          | @cut _ r _ h h2 =>
            have := Pieces.cut (sep := sep) (a := c :: a) (r := r) (fun j hj => ?_) h2
            · simpa using this
            · have he : c :: a ++ sep ++ r = c :: (a ++ sep ++ r) := by simp
              rw [he]
              cases j with
              | zero => rw [occursAt_zero]; exact hp
              | succ j => rw [occursAt_succ]; exact h j (by simpa using hj)

theorem splitStr_pieces {sep : Str} (hs : sep ≠ []) (t : Str) : Pieces sep t (splitStr sep t) := by
  obtain ⟨a, ps, h1, h2⟩ := splitGo_pieces hs _ t (Nat.le_refl _)
  unfold splitStr
  rw [h1]
  exact h2

theorem joinStr_joined (sep : Str) : ∀ ps, Joined sep ps (joinStr sep ps)
  | [] => .none
  | [a] => .one a
  | a :: b :: bs => .more (joinStr_joined sep (b :: bs))

theorem joined_unique {sep : Str} {ps : List Str} {t u : Str} (h : Joined sep ps t) (h' : Joined sep ps u) : t = u := by
  induction h generalizing u with
  | none => cases h'; rfl
  | one => cases h'; rfl
  | more _ ih => cases h' with | more h' => rw [ih h']

/-- The pieces joined again. -/
theorem pieces_joined {sep t : Str} {ps : List Str} (h : Pieces sep t ps) : Joined sep ps t := by
  induction h with
  | last => exact .one _
  | cut _ h2 ih =>
    cases h2 with
    | last => exact .more ih
    | cut => exact .more ih

theorem pieces_unique {sep t : Str} {ps qs : List Str} (h : Pieces sep t ps) (h' : Pieces sep t qs) : ps = qs := by
  induction h generalizing qs with
  | last h =>
    cases h' with
    | last => rfl
    | @cut a r _ _ _ => exact absurd ⟨a, r, rfl, rfl⟩ (h a.length)
  | @cut a r ps h h2 ih =>
    generalize ht : a ++ sep ++ r = u at h'
    cases h' with
    | last hn => exact absurd ⟨a, r, ht.symm, rfl⟩ (hn a.length)
    | @cut a' r' qs hn h2' =>
      have hl : a.length = a'.length := by
        rcases Nat.lt_trichotomy a.length a'.length with hlt | heq | hlt
        · exact absurd ⟨a, r, ht.symm, rfl⟩ (hn _ hlt)
        · exact heq
        · exact absurd ⟨a', r', ht, rfl⟩ (h _ hlt)
      rw [List.append_assoc, List.append_assoc] at ht
      obtain ⟨rfl, h3⟩ := List.append_inj ht hl
      rw [List.append_cancel_left_eq] at h3
      subst h3
      rw [ih h2']

theorem joinStr_more (sep : Str) (cur a : Str) (ps : List Str) : joinStr sep ((cur ++ a) :: ps) = cur ++ joinStr sep (a :: ps) := by
  cases ps <;> simp [joinStr]

theorem replace_split {old : Str} (hs : old ≠ []) (new : Str) : ∀ (n : Nat) (t : Str), t.length ≤ n →
    replaceGo old new 0 t = joinStr new (splitGo old 0 [] t) := by
  have hlen : 1 ≤ old.length := by cases old with | nil => exact absurd rfl hs | cons => simp
  intro n
  induction n with
  | zero =>
    intro t ht
    have : t = [] := List.length_eq_zero_iff.1 (by omega)
    subst this
    simp [replaceGo, splitGo, joinStr]
  | succ n ih =>
    intro t ht
    cases t with
    | nil => simp [replaceGo, splitGo, joinStr]
    | cons c t =>
      unfold replaceGo splitGo
      by_cases hp : old.isPrefixOf (c :: t) = true
      · rw [if_pos hp, if_pos hp, replaceGo_drop, splitGo_skip, ih _ (by simp at ht ⊢; omega)]
        obtain ⟨a, ps, h1, -⟩ := splitGo_pieces hs _ (t.drop (old.length - 1)) (Nat.le_refl _)
        rw [h1]
        simp [joinStr]
      · rw [if_neg hp, if_neg hp, ih t (by simp at ht; omega)]
        obtain ⟨a, ps, h1, -⟩ := splitGo_pieces hs _ t (Nat.le_refl _)
        rw [h1, h1, List.nil_append, List.nil_append, joinStr_more]
        rfl

/-! ## Words -/

theorem wordsGo_words : ∀ (t : Str), (∀ cur, cur ≠ [] → (∀ c ∈ cur, isSpace c = false) → Words (cur ++ t) (wordsGo cur t)) ∧
    ∀ a, (∀ c ∈ a, isSpace c = true) → Words (a ++ t) (wordsGo [] t) := by
  intro t
  induction t with
  | nil =>
    refine ⟨fun cur h0 h => ?_, fun a h => .blank (by simpa using h)⟩
    have := Words.word (a := []) (w := cur) (r := []) (ws := []) (by simp) h0 h (by simp) (.blank (by simp))
    cases cur with
    | nil => exact absurd rfl h0
    | cons => simpa [wordsGo, pieceStr] using this
  | cons c t ih =>
    refine ⟨fun cur h0 h => ?_, fun a h => ?_⟩
    · unfold wordsGo
      by_cases hc : isSpace c = true
      · rw [if_pos hc]
        have h2 := ih.2 [c] (by simpa using hc)
        have := Words.word (a := []) (w := cur) (r := c :: t) (by simp) h0 h (by simpa using hc) h2
        cases cur with
        | nil => exact absurd rfl h0
        | cons => simpa [pieceStr] using this
      · rw [if_neg hc]
        have := ih.1 (cur ++ [c]) (by simp) (by simpa [or_imp, forall_and] using ⟨h, eq_false_of_ne_true hc⟩)
        simpa using this
    · unfold wordsGo
      by_cases hc : isSpace c = true
      · rw [if_pos hc]
        have := ih.2 (a ++ [c]) (by simpa [or_imp, forall_and] using ⟨h, hc⟩)
        simpa [pieceStr] using this
      · rw [if_neg hc]
        have h1 := ih.1 [c] (by simp) (by simpa using hc)
        simp only [List.nil_append] at h1 ⊢
        generalize hw : wordsGo [c] t = ws at h1
        generalize hu : [c] ++ t = u at h1
        have hu' : c :: t = u := hu
        rw [hu']
        cases h1 with
        | blank h1 =>
          exact absurd (h1 c (by rw [← hu]; simp)) hc
        | @word b w r ws h1 h2 h3 h4 h5 =>
          have : b = [] := by
            cases b with
            | nil => rfl
            | cons d b =>
              simp at hu
              exact absurd (h1 d (by simp)) (by rw [← hu.1]; exact hc)
          subst this
          have := Words.word (a := a) h h2 h3 h4 h5
          simpa using this

theorem wordsStr_words (t : Str) : Words t (wordsStr t) := (wordsGo_words t).2 [] (by simp)

/-! ## Ends -/

theorem dropWhile_head {p : Char → Bool} {t : Str} {c : Char} (h : (t.dropWhile p).head? = some c) : p c = false := by
  have := List.head?_dropWhile_not p t
  rw [h] at this
  simpa using this

theorem lstripBy_stripped (p : Char → Bool) (t : Str) : Stripped (fun c => p c = true) true false t (lstripBy p t) := by
  refine ⟨t.takeWhile p, [], by simp [lstripBy], fun c hc => ?_, by simp, ?_, rfl⟩
  · exact List.all_eq_true.1 List.all_takeWhile c hc
  · intro c hc
    simp [dropWhile_head hc]

theorem rstripBy_stripped (p : Char → Bool) (t : Str) : Stripped (fun c => p c = true) false true t (rstripBy p t) := by
  refine ⟨[], (t.reverse.takeWhile p).reverse, ?_, by simp, fun c hc => ?_, rfl, ?_⟩
  · have := congrArg List.reverse (List.takeWhile_append_dropWhile (p := p) (l := t.reverse))
    rw [List.reverse_append, List.reverse_reverse] at this
    simpa [rstripBy] using this.symm
  · exact List.all_eq_true.1 (List.all_takeWhile (l := t.reverse)) c (List.mem_reverse.1 hc)
  · intro c hc
    unfold rstripBy at hc
    rw [List.getLast?_reverse] at hc
    simp [dropWhile_head hc]

theorem stripBy_stripped (p : Char → Bool) (t : Str) : Stripped (fun c => p c = true) true true t (stripBy p t) := by
  obtain ⟨a, b, h1, h2, h3, h4, h5⟩ := lstripBy_stripped p t
  obtain ⟨a', b', h1', h2', h3', h4', h5'⟩ := rstripBy_stripped p (lstripBy p t)
  simp at h4 h5 h4' h5'
  subst h5 h4'
  refine ⟨a, b', ?_, h2, h3', ?_, ?_⟩
  · unfold stripBy
    rw [List.append_assoc, ← (show lstripBy p t = rstripBy p (lstripBy p t) ++ b' by simpa using h1')]
    simpa using h1
  · intro c hc
    simp only [Bool.not_eq_true]
    apply h4
    rw [show lstripBy p t = stripBy p t ++ b' by simpa [stripBy] using h1']
    cases hs : stripBy p t with
    | nil => rw [hs] at hc; cases hc
    | cons d u => rw [hs] at hc; simpa using hc
  · intro c hc
    simp only [Bool.not_eq_true]
    exact h5' c hc

/-! ## Slices -/

theorem sliceBound_position (n : Nat) (i : Int) : Position n i (sliceBound n i) := by
  unfold sliceBound
  by_cases h : i < 0
  · rw [if_pos h]
    by_cases h2 : i < -(n : Int)
    · have : (i + n).toNat = 0 := by omega
      rw [this]; exact .before i h2
    · obtain ⟨k, hk⟩ : ∃ k : Nat, i = -(k : Int) := ⟨i.natAbs, by omega⟩
      subst hk
      have : (-(k : Int) + n).toNat = n - k := by omega
      rw [this]
      exact .fromEnd k (by omega) (by omega)
  · rw [if_neg h]
    obtain ⟨k, rfl⟩ : ∃ k : Nat, i = (k : Int) := ⟨i.toNat, by omega⟩
    by_cases h2 : k ≤ n
    · have : min (Int.toNat (k : Int)) n = k := by simp; omega
      rw [this]; exact .inside k h2
    · have : min (Int.toNat (k : Int)) n = n := by simp; omega
      rw [this]; exact .beyond _ (by omega)

theorem sliceBound_le (n : Nat) (i : Int) : sliceBound n i ≤ n := by
  unfold sliceBound
  by_cases h : i < 0
  · rw [if_pos h]; omega
  · rw [if_neg h]; omega

theorem between_drop_take {α : Type} (xs : List α) (i j : Nat) (hj : j ≤ xs.length) : Between xs i j ((xs.take j).drop i) := by
  refine ⟨by simp [Nat.min_eq_left hj], fun k hk => ?_⟩
  rw [List.getElem?_drop, List.getElem?_take, if_pos (by omega)]

end Yupp
