import Verif.Lemmas.Src
import Verif.Spec.Lexeme
/-!
# Scanning names and gaps
-/

namespace Yupp

theorem isLetter_iff (c : Char) : isLetter c = true ↔ NameStart c := by
  unfold isLetter NameStart
  simp only [Bool.or_eq_true, Bool.and_eq_true, decide_eq_true_eq, beq_iff_eq, or_assoc]

theorem isName_iff (c : Char) : (isLetter c || isFigure c) = true ↔ NameChar c := by
  unfold NameChar isFigure isDig
  rw [← isLetter_iff]
  simp only [Bool.or_eq_true, Bool.and_eq_true, decide_eq_true_eq, beq_iff_eq]

theorem isGap_iff (c : Char) : isGap c = true ↔ GapChar c := by
  unfold isGap isEol isBlank GapChar
  simp only [Bool.or_eq_true, beq_iff_eq]
  grind

theorem spanLen_append (f : Char → Bool) (a b : Str) (ha : ∀ x ∈ a, f x = true)
    (hb : ∀ c, b.head? = some c → f c = false) : spanLen f (a ++ b) = a.length := by
  unfold spanLen
  induction a with
  | nil =>
    cases b with
    | nil => rfl
    | cons c b => simp [hb c rfl]
  | cons x a ih =>
    simp only [List.cons_append, List.takeWhile_cons, ha x List.mem_cons_self, if_true, List.length_cons]
    rw [ih (fun y hy => ha y (List.mem_cons_of_mem _ hy))]

theorem psGap_append {s : Src} {g r : Str} (hs : s.txt = g ++ r) (hg : IsGap g) (hr : NoGap r) :
    psGap s = s.drop g.length := by
  unfold psGap
  rw [hs, spanLen_append isGap g r (fun x hx => (isGap_iff x).mpr (hg x hx))
    (fun c hc => by
      cases h : isGap c with
      | false => rfl
      | true => exact absurd ((isGap_iff c).mp h) (hr c hc))]

theorem atomLen_append {a r : Str} (ha : IsName a) (hr : NoName r) : atomLen (a ++ r) = a.length := by
  obtain ⟨c, t, rfl, hc, ht⟩ := ha
  simp only [List.cons_append, atomLen, (isLetter_iff c).mpr hc, if_true, List.length_cons]
  rw [spanLen_append _ t r (fun x hx => (isName_iff x).mpr (ht x hx))
    (fun c hc => by
      cases h : (isLetter c || isFigure c) with
      | false => rfl
      | true => exact absurd ((isName_iff c).mp h) (hr c hc))]
  omega

theorem psAtom_append {s : Src} {a r : Str} (hs : s.txt = a ++ r) (ha : IsName a) (hr : NoName r) :
    psAtom s = (s.drop a.length, some (s.take a.length)) := by
  unfold psAtom
  simp only [hs, atomLen_append ha hr]
  obtain ⟨c, t, rfl, -, -⟩ := ha
  rw [if_neg (by simp)]

theorem psAtom_none_of {s : Src} (h : ∀ c, s.txt.head? = some c → ¬ NameStart c) : psAtom s = (s, none) := by
  unfold psAtom
  have : atomLen s.txt = 0 := by
    unfold atomLen
    split
    · rfl
    · rename_i c t hs
      rw [hs] at h
      rw [if_neg]
      intro hl
      exact h c rfl ((isLetter_iff c).mp hl)
  simp only [this, if_true, Src.drop_zero]

theorem gapChar_not_name {c : Char} (h : GapChar c) : ¬ NameChar c := by
  rcases h with rfl | rfl | rfl | rfl <;> unfold NameChar NameStart <;> decide

theorem nameChar_not_gap {c : Char} (h : NameChar c) : ¬ GapChar c := fun hg => gapChar_not_name hg h

theorem IsName.noGap {a r : Str} (h : IsName a) : NoGap (a ++ r) := by
  obtain ⟨c, t, rfl, hc, -⟩ := h
  intro x hx
  simp only [List.cons_append, List.head?_cons, Option.some.injEq] at hx
  subst hx
  exact nameChar_not_gap (.inl hc)

theorem IsName.ne_nil {a : Str} (h : IsName a) : a ≠ [] := by
  obtain ⟨c, t, rfl, -, -⟩ := h
  simp

theorem noName_gap {g r : Str} (hg : IsGap g) (h : g ≠ [] ∨ NoName r) : NoName (g ++ r) := by
  cases g with
  | nil =>
    rcases h with h | h
    · exact absurd rfl h
    · exact h
  | cons c g =>
    intro x hx
    simp only [List.cons_append, List.head?_cons, Option.some.injEq] at hx
    subst hx
    exact gapChar_not_name (hg _ List.mem_cons_self)

theorem Names.noGap {as : List Str} {t r : Str} (h : Names as t) (hr : NoGap r) : NoGap (t ++ r) := by
  cases h with
  | nil => exact hr
  | cons ha hg ht h => rw [List.append_assoc]; exact ha.noGap

/-- Reads a prefix off a source. -/
theorem Src.drop_pre (s : Src) (a r : Str) (h : s.txt = a ++ r) : (s.drop a.length).txt = r := by
  simp [Src.drop, h]

theorem Src.take_pre (s : Src) (a r : Str) (h : s.txt = a ++ r) : (s.take a.length).txt = a := by
  simp [Src.take, h]

end Yupp
