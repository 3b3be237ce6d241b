import Verif.Model.Lex
import Verif.Spec.Balanced
/-!
# Bodies of quotes, comments and macros
-/

namespace Yupp

theorem isAny_iff (c : Char) : isAny c = true ↔ Admissible c := by
  unfold isAny Admissible isEol
  simp only [Bool.or_eq_true, beq_iff_eq, Bool.and_eq_true, decide_eq_true_eq, Char.le_def,
    UInt32.le_iff_toNat_le]
  have h1 : (' ' : Char).val.toNat = 0x20 := rfl
  have h2 : ('ÿ' : Char).val.toNat = 0xff := rfl
  have h3 : c.val.toNat = c.toNat := rfl
  rw [h1, h2, h3]
  grind

/-- A text that closes `d` parentheses and is balanced otherwise. -/
inductive BalN : Nat → Str → Prop where
  | zero {s : Str} : Balanced s → BalN 0 s
  | succ {d : Nat} {a b : Str} : Balanced a → BalN d b → BalN (d + 1) (a ++ ')' :: b)

theorem BalN.char {d : Nat} {c : Char} {s : Str} (h1 : c ≠ '(') (h2 : c ≠ ')') (h : BalN d s) :
    BalN d (c :: s) := by
  cases h with
  | zero h => exact .zero (.char h1 h2 h)
  | succ ha hb => exact .succ (a := c :: _) (.char h1 h2 ha) hb

theorem BalN.open {d : Nat} {s : Str} (h : BalN (d + 1) s) : BalN d ('(' :: s) := by
  cases h with
  | succ ha hb =>
    cases hb with
    | zero hb => exact .zero (.paren ha hb)
    | succ hb hc =>
      rename_i a d a' b'
      have := BalN.succ (.paren ha hb) hc
      simpa using this

theorem BalN.close {d : Nat} {s : Str} (h : BalN d s) : BalN (d + 1) (')' :: s) := .succ (a := []) .nil h

/-- Depth after the text, `none` at an unmatched closing parenthesis. -/
def depth : Nat → Str → Option Nat
  | d, [] => some d
  | d, c :: t =>
    if c = '(' then depth (d + 1) t
    else if c = ')' then (match d with
      | 0 => none
      | d + 1 => depth d t)
    else depth d t

theorem depth_append {s : Str} (h : Balanced s) : ∀ d t, depth d (s ++ t) = depth d t := by
  induction h with
  | nil => intro d t; rfl
  | char h1 h2 _ ih => intro d t; simp only [List.cons_append, depth, h1, h2, if_false]; exact ih d t
  | paren _ _ iha ihb =>
    intro d t
    simp only [List.cons_append, List.append_assoc, depth, if_true]
    rw [iha]
    simp only [depth, if_true]
    rw [if_neg (by decide)]
    exact ihb d t

theorem depth_balN : ∀ (s : Str) (d : Nat), depth d s = some 0 → BalN d s
  | [], d, h => by
    simp only [depth, Option.some.injEq] at h
    subst h
    exact .zero .nil
  | c :: t, d, h => by
    simp only [depth] at h
    split at h
    · rename_i hc; subst hc; exact (depth_balN t _ h).open
    · split at h
      · rename_i hc; subst hc
        cases d with
        | zero => cases h
        | succ d => exact (depth_balN t _ h).close
      · rename_i h1 h2; exact (depth_balN t d h).char h1 h2

theorem depth_balanced (s : Str) : depth 0 s = some 0 ↔ Balanced s :=
  ⟨fun h => by cases depth_balN s 0 h; assumption,
   fun h => by have := depth_append h 0 []; rwa [List.append_nil] at this⟩

theorem plainLen_spec : ∀ (t : Str) (d n : Nat), ¬ (t.head? = some ')' ∧ d = 0) →
    (plainLen d t = some n ↔
      ∃ body rest, t = body ++ ')' :: rest ∧ body.length = n ∧ body ≠ [] ∧ depth d body = some 0 ∧
        body.all isAny = true)
  | [], d, n, _ => by simp [plainLen]
  | c :: t, d, n, hd => by
    have hdep : ∀ body, depth d (c :: body) = depth (depthStep '(' ')' d c) body := by
      intro body
      simp only [depth, depthStep]
      split
      · rfl
      · split
        · rename_i h; subst h
          cases d with
          | zero => simp at hd
          | succ d => rfl
        · rfl
    have hcons : ∀ n', (∃ body rest, c :: t = body ++ ')' :: rest ∧ body.length = n' ∧ body ≠ [] ∧
        depth d body = some 0 ∧ body.all isAny = true) ↔ isAny c = true ∧
        ∃ body rest, t = body ++ ')' :: rest ∧ body.length + 1 = n' ∧
        depth (depthStep '(' ')' d c) body = some 0 ∧ body.all isAny = true := by
      intro n'
      constructor
      · rintro ⟨body, rest, h1, h2, h3, h4, h5⟩
        cases body with
        | nil => exact absurd rfl h3
        | cons b body =>
          simp only [List.cons_append, List.cons.injEq] at h1
          obtain ⟨rfl, h1⟩ := h1
          simp only [List.all_cons, Bool.and_eq_true] at h5
          exact ⟨h5.1, body, rest, h1, by simpa using h2, (hdep body) ▸ h4, h5.2⟩
      · rintro ⟨hc, body, rest, h1, h2, h4, h5⟩
        exact ⟨c :: body, rest, by rw [h1]; rfl, by simpa using h2, by simp, (hdep body).symm ▸ h4,
          by simp [hc, h5]⟩
    rw [hcons]
    simp only [plainLen]
    by_cases hc : isAny c = true
    · simp only [hc, Bool.not_true, Bool.false_eq_true, if_false, true_and]
      by_cases hs : t.head? = some ')' ∧ depthStep '(' ')' d c = 0
      · rw [if_pos hs]
        obtain ⟨h1, h2⟩ := hs
        cases t with
        | nil => simp at h1
        | cons x t =>
          simp only [List.head?_cons, Option.some.injEq] at h1
          subst h1
          rw [h2]
          constructor
          · intro h
            refine ⟨[], t, rfl, by simpa using h, rfl, rfl⟩
          · rintro ⟨body, rest, h1, h3, h4, -⟩
            cases body with
            | nil => simpa using h3
            | cons b body =>
              simp only [List.cons_append, List.cons.injEq] at h1
              obtain ⟨rfl, h1⟩ := h1
              simp [depth] at h4
      · rw [if_neg hs]
        rw [Option.map_eq_some_iff]
        constructor
        · rintro ⟨m, h1, rfl⟩
          obtain ⟨body, rest, h2, h3, -, h5⟩ := (plainLen_spec t _ m hs).mp h1
          exact ⟨body, rest, h2, by rw [h3], h5⟩
        · rintro ⟨body, rest, h2, h3, h5⟩
          refine ⟨body.length, (plainLen_spec t _ _ hs).mpr ⟨body, rest, h2, rfl, ?_, h5⟩, h3⟩
          rintro rfl
          apply hs
          simp only [depth, Option.some.injEq] at h5
          exact ⟨by rw [h2]; rfl, h5.1⟩
    · simp only [hc, Bool.not_false, if_true, Bool.false_eq_true, false_and]
      simp

/-- `bodyLen` finds the first closing parenthesis that is not matched. -/
theorem bodyLen_spec (t : Str) (n : Nat) : bodyLen t = some n ↔
    ∃ body rest, Closed t body rest ∧ body.length = n ∧ ∀ c ∈ body, Admissible c := by
  have hall : ∀ body : Str, body.all isAny = true ↔ ∀ c ∈ body, Admissible c := by
    intro body
    rw [List.all_eq_true]
    exact ⟨fun h c hc => (isAny_iff c).mp (h c hc), fun h c hc => (isAny_iff c).mpr (h c hc)⟩
  unfold bodyLen
  split
  · rename_i h
    cases t with
    | nil => simp at h
    | cons c t =>
      simp only [List.head?_cons, Option.some.injEq] at h
      subst h
      constructor
      · intro h
        exact ⟨[], t, ⟨rfl, .nil⟩, by simpa using h, by simp⟩
      · rintro ⟨body, rest, ⟨h1, h2⟩, h3, h4⟩
        cases body with
        | nil => simpa using h3
        | cons b body =>
          simp only [List.cons_append, List.cons.injEq] at h1
          obtain ⟨rfl, h1⟩ := h1
          cases h2 with
          | char _ h _ => exact absurd rfl h
  · rename_i h
    rw [plainLen_spec t 0 n (fun h' => h h'.1)]
    constructor
    · rintro ⟨body, rest, h1, h2, h3, h4, h5⟩
      exact ⟨body, rest, ⟨h1, (depth_balanced body).mp h4⟩, h2, (hall body).mp h5⟩
    · rintro ⟨body, rest, ⟨h1, h4⟩, h2, h5⟩
      refine ⟨body, rest, h1, h2, ?_, (depth_balanced body).mpr h4, (hall body).mpr h5⟩
      rintro rfl
      exact h (by rw [h1]; rfl)

/-- There is only one such body. -/
theorem closed_unique {t body rest body' rest' : Str} (h : Closed t body rest) (h' : Closed t body' rest') :
    body = body' ∧ rest = rest' := by
  have key : ∀ (body body' : Str) (d : Nat) (r r' : Str), body ++ ')' :: r = body' ++ ')' :: r' →
      depth d body = some 0 → depth d body' = some 0 → body = body' := by
    intro body
    induction body with
    | nil =>
      intro body' d r r' h1 h2 h3
      simp only [depth, Option.some.injEq] at h2
      subst h2
      cases body' with
      | nil => rfl
      | cons b body' =>
        simp only [List.nil_append, List.cons_append, List.cons.injEq] at h1
        obtain ⟨rfl, -⟩ := h1
        simp [depth] at h3
    | cons b body ih =>
      intro body' d r r' h1 h2 h3
      cases body' with
      | nil =>
        simp only [depth, Option.some.injEq] at h3
        subst h3
        simp only [List.nil_append, List.cons_append, List.cons.injEq] at h1
        obtain ⟨rfl, -⟩ := h1
        simp [depth] at h2
      | cons b' body' =>
        simp only [List.cons_append, List.cons.injEq] at h1
        obtain ⟨rfl, h1⟩ := h1
        congr 1
        simp only [depth] at h2 h3
        split at h2
        · rename_i hb; rw [if_pos hb] at h3; exact ih body' _ r r' h1 h2 h3
        · rename_i hb
          rw [if_neg hb] at h3
          split at h2
          · rename_i hb2
            rw [if_pos hb2] at h3
            cases d with
            | zero => cases h2
            | succ d => exact ih body' _ r r' h1 h2 h3
          · rename_i hb2
            rw [if_neg hb2] at h3
            exact ih body' _ r r' h1 h2 h3
  have hb := key body body' 0 rest rest' (h.1.symm.trans h'.1) ((depth_balanced _).mpr h.2)
    ((depth_balanced _).mpr h'.2)
  subst hb
  have := h.1.symm.trans h'.1
  simp at this
  exact ⟨rfl, this⟩

end Yupp
