import Verif.Lemmas.Reduce
import Verif.Lemmas.Provenance
/-!
# Empty-line reduction: C02 – C05
-/

namespace Yupp
open Spec

theorem all2_map {α β} (R : α → β → Prop) (f : α → β) (h : ∀ a, R a (f a)) (l : List α) : All2 R l (l.map f) := by
  induction l with
  | nil => exact .nil
  | cons a t ih => exact .cons (h a) ih

/-- **C02**. The reduced text: the lines of the text, without white lines following a white line,
    each without its trailing white space, joined by LF and ended by one LF. -/
theorem C02_reduce_exact (cfg : Config) (hcfg : cfg.reduceEmptiness = true) (s : Str) :
    ∃ ls, All2 StripEnd (dropSuccessive whiteLine (splitLines s)) ls ∧
      reduceEmptiness cfg s = joinStr ['\n'] ls ++ ['\n'] := by
  refine ⟨_, all2_map StripEnd rstrip rstrip_spec _, ?_⟩
  unfold reduceEmptiness
  rw [hcfg, if_neg (by simp), reduceFilter_eq, dropSuccessive_eq]

/-- **C02**, form of the result: no two successive white lines, no trailing white space. -/
theorem C02_reduced_form (cfg : Config) (hcfg : cfg.reduceEmptiness = true) (s : Str) :
    NoTwo whiteLine (splitLines (reduceEmptiness cfg s)) ∧
    (∀ l ∈ splitLines (reduceEmptiness cfg s), StripEnd l l) ∧
    (reduceEmptiness cfg s).getLast? = some '\n' := by
  unfold reduceEmptiness
  rw [hcfg, if_neg (by simp), reduceFilter_eq]
  refine ⟨?_, ?_, by simp⟩
  · by_cases hne : dropSucc whiteLine false (splitLines s) = []
    · rw [hne]
      intro i a b ha hb
      simp [joinStr, splitLines, splitKeep, isLineBreak] at hb
    · rw [splitLines_join]
      · apply noTwo_of _ _ false
        exact noTwoFrom_map _ _ _ _ (fun a _ => whiteLine_rstrip a) _ (noTwoFrom_dropSucc _ _ _)
      · intro l hl c hc
        simp only [List.mem_map] at hl
        obtain ⟨a, ha, rfl⟩ := hl
        exact splitLines_noBreak s a (dropSucc_mem ha) c (rstrip_sub a c hc)
      · simpa using hne
  · by_cases hne : dropSucc whiteLine false (splitLines s) = []
    · rw [hne]
      intro l hl
      simp [joinStr, splitLines, splitKeep, isLineBreak] at hl
      subst hl
      exact ⟨[], rfl, by simp, by simp⟩
    · rw [splitLines_join]
      · intro l hl
        simp only [List.mem_map] at hl
        obtain ⟨a, ha, rfl⟩ := hl
        have := rstrip_spec (rstrip a)
        rwa [rstrip_idem] at this
      · intro l hl c hc
        simp only [List.mem_map] at hl
        obtain ⟨a, ha, rfl⟩ := hl
        exact splitLines_noBreak s a (dropSucc_mem ha) c (rstrip_sub a c hc)
      · simpa using hne

/-- With the option off nothing changes. -/
theorem C02_reduce_off (cfg : Config) (hcfg : cfg.reduceEmptiness = false) (s : Str) :
    reduceEmptiness cfg s = s := by simp [reduceEmptiness, hcfg]

example : reduceEmptiness {} (lit "a  \n\n \t\n\nb\r\nc") = lit "a\n\nb\nc\n" := by decide

/-- The empty text does not stay empty. -/
theorem C02_empty_text (cfg : Config) (hcfg : cfg.reduceEmptiness = true) :
    reduceEmptiness cfg [] = ['\n'] := by simp [reduceEmptiness, hcfg, splitLines, splitKeep, reduceFilter, joinStr]

/-- **C03**. Reduction is idempotent. -/
theorem C03_reduce_idempotent (cfg : Config) (s : Str) :
    reduceEmptiness cfg (reduceEmptiness cfg s) = reduceEmptiness cfg s := by
  cases hcfg : cfg.reduceEmptiness with
  | false => simp [reduceEmptiness, hcfg]
  | true =>
    have h0 : ∀ t, reduceEmptiness cfg t
        = joinStr ['\n'] ((dropSucc whiteLine false (splitLines t)).map rstrip) ++ ['\n'] := by
      intro t; unfold reduceEmptiness; rw [hcfg, if_neg (by simp), reduceFilter_eq]
    rw [h0 (reduceEmptiness cfg s)]
    rw [h0 s]
    by_cases hne : dropSucc whiteLine false (splitLines s) = []
    · rw [hne]; rfl
    · rw [splitLines_join]
      · rw [dropSucc_id]
        · rw [List.map_map]
          congr 2
          apply List.map_congr_left
          intro a _; exact rstrip_idem a
        · exact noTwoFrom_map _ _ _ _ (fun a _ => whiteLine_rstrip a) _ (noTwoFrom_dropSucc _ _ _)
      · intro l hl c hc
        simp only [List.mem_map] at hl
        obtain ⟨a, ha, rfl⟩ := hl
        exact splitLines_noBreak s a (dropSucc_mem ha) c (rstrip_sub a c hc)
      · simpa using hne

example : reduceEmptiness {} (lit "x \n\n\n") ≠ lit "x \n\n\n" := by decide

theorem emptyLine_eq (l : Str) : emptyLine l = blankNLLine l := by
  unfold emptyLine blankNLLine spaceSplit
  induction l with
  | nil => rfl
  | cons a t ih =>
    simp only [List.dropWhile_cons]
    cases t with
    | nil =>
      cases ha : isBlank a
      · simp
      · simp
        rintro rfl; exact absurd ha (by decide)
    | cons b t =>
      rw [List.getLast?_cons_cons, List.dropLast_cons_of_ne_nil (by simp), List.all_cons]
      cases ha : isBlank a
      · have : (a == ' ' || a == '\t') = false := ha
        simp [this]
      · have : (a == ' ' || a == '\t') = true := ha
        simp only [if_true, this, Bool.true_and]
        exact ih

theorem reduceText_eq (ls : List Str) : ∀ b, reduceText b ls = (dropSucc blankNLLine b ls).flatten := by
  induction ls with
  | nil => intro b; rfl
  | cons l r ih =>
    intro b
    simp only [reduceText, dropSucc, emptyLine_eq, ih]
    cases hl : blankNLLine l <;> cases b <;> simp

/-- **C04**. In browse mode the reduced text is the concatenation of the lines (with their
    terminators), without blank lines following a blank line. -/
theorem C04_browse_reduce_exact (cfg : Config) (hcfg : cfg.reduceEmptiness = true) (r : Res) :
    (r.reduceEmptiness cfg).txt = (dropSuccessive blankNLLine (splitKeep r.txt)).flatten := by
  unfold Res.reduceEmptiness
  rw [hcfg, if_neg (by simp), dropSuccessive_eq]
  exact reduceText_eq _ _

/-- The lines cover the text. -/
theorem C04_lines_cover (s : Str) : (splitKeep s).flatten = s := splitKeep_flatten s

example : (Res.reduceEmptiness {} { txt := lit "a \n\n\t\n  b" }).txt = lit "a \n\n  b" := by decide

/-- **C05**. The offset table of the browse-mode reduction is exact. `i` is a position of the
    reduced text and `k` the position its character had before (given by the specification
    `reduceCells`, which labels each character with its position); `posMap` is how the table is
    read. -/
theorem C05_browse_reduce_offsets (cfg : Config) (s : Str) (i k : Nat) (ch : Char)
    (h : (reduceCells cfg (fragCells [] 0 s))[i]? = some ⟨ch, some ⟨[], 0, k, []⟩⟩) :
    posMap (Res.reduceEmptiness cfg { txt := s }).offset i = k ∧ s[k]? = some ch ∧
    (Res.reduceEmptiness cfg { txt := s }).txt[i]? = some ch := by
  have htx : text (fragCells [] 0 s) = s := text_fragCells _ _ _ _
  have fin : ∀ (j : Nat) (c : Cell), (fragCells [] 0 s)[j]? = some c → c = ⟨ch, some ⟨[], 0, k, []⟩⟩ →
      j = k ∧ s[j]? = some ch := by
    intro j c hj hc
    have := fragCells_getElem _ _ _ _ _ _ hj
    rw [hc] at this; simp at this
    refine ⟨this.symm, ?_⟩
    have h2 : (text (fragCells [] 0 s))[j]? = some c.ch := by simp [text, hj]
    rw [htx] at h2; rw [h2, hc]
  unfold reduceCells at h
  unfold Res.reduceEmptiness
  cases hr : cfg.reduceEmptiness with
  | false =>
    rw [hr, if_neg (by simp)] at h
    obtain ⟨h1, h2⟩ := fin i _ h rfl
    subst h1
    exact ⟨by simp [posMap, shiftAt], h2, h2⟩
  | true =>
    rw [hr, if_pos rfl] at h
    have hrel := reduce_reloc (fragCells [] 0 s)
    obtain ⟨j, hj, hj'⟩ := hrel.cells i _ h rfl
    obtain ⟨h1, h2⟩ := fin j _ hj' rfl
    subst h1
    rw [htx] at hj
    refine ⟨by simpa using hj, h2, ?_⟩
    rw [if_neg (by simp)]
    have := reduceText_text (cellLines (fragCells [] 0 s)) false
    rw [cellLines_text, htx] at this
    simp only [this]
    simp [text, h]

/-- Every character of the reduced text has such a label. -/
theorem C05_all_labelled (cfg : Config) (s : Str) (c : Cell)
    (h : c ∈ reduceCells cfg (fragCells [] 0 s)) : ∃ k, c.org = some ⟨[], 0, k, []⟩ := by
  have base : ∀ c ∈ fragCells [] 0 s, ∃ k, c.org = some ⟨[], 0, k, []⟩ := by
    intro c hc
    obtain ⟨i, hi⟩ := List.mem_iff_getElem?.mp hc
    exact ⟨i, fragCells_getElem _ _ _ _ _ _ hi⟩
  unfold reduceCells at h
  cases hr : cfg.reduceEmptiness with
  | false => rw [hr, if_neg (by simp)] at h; exact base c h
  | true =>
    rw [hr, if_pos rfl] at h
    have sub : ∀ (ls : List (List Cell)) b, ∀ c ∈ dropRepeated b ls, c ∈ ls.flatten := by
      intro ls
      induction ls with
      | nil => intro b c hc; simp [dropRepeated] at hc
      | cons l r ih =>
        intro b c hc
        simp only [dropRepeated] at hc
        simp only [List.flatten_cons, List.mem_append]
        split at hc
        · rcases List.mem_append.mp hc with h | h
          · split at h
            · simp at h
            · exact Or.inl h
          · exact Or.inr (ih _ c h)
        · rcases List.mem_append.mp hc with h | h
          · exact Or.inl h
          · exact Or.inr (ih _ c h)
    have := sub _ _ c h
    rw [cellLines_flatten] at this
    exact base c this

example : (reduceCells {} (fragCells [] 0 (lit "a\n\n\nb")))[3]? = some ⟨'b', some ⟨[], 0, 4, []⟩⟩ := by decide

end Yupp
