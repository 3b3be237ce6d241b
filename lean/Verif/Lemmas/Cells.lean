import Verif.Lemmas.Lines
import Verif.Lemmas.Reloc

namespace Yupp
open Spec

theorem chunks_flatten {γ} (ns : List Nat) : ∀ (l : List γ), ns.sum = l.length → (chunks ns l).flatten = l := by
  induction ns with
  | nil => intro l h; simp at h; simp [chunks]; exact List.length_eq_zero_iff.mp h.symm
  | cons n ns ih =>
    intro l h
    simp only [List.sum_cons] at h
    simp only [chunks, List.flatten_cons]
    rw [ih (l.drop n) (by simp; omega), List.take_append_drop]

theorem cellLines_flatten (cs : List Cell) : (cellLines cs).flatten = cs := by
  apply chunks_flatten
  have h := congrArg List.length (splitKeep_flatten (text cs))
  rw [List.length_flatten, text_length] at h
  exact h

theorem chunks_text (ls : List Str) : ∀ cs : List Cell, text cs = ls.flatten →
    (chunks (ls.map (·.length)) cs).map text = ls := by
  induction ls with
  | nil => intro cs _; rfl
  | cons l ls ih =>
    intro cs h
    simp only [List.map_cons, chunks]
    have h1 : text (cs.take l.length) = l := by
      unfold text at h ⊢
      rw [List.map_take, h]; simp
    have h2 : text (cs.drop l.length) = ls.flatten := by
      unfold text at h ⊢
      rw [List.map_drop, h]; simp
    rw [h1, ih _ h2]

theorem cellLines_text (cs : List Cell) : (cellLines cs).map text = splitKeep (text cs) :=
  chunks_text _ _ (splitKeep_flatten _).symm

theorem text_append (a b : List Cell) : text (a ++ b) = text a ++ text b := by simp [text]

theorem text_blankCells (s : Str) : text (blankCells s) = s := by
  simp [text, blankCells, Function.comp_def]

/-- Part of a table that describes a piece: `new` starts at `pos`, `old` at `pos + total`. -/
structure RelocAt (pos total : Int) (N : Offset) (old new : List Cell) : Prop where
  asc : StrictlyAscending N
  keys : ∀ e ∈ N, pos ≤ e.1 ∧ e.1 ≤ pos + new.length
  drop : Drop1 total N
  last : lastD total N = total + old.length - new.length
  cells : ∀ (i : Nat) c, new[i]? = some c → c.org.isSome →
    ∃ j : Nat, i + shiftD total N (pos + i) = total + j ∧ old[j]? = some c

theorem drop1_append (a b : Offset) : ∀ d, Drop1 d a → Drop1 (lastD d a) b → Drop1 d (a ++ b) := by
  induction a with
  | nil => intro d _ h; simpa [lastD] using h
  | cons e t ih =>
    intro d h1 h2
    refine ⟨h1.1, ih _ h1.2 ?_⟩
    rw [show e :: t = [e] ++ t from rfl, lastD_append] at h2
    simpa [lastD] using h2

theorem RelocAt.toReloc {N old new} (h : RelocAt 0 0 N old new) : Reloc N old new where
  asc := h.asc
  keys := by simpa using h.keys
  mono := by
    intro p q hpq
    rw [posMap_eq, posMap_eq]
    exact drop1_mono N 0 h.asc h.drop p q hpq
  fin := by
    rw [posMap_eq, shiftD_all _ _ _ (fun e he => by have := (h.keys e he).2; omega)]
    have := h.last
    simp only [lastD] at this
    rw [this]; omega
  cells := by
    intro i c hc ho
    obtain ⟨j, hj, hj'⟩ := h.cells i c hc ho
    refine ⟨j, ?_, hj'⟩
    rw [posMap_eq]; simpa using hj

theorem RelocAt.nil (pos total : Int) : RelocAt pos total [] [] [] where
  asc := List.Pairwise.nil
  keys := by simp
  drop := trivial
  last := by simp [lastD]
  cells := by simp

theorem RelocAt.same (pos total : Int) (l : List Cell) : RelocAt pos total [] l l where
  asc := List.Pairwise.nil
  keys := by simp
  drop := trivial
  last := by simp [lastD]
  cells := by intro i c hc _; exact ⟨i, by simp; omega, hc⟩

theorem RelocAt.append {pos total pos2 total2 : Int} {N1 N2 old1 new1 old2 new2}
    (h1 : RelocAt pos total N1 old1 new1) (h2 : RelocAt pos2 total2 N2 old2 new2)
    (hp : pos2 = pos + new1.length) (ht : total2 = total + old1.length - new1.length)
    (hs : (∀ e ∈ N1, e.1 < pos + new1.length) ∨ N2 = []) :
    RelocAt pos total (N1 ++ N2) (old1 ++ old2) (new1 ++ new2) := by
  subst hp ht
  refine ⟨?_, ?_, ?_, ?_, ?_⟩
  · refine List.pairwise_append.mpr ⟨h1.asc, h2.asc, ?_⟩
    intro a ha b hb
    rcases hs with hs | rfl
    · have := hs a ha; have := (h2.keys b hb).1; omega
    · simp at hb
  · intro e he
    simp only [List.length_append, Int.natCast_add]
    rcases List.mem_append.mp he with he | he
    · have := h1.keys e he; omega
    · have := h2.keys e he; omega
  · apply drop1_append _ _ _ h1.drop
    rw [h1.last]; exact h2.drop
  · rw [lastD_append, h1.last, h2.last]; simp; omega
  · intro i c hc ho
    by_cases hi : i < new1.length
    · rw [List.getElem?_append_left hi] at hc
      obtain ⟨j, hj, hj'⟩ := h1.cells i c hc ho
      refine ⟨j, ?_, ?_⟩
      · rw [shiftD_append, shiftD_none]
        · exact hj
        · intro e he; have := (h2.keys e he).1; omega
      · rw [List.getElem?_append_left ((List.getElem?_eq_some_iff.mp hj').1)]; exact hj'
    · rw [List.getElem?_append_right (by omega)] at hc
      obtain ⟨j, hj, hj'⟩ := h2.cells (i - new1.length) c hc ho
      refine ⟨old1.length + j, ?_, ?_⟩
      · rw [shiftD_append, shiftD_all N1 _ _ (fun e he => by have := (h1.keys e he).2; omega)]
        have := h1.last
        simp only [lastD] at this
        rw [this]
        rw [show pos + ↑new1.length + (((i - new1.length : Nat) : Int)) = pos + (i : Int) by omega] at hj
        omega
      · rw [List.getElem?_append_right (by omega)]; simpa using hj'

/-- The entries for inserted characters. -/
theorem addedOffsets_spec (n : Nat) : ∀ pos total : Int,
    StrictlyAscending (addedOffsets n pos total) ∧
    (∀ e ∈ addedOffsets n pos total, pos ≤ e.1 ∧ e.1 < pos + n) ∧
    Drop1 total (addedOffsets n pos total) ∧ lastD total (addedOffsets n pos total) = total - n := by
  induction n with
  | zero => intro pos total; simp [addedOffsets, StrictlyAscending, Drop1, lastD]
  | succ n ih =>
    intro pos total
    obtain ⟨h1, h2, h3, h4⟩ := ih (pos + 1) (total - 1)
    refine ⟨?_, ?_, ?_, ?_⟩
    · refine List.pairwise_cons.mpr ⟨?_, h1⟩
      intro e he; have := (h2 e he).1; simp; omega
    · intro e he
      rcases List.mem_cons.mp he with rfl | he
      · simp; omega
      · have := h2 e he; omega
    · exact ⟨by simp, h3⟩
    · simp only [addedOffsets]
      rw [show (pos, total - 1) :: addedOffsets n (pos + 1) (total - 1)
        = [(pos, total - 1)] ++ addedOffsets n (pos + 1) (total - 1) from rfl, lastD_append]
      simp only [lastD, List.getLast?_singleton, Option.map_some, Option.getD_some] at h4 ⊢
      simp only [Int.natCast_add]; omega

theorem blankCells_org {s : Str} {c : Cell} (h : c ∈ blankCells s) : c.org = none := by
  simp only [blankCells, List.mem_map] at h
  obtain ⟨a, _, rfl⟩ := h; rfl

/-- One non-empty line of the trimming. -/
theorem relocLine (pos total : Int) (c : Nat) (ins : List Cell) (ln : List Cell)
    (hins : ∀ x ∈ ins, x.org = none) (hc : c ≤ ln.length) (N : Offset)
    (hN : N = if (0 : Int) < (c : Int) - ins.length then [(pos, total + ((c : Int) - ins.length))]
      else addedOffsets (-((c : Int) - ins.length)).toNat pos total) :
    RelocAt pos total N ln (ins ++ ln.drop c) ∧
      (ln ≠ [] → c < ln.length → ∀ e ∈ N, e.1 < pos + (ins ++ ln.drop c).length) := by
  have hlen : ((ins ++ ln.drop c).length : Int) = ins.length + ln.length - c := by
    simp; omega
  have hcells : ∀ (i : Nat) x, (ins ++ ln.drop c)[i]? = some x → x.org.isSome →
      ins.length ≤ i ∧ ln[c + (i - ins.length)]? = some x := by
    intro i x hx ho
    by_cases hi : i < ins.length
    · rw [List.getElem?_append_left hi] at hx
      have := hins x (List.mem_of_getElem? hx)
      rw [this] at ho; cases ho
    · rw [List.getElem?_append_right (by omega), List.getElem?_drop] at hx
      exact ⟨by omega, hx⟩
  by_cases hd : (0 : Int) < (c : Int) - ins.length
  · rw [if_pos hd] at hN; subst hN
    refine ⟨⟨?_, ?_, ?_, ?_, ?_⟩, ?_⟩
    · simp [StrictlyAscending]
    · intro e he; simp only [List.mem_singleton] at he; subst he; simp only; omega
    · exact ⟨by simp only; omega, trivial⟩
    · rw [hlen]; simp [lastD]; omega
    · intro i x hx ho
      obtain ⟨h1, h2⟩ := hcells i x hx ho
      refine ⟨_, ?_, h2⟩
      simp only [shiftD_cons, shiftD_nil]
      rw [if_pos (by omega)]; omega
    · intro _ hlt e he
      simp only [List.mem_singleton] at he; subst he; simp only; omega
  · rw [if_neg hd] at hN; subst hN
    obtain ⟨a1, a2, a3, a4⟩ := addedOffsets_spec (-((c : Int) - ins.length)).toNat pos total
    refine ⟨⟨a1, ?_, a3, ?_, ?_⟩, ?_⟩
    · intro e he; have := a2 e he; rw [hlen]; omega
    · rw [a4, hlen]; omega
    · intro i x hx ho
      obtain ⟨h1, h2⟩ := hcells i x hx ho
      refine ⟨_, ?_, h2⟩
      rw [shiftD_all _ _ _ (fun e he => by have := a2 e he; omega)]
      simp only [lastD] at a4
      rw [a4]; omega
    · intro _ _ e he; have := a2 e he; rw [hlen]; omega

/-- The shared indent is not longer than any non-empty line, and shorter than all but the last. -/
def CutOK (c : Nat) : List Str → Prop
  | [] => True
  | [l] => emptyLine l = false → c ≤ l.length
  | l :: m :: r => (emptyLine l = false → c < l.length) ∧ CutOK c (m :: r)

theorem cutOK_of (c : Nat) (ls : List Str) : LinesOK ls →
    (∀ l ∈ ls, emptyLine l = false → c ≤ (l.takeWhile isBlank).length) → CutOK c ls := by
  induction ls with
  | nil => intros; trivial
  | cons l r ih =>
    intro h1 h2
    cases r with
    | nil =>
      intro he
      have := h2 l (by simp) he
      have := takeWhile_le isBlank l
      omega
    | cons m r =>
      refine ⟨?_, ih h1.2 (fun l hl => h2 l (List.mem_cons_of_mem _ hl))⟩
      intro he
      have := h2 l (by simp) he
      have := blank_lt_of_isLine h1.1
      omega

theorem cutOK_cut (s : Str) : CutOK (cutLen (splitKeep s)) (splitKeep s) :=
  cutOK_of _ _ (splitKeep_ok s) (fun l hl he => cutLen_le _ l hl he)

theorem trim_reloc (c : Nat) (indent : Str) (cls : List (List Cell)) : ∀ (first : Bool) (pos total : Int),
    CutOK c (cls.map text) → (∀ l ∈ cls, l ≠ []) →
    RelocAt pos total (trimOffsets c indent.length first (cls.map text) pos total) cls.flatten
      (trimCellLines c indent first cls) := by
  induction cls with
  | nil => intro first pos total _ _; exact RelocAt.nil _ _
  | cons ln cls ih =>
    intro first pos total hok hne
    have hok' : CutOK c (cls.map text) := by
      cases cls with
      | nil => trivial
      | cons a b => exact hok.2
    have hne' : ∀ l ∈ cls, l ≠ [] := fun l hl => hne l (List.mem_cons_of_mem _ hl)
    simp only [List.map_cons, trimOffsets, trimCellLines, List.flatten_cons, text_length]
    by_cases he : emptyLine (text ln) = true
    · rw [if_pos he, if_pos he]
      have := RelocAt.append (RelocAt.same pos total ln) (ih false (pos + ln.length) total hok' hne') rfl
        (by omega) (Or.inl (by simp))
      simpa using this
    · rw [if_neg he, if_neg he]
      have he' : emptyLine (text ln) = false := by simpa using he
      have hc : c ≤ ln.length := by
        cases cls with
        | nil => have := hok he'; simpa [text_length] using this
        | cons a b => have := hok.1 he'; rw [text_length] at this; omega
      have key := relocLine pos total c (if first then [] else blankCells indent) ln
        (by intro x hx; cases first
            · exact blankCells_org hx
            · simp at hx) hc _ rfl
      have hil : (c : Int) - ((if first then [] else blankCells indent).length : Int)
          = if first then (c : Int) else (c : Int) - indent.length := by
        cases first <;> simp [blankCells]
      have hnl : (((if first then [] else blankCells indent) ++ ln.drop c).length : Int)
          = ln.length - (if first then (c : Int) else (c : Int) - indent.length) := by
        rw [← hil]; simp only [List.length_append, List.length_drop]; omega
      simp only [hil] at key
      have happ := RelocAt.append key.1
        (ih false (pos - (if first then (c : Int) else (c : Int) - indent.length) + ln.length)
          (total + (if first then (c : Int) else (c : Int) - indent.length)) hok' hne')
        (by rw [hnl]; omega) (by rw [hnl]; omega)
        (by
          cases cls with
          | nil => right; rfl
          | cons a b =>
            left
            exact key.2 (hne ln (by simp)) (by have := hok.1 he'; rw [text_length] at this; exact this))
      generalize (if first then (c : Int) else (c : Int) - indent.length) = delta at *
      by_cases hd : 0 < delta
      · rw [if_pos hd] at happ ⊢; exact happ
      · rw [if_neg hd] at happ ⊢; exact happ

theorem trimLines_text (c : Nat) (indent : Str) (cls : List (List Cell)) : ∀ first,
    trimLines c indent first (cls.map text) = text (trimCellLines c indent first cls) := by
  induction cls with
  | nil => intro _; rfl
  | cons l cls ih =>
    intro first
    simp only [List.map_cons, trimLines, trimCellLines, text_append, ih, trimLine]
    congr 1
    by_cases he : emptyLine (text l) = true
    · rw [if_pos he, if_pos he]
    · rw [if_neg he, if_neg he, text_append]
      cases first <;> simp [text, blankCells, Function.comp_def]

theorem cellLines_ne (cs : List Cell) : ∀ l ∈ cellLines cs, l ≠ [] := by
  intro l hl h
  have : text l ∈ splitKeep (text cs) := by
    rw [← cellLines_text]; exact List.mem_map_of_mem hl
  exact splitKeep_ne_nil _ _ this (by rw [h]; rfl)

/-- The table made by the trimmer is exact. -/
theorem trimCells_reloc (indent : Str) (cs : List Cell) :
    Reloc (trimOffsets (cutLen (splitKeep (text cs))) indent.length true (splitKeep (text cs)) 0 0) cs
      (trimCellLines (cutLen (splitKeep (text cs))) indent true (cellLines cs)) := by
  have := trim_reloc (cutLen (splitKeep (text cs))) indent (cellLines cs) true 0 0
    (by rw [cellLines_text]; exact cutOK_cut _) (cellLines_ne cs)
  rw [cellLines_text, cellLines_flatten] at this
  exact this.toReloc

end Yupp
