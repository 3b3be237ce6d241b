import Verif.Lemmas.Offset
import Verif.Spec.Provenance

namespace Yupp
open Spec

/-- Successive shifts drop by at most one. -/
def Drop1 : Int → Offset → Prop
  | _, [] => True
  | d, e :: t => d - 1 ≤ e.2 ∧ Drop1 e.2 t

theorem drop1_mono (N : Offset) : ∀ d, StrictlyAscending N → Drop1 d N →
    ∀ p q, p ≤ q → p + shiftD d N p ≤ q + shiftD d N q := by
  induction N with
  | nil => intro d _ _ p q h; simpa using h
  | cons e t ih =>
    intro d h1 h2 p q hpq
    have ht := (List.pairwise_cons.mp h1).2
    have he := (List.pairwise_cons.mp h1).1
    simp only [shiftD_cons]
    by_cases hp : e.1 ≤ p
    · rw [if_pos hp, if_pos (by omega)]
      exact ih _ ht h2.2 p q hpq
    · rw [if_neg hp]
      have hpn : shiftD d t p = d := shiftD_none _ _ _ (fun a ha => by have := he a ha; omega)
      rw [hpn]
      by_cases hq : e.1 ≤ q
      · rw [if_pos hq]
        have := ih e.2 ht h2.2 e.1 q hq
        rw [shiftD_none t e.2 e.1 he] at this
        have := h2.1
        omega
      · rw [if_neg hq, shiftD_none t d q (fun a ha => by have := he a ha; omega)]
        omega

/-- `N` is an exact table for the change of `old` into `new`. -/
structure Reloc (N : Offset) (old new : List Cell) : Prop where
  asc : StrictlyAscending N
  keys : ∀ e ∈ N, 0 ≤ e.1 ∧ e.1 ≤ new.length
  mono : Spec.Monotone N
  fin : posMap N new.length = old.length
  cells : ∀ (i : Nat) c, new[i]? = some c → c.org.isSome → ∃ j : Nat, posMap N i = j ∧ old[j]? = some c

/-- The invariant of a generated text: tables and origins agree. `orig` is the text before any
    trimming. -/
structure InvAt (r : Res) (cs orig : List Cell) : Prop where
  txt : r.txt = text cs
  asc : Ascending r.offset
  keys : ∀ e ∈ r.offset, 0 ≤ e.1 ∧ e.1 ≤ cs.length
  fin : posMap r.offset cs.length = orig.length
  cells : ∀ (i : Nat) c, cs[i]? = some c → c.org.isSome → ∃ j : Nat, posMap r.offset i = j ∧ orig[j]? = some c
  bkeys : ∀ e ∈ r.browse, 0 ≤ e.1
  blook : ∀ (u : Nat) c o, orig[u]? = some c → c.org = some o →
    (r.browse.filter (fun e => decide (e.1 ≤ (u : Int)))).getLast? = some ((u : Int) - o.idx, o.file, o.pos)
  basc : Ascending r.browse
  btop : ∀ e ∈ r.browse, e.1 < orig.length
  bgroup : ∀ (u : Nat) c o, orig[u]? = some c → c.org = some o → o.idx ≤ u ∧
    r.browse.filter (fun e => decide (e.1 = (u : Int) - o.idx)) =
      (o.outer ++ [(o.file, o.pos)]).map (fun p => ((u : Int) - o.idx, p))

theorem InvAt.resolve {r cs orig} (h : InvAt r cs orig) (i : Nat) (c : Cell) (o : Origin)
    (hc : cs[i]? = some c) (ho : c.org = some o) : Spec.resolve r i = some (o.file, o.pos, (o.idx : Int)) := by
  obtain ⟨j, hj, hj'⟩ := h.cells i c hc (by simp [ho])
  have := h.blook j c o hj' ho
  simp only [Spec.resolve, hj, this, Option.map_some]
  congr 3; omega

theorem InvAt.references {r cs orig} (h : InvAt r cs orig) (i : Nat) (c : Cell) (o : Origin)
    (hc : cs[i]? = some c) (ho : c.org = some o) : Spec.references r i = o.outer ++ [(o.file, o.pos)] := by
  obtain ⟨j, hj, hj'⟩ := h.cells i c hc (by simp [ho])
  have h1 := h.blook j c o hj' ho
  have h2 := (h.bgroup j c o hj' ho).2
  simp only [Spec.references, hj, h1, h2, List.map_map]
  exact List.map_id' _

theorem InvAt.nil (r : Res) (h : r.txt = []) (h2 : r.offset = []) (h3 : r.browse = []) : InvAt r [] [] where
  txt := by simp [h, text]
  asc := by rw [h2]; exact List.Pairwise.nil
  keys := by simp [h2]
  fin := by simp [h2, posMap, shiftAt]
  cells := by simp
  bkeys := by simp [h3]
  blook := by simp
  basc := by rw [h3]; exact List.Pairwise.nil
  btop := by simp [h3]
  bgroup := by simp

theorem text_length (cs : List Cell) : (text cs).length = cs.length := by simp [text]

/-- Relocation of a generated text. -/
theorem InvAt.reloc {r : Res} {cs orig : List Cell} (h : InvAt r cs orig) {N : Offset} {new : List Cell}
    (hN : Reloc N cs new) :
    InvAt { txt := text new, browse := r.browse
            offset := if r.offset.isEmpty then N else mergeOffset r.offset N } new orig := by
  have hpm : ∀ q, posMap (if r.offset.isEmpty then N else mergeOffset r.offset N) q
      = posMap r.offset (posMap N q) := by
    intro q
    cases hP : r.offset with
    | nil => simp [posMap_eq]
    | cons a t =>
      rw [← hP, if_neg (by simp [hP])]
      exact mergeOffset_shift _ _ h.asc hN.asc hN.mono q
  refine ⟨rfl, ?_, ?_, ?_, ?_, h.bkeys, h.blook, h.basc, h.btop, h.bgroup⟩
  · cases hP : r.offset with
    | nil => exact List.Pairwise.imp (fun hab => Int.le_of_lt hab) hN.asc
    | cons a t =>
      simp only [← hP]
      rw [if_neg (by simp [hP])]
      exact mergeOffset_asc _ _ h.asc hN.asc hN.mono
  · -- keys of the merged table
    cases hP : r.offset with
    | nil => simpa using hN.keys
    | cons a t =>
      simp only [← hP]
      rw [if_neg (by simp [hP])]
      rw [mergeOffset_eq _ _ h.asc (img_of_mono N hN.asc hN.mono)]
      have low := mergeRest_keys N 0 0 r.offset 0 (fun e he => (hN.keys e he).1)
        (fun e he => by have := (h.keys e he).1; omega) hN.asc
      have up : ∀ (off ps : Offset) (sh delta : Int), (∀ e ∈ off, e.1 ≤ new.length) →
          (∀ e ∈ ps, e.1 ≤ cs.length) → lastD delta off = (cs.length : Int) - new.length →
          ∀ e ∈ mergeRest sh delta ps off, e.1 ≤ new.length := by
        intro off
        induction off with
        | nil =>
          intro ps sh delta _ h2 h3 e he
          simp only [mergeRest, List.mem_map] at he
          obtain ⟨b, hb, rfl⟩ := he
          have := h2 b hb
          simp [lastD] at h3
          simp; omega
        | cons x off ih =>
          obtain ⟨pos, dl⟩ := x
          intro ps sh delta h1 h2 h3 e he
          simp only [mergeRest, List.mem_append, List.mem_map, List.mem_filter, List.mem_singleton] at he
          have hp := h1 (pos, dl) (List.mem_cons_self)
          rcases he with (⟨b, ⟨_, hb⟩, rfl⟩ | rfl) | he
          · simp at hb hp ⊢; omega
          · exact hp
          · refine ih _ _ dl (fun e he => h1 e (List.mem_cons_of_mem _ he))
              (fun e he => h2 e (List.mem_filter.mp he).1) ?_ e he
            rw [show ((pos, dl) :: off) = [(pos, dl)] ++ off from rfl, lastD_append] at h3
            simpa [lastD] using h3
      intro e he
      refine ⟨low e he, up N r.offset 0 0 (fun e he => (hN.keys e he).2)
        (fun e he => (h.keys e he).2) ?_ e he⟩
      have := hN.fin
      rw [posMap_eq, shiftD_all _ _ _ (fun e he => (hN.keys e he).2)] at this
      simp only [lastD]; omega
  · show posMap (if r.offset.isEmpty then N else mergeOffset r.offset N) new.length = orig.length
    rw [hpm, hN.fin, h.fin]
  · intro i c hc ho
    obtain ⟨j, hj, hj'⟩ := hN.cells i c hc ho
    obtain ⟨k, hk, hk'⟩ := h.cells j c hj' ho
    exact ⟨k, by simp only [hpm, hj, hk], hk'⟩

/-- Concatenation of generated texts. -/
theorem InvAt.add {r1 r2 : Res} {c1 o1 c2 o2 : List Cell} (h1 : InvAt r1 c1 o1) (h2 : InvAt r2 c2 o2) :
    ∃ o, InvAt (r1.addText r2) (c1 ++ c2) o := by
  unfold Res.addText
  by_cases he : r2.txt.isEmpty
  · have : c2 = [] := by
      have := h2.txt; rw [List.isEmpty_iff.mp he] at this
      simpa [text] using this.symm
    subst this
    refine ⟨o1, ?_⟩
    simp only [he, if_true, List.append_nil]
    exact h1
  · rw [if_neg he]
    refine ⟨o1 ++ o2, ?_⟩
    have hl1 : (r1.txt.length : Int) = c1.length := by rw [h1.txt, text_length]
    have hbase : lastShift r1.offset = lastD 0 r1.offset := by
      unfold lastD lastShift; cases r1.offset.getLast? <;> rfl
    have hfin1 : (c1.length : Int) + lastD 0 r1.offset = o1.length := by
      have := h1.fin
      rw [posMap_eq, shiftD_all _ _ _ (fun e he => (h1.keys e he).2)] at this
      exact this
    -- shift of the joined table
    have hsh1 : ∀ q : Int, q < c1.length →
        shiftD 0 (r1.offset ++ r2.offset.map (fun e => (e.1 + (c1.length : Int), e.2 + lastD 0 r1.offset))) q
          = shiftD 0 r1.offset q := by
      intro q hq
      rw [shiftD_append]
      apply shiftD_none
      intro e he
      simp only [List.mem_map] at he
      obtain ⟨b, hb, rfl⟩ := he
      have := (h2.keys b hb).1
      simp; omega
    have aux : ∀ (o : Offset) (d k b q : Int), shiftD (d + b) (o.map (fun e => (e.1 + k, e.2 + b))) q
        = shiftD d o (q - k) + b := by
      intro o
      induction o with
      | nil => intro d k b q; rfl
      | cons e t ih =>
        intro d k b q
        simp only [List.map_cons, shiftD_cons]
        by_cases h : e.1 ≤ q - k
        · rw [if_pos (by omega), if_pos h, ih]
        · rw [if_neg (by omega), if_neg h, ih]
    have hsh2 : ∀ q : Int, c1.length ≤ q →
        shiftD 0 (r1.offset ++ r2.offset.map (fun e => (e.1 + (c1.length : Int), e.2 + lastD 0 r1.offset))) q
          = shiftD 0 r2.offset (q - c1.length) + lastD 0 r1.offset := by
      intro q hq
      rw [shiftD_append, shiftD_all r1.offset 0 q (fun e he => by have := (h1.keys e he).2; omega)]
      have := aux r2.offset 0 c1.length (lastD 0 r1.offset) q
      rw [Int.zero_add] at this
      exact this
    simp only [hbase, hl1]
    refine ⟨?_, ?_, ?_, ?_, ?_, ?_, ?_, ?_, ?_, ?_⟩
    · simp [h1.txt, h2.txt, text]
    · show Ascending _
      simp only [Ascending, List.pairwise_append]
      refine ⟨h1.asc, List.Pairwise.map _ (fun a b hab => by simp; omega) h2.asc, ?_⟩
      intro a ha b hb
      simp only [List.mem_map] at hb
      obtain ⟨e, he, rfl⟩ := hb
      have := (h1.keys a ha).2
      have := (h2.keys e he).1
      simp; omega
    · intro e he
      simp only [List.mem_append, List.mem_map] at he
      rcases he with he | ⟨b, hb, rfl⟩
      · have := h1.keys e he
        simp; omega
      · have := h2.keys b hb
        simp; omega
    · show posMap _ _ = _
      rw [posMap_eq, hsh2 _ (by simp; omega)]
      have := h2.fin
      rw [posMap_eq] at this
      simp only [List.length_append, Int.natCast_add]
      rw [show ((c1.length : Int) + c2.length - c1.length) = c2.length by omega]
      omega
    · intro i c hc ho
      by_cases hi : i < c1.length
      · rw [List.getElem?_append_left hi] at hc
        obtain ⟨j, hj, hj'⟩ := h1.cells i c hc ho
        refine ⟨j, ?_, ?_⟩
        · show posMap _ _ = _
          rw [posMap_eq, hsh1 _ (by omega), ← posMap_eq, hj]
        · rw [List.getElem?_append_left (by
            have := (List.getElem?_eq_some_iff.mp hj').1; exact this)]
          exact hj'
      · rw [List.getElem?_append_right (by omega)] at hc
        obtain ⟨j, hj, hj'⟩ := h2.cells (i - c1.length) c hc ho
        refine ⟨o1.length + j, ?_, ?_⟩
        · show posMap _ _ = _
          rw [posMap_eq, hsh2 _ (by omega)]
          rw [posMap_eq] at hj
          rw [show ((i : Int) - c1.length) = ((i - c1.length : Nat) : Int) by omega]
          omega
        · rw [List.getElem?_append_right (by omega)]
          simpa using hj'
    · intro e he
      simp only [List.mem_append, List.mem_map] at he
      rcases he with he | ⟨b, hb, rfl⟩
      · exact h1.bkeys e he
      · have := h2.bkeys b hb
        simp; omega
    · intro u c o hu ho
      simp only [List.filter_append, List.getLast?_append]
      by_cases hlt : u < o1.length
      · rw [List.getElem?_append_left hlt] at hu
        have hnone : (r2.browse.map (fun e => (e.1 + ((c1.length : Int) + lastD 0 r1.offset), e.2))).filter
            (fun e => decide (e.1 ≤ (u : Int))) = [] := by
          rw [List.filter_eq_nil_iff]
          intro a ha
          simp only [List.mem_map] at ha
          obtain ⟨b, hb, rfl⟩ := ha
          have := h2.bkeys b hb
          simp; omega
        rw [hnone, h1.blook u c o hu ho]; rfl
      · rw [List.getElem?_append_right (by omega)] at hu
        have := h2.blook (u - o1.length) c o hu ho
        rw [List.filter_map, List.getLast?_map]
        have hf : ((fun e : Int × Str × Int => decide (e.1 ≤ (u : Int))) ∘
            fun e : Int × Str × Int => (e.1 + ((c1.length : Int) + lastD 0 r1.offset), e.2))
            = (fun e => decide (e.1 ≤ ((u - o1.length : Nat) : Int))) := by
          funext e
          simp only [Function.comp, decide_eq_decide]
          constructor <;> intro h <;> omega
        rw [hf, this]
        simp only [Option.map_some, Option.some_or]
        congr 2
        omega
    · simp only [Ascending, List.pairwise_append]
      refine ⟨h1.basc, List.Pairwise.map _ (fun a b hab => by simp; omega) h2.basc, ?_⟩
      intro a ha b hb
      simp only [List.mem_map] at hb
      obtain ⟨e, he, rfl⟩ := hb
      have := h1.btop a ha
      have := h2.bkeys e he
      simp; omega
    · intro e he
      simp only [List.mem_append, List.mem_map] at he
      rcases he with he | ⟨b, hb, rfl⟩
      · have := h1.btop e he
        simp; omega
      · have := h2.btop b hb
        simp; omega
    · intro u c o hu ho
      simp only [List.filter_append]
      by_cases hlt : u < o1.length
      · rw [List.getElem?_append_left hlt] at hu
        have hnone : (r2.browse.map (fun e => (e.1 + ((c1.length : Int) + lastD 0 r1.offset), e.2))).filter
            (fun e => decide (e.1 = (u : Int) - o.idx)) = [] := by
          rw [List.filter_eq_nil_iff]
          intro a ha
          simp only [List.mem_map] at ha
          obtain ⟨b, hb, rfl⟩ := ha
          have := h2.bkeys b hb
          simp; omega
        obtain ⟨h3, h4⟩ := h1.bgroup u c o hu ho
        refine ⟨h3, ?_⟩
        rw [hnone, h4, List.append_nil]
      · rw [List.getElem?_append_right (by omega)] at hu
        obtain ⟨h3, h4⟩ := h2.bgroup (u - o1.length) c o hu ho
        refine ⟨by omega, ?_⟩
        have hnone : r1.browse.filter (fun e => decide (e.1 = (u : Int) - o.idx)) = [] := by
          rw [List.filter_eq_nil_iff]
          intro a ha
          have := h1.btop a ha
          simp; omega
        rw [hnone, List.nil_append, List.filter_map]
        have hf : ((fun e : Int × Str × Int => decide (e.1 = (u : Int) - o.idx)) ∘
            fun e : Int × Str × Int => (e.1 + ((c1.length : Int) + lastD 0 r1.offset), e.2))
            = (fun e => decide (e.1 = ((u - o1.length : Nat) : Int) - o.idx)) := by
          funext e
          simp only [Function.comp, decide_eq_decide]
          constructor <;> intro h <;> omega
        rw [hf, h4, List.map_map]
        apply List.map_congr_left
        intro p _
        simp only [Function.comp]
        congr 1
        omega

end Yupp
