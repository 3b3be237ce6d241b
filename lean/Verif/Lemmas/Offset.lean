import Verif.Model.Offset
import Verif.Spec.PosMap

namespace Yupp
open Spec

/-- Number of keys not greater than `x`. -/
def cnt {β : Type} (a : List (Int × β)) (x : Int) : Nat := (a.filter (fun e => decide (e.1 ≤ x))).length

theorem asc_filter_append {β : Type} (a : List (Int × β)) (x : Int) (h : Ascending a) :
    a = a.filter (fun e => decide (e.1 ≤ x)) ++ a.filter (fun e => decide (x < e.1)) := by
  induction a with
  | nil => rfl
  | cons e t ih =>
    have ht : Ascending t := (List.pairwise_cons.mp h).2
    have he := (List.pairwise_cons.mp h).1
    by_cases hx : e.1 ≤ x
    · have : ¬ x < e.1 := by omega
      simp only [List.filter_cons, hx, this, decide_true, decide_false, if_true, List.cons_append]
      rw [if_neg (by simp), ← ih ht]
    · have hx' : x < e.1 := by omega
      have h1 : t.filter (fun e => decide (e.1 ≤ x)) = [] := by
        rw [List.filter_eq_nil_iff]; intro a ha
        have := he a ha; simp; omega
      have h2 : t.filter (fun e => decide (x < e.1)) = t := by
        rw [List.filter_eq_self]; intro a ha
        have := he a ha; simp; omega
      simp [hx, hx', h1, h2]

theorem asc_take_cnt {β : Type} (a : List (Int × β)) (x : Int) (h : Ascending a) :
    a.take (cnt a x) = a.filter (fun e => decide (e.1 ≤ x)) := by
  conv => lhs; arg 2; rw [asc_filter_append a x h]
  rw [cnt, List.take_left']; rfl

theorem asc_drop_cnt {β : Type} (a : List (Int × β)) (x : Int) (h : Ascending a) :
    a.drop (cnt a x) = a.filter (fun e => decide (x < e.1)) := by
  conv => lhs; arg 2; rw [asc_filter_append a x h]
  rw [cnt, List.drop_left']; rfl

theorem asc_getElem_le {β : Type} (a : List (Int × β)) (x : Int) (h : Ascending a) (i : Nat)
    (hi : i < a.length) : (a[i]).1 ≤ x ↔ i < cnt a x := by
  constructor
  · intro hle
    by_cases hc : i < cnt a x
    · exact hc
    · exfalso
      have hm : a[i] ∈ a.drop (cnt a x) := by
        rw [List.mem_iff_getElem]
        refine ⟨i - cnt a x, by simp; omega, ?_⟩
        simp only [List.getElem_drop]; congr 1; omega
      rw [asc_drop_cnt a x h] at hm
      have := (List.mem_filter.mp hm).2
      simp at this; omega
  · intro hc
    have hm : a[i] ∈ a.take (cnt a x) := by
      rw [List.mem_iff_getElem]
      refine ⟨i, by simp; omega, ?_⟩
      simp
    rw [asc_take_cnt a x h] at hm
    have := (List.mem_filter.mp hm).2
    simpa using this

theorem cnt_le_length {β : Type} (a : List (Int × β)) (x : Int) : cnt a x ≤ a.length :=
  List.length_filter_le _ _

theorem bisectGo_eq {β : Type} (a : List (Int × β)) (x : Int) (h : Ascending a) :
    ∀ n lo hi, hi - lo ≤ n → hi ≤ a.length → lo ≤ cnt a x → cnt a x ≤ hi →
      bisectGo a x n lo hi = cnt a x := by
  intro n
  induction n with
  | zero => intro lo hi h1 h2 h3 h4; simp [bisectGo]; omega
  | succ n ih =>
    intro lo hi h1 h2 h3 h4
    unfold bisectGo
    by_cases hl : lo < hi
    · simp only [hl, if_true]
      have hm : (lo + hi) / 2 < a.length := by omega
      rw [List.getElem?_eq_getElem hm]
      simp only
      have key := asc_getElem_le a x h _ hm
      by_cases hx : x < (a[(lo + hi) / 2]).1
      · simp only [hx, if_true]
        have : ¬ ((lo + hi) / 2 < cnt a x) := by rw [← key]; omega
        exact ih _ _ (by omega) (by omega) h3 (by omega)
      · simp only [hx, if_false]
        have : ((lo + hi) / 2 < cnt a x) := by rw [← key]; omega
        exact ih _ _ (by omega) h2 (by omega) h4
    · simp only [hl, if_false]; omega

theorem bisect_eq_cnt {β : Type} (a : List (Int × β)) (x : Int) (h : Ascending a) :
    bisect a x = cnt a x :=
  bisectGo_eq a x h _ _ _ (by omega) (Nat.le_refl _) (Nat.zero_le _) (cnt_le_length a x)

/-- Shift with a default: the fold form of `shiftAt`. -/
def shiftD (d : Int) (o : Offset) (q : Int) : Int :=
  o.foldl (fun acc e => if e.1 ≤ q then e.2 else acc) d

@[simp] theorem shiftD_nil (d q) : shiftD d [] q = d := rfl
@[simp] theorem shiftD_cons (d q e o) :
    shiftD d (e :: o) q = shiftD (if e.1 ≤ q then e.2 else d) o q := rfl
theorem shiftD_append (d q a b) : shiftD d (a ++ b) q = shiftD (shiftD d a q) b q := by
  simp [shiftD]

theorem shiftD_eq (o : Offset) (d q : Int) :
    shiftD d o q = match (o.filter (fun e => decide (e.1 ≤ q))).getLast? with
      | some e => e.2 | none => d := by
  induction o generalizing d with
  | nil => rfl
  | cons e t ih =>
    simp only [shiftD_cons, List.filter_cons]
    by_cases h : e.1 ≤ q
    · simp only [h, if_true, decide_true]
      rw [ih]
      cases hl : (t.filter (fun e => decide (e.1 ≤ q))) with
      | nil => simp
      | cons a b =>
        rw [List.getLast?_cons_cons]
        cases hx : (a :: b).getLast? with
        | none => simp at hx
        | some z => rfl
    · simp only [h, if_false, decide_false]
      rw [ih]; simp

theorem shiftAt_eq (o : Offset) (q : Int) : shiftAt o q = shiftD 0 o q := by
  rw [shiftD_eq]; rfl

theorem posMap_eq (o : Offset) (q : Int) : posMap o q = q + shiftD 0 o q := by
  rw [posMap, shiftAt_eq]

/-- No key applies: the default is returned. -/
theorem shiftD_none (o : Offset) (d q : Int) (h : ∀ e ∈ o, q < e.1) : shiftD d o q = d := by
  induction o generalizing d with
  | nil => rfl
  | cons e t ih =>
    have he := h e (List.mem_cons_self)
    rw [shiftD_cons, if_neg (by omega), ih _ (fun e he => h e (List.mem_cons_of_mem _ he))]

/-- All keys apply: the last entry is returned. -/
theorem shiftD_all (o : Offset) (d q : Int) (h : ∀ e ∈ o, e.1 ≤ q) :
    shiftD d o q = ((o.getLast?).map (·.2)).getD d := by
  induction o generalizing d with
  | nil => rfl
  | cons e t ih =>
    have he := h e (List.mem_cons_self)
    rw [shiftD_cons, if_pos he, ih _ (fun e he => h e (List.mem_cons_of_mem _ he))]
    cases t with
    | nil => rfl
    | cons a b =>
      rw [List.getLast?_cons_cons]
      cases hx : (a :: b).getLast? with
      | none => simp at hx
      | some z => rfl

theorem shiftD_map (o : Offset) (d q k : Int) :
    shiftD (d + k) (o.map (fun e => (e.1 - k, e.2 + k))) q = shiftD d o (q + k) + k := by
  induction o generalizing d with
  | nil => rfl
  | cons e t ih =>
    simp only [List.map_cons, shiftD_cons]
    by_cases h : e.1 ≤ q + k
    · rw [if_pos (by omega), if_pos h, ih]
    · rw [if_neg (by omega), if_neg h, ih]

theorem mergeInner_eq (pos delta : Int) (es : List (Int × Int)) (r : Offset) :
    mergeInner pos delta es r =
      r ++ (es.filter (fun e => decide (e.1 - delta < pos))).map (fun e => (e.1 - delta, e.2 + delta)) := by
  induction es generalizing r with
  | nil => simp [mergeInner]
  | cons e t ih =>
    obtain ⟨p, d⟩ := e
    unfold mergeInner
    rw [ih]
    by_cases h : p - delta < pos <;> simp [h]

/-- Last shift of a table, or a default. -/
def lastD (d : Int) (o : Offset) : Int := ((o.getLast?).map (·.2)).getD d

theorem lastD_append (d : Int) (a b : Offset) : lastD d (a ++ b) = lastD (lastD d a) b := by
  unfold lastD
  cases b with
  | nil => simp
  | cons x y => simp [List.getLast?_append, List.getLast?_cons]

/-- What remains to be done by `_merge_offset`, on the remaining entries of both tables. -/
def mergeRest : (sh delta : Int) → (ps : Offset) → (off : Offset) → Offset
  | _, delta, ps, [] => ps.map (fun e => (e.1 - delta, e.2 + delta))
  | sh, delta, ps, (pos, dl) :: off =>
    let ps1 := ps.filter (fun e => decide (e.1 ≤ pos + dl))
    let ps2 := ps.filter (fun e => decide (pos + dl < e.1))
    let sh' := lastD sh ps1
    (ps1.filter (fun e => decide (e.1 - delta < pos))).map (fun e => (e.1 - delta, e.2 + delta))
      ++ [(pos, sh' + dl)] ++ mergeRest sh' dl ps2 off

theorem Ascending.append_left {β : Type} {a b : List (Int × β)} (h : Ascending (a ++ b)) : Ascending a :=
  (List.pairwise_append.mp h).1
theorem Ascending.append_right {β : Type} {a b : List (Int × β)} (h : Ascending (a ++ b)) : Ascending b :=
  (List.pairwise_append.mp h).2.1

theorem lastD_getElem (P : Offset) (n : Nat) (hn : n ≤ P.length) :
    (if n = 0 then 0 else ((P[n - 1]?).map (·.2)).getD 0) = lastD 0 (P.take n) := by
  unfold lastD
  cases n with
  | zero => simp
  | succ n =>
    simp only [Nat.add_sub_cancel, Nat.add_one_ne_zero, if_false]
    rw [List.getLast?_take]; simp [List.getElem?_eq_getElem (show n < P.length by omega)]

/-- The image positions of the remaining entries of `N` never decrease below `lo`. -/
def ImgAsc (lo : Int) (off : Offset) : Prop :=
  (∀ e ∈ off, lo ≤ e.1 + e.2) ∧ off.Pairwise (fun a b => a.1 + a.2 ≤ b.1 + b.2)

theorem merge_foldl (P : Offset) (hP : Ascending P) (off : Offset) :
    ∀ (st : MergeSt) (lo : Int), st.inx ≤ P.length → (∀ e ∈ P.take st.inx, e.1 ≤ lo) → ImgAsc lo off →
      let st' := off.foldl (mergeStep P) st
      st'.result ++ (P.drop st'.inx).map (fun e => (e.1 - st'.delta, e.2 + st'.delta))
        = st.result ++ mergeRest (lastD 0 (P.take st.inx)) st.delta (P.drop st.inx) off := by
  induction off with
  | nil => intro st lo h1 h2 h3; rfl
  | cons e off ih =>
    obtain ⟨pos, dl⟩ := e
    intro st lo h1 h2 h3
    have hlo : lo ≤ pos + dl := h3.1 (pos, dl) (List.mem_cons_self)
    have hsplit : P = P.take st.inx ++ P.drop st.inx := (List.take_append_drop _ _).symm
    have hasc2 : Ascending (P.drop st.inx) := by
      rw [hsplit] at hP; exact Ascending.append_right hP
    have hcnt : cnt P (pos + dl) = st.inx + cnt (P.drop st.inx) (pos + dl) := by
      conv => lhs; rw [hsplit]
      rw [cnt, List.filter_append, List.length_append]
      have : (P.take st.inx).filter (fun e => decide (e.1 ≤ pos + dl)) = P.take st.inx := by
        rw [List.filter_eq_self]; intro a ha; have := h2 a ha; simp; omega
      rw [this, List.length_take, cnt]; omega
    have hes : (P.drop st.inx).take (cnt P (pos + dl) - st.inx)
        = (P.drop st.inx).filter (fun e => decide (e.1 ≤ pos + dl)) := by
      rw [hcnt, Nat.add_sub_cancel_left, asc_take_cnt _ _ hasc2]
    have hlen : ((P.drop st.inx).filter (fun e => decide (e.1 ≤ pos + dl))).length
        = cnt (P.drop st.inx) (pos + dl) := rfl
    simp only [List.foldl_cons]
    have hstep : mergeStep P st (pos, dl) =
        { result := st.result ++ (((P.drop st.inx).filter (fun e => decide (e.1 ≤ pos + dl))).filter
              (fun e => decide (e.1 - st.delta < pos))).map (fun e => (e.1 - st.delta, e.2 + st.delta))
              ++ [(pos, lastD 0 (P.take (cnt P (pos + dl))) + dl)]
          delta := dl, inx := cnt P (pos + dl) } := by
      unfold mergeStep
      simp only [bisect_eq_cnt P _ hP]
      rw [lastD_getElem P _ (cnt_le_length _ _), mergeInner_eq, hes, hlen, ← hcnt]
    rw [hstep]
    have := ih { result := st.result ++ (((P.drop st.inx).filter (fun e => decide (e.1 ≤ pos + dl))).filter
              (fun e => decide (e.1 - st.delta < pos))).map (fun e => (e.1 - st.delta, e.2 + st.delta))
              ++ [(pos, lastD 0 (P.take (cnt P (pos + dl))) + dl)], delta := dl, inx := cnt P (pos + dl) }
              (pos + dl) (cnt_le_length _ _)
              (by intro a ha
                  simp only [asc_take_cnt P _ hP] at ha
                  simpa using (List.mem_filter.mp ha).2)
              ⟨fun a ha => (List.pairwise_cons.mp h3.2).1 a ha, (List.pairwise_cons.mp h3.2).2⟩
    simp only at this
    rw [this]
    simp only [mergeRest]
    have htake : P.take (cnt P (pos + dl)) = P.take st.inx ++ (P.drop st.inx).filter (fun e => decide (e.1 ≤ pos + dl)) := by
      rw [hcnt, List.take_add, asc_take_cnt _ _ hasc2]
    have hdrop : P.drop (cnt P (pos + dl)) = (P.drop st.inx).filter (fun e => decide (pos + dl < e.1)) := by
      rw [hcnt, ← List.drop_drop, asc_drop_cnt _ _ hasc2]
    rw [htake, hdrop, lastD_append]
    simp [List.append_assoc]

theorem mergeOffset_eq (P N : Offset) (hP : Ascending P)
    (hN : N.Pairwise (fun a b => a.1 + a.2 ≤ b.1 + b.2)) :
    mergeOffset P N = mergeRest 0 0 P N := by
  have : ∃ lo : Int, ∀ e ∈ N, lo ≤ e.1 + e.2 := by
    cases N with
    | nil => exact ⟨0, by simp⟩
    | cons e t =>
      refine ⟨e.1 + e.2, ?_⟩
      intro a ha
      rcases List.mem_cons.mp ha with rfl | h
      · exact Int.le_refl _
      · exact (List.pairwise_cons.mp hN).1 a h
  obtain ⟨lo, hlo⟩ := this
  have := merge_foldl P hP N { result := [], delta := 0, inx := 0 } lo (Nat.zero_le _) (by simp) ⟨hlo, hN⟩
  simpa [mergeOffset, lastD] using this

/-- All keys of the rest are at least `lo`. -/
theorem mergeRest_keys (off : Offset) : ∀ (sh delta : Int) (ps : Offset) (lo : Int),
    (∀ e ∈ off, lo ≤ e.1) → (∀ e ∈ ps, lo + delta ≤ e.1) → StrictlyAscending off →
    (∀ e ∈ mergeRest sh delta ps off, lo ≤ e.1) := by
  induction off with
  | nil =>
    intro sh delta ps lo h1 h2 _ e he
    simp only [mergeRest, List.mem_map] at he
    obtain ⟨a, ha, rfl⟩ := he
    have := h2 a ha; simp; omega
  | cons x off ih =>
    obtain ⟨pos, dl⟩ := x
    intro sh delta ps lo h1 h2 h3 e he
    have hpos : lo ≤ pos := h1 (pos, dl) (List.mem_cons_self)
    simp only [mergeRest, List.mem_append, List.mem_map, List.mem_filter, List.mem_singleton] at he
    rcases he with (⟨a, ⟨⟨ha, _⟩, _⟩, rfl⟩ | rfl) | he
    · have := h2 a ha; simp; omega
    · exact hpos
    · have := ih _ dl _ pos (fun a ha => Int.le_of_lt ((List.pairwise_cons.mp h3).1 a ha)) (by
        intro a ha
        have := (List.mem_filter.mp ha).2
        simp at this; omega) (List.pairwise_cons.mp h3).2 e he
      omega

theorem mergeRest_asc (off : Offset) : ∀ (sh delta : Int) (ps : Offset),
    Ascending ps → StrictlyAscending off → Ascending (mergeRest sh delta ps off) := by
  induction off with
  | nil =>
    intro sh delta ps h1 _
    simp only [mergeRest]
    exact List.Pairwise.map _ (fun a b hab => by simp; omega) h1
  | cons x off ih =>
    obtain ⟨pos, dl⟩ := x
    intro sh delta ps h1 h2
    have hkeys : ∀ sh' e, e ∈ mergeRest sh' dl (ps.filter (fun e => decide (pos + dl < e.1))) off → pos ≤ e.1 :=
      fun sh' => mergeRest_keys off _ dl _ pos (fun a ha => Int.le_of_lt ((List.pairwise_cons.mp h2).1 a ha)) (by
        intro a ha
        have := (List.mem_filter.mp ha).2
        simp at this; omega) (List.pairwise_cons.mp h2).2
    simp only [mergeRest, Ascending]
    rw [List.pairwise_append, List.pairwise_append]
    refine ⟨⟨?_, ?_, ?_⟩, ih _ _ _ (List.Pairwise.filter _ h1) (List.pairwise_cons.mp h2).2, ?_⟩
    · exact List.Pairwise.map _ (fun a b hab => by simp; omega)
        (List.Pairwise.filter _ (List.Pairwise.filter _ h1))
    · simp
    · intro a ha b hb
      simp only [List.mem_map, List.mem_filter] at ha
      obtain ⟨c, ⟨_, hc⟩, rfl⟩ := ha
      simp only [List.mem_singleton] at hb
      subst hb
      simp at hc ⊢; omega
    · intro a ha b hb
      have hb' := hkeys _ b hb
      simp only [List.mem_append, List.mem_map, List.mem_filter, List.mem_singleton] at ha
      rcases ha with ⟨c, ⟨_, hc⟩, rfl⟩ | rfl
      · simp at hc ⊢; omega
      · exact hb'

theorem mergeRest_shift (off : Offset) : ∀ (sh delta lo : Int) (ps : Offset),
    (∀ e ∈ off, lo ≤ e.1) → (∀ e ∈ ps, lo + delta < e.1) → Ascending ps → StrictlyAscending off →
    (∀ p q, lo ≤ p → p ≤ q → p + shiftD delta off p ≤ q + shiftD delta off q) →
    ∀ q, lo ≤ q → shiftD (sh + delta) (mergeRest sh delta ps off) q
      = shiftD delta off q + shiftD sh ps (q + shiftD delta off q) := by
  induction off with
  | nil =>
    intro sh delta lo ps _ _ _ _ _ q _
    simp only [mergeRest, shiftD_nil]
    rw [shiftD_map]; omega
  | cons x off ih =>
    obtain ⟨pos, dl⟩ := x
    intro sh delta lo ps h1 h2 h3 h4 h5 q hq
    have hpos : lo ≤ pos := h1 (pos, dl) (List.mem_cons_self)
    have hoff := (List.pairwise_cons.mp h4).1
    have hsp := asc_filter_append ps (pos + dl) h3
    simp only [mergeRest]
    rw [shiftD_append, shiftD_append]
    by_cases hqp : pos ≤ q
    · -- the entry `pos` applies
      have hn : shiftD delta ((pos, dl) :: off) q = shiftD dl off q := by simp [hqp]
      rw [hn]
      have hpp : shiftD delta ((pos, dl) :: off) pos = dl := by
        simp only [shiftD_cons, Int.le_refl, if_true]
        exact shiftD_none _ _ _ hoff
      have hmono := h5 pos q hpos hqp
      rw [hn, hpp] at hmono
      have e1 : ∀ z, shiftD z [(pos, lastD sh (ps.filter (fun e => decide (e.1 ≤ pos + dl))) + dl)] q
          = lastD sh (ps.filter (fun e => decide (e.1 ≤ pos + dl))) + dl := by
        intro z; simp [hqp]
      rw [e1, ih _ dl pos _ (fun a ha => Int.le_of_lt (hoff a ha)) (by
        intro a ha
        have := (List.mem_filter.mp ha).2
        simpa using this) (List.Pairwise.filter _ h3) (List.pairwise_cons.mp h4).2 (by
        intro p r hp hr
        have := h5 p r (by omega) hr
        simpa [hp, show pos ≤ r by omega] using this) q hqp]
      congr 1
      conv => rhs; rw [hsp, shiftD_append]
      congr 1
      rw [shiftD_all]
      · rfl
      · intro a ha
        have := (List.mem_filter.mp ha).2
        simp at this; omega
    · -- before the entry
      have hqp' : q < pos := by omega
      have hn : ∀ r, r < pos → shiftD delta ((pos, dl) :: off) r = delta := by
        intro r hr
        apply shiftD_none
        intro a ha
        rcases List.mem_cons.mp ha with rfl | ha
        · exact hr
        · have := hoff a ha; simp at this; omega
      rw [hn q hqp']
      have hpp : shiftD delta ((pos, dl) :: off) pos = dl := by
        simp only [shiftD_cons, Int.le_refl, if_true]
        exact shiftD_none _ _ _ hoff
      have hmono := h5 q pos hq (by omega)
      rw [hn q hqp', hpp] at hmono
      have hrest : ∀ z, shiftD z (mergeRest (lastD sh (ps.filter (fun e => decide (e.1 ≤ pos + dl)))) dl
          (ps.filter (fun e => decide (pos + dl < e.1))) off) q = z := by
        intro z
        apply shiftD_none
        intro a ha
        have := mergeRest_keys off _ dl _ pos (fun a ha => Int.le_of_lt (hoff a ha)) (by
          intro a ha
          have := (List.mem_filter.mp ha).2
          simp at this; omega) (List.pairwise_cons.mp h4).2 a ha
        omega
      rw [hrest]
      have e1 : ∀ z w, shiftD z [(pos, w)] q = z := by
        intro z w; simp [hqp]
      rw [e1, shiftD_map]
      rw [Int.add_comm]
      congr 1
      conv => rhs; rw [hsp, shiftD_append]
      rw [shiftD_none (ps.filter (fun e => decide (pos + dl < e.1)))]
      · -- entries dropped by the inner filter do not apply at `q`
        have aux : ∀ (l : Offset) z, shiftD z (l.filter (fun e => decide (e.1 - delta < pos))) (q + delta)
            = shiftD z l (q + delta) := by
          intro l
          induction l with
          | nil => intro z; rfl
          | cons a t iht =>
            intro z
            simp only [List.filter_cons]
            by_cases ha : a.1 - delta < pos
            · simp only [ha, decide_true, if_true, shiftD_cons, iht]
            · have hna : ¬ a.1 ≤ q + delta := by omega
              simp only [ha, decide_false, shiftD_cons, hna, if_false]; simpa using iht z
        exact aux _ _
      · intro a ha
        have := (List.mem_filter.mp ha).2
        simp at this; omega

/-- A monotone table with strictly ascending keys has non-decreasing images. -/
theorem img_of_mono (N : Offset) (h : StrictlyAscending N) (hm : Monotone N) :
    N.Pairwise (fun a b => a.1 + a.2 ≤ b.1 + b.2) := by
  -- value of the map at a key of the table
  have key : ∀ (N : Offset) d, StrictlyAscending N → ∀ a ∈ N, shiftD d N a.1 = a.2 := by
    intro N
    induction N with
    | nil => intro d _ a ha; simp at ha
    | cons x t ih =>
      intro d h a ha
      rcases List.mem_cons.mp ha with rfl | ha
      · simp only [shiftD_cons, Int.le_refl, if_true]
        exact shiftD_none _ _ _ (List.pairwise_cons.mp h).1
      · rw [shiftD_cons]; exact ih _ (List.pairwise_cons.mp h).2 a ha
  refine List.Pairwise.imp_of_mem ?_ h
  intro a b ha hb hab
  have := hm a.1 b.1 (by omega)
  rw [posMap_eq, posMap_eq, key N 0 h a ha, key N 0 h b hb] at this
  exact this

theorem mergeOffset_shift (P N : Offset) (hP : Ascending P) (hN : StrictlyAscending N) (hm : Monotone N)
    (q : Int) : posMap (mergeOffset P N) q = posMap P (posMap N q) := by
  rw [mergeOffset_eq P N hP (img_of_mono N hN hm)]
  -- a lower bound below everything
  have hlow : ∀ l : List (Int × Int), ∃ lo : Int, ∀ e ∈ l, lo < e.1 := by
    intro l
    induction l with
    | nil => exact ⟨0, by simp⟩
    | cons e t ih =>
      obtain ⟨lo, h⟩ := ih
      refine ⟨min lo (e.1 - 1), ?_⟩
      intro a ha
      rcases List.mem_cons.mp ha with rfl | ha
      · omega
      · have := h a ha; omega
  obtain ⟨l1, h1⟩ := hlow N
  obtain ⟨l2, h2⟩ := hlow P
  have := mergeRest_shift N 0 0 (min (min l1 l2) q) P (fun e he => by have := h1 e he; omega)
    (fun e he => by have := h2 e he; omega) hP hN (by
      intro p r _ hr
      have := hm p r hr
      simpa [posMap_eq] using this) q (by omega)
  simp only [posMap_eq]
  simp only [Int.add_zero] at this
  rw [this]; omega

theorem mergeOffset_asc (P N : Offset) (hP : Ascending P) (hN : StrictlyAscending N) (hm : Monotone N) :
    Ascending (mergeOffset P N) := by
  rw [mergeOffset_eq P N hP (img_of_mono N hN hm)]
  exact mergeRest_asc N 0 0 P hP hN

end Yupp
