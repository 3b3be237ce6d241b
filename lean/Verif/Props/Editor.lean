import Verif.Lemmas.Editor
import Verif.Props.Origin
/-!
# C66: "Go to Origin"
-/

namespace Yupp
open Spec

/-- The entries with the key of the last one not beyond `q`. -/
theorem group_split {b : Browse} (hb : Ascending b) {q : Int} {e : Int × Str × Int}
    (he : (b.filter (fun e => decide (e.1 ≤ q))).getLast? = some e) :
    ∃ (pre : Browse) (outer : List (Str × Int)) (rest : Browse),
      b = pre ++ ((outer ++ [e.2]).map fun x => (e.1, x)) ++ rest ∧ (∀ x, pre.getLast? = some x → x.1 ≠ e.1) ∧
      b.filter (fun d => decide (d.1 = e.1)) = (outer ++ [e.2]).map (fun x => (e.1, x)) ∧
      cnt b q = pre.length + outer.length + 1 := by
  have hsplit := asc_filter_append b q hb
  generalize hle : b.filter (fun e => decide (e.1 ≤ q)) = le at hsplit he
  generalize hgt : b.filter (fun e => decide (q < e.1)) = gt at hsplit
  have hale : Ascending le := by
    rw [← hle]; exact List.Pairwise.sublist List.filter_sublist hb
  obtain ⟨ini, hini⟩ := List.getLast?_eq_some_iff.mp he
  have htop : ∀ x ∈ le, x.1 ≤ e.1 := by
    intro x hx
    rw [hini] at hx hale
    rcases List.mem_append.mp hx with h | h
    · exact (List.pairwise_append.mp hale).2.2 x h e (by simp)
    · simp at h; subst h; exact Int.le_refl _
  have hs2 := asc_filter_append ini (e.1 - 1) (by rw [hini] at hale; exact (List.pairwise_append.mp hale).1)
  generalize hpre : ini.filter (fun d => decide (d.1 ≤ e.1 - 1)) = pre at hs2
  generalize hgrp : ini.filter (fun d => decide (e.1 - 1 < d.1)) = grp at hs2
  have hkey : ∀ x ∈ grp, x.1 = e.1 := by
    intro x hx
    rw [← hgrp] at hx
    obtain ⟨h1, h2⟩ := List.mem_filter.mp hx
    have h3 := htop x (by rw [hini]; simp [h1])
    simp at h2
    omega
  have hmap : grp = (grp.map (·.2)).map fun x => (e.1, x) := by
    rw [List.map_map]
    conv => lhs; rw [← List.map_id grp]
    apply List.map_congr_left
    intro x hx
    simp only [id, Function.comp]
    rw [← hkey x hx]
  have hqe : e.1 ≤ q := by
    have : e ∈ b.filter (fun e => decide (e.1 ≤ q)) := by rw [hle, hini]; simp
    simpa using (List.mem_filter.mp this).2
  refine ⟨pre, grp.map (·.2), gt, ?_, ?_, ?_, ?_⟩
  · rw [List.map_append, ← hmap]
    rw [hsplit, hini, hs2]
    simp
  · intro x hx he
    have : x ∈ pre := List.mem_of_getLast? hx
    rw [← hpre] at this
    have := (List.mem_filter.mp this).2
    simp at this
    omega
  · rw [hsplit, hini, hs2]
    simp only [List.filter_append, List.map_append]
    rw [← hmap]
    have h1 : pre.filter (fun d => decide (d.1 = e.1)) = [] := by
      rw [List.filter_eq_nil_iff]
      intro x hx
      rw [← hpre] at hx
      have := (List.mem_filter.mp hx).2
      simp at this ⊢
      omega
    have h2 : gt.filter (fun d => decide (d.1 = e.1)) = [] := by
      rw [List.filter_eq_nil_iff]
      intro x hx
      rw [← hgt] at hx
      have := (List.mem_filter.mp hx).2
      simp at this ⊢
      omega
    have h3 : grp.filter (fun d => decide (d.1 = e.1)) = grp := by
      rw [List.filter_eq_self]
      intro x hx
      simp [hkey x hx]
    rw [h1, h2, h3]
    simp
  · unfold cnt
    rw [hle, hini, hs2]
    simp
    omega

theorem deltaAt_eq (o : Offset) (ho : Ascending o) (p : Int) : p + deltaAt o p = posMap o p := by
  unfold deltaAt posMap shiftAt
  rw [bisect_eq_cnt _ _ ho]
  have hs := asc_filter_append o p ho
  unfold cnt
  generalize o.filter (fun e => decide (e.1 ≤ p)) = le at hs ⊢
  rcases le.eq_nil_or_concat with h | ⟨l, e, h⟩
  · subst h; rfl
  · rw [List.concat_eq_append] at h
    subst h
    rw [hs]
    simp

theorem getLast_key {α : Type} {xs : List (Int × α)} {e x : Int × α} (h : xs.getLast? = some e) (hx : x = e) : xs.getLast? = some x := by
  rw [hx]; exact h

/-- The first command. -/
theorem first_jump (dk : Disk) (ed : Editor) (d : FData) (txt : Str)
    (hstate : ed.state ed.file = some .fruit) (ho : Ascending d.offset) (hb : Ascending d.browse)
    (hnd : (stops (find dk d) ⟨txt, d.browse, d.offset⟩ (ed.caret ed.file)).Nodup)
    (hs : ∀ s ∈ stops (find dk d) ⟨txt, d.browse, d.offset⟩ (ed.caret ed.file), s.1 ≠ ed.file ∧ ∀ n, ed.jump s.1 ≠ some (.name n))
    (hany : references ⟨txt, d.browse, d.offset⟩ (ed.caret ed.file) ≠ []) :
    ∃ ed', freshJump dk ed d (ed.caret ed.file) = some ed' ∧
      Ring ed' (place ed :: stops (find dk d) ⟨txt, d.browse, d.offset⟩ (ed.caret ed.file)) ∧
      place ed' = nextStop (place ed) (stops (find dk d) ⟨txt, d.browse, d.offset⟩ (ed.caret ed.file)) := by
  generalize hpos : ed.caret ed.file = pos at *
  cases hlast : (d.browse.filter (fun e => decide (e.1 ≤ posMap d.offset pos))).getLast? with
  | none => simp [references, hlast] at hany
  | some e =>
    obtain ⟨pre, outer, rest, hbr, hpre, hgroup, hcnt⟩ := group_split hb hlast
    have hrefs : references ⟨txt, d.browse, d.offset⟩ pos = outer ++ [e.2] := by
      simp only [references, hlast, hgroup, List.map_map]
      exact List.map_id' _
    have hbis : bisect d.browse (posMap d.offset pos) = (pre.length + outer.length) + 1 := by
      rw [bisect_eq_cnt _ _ hb, hcnt]
    have hget : d.browse[pre.length + outer.length]? = some e := by
      rw [hbr]; simp
    obtain ⟨found, f, p⟩ := e
    -- the innermost place
    have hin : stops (find dk d) ⟨txt, d.browse, d.offset⟩ pos =
        stopsOf dk d.paths outer ++ (if (find dk d f).isEmpty then [] else
          [(find dk d f, shifted d.browse (pre.length + outer.length) (posMap d.offset pos) found p)]) := by
      have hres : resolve ⟨txt, d.browse, d.offset⟩ pos = some (f, p, posMap d.offset pos - found) := by
        simp [resolve, hlast]
      rw [stops, places, hrefs, hres]
      cases outer with
      | nil =>
        simp only [List.nil_append, stopsOf, List.map_nil, List.filter_nil, List.length_nil, Nat.add_zero]
        have hfirst : InFirstFragment ⟨txt, d.browse, d.offset⟩ pos ↔ pre.length = 0 := by
          unfold InFirstFragment
          change cnt d.browse (posMap d.offset pos) = 1 ↔ _
          rw [hcnt]; simp
        have hle : found ≤ posMap d.offset pos := by
          have := List.mem_of_getLast? hlast
          simpa using (List.mem_filter.mp this).2
        have hsh : shifted d.browse pre.length (posMap d.offset pos) found p =
            if 0 < p ∧ ¬ InFirstFragment ⟨txt, d.browse, d.offset⟩ pos then p + (posMap d.offset pos - found) else p.natAbs := by
          rcases pre.eq_nil_or_concat with h | ⟨l, x, h⟩
          · subst h
            rw [if_neg (by rw [hfirst]; simp)]
            simp [shifted]
          · rw [List.concat_eq_append] at h
            have hx : d.browse[l.length]? = some x := by rw [hbr, h]; simp
            have hxk := hpre x (by rw [h]; simp)
            have hl : pre.length = l.length + 1 := by rw [h]; simp
            by_cases hp : 0 < p
            · rw [if_pos ⟨hp, by rw [hfirst]; omega⟩, hl]
              simp only [shifted, hx]
              simp only [ne_eq, hxk, not_false_eq_true, decide_true, hp, Bool.and_self, if_true]
              omega
            · rw [if_neg (by simp [hp]), hl]
              simp only [shifted, hx]
              simp [hp]
        rw [hsh]
        split <;> simp only [List.map_cons, List.map_nil, List.filter_cons, List.filter_nil] <;> cases (find dk d f).isEmpty <;> rfl
      | cons o outer' =>
        have hsh : shifted d.browse (pre.length + (o :: outer').length) (posMap d.offset pos) found p = p.natAbs := by
          generalize hou : o :: outer' = outer at *
          rcases outer.eq_nil_or_concat with h | ⟨l, x, h⟩
          · subst h; cases hou
          · rw [List.concat_eq_append] at h
            have hx : d.browse[pre.length + l.length]? = some (found, x) := by
              rw [hbr, h]; simp
            have hl : pre.length + outer.length = (pre.length + l.length) + 1 := by rw [h]; simp; omega
            rw [hl]
            simp only [shifted, hx]
            simp
        rw [hsh]
        have hlen : ∀ (x : Str × Int), o :: outer' ++ [(f, p)] = [x] → False := by
          intro x hx; have := congrArg List.length hx; simp at this
        split
        · next h _ => exact (hlen _ h).elim
        · simp only [stopsOf, List.map_append, List.filter_append, List.map_map]
          congr 1
          simp only [List.map_cons, List.map_nil, List.filter_cons, List.filter_nil, Function.comp]
          cases (find dk d f).isEmpty <;> rfl
    rw [hin] at hnd hs ⊢
    -- the loop
    have hq := deltaAt_eq d.offset ho pos
    unfold freshJump
    simp only [hq, hbis, hget]
    have hback : place ed = (ed.file, pos) := by rw [place, hpos]
    rw [hback]
    have key : ∀ (w : Walk) (vs : List (Str × Int)), WalkInv dk d.paths ed (ed.file, pos) w vs →
        (if (find dk d f).isEmpty then [] else
          [(find dk d f, shifted d.browse (pre.length + outer.length) (posMap d.offset pos) found p)]) = vs →
        ∃ ed', (match walkBack dk d.browse found (pre.length + outer.length) w with
          | none => none
          | some w => match w.jump ed.file with
            | some (.table t) => some (Editor.goto { ed with
                state := w.state, jump := put w.jump ed.file (some (.table ((pos, w.fn, w.pos) :: t)))
                data := put ed.data ed.file (some { d with paths := w.paths }) } w.fn w.pos)
            | _ => none) = some ed' ∧ Ring ed' ((ed.file, pos) :: (stopsOf dk d.paths outer ++ vs)) ∧
          place ed' = nextStop (ed.file, pos) (stopsOf dk d.paths outer ++ vs) := by
      intro w vs hw hvs
      rw [hvs] at hnd hs
      rw [walk_all dk d.browse found pre hpre outer ((found, f, p) :: rest) w (by rw [hbr]; simp)]
      have hrev : (stopsOf dk d.paths outer.reverse).reverse = stopsOf dk d.paths outer := by
        simp [stopsOf, List.filter_reverse, List.map_reverse]
      obtain ⟨w', h1, h2⟩ := walk_inv dk d.paths ed (ed.file, pos) outer.reverse w vs hw (by rw [hrev]; exact hnd) (by
        intro s hs'
        refine hs s (List.mem_append_left _ ?_)
        rw [← hrev]
        simpa using hs')
      rw [hrev] at h2
      rw [h1]
      simp only [h2.start]
      refine ⟨_, rfl, ?_, ?_⟩
      · intro j a ha
        have hne : ∀ v ∈ stopsOf dk d.paths outer ++ vs, v.1 ≠ ed.file := fun v hv => (hs v hv).1
        cases j with
        | zero =>
          cases ha
          refine ⟨⟨.fruit, ?_, by simp⟩, _, putE_same _ _ _, ?_⟩
          · change w'.state ed.file = _
            rw [h2.sfruit]; exact hstate
          · simp only [List.lookup, beq_self_eq_true]
            rw [h2.here]
            cases hv : stopsOf dk d.paths outer ++ vs with
            | nil => simp [nextStop]
            | cons v vs' => simp [nextStop]
        | succ j =>
          have ha : (stopsOf dk d.paths outer ++ vs)[j]? = some a := by simpa using ha
          have hmem := List.mem_of_getElem? ha
          refine ⟨⟨.origin, h2.state a hmem, by simp⟩, ?_⟩
          obtain ⟨t, h3, h4⟩ := linked_get h2.linked j a ha
          refine ⟨t, ?_, ?_⟩
          · change put w'.jump ed.file _ a.1 = _
            rw [putE_other _ _ (hne a hmem)]
            exact h3
          · rw [h4]
            have hlt := (List.getElem?_eq_some_iff.mp ha).1
            by_cases hj : j + 1 < (stopsOf dk d.paths outer ++ vs).length
            · have : (j + 1 + 1) % ((ed.file, pos) :: (stopsOf dk d.paths outer ++ vs)).length = j + 1 + 1 :=
                Nat.mod_eq_of_lt (by simp only [List.length_cons]; omega)
              rw [this, List.getElem?_cons_succ, List.getElem?_eq_getElem hj]
              rfl
            · have hjl : j + 1 = (stopsOf dk d.paths outer ++ vs).length := by omega
              have : (j + 1 + 1) % ((ed.file, pos) :: (stopsOf dk d.paths outer ++ vs)).length = 0 := by
                rw [List.length_cons, ← hjl]; exact Nat.mod_self _
              rw [this, List.getElem?_eq_none (by omega)]
              rfl
      · rw [← h2.here]
        simp [place, Editor.goto, putE_same]
    cases hem : (find dk d f).isEmpty with
    | true =>
      have hem' : (searchFile dk dk.folders d.paths f).1.isEmpty = true := hem
      simp only [hem', if_true]
      refine key _ [] ⟨.nil, rfl, ?_, by simp, rfl, ?_, fun g => search_stable _ _ _ _ _⟩ (by simp [hem])
      · have hnil : (searchFile dk dk.folders d.paths f).1 = [] := List.isEmpty_iff.mp hem'
        change put (put ed.jump ed.file _) _ _ ed.file = _
        by_cases h0 : ed.file = (searchFile dk dk.folders d.paths f).1
        · rw [← h0, putE_same]
        · rw [putE_other _ _ h0, putE_same]
      · intro g hg n
        change put (put ed.jump ed.file _) _ _ g ≠ _
        unfold put
        split
        · simp
        · split
          · simp
          · exact hg n
    | false =>
      have hem' : (searchFile dk dk.folders d.paths f).1.isEmpty = false := hem
      simp only [hem', Bool.false_eq_true, if_false]
      have hne : (searchFile dk dk.folders d.paths f).1 ≠ ed.file := (hs (find dk d f, shifted d.browse (pre.length + outer.length) (posMap d.offset pos) found p) (by simp [hem])).1
      refine key _ [(find dk d f, shifted d.browse (pre.length + outer.length) (posMap d.offset pos) found p)]
        ⟨.cons (putE_same _ _ _) (by simp [List.lookup, nextStop]) .nil, rfl, ?_, ?_, ?_, ?_, fun g => search_stable _ _ _ _ _⟩ (by simp [hem])
      · change put (put (put ed.jump ed.file _) _ _) _ _ ed.file = _
        rw [putE_other _ _ (Ne.symm hne), putE_other _ _ (Ne.symm hne), putE_same]
      · intro v hv
        simp at hv
        subst hv
        exact putE_same _ _ _
      · change put ed.state _ _ ed.file = _
        rw [putE_other _ _ (Ne.symm hne)]
      · intro g hg n
        change put (put (put ed.jump ed.file _) _ _) _ _ g ≠ _
        unfold put
        split
        · simp
        · split
          · simp
          · exact hg n

/-- **C66**. The command "Go to Origin", given again and again at a character of a generated file, visits the stops of the
    character, outermost first, returns to the character and goes round again; it never fails. The file is one whose tables the
    plug-in has read, nothing was noted for the position before; the stops are different places in other files, none of which is
    opened as the counterpart of a file without tables. -/
theorem C66_round (dk : Disk) (ed : Editor) (d : FData) (txt : Str) (ho : Ascending d.offset) (hb : Ascending d.browse)
    (hstate : ed.state ed.file = some .fruit) (hdata : ed.data ed.file = some d)
    (hname : ∀ n, ed.jump ed.file ≠ some (.name n))
    (hnew : ∀ t, ed.jump ed.file = some (.table t) → t.lookup (ed.caret ed.file) = none)
    (hnd : (stops (find dk d) ⟨txt, d.browse, d.offset⟩ (ed.caret ed.file)).Nodup)
    (hs : ∀ s ∈ stops (find dk d) ⟨txt, d.browse, d.offset⟩ (ed.caret ed.file), s.1 ≠ ed.file ∧ ∀ n, ed.jump s.1 ≠ some (.name n)) :
    ∀ k, ∃ ed', press dk k ed = some ed' ∧
      (place ed :: stops (find dk d) ⟨txt, d.browse, d.offset⟩ (ed.caret ed.file))[
        k % ((stops (find dk d) ⟨txt, d.browse, d.offset⟩ (ed.caret ed.file)).length + 1)]? = some (place ed') := by
  have hfresh : gotoOrigin dk ed = freshJump dk ed d (ed.caret ed.file) := by
    unfold gotoOrigin
    simp only [hstate, hdata]
    cases hj : ed.jump ed.file with
    | none => rfl
    | some j =>
      cases j with
      | name n => exact absurd hj (hname n)
      | table t => simp only [hnew t hj]
  intro k
  cases k with
  | zero => exact ⟨ed, rfl, by simp⟩
  | succ k =>
    by_cases hany : references ⟨txt, d.browse, d.offset⟩ (ed.caret ed.file) = []
    · -- no reference: nothing happens
      have hst : stops (find dk d) ⟨txt, d.browse, d.offset⟩ (ed.caret ed.file) = [] := by
        simp [stops, places, hany]
      have hlast : (d.browse.filter (fun e => decide (e.1 ≤ posMap d.offset (ed.caret ed.file)))).getLast? = none := by
        cases hl : (d.browse.filter (fun e => decide (e.1 ≤ posMap d.offset (ed.caret ed.file)))).getLast? with
        | none => rfl
        | some e =>
          obtain ⟨pre, outer, rest, _, _, hgroup, _⟩ := group_split hb hl
          simp [references, hl, hgroup] at hany
      have hstay : gotoOrigin dk ed = some ed := by
        rw [hfresh]
        unfold freshJump
        have : cnt d.browse (posMap d.offset (ed.caret ed.file)) = 0 := by
          unfold cnt
          rw [List.getLast?_eq_none_iff] at hlast
          rw [hlast]; rfl
        simp only [deltaAt_eq _ ho, bisect_eq_cnt _ _ hb, this]
      have hall : ∀ k, press dk k ed = some ed := by
        intro k
        induction k with
        | zero => rfl
        | succ k ih => rw [press, hstay]; exact ih
      refine ⟨ed, hall _, ?_⟩
      rw [hst]
      simp [Nat.mod_one]
    · obtain ⟨ed1, h1, h2, h3⟩ := first_jump dk ed d txt hstate ho hb hnd hs hany
      rw [← hfresh] at h1
      generalize stops (find dk d) ⟨txt, d.browse, d.offset⟩ (ed.caret ed.file) = st at *
      have h4 : (place ed :: st)[1 % (place ed :: st).length]? = some (place ed1) := by
        rw [h3]
        cases st with
        | nil => simp [nextStop, Nat.mod_one]
        | cons v vs =>
          have : 1 % (place ed :: v :: vs).length = 1 := Nat.mod_eq_of_lt (by simp)
          rw [this]
          simp [nextStop]
      obtain ⟨ed', h5, h6⟩ := ring_press (dk := dk) (by simp) k _ ed1 h2 h4
      refine ⟨ed', by rw [press, h1]; exact h5, ?_⟩
      rw [← h6]
      congr 1
      rw [Nat.mod_add_mod, List.length_cons, Nat.add_comm 1 k]

/-- **C66**. With one reference, to a fragment further on in a file, the command leads from the character to the character; in
    the first fragment and in fragments at the beginning of a file, only to the beginning of the fragment. -/
theorem C66_single (find : Str → Str) (r : Res) (pos : Int) (f : Str) (p d : Int) (hfind : find f ≠ [])
    (hrefs : references r pos = [(f, p)]) (hres : resolve r pos = some (f, p, d)) :
    (0 < p → ¬ InFirstFragment r pos → stops find r pos = [(find f, p + d)]) ∧
    (0 ≤ p → (p = 0 ∨ InFirstFragment r pos) → stops find r pos = [(find f, p)]) := by
  have he : (find f).isEmpty = false := by simpa using hfind
  constructor
  · intro h1 h2
    simp [stops, places, hrefs, hres, h1, h2, he]
  · intro h0 h1
    have : ¬ (0 < p ∧ ¬ InFirstFragment r pos) := by
      rintro ⟨h2, h3⟩
      rcases h1 with h1 | h1
      · omega
      · exact h3 h1
    simp only [stops, places, hrefs, hres, if_neg this, List.map_cons, List.map_nil, List.filter_cons, List.filter_nil, he]
    simp
    omega

/-- The tables of every text that is made ascend, as the plug-in takes for granted. -/
theorem C66_tables (cfg : Config) (repr : Node → Str) (w : World) (r : Res) (cs : List Cell) (h : Made cfg repr w r cs) :
    Ascending r.offset ∧ Ascending r.browse := by
  obtain ⟨_, hinv⟩ := made_inv h
  exact ⟨hinv.asc, hinv.basc⟩

/-- **C66**, from end to end. A file is translated with browsing information, the plug-in opens the result. Let the character
    at `i` come from a fragment with a single reference, which is neither the first one nor at the beginning of its file, and let that
    file be found, not being the result itself. Then the command leads to the place of the reference plus the index of the
    character, and the next one leads back. If the fragment is one of a file, at this place of the file stands the character. -/
theorem C66_to_the_character (e : EEnv) (readable : Node → Str) (hp : Honest e) (hn : Names e.pe) {n : Nat}
    {input : Option Str} {seen : List Node} {text : Str} {run : Run} {r : Res} (hseen : ∀ l ∈ leavesL seen, MadeOf [] l)
    (h : runAt e readable n input seen text = .ok run) (hr : pp e.cfg run.raw = (true, .res r)) :
    ∃ xs st v s, (P e.pe n).parse e.pe.inputFile (PSt.start e.pe input text) = .ok (xs, st) ∧
      E e n (.text xs) { p := st, seen := seen } = .ok (v, s) ∧
      ∃ cs, r.txt = Spec.text (steadyCells cs) ∧ ∀ (i : Nat) (c : Cell) (o : Origin), cs[i]? = some c → c.org = some o →
        o.outer = [] → 0 < o.pos → ¬ InFirstFragment r i →
        ∀ (dk : Disk) (ed : Editor) (d : FData), ed.state ed.file = some .fruit → ed.data ed.file = some d →
          d.browse = r.browse → d.offset = r.offset → ed.caret ed.file = i → ed.jump ed.file = none →
          find dk d o.file ≠ [] → find dk d o.file ≠ ed.file → (∀ nm, ed.jump (find dk d o.file) ≠ some (.name nm)) →
          (∃ ed1 ed2, press dk 1 ed = some ed1 ∧ place ed1 = (find dk d o.file, o.pos + o.idx) ∧
            press dk 2 ed = some ed2 ∧ place ed2 = (ed.file, (i : Int))) ∧
          ((∃ name dl dl' txt t, ∃ k : Nat, (name, dl, txt) ∈ s.p.world.source ∧ (name, dl', t) ∈ s.p.world.source ∧
              o.file = shownName name dl' ∧ o.pos = k ∧ txt[k + o.idx]? = some c.ch) ∨
            ∃ name dl txt, ∃ k : Nat, (name, dl, txt) ∈ s.p.world.source ∧ isDigits name = true ∧
              txt[k + o.idx]? = some c.ch ∧ Refs s.p.world ⟨name, k⟩ [(o.file, o.pos)]) := by
  obtain ⟨xs, st, v, s, h1, h2, cs, hm, htxt, hcells⟩ := C62_every_character e readable hp hn hseen h hr
  refine ⟨xs, st, v, s, h1, h2, cs, htxt, ?_⟩
  intro i c o hc hco hout hpos hfirst dk ed d hstate hdata hbr hof hcar hjump hfind hself hnm
  obtain ⟨hres, hrefs, hright⟩ := hcells i c o hc hco
  obtain ⟨ha1, ha2⟩ := C66_tables _ _ _ _ _ hm
  rw [hout, List.nil_append] at hrefs
  have hstops : stops (find dk d) ⟨r.txt, d.browse, d.offset⟩ (ed.caret ed.file) = [(find dk d o.file, o.pos + o.idx)] := by
    rw [hbr, hof, hcar]
    exact (C66_single (find dk d) r i o.file o.pos o.idx hfind hrefs hres).1 hpos hfirst
  refine ⟨?_, ?_⟩
  · have hround := C66_round dk ed d r.txt (by rw [hof]; exact ha1) (by rw [hbr]; exact ha2) hstate hdata (by rw [hjump]; simp)
      (by rw [hjump]; simp) (by rw [hstops]; simp) (by
        rw [hstops]
        intro x hx
        simp at hx
        subst hx
        exact ⟨hself, hnm⟩)
    rw [hstops] at hround
    obtain ⟨ed1, h3, h4⟩ := hround 1
    obtain ⟨ed2, h5, h6⟩ := hround 2
    refine ⟨ed1, ed2, h3, ?_, h5, ?_⟩
    · simpa using h4.symm
    · have : place ed = place ed2 := by simpa using h6
      rw [← this, place, hcar]
  · rcases C62_in_a_file hright with ⟨name, dl, dl', txt, k, a1, _, ⟨t, a3⟩, a4, a5, a6⟩ | ⟨name, dl, txt, k, a1, a2, a3, a4⟩
    · exact .inl ⟨name, dl, dl', txt, t, k, a1, a3, a4, a5, a6⟩
    · refine .inr ⟨name, dl, txt, k, a1, a2, a3, ?_⟩
      rw [hout] at a4
      exact a4

theorem firstFile_map (dk : Disk) (g : Str → Str) : ∀ (ds : List Str) (rest : List Str),
    (∃ a d b, ds = a ++ d :: b ∧ dk.isFile (g d) = true ∧ (∀ d' ∈ a, dk.isFile (g d') = false) ∧ firstFile dk (ds.map g ++ rest) = g d) ∨
    ((∀ d ∈ ds, dk.isFile (g d) = false) ∧ firstFile dk (ds.map g ++ rest) = firstFile dk rest)
  | [], rest => .inr ⟨by simp, rfl⟩
  | d :: ds, rest => by
    cases h : dk.isFile (g d) with
    | true => exact .inl ⟨[], d, ds, rfl, h, by simp, by simp [firstFile, h]⟩
    | false =>
      rcases firstFile_map dk g ds rest with ⟨a, d1, b, rfl, h1, h2, h3⟩ | ⟨h1, h2⟩
      · refine .inl ⟨d :: a, d1, b, rfl, h1, ?_, by rw [← h3]; simp [firstFile, h]⟩
        intro d' hd
        rcases List.mem_cons.1 hd with rfl | hd
        · exact h
        · exact h2 d' hd
      · refine .inr ⟨?_, by rw [← h2]; simp [firstFile, h]⟩
        intro d' hd
        rcases List.mem_cons.1 hd with rfl | hd
        · exact h
        · exact h1 d' hd

/-- **C66**. Which file is found for a name. -/
theorem C66_find (dk : Disk) (d : FData) (fn : Str) :
    Finds dk d.paths fn (find dk d fn) := by
  unfold find searchFile
  cases hk : ((d.paths.lookup fn).getD []).isEmpty with
  | false =>
    simp only [hk, Bool.false_eq_true, if_false]
    cases hl : d.paths.lookup fn with
    | none => rw [hl] at hk; cases hk
    | some p => exact .before hl (by rw [hl] at hk; rintro rfl; cases hk)
  | true =>
    have hn : ∀ p, d.paths.lookup fn = some p → p = [] := fun p hp => by rw [hp] at hk; simpa using hk
    simp only [hk, if_true]
    have key : ∀ q, (if q.isEmpty = true then (([] : Str), d.paths) else (q, (fn, q) :: d.paths)).1 = q := fun q => by
      cases q <;> rfl
    rw [key]
    unfold searchPath
    cases hf : dk.isFile fn with
    | true => exact .itself hn hf
    | false =>
      simp only [Bool.false_eq_true, if_false]
      rcases firstFile_map dk (dk.join · fn) dk.folders (dk.folders.map (dk.join · (basename fn))) with ⟨a, d1, b, h0, h1, h2, h3⟩ | ⟨h1, h2⟩
      · rw [h3]; exact .byName hn hf h0 h1 h2
      · rw [h2, ← List.append_nil (dk.folders.map _)]
        rcases firstFile_map dk (dk.join · (basename fn)) dk.folders [] with ⟨a, d1, b, h0, h3, h4, h5⟩ | ⟨h3, h4⟩
        · rw [h5]; exact .byBase hn hf h1 h0 h3 h4
        · rw [h4]; exact .nowhere hn hf h1 h3

/-- A result with two fragments of `a`, the second at 7; it is opened as `a.out`. -/
def exData : FData := { browse := [(0, lit "a", 0), (3, lit "a", 7), (5, lit "b", 2), (5, lit "c", -4)], offset := [] }
/-- The files `a`, `b` and `c` exist. -/
def exDisk : Disk :=
  { isFile := fun f => f = lit "a" || f = lit "b" || f = lit "c", abspath := fun f => lit "/" ++ f, dirname := fun _ => []
    join := fun d f => d ++ f, mtime := fun _ => 0, json := fun _ => exData, folders := [] }
/-- The caret is at `p`. -/
def exEditor (p : Int) : Editor :=
  { state := put (fun _ => none) (lit "a.out") (some .fruit), data := put (fun _ => none) (lit "a.out") (some exData)
    file := lit "a.out", caret := fun _ => p }

/-- The hypotheses of `C66_round` can be met, with one stop and with two. -/
example (k : Nat) : (∃ ed', press exDisk k (exEditor 4) = some ed' ∧
      [(lit "a.out", 4), (lit "/a", 8)][k % 2]? = some (place ed')) ∧
    ∃ ed', press exDisk k (exEditor 6) = some ed' ∧ [(lit "a.out", 6), (lit "/b", 2), (lit "/c", 4)][k % 3]? = some (place ed') :=
  ⟨C66_round exDisk (exEditor 4) exData [] (by unfold Ascending; decide) (by unfold Ascending; decide) rfl rfl (by intro n h; cases h) (by intro t h; cases h)
      (by decide) (fun s hs => ⟨by revert s; decide, by intro n h; cases h⟩) k,
   C66_round exDisk (exEditor 6) exData [] (by unfold Ascending; decide) (by unfold Ascending; decide) rfl rfl (by intro n h; cases h) (by intro t h; cases h)
      (by decide) (fun s hs => ⟨by revert s; decide, by intro n h; cases h⟩) k⟩

/-- C66 fails in the first fragment: the character at 2 leads to the beginning. -/
theorem C66_first_fragment_wrong : ∃ ed', press exDisk 1 (exEditor 2) = some ed' ∧ place ed' = (lit "/a", 0) ∧
    resolve ⟨[], exData.browse, exData.offset⟩ 2 = some (lit "a", 0, 2) := by
  obtain ⟨ed', h1, h2⟩ := C66_round exDisk (exEditor 2) exData [] (by unfold Ascending; decide) (by unfold Ascending; decide) rfl rfl (by intro n h; cases h)
    (by intro t h; cases h) (by decide) (fun s hs => ⟨by revert s; decide, by intro n h; cases h⟩) 1
  exact ⟨ed', h1, (Option.some.inj h2).symm, by decide⟩

end Yupp
