import Verif.Lemmas.Cells
import Verif.Spec.Lines

namespace Yupp
open Spec

/-- Invariant of the offset loop of the empty-line reduction. -/
structure ReduceInv (st : ReduceSt) (old new : List Cell) : Prop where
  rel : RelocAt 0 0 st.offset old new
  pos : st.pos = new.length
  total : st.total = (old.length : Int) - new.length
  le : st.pos' ≤ st.pos
  kle : ∀ e ∈ st.offset, e.1 ≤ st.pos'
  last : (st.offset = [] ∧ st.pos' = 0) ∨ ∃ M t, st.offset = M ++ [(st.pos', t)]
  prev : st.prevEmpty = true → 0 < st.pos

theorem ReduceInv.keep {st old new} (h : ReduceInv st old new) (ln : List Cell) (hne : ln ≠ []) (b : Bool) :
    ReduceInv { st with pos := st.pos + ln.length, prevEmpty := b } (old ++ ln) (new ++ ln) := by
  have hl : 0 < ln.length := List.length_pos_iff.mpr hne
  refine ⟨?_, ?_, ?_, ?_, h.kle, h.last, ?_⟩
  · have := RelocAt.append h.rel (RelocAt.same new.length (0 + old.length - new.length) ln) (by omega) rfl
      (Or.inr rfl)
    simpa using this
  · simp [h.pos]
  · simp [h.total]; omega
  · have := h.le; simp only; omega
  · intro _; have := h.pos; simp only; omega

theorem ReduceInv.drop {st old new} (h : ReduceInv st old new) (ln : List Cell) (hp : st.prevEmpty = true) :
    ReduceInv (if st.pos = st.pos' then
        { st with total := st.total + ln.length, offset := st.offset.dropLast ++ [(st.pos, st.total + ln.length)] }
      else
        { st with total := st.total + ln.length, offset := st.offset ++ [(st.pos, st.total + ln.length)], pos' := st.pos })
      (old ++ ln) new := by
  have hpos := h.prev hp
  by_cases he : st.pos = st.pos'
  · rw [if_pos he]
    rcases h.last with ⟨_, h0⟩ | ⟨M, t, hM⟩
    · omega
    · have hrel := h.rel
      have hlast := hrel.last
      rw [hM, lastD_append] at hlast
      simp [lastD] at hlast
      refine ⟨?_, h.pos, ?_, h.le, ?_, ?_, h.prev⟩
      · rw [hM, List.dropLast_concat]
        have hasc := hrel.asc
        rw [hM] at hasc
        have hasc' := List.pairwise_append.mp hasc
        have hdrop := hrel.drop
        refine ⟨?_, ?_, ?_, ?_, ?_⟩
        · refine List.pairwise_append.mpr ⟨hasc'.1, by simp, ?_⟩
          intro a ha b hb
          have := hasc'.2.2 a ha (st.pos', t) (by simp)
          simp at hb; subst hb; simpa [he] using this
        · intro e hme
          rcases List.mem_append.mp hme with hme | hme
          · exact hrel.keys e (by rw [hM]; exact List.mem_append_left _ hme)
          · have := hrel.keys (st.pos', t) (by rw [hM]; simp)
            simp at hme; subst hme; simpa [he] using this
        · have gen : ∀ (M : Offset) d, Drop1 d (M ++ [(st.pos', t)]) → Drop1 d (M ++ [(st.pos, st.total + ln.length)]) := by
            intro M
            induction M with
            | nil =>
              intro d hd
              refine ⟨?_, trivial⟩
              have h1 := hd.1
              have h2 := h.total
              simp only at h1 ⊢
              omega
            | cons a M ih => intro d hd; exact ⟨hd.1, ih _ hd.2⟩
          rw [hM] at hdrop
          exact gen M 0 hdrop
        · rw [lastD_append]; have := h.total; simp [lastD]; omega
        · intro i c hc ho
          obtain ⟨j, hj, hj'⟩ := hrel.cells i c hc ho
          have hi := (List.getElem?_eq_some_iff.mp hc).1
          have hpn := h.pos
          refine ⟨j, ?_, ?_⟩
          · rw [hM, shiftD_append] at hj
            rw [shiftD_append]
            rw [shiftD_none [(st.pos', t)] _ _ (by intro e hme; simp at hme; subst hme; simp only; omega)] at hj
            rw [shiftD_none [(st.pos, _)] _ _ (by intro e hme; simp at hme; subst hme; simp only; omega)]
            exact hj
          · rw [List.getElem?_append_left ((List.getElem?_eq_some_iff.mp hj').1)]; exact hj'
      · have := h.total; simp only [List.length_append, Int.natCast_add]; omega
      · intro e hme
        rw [hM, List.dropLast_concat] at hme
        rcases List.mem_append.mp hme with hme | hme
        · exact h.kle e (by rw [hM]; exact List.mem_append_left _ hme)
        · simp at hme; subst hme; simp only; omega
      · right; rw [hM, List.dropLast_concat]; exact ⟨M, _, by rw [he]⟩
  · rw [if_neg he]
    refine ⟨?_, h.pos, ?_, by simp, ?_, ?_, h.prev⟩
    · have piece : RelocAt st.pos st.total [(st.pos, st.total + ln.length)] ln [] := by
        refine ⟨by simp [StrictlyAscending], by simp, ⟨by simp only; omega, trivial⟩, by simp [lastD], by simp⟩
      have := RelocAt.append h.rel piece (by rw [h.pos]; omega) (by rw [h.total]; omega)
        (Or.inl (fun e hme => by have := h.kle e hme; have := h.le; have := h.pos; omega))
      simpa using this
    · have := h.total; simp only [List.length_append, Int.natCast_add]; omega
    · intro e hme
      have := h.le
      rcases List.mem_append.mp hme with hme | hme
      · have := h.kle e hme; simp only; omega
      · simp at hme; subst hme; simp
    · right; exact ⟨_, _, rfl⟩

theorem reduce_fold (cls : List (List Cell)) : ∀ (st : ReduceSt) (old new : List Cell),
    (∀ l ∈ cls, l ≠ []) → ReduceInv st old new →
    ReduceInv ((cls.map text).foldl reduceStep st) (old ++ cls.flatten)
      (new ++ dropRepeated st.prevEmpty cls) := by
  induction cls with
  | nil => intro st old new _ h; simpa [dropRepeated] using h
  | cons ln cls ih =>
    intro st old new hne h
    have hne' : ∀ l ∈ cls, l ≠ [] := fun l hl => hne l (List.mem_cons_of_mem _ hl)
    have hln := hne ln (by simp)
    simp only [List.map_cons, List.foldl_cons, List.flatten_cons, dropRepeated]
    by_cases he : emptyLine (text ln) = true
    · rw [if_pos he]
      cases hp : st.prevEmpty with
      | true =>
        have h1 := h.drop ln hp
        have hst : reduceStep st (text ln) = (if st.pos = st.pos' then
            { st with total := st.total + ln.length, offset := st.offset.dropLast ++ [(st.pos, st.total + ln.length)] }
          else
            { st with total := st.total + ln.length, offset := st.offset ++ [(st.pos, st.total + ln.length)], pos' := st.pos }) := by
          unfold reduceStep
          rw [if_pos he, if_pos hp, text_length]
        rw [← hst] at h1
        have h2 := ih _ _ _ hne' h1
        have hpe : (reduceStep st (text ln)).prevEmpty = true := by
          rw [hst]; split <;> exact hp
        rw [hpe] at h2
        simpa using h2
      | false =>
        have h1 := h.keep ln hln true
        have hst : reduceStep st (text ln) = { st with pos := st.pos + ln.length, prevEmpty := true } := by
          unfold reduceStep
          rw [if_pos he, if_neg (by simp [hp]), text_length]
        rw [← hst] at h1
        have h2 := ih _ _ _ hne' h1
        have hpe : (reduceStep st (text ln)).prevEmpty = true := by rw [hst]
        rw [hpe] at h2
        simpa using h2
    · rw [if_neg he]
      have h1 := h.keep ln hln false
      have hst : reduceStep st (text ln) = { st with pos := st.pos + ln.length, prevEmpty := false } := by
        unfold reduceStep
        rw [if_neg he, text_length]
      rw [← hst] at h1
      have h2 := ih _ _ _ hne' h1
      have hpe : (reduceStep st (text ln)).prevEmpty = false := by rw [hst]
      rw [hpe] at h2
      simpa using h2

/-- The table made by the empty-line reduction is exact. -/
theorem reduce_reloc (cs : List Cell) :
    Reloc ((splitKeep (text cs)).foldl reduceStep {}).offset cs (dropRepeated false (cellLines cs)) := by
  have h0 : ReduceInv {} [] [] :=
    ⟨RelocAt.nil _ _, rfl, rfl, by simp, by simp, Or.inl ⟨rfl, rfl⟩, by simp⟩
  have := reduce_fold (cellLines cs) {} [] [] (cellLines_ne cs) h0
  rw [cellLines_text, cellLines_flatten] at this
  simpa using this.rel.toReloc

theorem reduceText_text (cls : List (List Cell)) : ∀ p,
    reduceText p (cls.map text) = text (dropRepeated p cls) := by
  induction cls with
  | nil => intro _; rfl
  | cons l cls ih =>
    intro p
    simp only [List.map_cons, reduceText, dropRepeated]
    by_cases he : emptyLine (text l) = true
    · rw [if_pos he, if_pos he]
      cases p <;> simp [text_append, ih]
    · rw [if_neg he, if_neg he, text_append, ih]

/-- What the specification asks of the references of a location: they all are at the start. -/
def LocsAtStart (x : TextExt) : Prop := ∀ l, ∀ e ∈ x.locs l, e.1 = 0

theorem inv_blank (s : Str) : InvAt { txt := s } (blankCells s) (blankCells s) where
  txt := (text_blankCells s).symm
  asc := List.Pairwise.nil
  keys := by simp
  fin := by simp [posMap, shiftAt]
  cells := by
    intro i c hc ho
    rw [blankCells_org (List.mem_of_getElem? hc)] at ho; cases ho
  bkeys := by simp
  blook := by
    intro u c o hc ho
    rw [blankCells_org (List.mem_of_getElem? hc)] at ho; cases ho
  basc := List.Pairwise.nil
  btop := by simp
  bgroup := by
    intro u c o hc ho
    rw [blankCells_org (List.mem_of_getElem? hc)] at ho; cases ho

theorem fragCells_getElem (f : Str) (p : Int) (s : Str) (outer : List (Str × Int)) (i : Nat) (c : Cell)
    (h : (fragCells f p s outer)[i]? = some c) : c.org = some ⟨f, p, i, outer⟩ := by
  unfold fragCells at h
  rw [List.getElem?_zipWith] at h
  cases h1 : (List.range s.length)[i]? with
  | none => simp [h1] at h
  | some a =>
    have : a = i := by
      have := List.getElem?_eq_some_iff.mp h1
      obtain ⟨_, h2⟩ := this
      simpa using h2.symm
    subst this
    cases h2 : s[a]? with
    | none => simp [h2] at h
    | some b => simp [h1, h2] at h; rw [← h]

theorem text_fragCells (f : Str) (p : Int) (s : Str) (outer : List (Str × Int)) : text (fragCells f p s outer) = s := by
  apply List.ext_getElem?
  intro i
  unfold text fragCells
  rw [List.getElem?_map, List.getElem?_zipWith]
  by_cases hi : i < s.length
  · simp [hi]
  · simp [Nat.le_of_not_lt hi]

theorem inv_src (x : TextExt) (hx : LocsAtStart x) (s : Src) :
    ∃ o, InvAt (srcRes x s) (srcCells x s) o := by
  refine ⟨srcCells x s, ?_⟩
  unfold srcRes srcCells
  cases hl : s.loc with
  | none => simpa using inv_blank s.txt
  | some l =>
    simp only
    cases hg : (x.locs l).getLast? with
    | none =>
      have : x.locs l = [] := List.getLast?_eq_none_iff.mp hg
      simp only [this]
      simpa using inv_blank s.txt
    | some e =>
      simp only
      refine ⟨(text_fragCells _ _ _ _).symm, List.Pairwise.nil, by simp, by simp [posMap, shiftAt], ?_, ?_, ?_, ?_, ?_, ?_⟩
      · intro i c hc _; exact ⟨i, by simp [posMap, shiftAt], hc⟩
      · intro e' he
        by_cases hem : s.txt.isEmpty
        · simp [hem] at he
        · simp [hem] at he; rw [hx l e' he]; omega
      · intro u c o hc ho
        have h1 := fragCells_getElem _ _ _ _ _ _ hc
        rw [h1] at ho; cases ho
        have hne : ¬ s.txt.isEmpty = true := by
          intro hem
          simp at hem
          simp [fragCells, hem] at hc
        rw [if_neg hne]
        have : (x.locs l).filter (fun e => decide (e.1 ≤ (u : Int))) = x.locs l := by
          apply List.filter_eq_self.mpr
          intro a ha; rw [hx l a ha]; simp
        rw [this, hg]
        have := hx l e (List.mem_of_getLast? hg)
        obtain ⟨e1, e2, e3⟩ := e
        simp only at this
        subst this
        simp
      · have hz : Ascending (x.locs l) := by
          refine List.Pairwise.imp_of_mem (R := fun _ _ => True) ?_ (List.pairwise_of_forall (fun _ _ => trivial))
          intro a b ha hb _
          rw [hx l a ha, hx l b hb]
          exact Int.le_refl _
        split
        · exact List.Pairwise.nil
        · exact hz
      · intro e' he
        by_cases hem : s.txt.isEmpty
        · simp [hem] at he
        · simp only [hem, Bool.false_eq_true, if_false] at he
          rw [hx l e' he, ← text_length, text_fragCells]
          have : s.txt ≠ [] := by simpa using hem
          have := List.length_pos_iff.mpr this
          omega
      · intro u c o hc ho
        have h1 := fragCells_getElem _ _ _ _ _ _ hc
        rw [h1] at ho; cases ho
        have hne : ¬ s.txt.isEmpty = true := by
          intro hem
          simp at hem
          simp [fragCells, hem] at hc
        rw [if_neg hne]
        refine ⟨Nat.le_refl _, ?_⟩
        have : (x.locs l).filter (fun e => decide (e.1 = (u : Int) - (u : Nat))) = x.locs l := by
          apply List.filter_eq_self.mpr
          intro a ha; rw [hx l a ha]; simp
        rw [this]
        obtain ⟨ys, hys⟩ := List.getLast?_eq_some_iff.mp hg
        have hall := hx l
        rw [hys] at hall ⊢
        rw [List.dropLast_concat, List.map_append, List.map_map]
        congr 1
        · rw [List.map_congr_left (g := id)]
          · simp
          · intro a ha
            have := hall a (by simp [ha])
            simp only [Function.comp, Int.sub_self, id]
            rw [← this]
        · have := hall e (by simp)
          simp only [Int.sub_self, List.map_cons, List.map_nil]
          rw [← this]

theorem inv_addTexts (rs : List Res) (css : List (List Cell)) (h : All2 (fun r cs => ∃ o, InvAt r cs o) rs css) :
    ∃ o, InvAt (addTexts rs) css.flatten o := by
  cases h with
  | nil => exact ⟨[], InvAt.nil _ rfl rfl rfl⟩
  | @cons r cs rs css h0 h =>
    simp only [addTexts, List.flatten_cons]
    induction h generalizing r cs with
    | nil => simpa using h0
    | @cons r' cs' rs css h1 _ ih =>
      simp only [List.foldl_cons, List.flatten_cons]
      rw [← List.append_assoc]
      obtain ⟨o0, h0⟩ := h0
      obtain ⟨o1, h1⟩ := h1
      exact ih (InvAt.add h0 h1)

theorem inv_trim (cfg : Config) (indent : Str) {r cs o} (h : InvAt r cs o) :
    InvAt (trimWithBrowse cfg indent r) (trimCells cfg indent cs) o := by
  unfold trimWithBrowse trimCells
  have : r.txt.isEmpty = cs.isEmpty := by rw [h.txt]; cases cs <;> rfl
  rw [this]
  by_cases hb : (cs.isEmpty || !cfg.trimAppIndent) = true
  · rw [if_pos hb, if_pos hb]; exact h
  · rw [if_neg hb, if_neg hb]
    have := h.reloc (trimCells_reloc indent cs)
    rw [← trimLines_text, cellLines_text] at this
    simpa only [h.txt] using this

theorem inv_reduce (cfg : Config) {r cs o} (h : InvAt r cs o) :
    InvAt (r.reduceEmptiness cfg) (reduceCells cfg cs) o := by
  unfold Res.reduceEmptiness reduceCells
  cases cfg.reduceEmptiness with
  | false => simpa using h
  | true =>
    have := h.reloc (reduce_reloc cs)
    rw [← reduceText_text, cellLines_text] at this
    rw [if_neg (by simp), if_pos rfl]
    simpa only [h.txt] using this

/-- Replacing one character by one character. -/
theorem replaceGo_char (a b : Char) (s : Str) : replaceGo [a] [b] 0 s = s.map (fun c => if c = a then b else c) := by
  induction s with
  | nil => rfl
  | cons c t ih =>
    simp only [replaceGo, List.isPrefixOf, List.map_cons]
    by_cases h : c = a
    · subst h; simp [ih]
    · have : (a == c) = false := by simpa using fun e => h e.symm
      simp [this, h, ih]

theorem replaceSteady_map (s : Str) :
    replaceSteady s = s.map (fun c => if c = 'ÿ' then '\t' else if c = 'þ' then ' ' else c) := by
  unfold replaceSteady replace
  rw [replaceGo_char, replaceGo_char, List.map_map]
  apply List.map_congr_left
  intro c _
  simp only [Function.comp, steadySpace, steadyTab]
  by_cases h : c = 'ÿ'
  · subst h; decide
  · simp [h]

theorem inv_steady {r cs o} (h : InvAt r cs o) : InvAt r.replaceSteady (steadyCells cs) (steadyCells o) where
  txt := by
    simp only [Res.replaceSteady, replaceSteady_map, h.txt, text, steadyCells, List.map_map]
    rfl
  asc := h.asc
  keys := by simpa [steadyCells, Res.replaceSteady] using h.keys
  fin := by simpa [steadyCells, Res.replaceSteady] using h.fin
  cells := by
    intro i c hc ho
    simp only [steadyCells, List.getElem?_map, Option.map_eq_some_iff] at hc
    obtain ⟨c', hc', rfl⟩ := hc
    obtain ⟨j, hj, hj'⟩ := h.cells i c' hc' ho
    exact ⟨j, hj, by simp [steadyCells, hj']⟩
  bkeys := h.bkeys
  blook := by
    intro u c o hc ho
    simp only [steadyCells, List.getElem?_map, Option.map_eq_some_iff] at hc
    obtain ⟨c', hc', rfl⟩ := hc
    exact h.blook u c' o hc' ho
  basc := h.basc
  btop := by simpa [steadyCells, Res.replaceSteady] using h.btop
  bgroup := by
    intro u c o hc ho
    simp only [steadyCells, List.getElem?_map, Option.map_eq_some_iff] at hc
    obtain ⟨c', hc', rfl⟩ := hc
    exact h.bgroup u c' o hc' ho

mutual
theorem inv_tree (cfg : Config) (x : TextExt) (hx : LocsAtStart x) (σ : Res → List Cell) :
    (n : Node) → (∀ r ∈ results n, ∃ o, InvAt r (σ r) o) →
    ∃ o, InvAt (plainBrowse cfg x n) (treeCells cfg x σ n) o
  | .none, _ => ⟨[], by simpa [plainBrowse, treeCells] using InvAt.nil { txt := [] } rfl rfl rfl⟩
  | .result r, h => by simpa [plainBrowse, treeCells] using h r (by simp [results])
  | .trim a i, h => by
      obtain ⟨o, ho⟩ := inv_tree cfg x hx σ a (by simpa [results] using h)
      exact ⟨o, by simpa only [plainBrowse, treeCells] using inv_trim cfg i ho⟩
  | .list xs, h => by
      simpa only [plainBrowse, treeCells] using inv_trees cfg x hx σ xs (by simpa [results] using h)
  | .t xs _, h => by
      simpa only [plainBrowse, treeCells] using inv_trees cfg x hx σ xs (by simpa [results] using h)
  | .lazy a, h => by
      simpa only [plainBrowse, treeCells] using inv_tree cfg x hx σ a (by simpa [results] using h)
  | .plain s _ tr, _ => by simpa only [plainBrowse, treeCells] using inv_src x hx _
  | .atom s, _ => by simpa only [plainBrowse, treeCells] using inv_src x hx _
  | .remark s, _ => by simpa only [plainBrowse, treeCells] using inv_src x hx _
  | .str s, _ => by simpa only [plainBrowse, treeCells] using inv_src x hx _
  | .pstr _, _ => by simpa only [plainBrowse, treeCells] using ⟨_, inv_blank _⟩
  | .int _, _ => by simpa only [plainBrowse, treeCells] using ⟨_, inv_blank _⟩
  | .bool _, _ => by simpa only [plainBrowse, treeCells] using ⟨_, inv_blank _⟩
  | .float _, _ => by simpa only [plainBrowse, treeCells] using ⟨_, inv_blank _⟩
  | .text .., _ => by simpa only [plainBrowse, treeCells] using ⟨_, inv_blank _⟩
  | .var .., _ => by simpa only [plainBrowse, treeCells] using ⟨_, inv_blank _⟩
  | .apply .., _ => by simpa only [plainBrowse, treeCells] using ⟨_, inv_blank _⟩
  | .set .., _ => by simpa only [plainBrowse, treeCells] using ⟨_, inv_blank _⟩
  | .letn .., _ => by simpa only [plainBrowse, treeCells] using ⟨_, inv_blank _⟩
  | .macro .., _ => by simpa only [plainBrowse, treeCells] using ⟨_, inv_blank _⟩
  | .emit .., _ => by simpa only [plainBrowse, treeCells] using ⟨_, inv_blank _⟩
  | .lambda .., _ => by simpa only [plainBrowse, treeCells] using ⟨_, inv_blank _⟩
  | .lambdaVar .., _ => by simpa only [plainBrowse, treeCells] using ⟨_, inv_blank _⟩
  | .cond .., _ => by simpa only [plainBrowse, treeCells] using ⟨_, inv_blank _⟩
  | .infix .., _ => by simpa only [plainBrowse, treeCells] using ⟨_, inv_blank _⟩
  | .eval .., _ => by simpa only [plainBrowse, treeCells] using ⟨_, inv_blank _⟩
  | .embed .., _ => by simpa only [plainBrowse, treeCells] using ⟨_, inv_blank _⟩
  | .comment .., _ => by simpa only [plainBrowse, treeCells] using ⟨_, inv_blank _⟩
  | .importBegin .., _ => by simpa only [plainBrowse, treeCells] using ⟨_, inv_blank _⟩
  | .importEnd .., _ => by simpa only [plainBrowse, treeCells] using ⟨_, inv_blank _⟩
  | .bound .., _ => by simpa only [plainBrowse, treeCells] using ⟨_, inv_blank _⟩
  | .lclosure .., _ => by simpa only [plainBrowse, treeCells] using ⟨_, inv_blank _⟩
  | .mclosure .., _ => by simpa only [plainBrowse, treeCells] using ⟨_, inv_blank _⟩
  | .infixClosure .., _ => by simpa only [plainBrowse, treeCells] using ⟨_, inv_blank _⟩
  | .condClosure .., _ => by simpa only [plainBrowse, treeCells] using ⟨_, inv_blank _⟩
  | .setClosure .., _ => by simpa only [plainBrowse, treeCells] using ⟨_, inv_blank _⟩
  | .builtin .., _ => by simpa only [plainBrowse, treeCells] using ⟨_, inv_blank _⟩
  | .skip .., _ => by simpa only [plainBrowse, treeCells] using ⟨_, inv_blank _⟩
  | .env .., _ => by simpa only [plainBrowse, treeCells] using ⟨_, inv_blank _⟩
  | .pyobj .., _ => by simpa only [plainBrowse, treeCells] using ⟨_, inv_blank _⟩
theorem inv_trees (cfg : Config) (x : TextExt) (hx : LocsAtStart x) (σ : Res → List Cell)
    (ns : List Node) (h : ∀ r ∈ resultss ns, ∃ o, InvAt r (σ r) o) :
    ∃ o, InvAt (addTexts (plainBrowses cfg x ns)) (treesCells cfg x σ ns) o := by
  have := inv_trees' cfg x hx σ ns h
  obtain ⟨css, h1, h2⟩ := this
  rw [h2]
  exact inv_addTexts _ _ h1
theorem inv_trees' (cfg : Config) (x : TextExt) (hx : LocsAtStart x) (σ : Res → List Cell) :
    (ns : List Node) → (∀ r ∈ resultss ns, ∃ o, InvAt r (σ r) o) →
    ∃ css, All2 (fun r cs => ∃ o, InvAt r cs o) (plainBrowses cfg x ns) css
      ∧ treesCells cfg x σ ns = css.flatten
  | [], _ => ⟨[], by simp only [plainBrowses]; exact .nil, by simp [treesCells]⟩
  | n :: ns, h => by
      simp only [resultss, List.mem_append] at h
      obtain ⟨css, h1, h2⟩ := inv_trees' cfg x hx σ ns (fun r hr => h r (Or.inr hr))
      have h0 := inv_tree cfg x hx σ n (fun r hr => h r (Or.inl hr))
      exact ⟨treeCells cfg x σ n :: css, by simp only [plainBrowses]; exact .cons h0 h1,
        by simp [treesCells, h2]⟩
end

theorem generated_inv (cfg : Config) (x : TextExt) (hx : LocsAtStart x) {r cs}
    (h : Generated cfg x r cs) : ∃ o, InvAt r cs o := by
  induction h with
  | tree n σ _ ih => exact inv_tree cfg x hx σ n ih
  | reduce r cs _ ih => obtain ⟨o, ho⟩ := ih; exact ⟨o, inv_reduce cfg ho⟩
  | steady r cs _ ih => obtain ⟨o, ho⟩ := ih; exact ⟨_, inv_steady ho⟩

end Yupp
