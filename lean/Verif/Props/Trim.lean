import Verif.Lemmas.Trim
import Verif.Lemmas.Provenance
import Verif.Props.Reduce
/-!
# Indentation trimming: C09 – C11
-/

namespace Yupp
open Spec

/-- **C09**. `TRIM.trim`: with the option on, the lines (between LFs) of white space only are
    emptied, every other line loses the longest run of blanks common to all of them, and the lines
    are joined with the indent in front of every line but the first. -/
theorem C09_trim_exact (cfg : Config) (hcfg : cfg.trimAppIndent = true) (indent s : Str) :
    ∃ m : Str, ((∃ l ∈ splitNL s, l.all blankChar = false) → LongestCommonIndent (splitNL s) m) ∧
      trim cfg indent s = joinStr indent (splitKeep (joinStr ['\n']
        ((splitNL s).map (fun l => if l.all blankChar then [] else l.drop m.length)))) := by
  obtain ⟨m, h1, h2, h3⟩ := dedent_spec s
  refine ⟨m, h1, ?_⟩
  unfold trim
  cases s with
  | nil =>
    have : m = [] := by
      rcases h2 with h | ⟨l, hl, hb⟩
      · exact h
      · simp [splitNL] at hl; subst hl; simp at hb
    subst this
    simp [splitNL, splitKeep, joinStr]
  | cons a t =>
    rw [if_neg (by simp [hcfg]), h3]

/-- **C09**, option off. -/
theorem C09_trim_off (cfg : Config) (hcfg : cfg.trimAppIndent = false) (indent s : Str) :
    trim cfg indent s = s := by simp [trim, hcfg]

example : trim {} (lit "..") (lit "    a\n  \n     b\n    c") = lit "a\n..\n.. b\n..c" := by decide
example : LongestCommonIndent (splitNL (lit "    a\n  \n     b")) (lit "    ") := by
  refine ⟨⟨by decide, by decide⟩, ?_⟩
  rintro m' ⟨hb, hall⟩
  have := hall (lit "    a") (by decide) (by decide)
  exact prefix_takeWhile hb this

/-- Text of the browse-mode trimmer. -/
theorem trimLines_zipIdx (c : Nat) (indent : Str) (lns : List Str) : ∀ (first : Bool) (k : Nat), (first = true ↔ k = 0) →
    trimLines c indent first lns = ((lns.zipIdx k).map (fun x =>
      if blankNLLine x.1 then x.1 else (if x.2 = 0 then [] else indent) ++ x.1.drop c)).flatten := by
  induction lns with
  | nil => intros; rfl
  | cons l lns ih =>
    intro first k hk
    simp only [trimLines, trimLine, emptyLine_eq, List.zipIdx_cons, List.map_cons, List.flatten_cons]
    rw [ih false (k + 1) (by simp)]
    congr 1
    cases first
    · have : k ≠ 0 := by simpa using hk
      simp [this]
    · have : k = 0 := by simpa using hk
      simp [this]

/-- **C10**, the text. One and the same run of blanks is removed from every line (terminators are
    kept) that is not blank; the indent is put in front of all but the first. -/
theorem C10_trim_browse_text (cfg : Config) (hcfg : cfg.trimAppIndent = true) (indent : Str) (r : Res) :
    ∃ p : Str, (∀ c ∈ p, blankChar c = true) ∧
      (∀ l ∈ splitKeep r.txt, blankNLLine l = false → p <+: l) ∧
      (trimWithBrowse cfg indent r).txt = ((splitKeep r.txt).zipIdx.map (fun x =>
        if blankNLLine x.1 then x.1 else (if x.2 = 0 then [] else indent) ++ x.1.drop p.length)).flatten := by
  -- the run of blanks
  have hp : ∃ p : Str, p.length = cutLen (splitKeep r.txt) ∧ (∀ c ∈ p, blankChar c = true) ∧
      (∀ l ∈ splitKeep r.txt, blankNLLine l = false → p <+: l) := by
    unfold cutLen
    cases hf : (splitKeep r.txt).foldl cutStep (some []) with
    | none => exact ⟨[], rfl, by simp, by simp⟩
    | some c =>
      have hc := fun l hl he => (cutFold (splitKeep r.txt) (some [])).1 l hl he c hf
      by_cases hex : ∃ l ∈ splitKeep r.txt, emptyLine l = false
      · obtain ⟨l, hl, he⟩ := hex
        refine ⟨c, rfl, ?_, ?_⟩
        · intro x hx; exact takeWhile_all x ((hc l hl he).subset hx)
        · intro l hl he
          exact (hc l hl (by rw [emptyLine_eq]; exact he)).trans (List.takeWhile_prefix _)
      · refine ⟨c, rfl, ?_, ?_⟩
        · have : (splitKeep r.txt).filter (fun l => !emptyLine l) = [] := by
            rw [List.filter_eq_nil_iff]
            intro a ha hb
            exact hex ⟨a, ha, by simpa using hb⟩
          rw [foldl_filterMap_cut, this] at hf
          simp at hf; subst hf; simp
        · intro l hl he
          exact absurd ⟨l, hl, by rw [emptyLine_eq]; exact he⟩ hex
  obtain ⟨p, h1, h2, h3⟩ := hp
  refine ⟨p, h2, h3, ?_⟩
  unfold trimWithBrowse
  by_cases he : r.txt.isEmpty = true
  · have : r.txt = [] := by simpa using he
    simp [this, splitKeep]
  · rw [if_neg (by simpa [hcfg] using he), h1]
    exact trimLines_zipIdx _ _ _ true 0 (by simp)

/-- **C10**, how much is removed: if the indents of the non-blank lines are nested (of any two one
    is a beginning of the other) it is their shortest. -/
theorem C10_trim_browse_prefix (s : Str)
    (hch : ∀ a ∈ splitKeep s, ∀ b ∈ splitKeep s, blankNLLine a = false → blankNLLine b = false →
      indentOf a <+: indentOf b ∨ indentOf b <+: indentOf a)
    (l : Str) (hl : l ∈ splitKeep s) (hb : blankNLLine l = false)
    (hmin : ∀ a ∈ splitKeep s, blankNLLine a = false → indentOf l <+: indentOf a) :
    cutLen (splitKeep s) = (indentOf l).length := by
  have hle := cutLen_le _ l hl (by rw [emptyLine_eq]; exact hb)
  have : cutLen (splitKeep s) = (match ((splitKeep s).filter (fun l => !emptyLine l)).map (·.takeWhile isBlank) |>.foldl dedentStep none with
      | some m => m.length | none => 0) := by
    unfold cutLen
    rw [cutLen_eq]
    refine cutLen_of_margin _ ?_
    intro a ha b hb
    simp only [List.mem_map, List.mem_filter, emptyLine_eq] at ha hb
    obtain ⟨a', ⟨h1, h2⟩, rfl⟩ := ha
    obtain ⟨b', ⟨h3, h4⟩, rfl⟩ := hb
    exact hch a' h1 b' h3 (by simpa using h2) (by simpa using h4)
  rw [this]
  have hmem : (indentOf l) ∈ ((splitKeep s).filter (fun l => !emptyLine l)).map (·.takeWhile isBlank) := by
    simp only [List.mem_map, List.mem_filter, emptyLine_eq]
    exact ⟨l, ⟨hl, by simp [hb]⟩, rfl⟩
  have hall : ∀ i ∈ ((splitKeep s).filter (fun l => !emptyLine l)).map (·.takeWhile isBlank), indentOf l <+: i := by
    intro i hi
    simp only [List.mem_map, List.mem_filter, emptyLine_eq] at hi
    obtain ⟨a', ⟨h1, h2⟩, rfl⟩ := hi
    exact hmin a' h1 (by simpa using h2)
  generalize ((splitKeep s).filter (fun l => !emptyLine l)).map (·.takeWhile isBlank) = is at hmem hall
  cases is with
  | nil => simp at hmem
  | cons i is =>
    obtain ⟨m', g1, g2, g3, g4⟩ := dedentFold is i
    have : (i :: is).foldl dedentStep none = some m' := by rw [List.foldl_cons]; exact g1
    rw [this]
    have e1 : indentOf l <+: m' := g4 _ (hall i (by simp)) (fun j hj => hall j (List.mem_cons_of_mem _ hj))
    have e2 : m' <+: indentOf l := by
      rcases List.mem_cons.mp hmem with h | h
      · rw [h]; exact g2
      · exact g3 _ h
    exact Nat.le_antisymm e2.length_le e1.length_le

/-- Without nesting the removed amount depends on the order of the lines. -/
theorem C10_order_dependent : ¬ ∀ a b c : Str, cutLen [a, b, c] = cutLen [b, c, a] := by
  intro h
  exact absurd (h (lit " a\n") (lit "  b\n") (lit " \tc\n")) (by decide)

example : (trimWithBrowse {} (lit "..") { txt := lit "    a\n  \n     b\n    c" }).txt = lit "a\n  \n.. b\n..c" := by decide

/-- **C10**, the table. Position `i` of the trimmed text whose character was at `k` is translated to
    `k`; if the text had a table already, then to what that table gives for `k`. -/
theorem C10_trim_browse_offsets (cfg : Config) (indent : Str) (r : Res) (hr : Ascending r.offset)
    (i k : Nat) (ch : Char)
    (h : (trimCells cfg indent (fragCells [] 0 r.txt))[i]? = some ⟨ch, some ⟨[], 0, k, []⟩⟩) :
    posMap (trimWithBrowse cfg indent r).offset i = posMap r.offset k ∧ r.txt[k]? = some ch ∧
    (trimWithBrowse cfg indent r).txt[i]? = some ch := by
  have htx : text (fragCells [] 0 r.txt) = r.txt := text_fragCells _ _ _ _
  have fin : ∀ (j : Nat) (c : Cell), (fragCells [] 0 r.txt)[j]? = some c → c = ⟨ch, some ⟨[], 0, k, []⟩⟩ →
      j = k ∧ r.txt[j]? = some ch := by
    intro j c hj hc
    have := fragCells_getElem _ _ _ _ _ _ hj
    rw [hc] at this; simp at this
    refine ⟨this.symm, ?_⟩
    have h2 : (text (fragCells [] 0 r.txt))[j]? = some c.ch := by simp [text, hj]
    rw [htx] at h2; rw [h2, hc]
  unfold trimCells at h
  unfold trimWithBrowse
  have hemp : (fragCells [] 0 r.txt).isEmpty = r.txt.isEmpty := by
    have := congrArg List.isEmpty htx
    rw [← this]; simp [text]
  rw [hemp] at h
  by_cases hb : (r.txt.isEmpty || !cfg.trimAppIndent) = true
  · rw [if_pos hb] at h ⊢
    obtain ⟨h1, h2⟩ := fin i _ h rfl
    subst h1
    exact ⟨rfl, h2, h2⟩
  · rw [if_neg hb] at h ⊢
    have hrel := trimCells_reloc indent (fragCells [] 0 r.txt)
    obtain ⟨j, hj, hj'⟩ := hrel.cells i _ h rfl
    obtain ⟨h1, h2⟩ := fin j _ hj' rfl
    subst h1
    rw [htx] at hj hrel h
    refine ⟨?_, h2, ?_⟩
    · simp only
      by_cases ho : r.offset = []
      · simp only [ho, List.isEmpty_nil, if_true, hj]; simp [posMap, shiftAt]
      · rw [if_neg (by simpa using ho), mergeOffset_shift _ _ hr hrel.asc hrel.mono, hj]
    · have := trimLines_text (cutLen (splitKeep r.txt)) indent (cellLines (fragCells [] 0 r.txt)) true
      rw [cellLines_text, htx] at this
      simp only [this]
      simp [text, h]

example : (trimCells {} (lit "..") (fragCells [] 0 (lit "    a\n     b")))[5]? = some ⟨'b', some ⟨[], 0, 11, []⟩⟩ := by decide

/-- **C11**, why only up to white space: the text depends on `pp_browse`. The same tree, rendered as in plain mode and
    as in browse mode. -/
theorem C11_browse_changes_text : ¬ ∀ (cfg : Config) (x : TextExt) (n : Node), isTerm n = true →
    plainStr cfg x n = (plainBrowse cfg x n).txt := by
  intro h
  have := h {} { repr := fun _ => [], locs := fun _ => [] }
    (.trim (.plain { txt := lit " \ta\n  b" } .none false) []) rfl
  revert this
  decide

/-- **C11**, … and also for the last step: trailing blanks. -/
theorem C11_browse_changes_final_text : ¬ ∀ (cfg : Config) (s : Str),
    reduceEmptiness cfg s = (Res.reduceEmptiness cfg { txt := s }).txt := by
  intro h
  exact absurd (h {} (lit "a \nb\n")) (by decide)

/-- Where both trimmers agree: LF is the only line break, no blank lines, nested indents. -/
def SimpleBlock (s : Str) : Prop :=
  (∀ c ∈ s, isLineBreak c = true → c = '\n') ∧
  (∀ l ∈ splitKeep s, ∃ c ∈ l, blankChar c = false ∧ c ≠ '\n') ∧
  (∀ a ∈ splitKeep s, ∀ b ∈ splitKeep s, indentOf a <+: indentOf b ∨ indentOf b <+: indentOf a)

theorem trim_agree (cfg : Config) (indent : Str) (s : Str) (h : SimpleBlock s) (b : Browse) (o : Offset) :
    trim cfg indent s = (trimWithBrowse cfg indent { txt := s, browse := b, offset := o }).txt := by
  obtain ⟨hlf, hne, hch⟩ := h
  obtain ⟨bs, last, rfl, hbs, hlast⟩ := exists_ofLines s hlf
  unfold trim trimWithBrowse
  simp only
  by_cases he : ((ofLines bs last).isEmpty || !cfg.trimAppIndent) = true
  · rw [if_pos he, if_pos he]
  · rw [if_neg he, if_neg he]
    simp only
    have hk := splitKeep_ofLines bs last hbs hlast
    have hn := splitNL_ofLines bs last hbs hlast
    -- no line is blank
    have hnb : ∀ b ∈ bs, b.all isBlank = false := by
      intro b hb
      obtain ⟨c, hc, hc1, hc2⟩ := hne (b ++ ['\n']) (by rw [hk]; exact List.mem_append_left _ (List.mem_map_of_mem hb))
      rw [List.all_eq_false]
      refine ⟨c, ?_, by rw [← blankChar_eq]; simp [hc1]⟩
      simpa [hc2] using hc
    have hnl : last ≠ [] → last.all isBlank = false := by
      intro h0
      obtain ⟨c, hc, hc1, hc2⟩ := hne last (by rw [hk]; simp [lastLine, h0])
      rw [List.all_eq_false]
      exact ⟨c, hc, by rw [← blankChar_eq]; simp [hc1]⟩
    have hempty : ∀ l ∈ splitKeep (ofLines bs last), emptyLine l = false := by
      intro l hl
      rw [hk] at hl
      rcases List.mem_append.mp hl with hl | hl
      · simp only [List.mem_map] at hl
        obtain ⟨b, hb, rfl⟩ := hl
        rw [emptyLine_concat]; exact hnb b hb
      · unfold lastLine at hl
        split at hl
        · simp at hl
        · simp at hl; subst hl; exact emptyLine_noNL l hlast
    rw [trimLines_join _ _ _ hempty]
    -- the margin
    have hind : (dedentIndents (cleared (bs ++ [last])))
        = ((splitKeep (ofLines bs last)).filter (fun l => !emptyLine l)).map (·.takeWhile isBlank) := by
      rw [List.filter_eq_self.mpr (fun a ha => by simp [hempty a ha]), hk]
      unfold dedentIndents cleared
      rw [List.map_append, List.filter_append, List.map_append, List.map_append]
      congr 1
      · rw [List.map_map]
        have e1 : bs.map (fun l => if l.all isBlank then [] else l) = bs := by
          conv => rhs; rw [← List.map_id bs]
          apply List.map_congr_left
          intro b hb; simp [hnb b hb]
        rw [e1, List.filter_eq_self.mpr (fun b hb => by rw [any_not_blank, hnb b hb]; rfl)]
        apply List.map_congr_left
        intro b _
        exact (takeWhile_concat_nl b).symm
      · cases last with
        | nil => rfl
        | cons a t =>
          have := hnl (by simp)
          simp only [List.map_cons, List.map_nil, this, Bool.false_eq_true, if_false, lastLine, List.isEmpty_cons]
          rw [List.filter_cons, any_not_blank, this]
          rfl
    have hcut : cutLen (splitKeep (ofLines bs last))
        = (match (dedentIndents (cleared (bs ++ [last]))).foldl dedentStep none with
          | some m => m.length | none => 0) := by
      unfold cutLen
      rw [cutLen_eq, hind]
      refine cutLen_of_margin _ ?_
      intro a ha b hb
      simp only [List.mem_map, List.mem_filter] at ha hb
      obtain ⟨a', ⟨h1, _⟩, rfl⟩ := ha
      obtain ⟨b', ⟨h3, _⟩, rfl⟩ := hb
      exact hch a' h1 b' h3
    generalize hc : cutLen (splitKeep (ofLines bs last)) = c at hcut
    -- `dedent`
    have hded : dedent (ofLines bs last) = ofLines (bs.map (·.drop c)) (last.drop c) := by
      have hpre : ∀ l ∈ bs ++ [last], l ≠ [] → c ≤ (l.takeWhile isBlank).length := by
        intro l hl h0
        rw [← hc]
        rcases List.mem_append.mp hl with hl | hl
        · rw [← takeWhile_concat_nl]
          exact cutLen_le _ _ (by rw [hk]; exact List.mem_append_left _ (List.mem_map_of_mem hl))
            (by rw [emptyLine_concat]; exact hnb l hl)
        · simp at hl; subst hl
          exact cutLen_le _ _ (by rw [hk]; simp [lastLine, h0]) (emptyLine_noNL l hlast)
      have hclr : cleared (bs ++ [last]) = bs ++ [last] := by
        unfold cleared
        conv => rhs; rw [← List.map_id (bs ++ [last])]
        apply List.map_congr_left
        intro l hl
        rcases List.mem_append.mp hl with hl | hl
        · simp [hnb l hl]
        · simp at hl; subst hl
          cases l with
          | nil => rfl
          | cons a t => rw [hnl (by simp)]; rfl
      unfold dedent
      simp only [hn]
      rw [show (bs ++ [last]).map (fun l => if l.all isBlank then [] else l) = bs ++ [last] from hclr]
      rw [hclr] at hcut
      cases hm : (dedentIndents (bs ++ [last])).foldl dedentStep none with
      | none =>
        rw [hm] at hcut; simp at hcut; subst hcut
        simp [join_ofLines]
      | some m =>
        rw [hm] at hcut
        simp only at hcut
        simp only
        have : (bs ++ [last]).map (fun l => if m.isPrefixOf l then l.drop m.length else l)
            = bs.map (·.drop c) ++ [last.drop c] := by
          rw [show bs.map (·.drop c) ++ [last.drop c] = (bs ++ [last]).map (·.drop c) by simp]
          apply List.map_congr_left
          intro l hl
          cases hl0 : l with
          | nil => cases m <;> simp
          | cons a t =>
            have hmem : l.takeWhile isBlank ∈ dedentIndents (bs ++ [last]) := by
              rw [← hclr]
              refine (mem_dedentIndents _ _).mpr ⟨l, hl, ?_, rfl⟩
              rcases List.mem_append.mp hl with h | h
              · exact hnb l h
              · simp at h; subst h; exact hnl (by simp [hl0])
            have hpm : m <+: l.takeWhile isBlank := by
              cases hdi : dedentIndents (bs ++ [last]) with
              | nil => rw [hdi] at hmem; simp at hmem
              | cons i is =>
                obtain ⟨m', g1, g2, g3, _⟩ := dedentFold is i
                rw [hdi, List.foldl_cons] at hm
                have : m = m' := by
                  have hh : dedentStep none i = some i := rfl
                  rw [hh, g1] at hm; exact (Option.some.inj hm).symm
                subst this
                rw [hdi] at hmem
                rcases List.mem_cons.mp hmem with h | h
                · rw [h]; exact g2
                · exact g3 _ h
            rw [← hl0, if_pos (List.isPrefixOf_iff_prefix.mpr (hpm.trans (List.takeWhile_prefix _))), hcut]
        rw [this, join_ofLines]
    have hpre2 : ∀ l ∈ bs, c ≤ l.length := by
      intro l hl
      rw [← hc]
      have := cutLen_le (splitKeep (ofLines bs last)) (l ++ ['\n'])
        (by rw [hk]; exact List.mem_append_left _ (List.mem_map_of_mem hl))
        (by rw [emptyLine_concat]; exact hnb l hl)
      rw [takeWhile_concat_nl] at this
      exact Nat.le_trans this (takeWhile_le _ _)
    rw [hded, splitKeep_ofLines _ _ _ _, hk, List.map_append]
    · congr 2
      · rw [List.map_map, List.map_map]
        apply List.map_congr_left
        intro b hb
        simp only [Function.comp]
        rw [List.drop_append_of_le_length (hpre2 b hb)]
      · unfold lastLine
        cases last with
        | nil => simp
        | cons a t =>
          have h1 := hnl (by simp)
          have h2 := cutLen_le (splitKeep (ofLines bs (a :: t))) (a :: t) (by rw [hk]; simp [lastLine])
            (emptyLine_noNL _ hlast)
          rw [hc] at h2
          have : (a :: t).drop c ≠ [] := by
            intro h0
            have h3 := List.drop_eq_nil_iff.mp h0
            have : (a :: t).takeWhile isBlank = (a :: t) :=
              (List.takeWhile_prefix isBlank).eq_of_length_le (by omega)
            rw [List.all_eq_false] at h1
            obtain ⟨x, hx, hx2⟩ := h1
            rw [← this] at hx
            exact hx2 (takeWhile_all x hx)
          have h5 : ((a :: t).drop c).isEmpty = false := by simpa using this
          simp [h5]
    · intro b hb x hx
      simp only [List.mem_map] at hb
      obtain ⟨b', hb', rfl⟩ := hb
      exact hbs b' hb' x (List.mem_of_mem_drop hx)
    · intro x hx; exact hlast x (List.mem_of_mem_drop hx)

mutual
/-- Every block that is trimmed is simple. -/
def SimpleTrims (cfg : Config) (x : TextExt) : Node → Prop
  | .trim a _ => SimpleTrims cfg x a ∧ SimpleBlock (plainStr cfg x a)
  | .list xs => SimpleTrimss cfg x xs
  | .t xs _ => SimpleTrimss cfg x xs
  | .lazy a => SimpleTrims cfg x a
  | _ => True
/-- Every block in a list that is trimmed is simple. -/
def SimpleTrimss (cfg : Config) (x : TextExt) : List Node → Prop
  | [] => True
  | n :: ns => SimpleTrims cfg x n ∧ SimpleTrimss cfg x ns
end

theorem addTexts_txt (rs : List Res) : (addTexts rs).txt = (rs.map (·.txt)).flatten := by
  cases rs with
  | nil => rfl
  | cons r rs =>
    simp only [addTexts]
    induction rs generalizing r with
    | nil => simp
    | cons q rs ih =>
      rw [List.foldl_cons, ih]
      unfold Res.addText
      by_cases h : q.txt.isEmpty = true
      · rw [if_pos h]; simp at h; simp [h]
      · rw [if_neg h]; simp

theorem drop_lstrip (s : Str) : s.drop (s.length - (lstrip s).length) = lstrip s := by
  unfold lstrip
  have h := List.takeWhile_append_dropWhile (p := isSpace) (l := s)
  have hl := congrArg List.length h
  rw [List.length_append] at hl
  conv => lhs; rw [← h]
  rw [List.drop_append_of_le_length (by simp; omega)]
  simp; omega

mutual
/-- **C11**: the texts agree exactly if every trimmed block is simple (LF line breaks, no blank
    lines, nested indents). Not covered: blocks with blank lines and an indent, with white-space-only
    last lines, with line breaks other than LF, with indents that mix TAB and SPACE — there the code
    gives different texts (the same up to white space, `C11_final_text`); and the final empty-line reduction, see
    `C11_browse_changes_final_text`. -/
theorem C11_same_text_simple_blocks (cfg : Config) (x : TextExt) : (n : Node) → SimpleTrims cfg x n →
    plainStr cfg x n = (plainBrowse cfg x n).txt
  | .none, _ => by simp [plainStr, plainBrowse]
  | .result r, _ => by simp [plainStr, plainBrowse, strOf]
  | .trim a i, h => by
      simp only [SimpleTrims] at h
      have ih := C11_same_text_simple_blocks cfg x a h.1
      simp only [plainStr, plainBrowse]
      have := trim_agree cfg i (plainStr cfg x a) h.2 (plainBrowse cfg x a).browse (plainBrowse cfg x a).offset
      rw [this, ih]
  | .list xs, h => by
      simp only [SimpleTrims] at h
      simp only [plainStr, plainBrowse, addTexts_txt, same_texts cfg x xs h]
  | .t xs _, h => by
      simp only [SimpleTrims] at h
      simp only [plainStr, plainBrowse, addTexts_txt, same_texts cfg x xs h]
  | .lazy a, h => by
      simp only [SimpleTrims] at h
      simp only [plainStr, plainBrowse]; exact C11_same_text_simple_blocks cfg x a h
  | .plain s _ tr, _ => by
      simp only [plainStr, plainBrowse, getTrimmed, getTrimmedWithBrowse, srcRes]
      split <;> simp [Src.drop, drop_lstrip]
  | .atom s, _ => by simp [plainStr, plainBrowse, strOf, srcRes]
  | .remark s, _ => by simp [plainStr, plainBrowse, strOf, srcRes]
  | .str s, _ => by simp [plainStr, plainBrowse, strOf, srcRes]
  | .pstr _, _ => by simp [plainStr, plainBrowse]
  | .int _, _ => by simp [plainStr, plainBrowse]
  | .bool _, _ => by simp [plainStr, plainBrowse]
  | .float _, _ => by simp [plainStr, plainBrowse]
  | .text .., _ => by simp [plainStr, plainBrowse]
  | .var .., _ => by simp [plainStr, plainBrowse]
  | .apply .., _ => by simp [plainStr, plainBrowse]
  | .set .., _ => by simp [plainStr, plainBrowse]
  | .letn .., _ => by simp [plainStr, plainBrowse]
  | .macro .., _ => by simp [plainStr, plainBrowse]
  | .emit .., _ => by simp [plainStr, plainBrowse]
  | .lambda .., _ => by simp [plainStr, plainBrowse]
  | .lambdaVar .., _ => by simp [plainStr, plainBrowse]
  | .cond .., _ => by simp [plainStr, plainBrowse]
  | .infix .., _ => by simp [plainStr, plainBrowse]
  | .eval .., _ => by simp [plainStr, plainBrowse]
  | .embed .., _ => by simp [plainStr, plainBrowse]
  | .comment .., _ => by simp [plainStr, plainBrowse]
  | .importBegin .., _ => by simp [plainStr, plainBrowse]
  | .importEnd .., _ => by simp [plainStr, plainBrowse]
  | .bound .., _ => by simp [plainStr, plainBrowse]
  | .lclosure .., _ => by simp [plainStr, plainBrowse]
  | .mclosure .., _ => by simp [plainStr, plainBrowse]
  | .infixClosure .., _ => by simp [plainStr, plainBrowse]
  | .condClosure .., _ => by simp [plainStr, plainBrowse]
  | .setClosure .., _ => by simp [plainStr, plainBrowse]
  | .builtin .., _ => by simp [plainStr, plainBrowse]
  | .skip .., _ => by simp [plainStr, plainBrowse]
  | .env .., _ => by simp [plainStr, plainBrowse]
  | .pyobj .., _ => by simp [plainStr, plainBrowse]
theorem same_texts (cfg : Config) (x : TextExt) : (ns : List Node) → SimpleTrimss cfg x ns →
    plainStrs cfg x ns = ((plainBrowses cfg x ns).map (·.txt)).flatten
  | [], _ => by simp [plainStrs, plainBrowses]
  | n :: ns, h => by
      simp only [SimpleTrimss] at h
      simp only [plainStrs, plainBrowses, List.map_cons, List.flatten_cons]
      rw [C11_same_text_simple_blocks cfg x n h.1, same_texts cfg x ns h.2]
end

example : SimpleTrims {} { repr := fun _ => [], locs := fun _ => [] }
    (.t [.plain { txt := lit "x" } .none false, .trim (.plain { txt := lit "    a\n      b\n    c\n" } .none false) (lit "\t")] .none) := by
  simp only [SimpleTrims, SimpleTrimss, true_and, and_true]
  exact ⟨by decide, by decide, by decide⟩

end Yupp
