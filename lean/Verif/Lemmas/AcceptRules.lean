import Verif.Lemmas.Accept
/-!
# Every rule of the parser follows the grammar of accepted programs: the rules
-/

namespace Yupp

open PM (Sat sat_pure sat_pure' sat_err sat_timeout sat_mono sat_bind sat_bind' sat_get sat_set)

section
variable {e : PEnv}

/-- A literal or a quote. -/
def StrHeard (e : PEnv) (x : Node) (s r : Str) : Prop := ∃ q, x = .str q ∧ Accepts (modeOf e) (.former x) s r

theorem drop_add_txt {s : Src} {k t : Str} (hs : s.txt = k ++ t) : (s.drop k.length).txt = t := by
  rw [Src.drop_txt, hs, List.drop_left]

theorem hears_quoted (s : Src) (st : PSt) : Sat True (psQuoted s) st (Hears (StrHeard e) s) := by
  unfold psQuoted
  by_cases h1 : s.starts kBquote = true
  · obtain ⟨t, ht⟩ := starts_inv h1
    rw [if_pos h1]
    dsimp only
    rw [if_neg (by decide)]
    split
    · rename_i hb
      obtain ⟨h2, h3⟩ := bodyLen_written hb
      rw [drop_add_txt ht, List.take_zero, List.nil_append] at h3
      refine hears_some ⟨_, rfl, ?_⟩
      rw [ht, h3]
      exact .quote (q := { txt := [] }) ⟨.nil, by simp⟩
    · rename_i n _ hb
      obtain ⟨h2, h3⟩ := bodyLen_written hb
      refine hears_some ⟨_, rfl, ?_⟩
      rw [ht, ← drop_add_txt ht, h3]
      exact .quote (q := (s.drop kBquote.length).take n) h2
    · exact sat_err
  · rw [if_neg h1]
    by_cases h1 : s.starts kQuote = true
    · obtain ⟨t, ht⟩ := starts_inv h1
      rw [if_pos h1]
      dsimp only
      rw [if_neg (by decide)]
      split
      · rename_i hb
        obtain ⟨h2, h3⟩ := bodyLen_written hb
        rw [drop_add_txt ht, List.take_zero, List.nil_append] at h3
        refine hears_some ⟨_, rfl, ?_⟩
        rw [ht, h3]
        exact .quote' (q := { txt := [] }) ⟨.nil, by simp⟩
      · rename_i n _ hb
        obtain ⟨h2, h3⟩ := bodyLen_written hb
        refine hears_some ⟨_, rfl, ?_⟩
        rw [ht, ← drop_add_txt ht, h3]
        exact .quote' (q := (s.drop kQuote.length).take n) h2
      · exact sat_err
    · rw [if_neg h1]
      exact hears_noMatch _ _

theorem hears_quote (s : Src) (st : PSt) : Sat True (psQuote e s) st (Hears (StrHeard e) s) := by
  unfold psQuote
  split
  · rename_i hm
    split
    · rename_i n hn
      obtain ⟨l, r, hs, hl, hw⟩ := pyStrLen_written (m := modeOf e) hm hn
      refine hears_some ⟨_, rfl, ?_⟩
      have h1 : (s.take n).txt = l := by rw [Src.take_txt, hs, ← hl, List.take_left]
      have h2 : (s.drop n).txt = r := by rw [Src.drop_txt, hs, ← hl, List.drop_left]
      rw [h2, hs, ← h1]
      exact .literal (by rw [h1]; exact hw)
    · exact sat_err
    · exact hears_quoted s st
  · rename_i hm
    split
    · rename_i n hn
      obtain ⟨l, r, hs, hl, hw⟩ := cStrLen_written (m := modeOf e) (show e.outputPython = false by simpa using hm) hn
      refine hears_some ⟨_, rfl, ?_⟩
      have h1 : s.txt.take n = l := by rw [hs, ← hl, List.take_left]
      have h2 : (s.drop n).txt = r := by rw [Src.drop_txt, hs, ← hl, List.drop_left]
      rw [h1, h2, hs]
      exact .literal (q := { txt := l }) hw
    · exact hears_quoted s st

theorem split_take {s : Src} (n : Nat) : s.txt = s.txt.take n ++ (s.drop n).txt := by
  rw [Src.drop_txt, List.take_append_drop]

/-- A former. -/
def FormerHeard (e : PEnv) (x : Node) (s r : Str) : Prop := Accepts (modeOf e) (.former x) s r

/-- A body. -/
def BodyHeard (e : PEnv) (x : Node) (s r : Str) : Prop := Accepts (modeOf e) (.body x) s r

theorem hears_weaken {K L : α → Str → Str → Prop} (hk : ∀ x s r, K x s r → L x s r) {m : PM (Src × Option α)} {s : Src}
    {st : PSt} (h : Sat True m st (Hears K s)) : Sat True m st (Hears L s) := by
  refine sat_mono h id ?_
  rintro ⟨s1, leg⟩ st1 hq
  cases leg with
  | none => exact hq
  | some x => exact hk _ _ _ hq

theorem hears_number (s : Src) (st : PSt) : Sat True (psNumber e s) st (Hears (FormerHeard e) s) := by
  unfold psNumber
  dsimp only
  split
  · rename_i h
    split
    · refine hears_some ?_
      have hle := floatLen_le s.txt
      have := Accepts.float (m := modeOf e) (f := e.float (s.txt.take (floatLen s.txt))) (r := (s.drop (floatLen s.txt)).txt)
        (w := s.txt.take (floatLen s.txt)) (by
            intro hn
            have := congrArg List.length hn
            rw [List.length_take, Nat.min_eq_left hle] at this
            simp at this
            omega)
        (fun c hc => numeralChar_iff (floatLen_numeral _ c hc))
      rw [← split_take] at this
      exact this
    · exact sat_err
  · split
    · rename_i h
      split
      · rename_i v hv
        refine hears_some ?_
        have hle := intLen_le s.txt
        have := Accepts.int (m := modeOf e) (v := v) (r := (s.drop (intLen s.txt)).txt)
          (w := s.txt.take (intLen s.txt)) (by
            intro hn
            have := congrArg List.length hn
            rw [List.length_take, Nat.min_eq_left hle] at this
            simp at this
            omega)
          (fun c hc => numeralChar_iff (intLen_numeral _ c hc))
        rw [← split_take] at this
        exact this
      · exact sat_err
    · exact hears_noMatch _ _

theorem hears_value (s : Src) (st : PSt) : Sat True (psValue e s) st (Hears (FormerHeard e) s) :=
  hears_orElse (hears_weaken (fun _ _ _ h => by obtain ⟨q, rfl, h⟩ := h; exact h) (hears_quote s st)) (fun st' => hears_number s st')

/-- A part of a text: whatever text follows it, both are a text. -/
def PartsHeard (e : PEnv) (ns : List Node) (s r : Str) : Prop :=
  ∀ k sq pth xs r', Accepts (modeOf e) (.text k sq pth xs) r r' → Accepts (modeOf e) (.text k sq pth (textParts ns ++ xs)) s r'

/-- A part of a text that is one node. -/
def PartHeard (e : PEnv) (x : Node) (s r : Str) : Prop := PartsHeard e [x] s r

theorem hears_comment (s : Src) (st : PSt) : Sat True (psComment s) st (Hears (PartHeard e) s) := by
  unfold psComment
  split
  · rename_i h
    obtain ⟨t, ht⟩ := starts_inv h
    dsimp only
    split
    · rename_i n hn
      obtain ⟨h2, h3⟩ := bodyLen_written hn
      refine hears_some ?_
      intro k sq pth xs r' hr
      rw [ht, ← drop_add_txt ht, h3]
      exact .textComment h2 hr
    · exact sat_err
  · exact hears_noMatch _ _

theorem hears_remark (s : Src) (st : PSt) : Sat True (psRemark e s) st (Hears (PartHeard e) s) := by
  have key : ∀ r : Scan, (∀ n, r = .yes n → TextRemark (modeOf e).remarks (s.txt.take n) (s.txt.drop n)) →
      Sat True (match r with
        | .yes n => pure (s.drop n, some (.remark (s.take n)))
        | .raises => PM.err
        | .no => noMatch s) st (Hears (PartHeard e) s) := by
    intro r hr
    cases r with
    | yes n =>
      refine hears_some ?_
      intro k sq pth xs r' hx
      have := Accepts.textRemark (q := s.take n) (hr n rfl) hx
      rw [Src.take_txt, List.take_append_drop] at this
      exact this
    | raises => exact sat_err
    | no => exact hears_noMatch _ _
  refine key _ ?_
  intro n hn
  unfold modeOf
  cases hk : e.skip with
  | none => rw [hk] at hn; cases hn
  | c => rw [hk] at hn; exact remarkCLen_written hn
  | python => rw [hk] at hn; exact remarkPyLen_written hn

theorem hears_macro (s : Src) (st : PSt) : Sat True (psMacro s) st (Hears (PartHeard e) s) := by
  unfold psMacro
  split
  · rename_i h
    obtain ⟨t, ht⟩ := starts_inv h
    split
    · exact sat_err
    · rename_i s2 name ha
      obtain ⟨hn, he, hno⟩ := psAtom_inv ha
      obtain ⟨g1, hg1, he1⟩ := psGap_inv (s.drop kMacro.length)
      obtain ⟨g2, hg2, he2⟩ := psGap_inv s2
      dsimp only
      split
      · rename_i hp
        obtain ⟨u, hu⟩ := at_inv hp
        obtain ⟨g3, hg3, he3⟩ := psGap_inv ((psGap s2).drop 1)
        refine sat_bind (sat_mono (atoms0_written _ _ []) id ?_)
        rintro ⟨s6, pars⟩ st2 ⟨as, w, h1, h2, h3⟩
        dsimp only at h1 h2 h3 ⊢
        rw [List.nil_append] at h1
        subst h1
        split
        · rename_i n hb
          obtain ⟨h4, h5⟩ := bodyLen_written hb
          refine hears_some ?_
          intro k sq pth xs r' hr
          have := Accepts.textMacro (b := { txt := s6.txt.take n }) hg1 hn hg2 hg3 h2 h4 hr
          refine Eq.mp ?_ this
          congr 1
          rw [ht, ← drop_add_txt ht, he1, he, he2, hu]
          rw [Src.drop_txt, hu] at he3
          simp only [List.drop_succ_cons, List.drop_zero] at he3
          rw [he3, h3]
          rw [← h5]
          simp [kMacro]
        · exact sat_err
      · exact sat_err
  · exact hears_noMatch _ _

/-! ## Rules that call others -/

/-- The rules that are called recursively follow the grammar. -/
structure Truthful (e : PEnv) (p : Parsers) : Prop where
  form : ∀ s st, Sat True (p.form s) st (Hears (fun x => Accepts (modeOf e) (.form x)) s)
  args : ∀ fn s args named st, Sat True (p.args fn s args named) st (fun r _ => ∃ xs ms, r.2.1 = args ++ xs ∧
    r.2.2 = named ++ ms ∧ Accepts (modeOf e) (.args (fn.map (·.txt)) xs ms) s.txt r.1.txt)
  items : ∀ s lst st, Sat True (p.items s lst) st (fun r _ => ∃ xs, r.2 = lst ++ xs ∧
    Accepts (modeOf e) (.items xs) s.txt r.1.txt)
  bounds : ∀ s bound late st, Sat True (p.bounds s bound late) st (fun r _ => ∃ bs, r.2 = bound ++ bs ∧
    Accepts (modeOf e) (.params late bs) s.txt r.1.txt)
  text : ∀ k t st, (∀ g, t.gen = some g → t.sou = g.start.drop g.i ∧ ∃ pre i b, t.ast = pre ++ [.plain (g.start.take g.i) i b]) →
    Sat True (p.text (stopOf k) t) st (fun r _ => ∃ xs, textParts r.2 = textParts t.ast ++ xs ∧
      Accepts (modeOf e) (.text k t.sq t.pth xs) t.sou.txt r.1.txt)

theorem Truthful.bot (e : PEnv) : Truthful e Parsers.bot where
  form _ _ := sat_timeout trivial
  args _ _ _ _ _ := sat_timeout trivial
  items _ _ _ := sat_timeout trivial
  bounds _ _ _ _ := sat_timeout trivial
  text _ _ _ _ := sat_timeout trivial

theorem closing_written {tag : Str} {s : Src} {st : PSt} {Q : Src → PSt → Prop}
    (h : ∀ r : Src, Closing tag s.txt r.txt → Q r st) : Sat True (closing ('\\' :: tag) s) st Q := by
  unfold closing
  by_cases h1 : s.starts ('\\' :: tag) = true
  · obtain ⟨t, ht⟩ := starts_inv h1
    rw [if_pos h1]
    dsimp only
    split
    · rename_i hc
      obtain ⟨u, hu⟩ := at_inv hc
      obtain ⟨g, hg, he⟩ := psGap_inv (s.drop ('\\' :: tag).length)
      rw [drop_add_txt ht, hu] at he
      refine sat_pure (h _ ?_)
      rw [ht, he, Src.drop_txt, hu]
      exact .tag hg
    · exact sat_err
  · rw [if_neg h1]
    dsimp only
    split
    · rename_i hc
      obtain ⟨u, hu⟩ := at_inv hc
      refine sat_pure (h _ ?_)
      rw [hu, Src.drop_txt, hu]
      exact .plain
    · exact sat_err

variable {p : Parsers}

theorem hears_binding (hp : Truthful e p) (s : Src) (st : PSt) : Sat True (psBinding p s) st (fun r _ =>
    ∃ u g s', TargetWritten r.2.1 u ∧ IsGap g ∧ s.txt = u ++ (g ++ s') ∧ Accepts (modeOf e) (.form r.2.2) s' r.1.txt) := by
  unfold psBinding
  have hlval : Sat True (
      if s.at '(' then do
        let s := psGap (s.drop 1)
        let (s, l) ← atoms1 (s.txt.length + 1) s []
        pure (s, LVal.many l)
      else
        match psAtom s with
        | (s, some a) => pure (s, LVal.one a)
        | (_, none) => PM.err : PM (Src × LVal)) st
      (fun r _ => ∃ u, TargetWritten r.2 u ∧ s.txt = u ++ r.1.txt) := by
    split
    · rename_i h
      obtain ⟨t, ht⟩ := at_inv h
      obtain ⟨g, hg, he⟩ := psGap_inv (s.drop 1)
      refine sat_bind (sat_mono (atoms1_written _ _ []) id ?_)
      rintro ⟨s6, l⟩ st2 ⟨as, w, h1, h2, h3, h4⟩
      dsimp only at h1 h3 h4
      rw [List.nil_append] at h1
      subst h1
      refine sat_pure ⟨_, .many hg h3 h2, ?_⟩
      rw [Src.drop_txt, ht, h4] at he
      simp only [List.drop_succ_cons, List.drop_zero] at he
      rw [ht, he]
      simp
    · split
      · rename_i s2 a ha
        obtain ⟨hn, he, hno⟩ := psAtom_inv ha
        exact sat_pure ⟨_, .one hn, he⟩
      · exact sat_err
  refine sat_bind (sat_mono hlval id ?_)
  rintro ⟨s1, lval⟩ st1 ⟨u, h1, h2⟩
  dsimp only at h1 h2 ⊢
  obtain ⟨g, hg, he⟩ := psGap_inv s1
  refine sat_bind (sat_mono (hp.form (psGap s1) st1) id ?_)
  rintro ⟨s3, leg⟩ st3 hq
  cases leg with
  | none => exact sat_err
  | some x => exact sat_pure ⟨u, g, (psGap s1).txt, h1, hg, by rw [h2, he], hq⟩

theorem hears_set (hp : Truthful e p) (s : Src) (st : PSt) : Sat True (psSet p s) st (Hears (PartHeard e) s) := by
  unfold psSet
  split
  · rename_i h
    obtain ⟨t, ht⟩ := starts_inv h
    obtain ⟨g, hg, he⟩ := psGap_inv (s.drop kSet.length)
    refine sat_bind (sat_mono (hears_binding hp _ st) id ?_)
    rintro ⟨s2, lval, x⟩ st2 ⟨u, g2, s', h1, h2, h3, h4⟩
    dsimp only at h1 h4 ⊢
    obtain ⟨g3, hg3, he3⟩ := psGap_inv s2
    refine sat_bind (closing_written ?_)
    intro r hr
    refine sat_pure ?_
    intro k sq pth xs r' hx
    rw [ht, ← drop_add_txt ht, he, h3]
    rw [he3] at h4
    simp only [kSet, List.cons_append, List.nil_append]
    exact .textSet hg h1 h2 h4 hg3 hr hx
  · exact hears_noMatch _ _

theorem hears_let (hp : Truthful e p) (s : Src) (st : PSt) :
    Sat True (psLet p s) st (Hears (fun x s r => BodyHeard e x s r ∧ ['(', '$'] <+: s) s) := by
  unfold psLet
  split
  · rename_i h
    obtain ⟨t, ht⟩ := starts_inv h
    obtain ⟨g, hg, he⟩ := psGap_inv (s.drop kLet.length)
    refine sat_bind (sat_mono (hears_binding hp _ st) id ?_)
    rintro ⟨s2, lval, x⟩ st2 ⟨u, g2, s', h1, h2, h3, h4⟩
    dsimp only at h1 h4 ⊢
    obtain ⟨g3, hg3, he3⟩ := psGap_inv s2
    refine sat_bind (sat_mono (hp.form (psGap s2) st2) id ?_)
    rintro ⟨s4, leg⟩ st4 hq
    cases leg with
    | none => exact sat_err
    | some y =>
      obtain ⟨g4, hg4, he4⟩ := psGap_inv s4
      refine sat_bind (closing_written ?_)
      intro r hr
      refine sat_pure ⟨?_, ⟨_, by rw [ht]; rfl⟩⟩
      unfold BodyHeard
      rw [ht, ← drop_add_txt ht, he, h3]
      rw [he3] at h4
      have hq : Accepts (modeOf e) (.form y) (psGap s2).txt s4.txt := hq
      rw [he4] at hq
      simp only [kLet, List.cons_append, List.nil_append]
      exact .letIn hg h1 h2 h4 hg3 hq hg4 hr
  · exact hears_noMatch _ _

/-- A body that begins with `($`. -/
def FormHeard (e : PEnv) (x : Node) (s r : Str) : Prop := BodyHeard e x s r ∧ ['(', '$'] <+: s

theorem hears_emit (hp : Truthful e p) (s : Src) (st : PSt) : Sat True (psEmit p s) st (Hears (FormHeard e) s) := by
  unfold psEmit
  split
  · rename_i h
    obtain ⟨t, ht⟩ := starts_inv h
    obtain ⟨g, hg, he⟩ := psGap_inv (s.drop kEmit.length)
    refine sat_bind (sat_mono (hears_var (psGap (s.drop kEmit.length)) st) id ?_)
    rintro ⟨s2, v⟩ st2 hv
    dsimp only
    cases v with
    | none => exact sat_err
    | some v =>
      obtain ⟨late, reg, a⟩ := v
      obtain ⟨w, hw, hs2⟩ := (hv : VarWritten _ _ _)
      dsimp only at hw hs2 ⊢
      obtain ⟨g2, hg2, he2⟩ := psGap_inv s2
      refine sat_bind (sat_mono (hp.form (psGap s2) st2) id ?_)
      rintro ⟨s4, leg⟩ st4 hq
      cases leg with
      | none =>
        cases (hq : s4 = psGap s2)
        refine sat_bind (closing_written ?_)
        intro r hr
        refine sat_pure ⟨?_, ⟨_, by rw [ht]; rfl⟩⟩
        unfold BodyHeard
        rw [ht, ← drop_add_txt ht, he, hs2, he2]
        simp only [kEmit, List.cons_append, List.nil_append]
        exact .emit hg hw hg2 hr
      | some y =>
        obtain ⟨g4, hg4, he4⟩ := psGap_inv s4
        refine sat_bind (closing_written ?_)
        intro r hr
        refine sat_pure ⟨?_, ⟨_, by rw [ht]; rfl⟩⟩
        unfold BodyHeard
        rw [ht, ← drop_add_txt ht, he, hs2, he2]
        have hq : Accepts (modeOf e) (.form y) (psGap s2).txt s4.txt := hq
        rw [he4] at hq
        simp only [kEmit, List.cons_append, List.nil_append]
        exact .emitWith hg hw hg2 hq hg4 hr
  · exact hears_noMatch _ _

theorem hears_block (hp : Truthful e p) (s s1 : Src) (st : PSt) (k : TextEnd) (mk : List Node → Node)
    (h : ∀ xs r, Accepts (modeOf e) (.text k 0 0 (textParts xs)) s1.txt r → BodyHeard e (mk xs) s.txt r) :
    Sat True (do
      let (rest, ast) ← p.text (stopOf k) { sou := s1 }
      pure (rest, some (mk ast)) : PM (Src × Option Node)) st (Hears (BodyHeard e) s) := by
  refine sat_bind (sat_mono (hp.text k { sou := s1 } st (fun g hg => by cases hg)) id ?_)
  rintro ⟨s2, ast⟩ st2 ⟨xs, hx, ha⟩
  have hx : textParts ast = xs := by simpa [textParts] using hx
  subst hx
  exact sat_pure (h _ _ ha)

theorem hears_code (hp : Truthful e p) (s : Src) (st : PSt) : Sat True (psCode p s) st (Hears (BodyHeard e) s) := by
  unfold psCode
  dsimp only
  split
  · rename_i h
    obtain ⟨t, ht⟩ := at_inv h
    split
    · rename_i rest eol he
      refine hears_block hp s _ st .lines .text (fun xs r ha => ?_)
      obtain ⟨c, u, hs, hc, rfl⟩ := psEol_inv he
      obtain ⟨b, v, hb, hb', hv⟩ := blanks_split (s.drop 1).txt
      have h1 := (psSpace_blanks hb hb' hv).2
      rw [Src.drop_txt, hs] at ha
      rw [Src.drop_txt, ht] at hb
      simp only [List.drop_succ_cons, List.drop_zero] at hb ha
      unfold BodyHeard
      rw [ht, hb, ← h1, hs]
      exact .lines hb' hc ha
    · refine hears_block hp s _ st .bracket .text (fun xs r ha => ?_)
      rw [Src.drop_txt, ht] at ha
      unfold BodyHeard
      rw [ht]
      exact .bracket ha
  · split
    · rename_i h
      obtain ⟨t, ht⟩ := at_inv h
      refine hears_block hp s _ st .square .text (fun xs r ha => ?_)
      rw [Src.drop_txt, ht] at ha
      unfold BodyHeard
      rw [ht]
      exact .square ha
    · split
      · rename_i h
        obtain ⟨t, ht⟩ := starts_inv h
        refine hears_block hp s _ st .paren .text (fun xs r ha => ?_)
        rw [drop_add_txt ht] at ha
        unfold BodyHeard
        rw [ht]
        exact .code ha
      · split
        · rename_i h
          obtain ⟨t, ht⟩ := starts_inv h
          refine hears_block hp s _ st .comma .text (fun xs r ha => ?_)
          rw [drop_add_txt ht] at ha
          unfold BodyHeard
          rw [ht]
          exact .comma ha
        · exact hears_noMatch _ _

theorem hears_infix (hp : Truthful e p) (s : Src) (st : PSt) : Sat True (psInfix p s) st
    (Hears (fun x s r => BodyHeard e x s r ∧ ∃ zs l, x = .infix (.text zs) l) s) := by
  unfold psInfix
  have key : ∀ {r : PM (Src × Option Node)}, Sat True r st (Hears (BodyHeard e) s) →
      Sat True r st (fun q _ => ∀ x, q.2 = some x → ∃ zs l, x = .infix (.text zs) l) →
      Sat True r st (Hears (fun x s r => BodyHeard e x s r ∧ ∃ zs l, x = .infix (.text zs) l) s) := by
    intro r h1 h2
    unfold Sat at *
    split
    · rename_i a st' ha
      rw [ha] at h1 h2
      obtain ⟨s1, leg⟩ := a
      cases leg with
      | none => exact h1
      | some x => exact ⟨h1, h2 x rfl⟩
    · trivial
    · trivial
  have inf : ∀ {stop : Stop} {t : TextSt} {f : List Node → Node}, (∀ l, ∃ zs k, f l = .infix (.text zs) k) → Sat True (do
      let (rest, ast) ← p.text stop t
      pure (rest, some (f ast)) : PM (Src × Option Node)) st (fun q _ => ∀ x, q.2 = some x → ∃ zs l, x = .infix (.text zs) l) := by
    intro stop t f hf
    refine sat_bind ?_
    unfold Sat
    split
    · rename_i a st' _
      obtain ⟨s1, ast⟩ := a
      rintro x hx
      cases hx
      exact hf _
    · trivial
    · trivial
  split
  · rename_i h
    obtain ⟨t, ht⟩ := at_inv h
    refine key (hears_block hp s _ st .brace (fun l => .infix (.text l) s.loc) (fun xs r ha => ?_)) (inf (fun l => ⟨l, _, rfl⟩))
    rw [Src.drop_txt, ht] at ha
    unfold BodyHeard
    rw [ht]
    exact .brace ha
  · split
    · rename_i h
      obtain ⟨t, ht⟩ := starts_inv h
      refine key (hears_block hp s _ st .paren (fun xs => .infix (.text xs) (s.loc.map (fun l : Loc => { l with pos := l.pos + 1 })))
        (fun xs r ha => ?_)) (inf (fun l => ⟨l, _, rfl⟩))
      rw [drop_add_txt ht] at ha
      unfold BodyHeard
      rw [ht]
      exact .python ha
    · exact hears_noMatch _ _

theorem hears_list (hp : Truthful e p) (s : Src) (st : PSt) : Sat True (psList p s) st (Hears (BodyHeard e) s) := by
  unfold psList
  split
  · rename_i h
    obtain ⟨t, ht⟩ := at_inv h
    obtain ⟨g, hg, he⟩ := psGap_inv (s.drop 1)
    refine sat_bind (sat_mono (hp.items (psGap (s.drop 1)) [] st) id ?_)
    rintro ⟨s2, lst⟩ st2 ⟨xs, hx, ha⟩
    dsimp only at hx ha
    rw [List.nil_append] at hx
    subst hx
    refine hears_some ?_
    rw [Src.drop_txt, ht] at he
    simp only [List.drop_succ_cons, List.drop_zero] at he
    unfold BodyHeard
    rw [ht, he]
    exact .list hg ha
  · exact hears_noMatch _ _

theorem star_written (s : Src) : (s.at '*' = true ∧ ∃ g, IsGap g ∧ s.txt = '*' :: (g ++ (psGap (s.drop 1)).txt)) ∨ s.at '*' = false := by
  cases h : s.at '*' with
  | false => exact .inr rfl
  | true =>
    obtain ⟨t, ht⟩ := at_inv h
    obtain ⟨g, hg, he⟩ := psGap_inv (s.drop 1)
    rw [Src.drop_txt, ht] at he
    simp only [List.drop_succ_cons, List.drop_zero] at he
    exact .inl ⟨rfl, g, hg, by rw [ht, he]⟩

theorem hears_items (hp : Truthful e p) (s : Src) (lst : List Node) (st : PSt) : Sat True (psItems p s lst) st (fun r _ =>
    ∃ xs, r.2 = lst ++ xs ∧ Accepts (modeOf e) (.items xs) s.txt r.1.txt) := by
  unfold psItems
  split
  · rename_i h
    obtain ⟨t, ht⟩ := at_inv h
    exact sat_pure ⟨[], by simp, by rw [ht, Src.drop_txt, ht]; exact .itemsEnd⟩
  · dsimp only
    rcases star_written s with ⟨h1, g, hg, he⟩ | h1
    · rw [h1, if_pos rfl]
      refine sat_bind (sat_mono (hp.form _ st) id ?_)
      rintro ⟨s2, leg⟩ st2 hq
      cases leg with
      | none => exact sat_err
      | some x =>
        obtain ⟨g2, hg2, he2⟩ := psGap_inv s2
        refine sat_mono (hp.items (psGap s2) _ st2) id ?_
        rintro ⟨s3, l3⟩ st3 ⟨xs, h3, ha⟩
        have hq : Accepts (modeOf e) (.form x) (psGap (s.drop 1)).txt s2.txt := hq
        rw [he2] at hq
        exact ⟨.embed x :: xs, by rw [h3]; simp, by rw [he]; exact .itemEmbed hg hq hg2 ha⟩
    · rw [h1, if_neg (by simp)]
      refine sat_bind (sat_mono (hp.form _ st) id ?_)
      rintro ⟨s2, leg⟩ st2 hq
      cases leg with
      | none => exact sat_err
      | some x =>
        obtain ⟨g2, hg2, he2⟩ := psGap_inv s2
        refine sat_mono (hp.items (psGap s2) _ st2) id ?_
        rintro ⟨s3, l3⟩ st3 ⟨xs, h3, ha⟩
        have hq : Accepts (modeOf e) (.form x) s.txt s2.txt := hq
        rw [he2] at hq
        exact ⟨x :: xs, by rw [h3]; simp, .item hq hg2 ha⟩

theorem argName_written {s look name : Src} (h : argName s = some (look, name)) :
    ∃ g, IsName name.txt ∧ IsGap g ∧ s.txt = '\\' :: (name.txt ++ (g ++ look.txt)) := by
  unfold argName at h
  split at h
  · rename_i h0
    obtain ⟨t, ht⟩ := at_inv h0
    split at h
    · rename_i l a ha
      obtain ⟨hn, he, -⟩ := psAtom_inv ha
      dsimp only at h
      split at h
      · cases h
      · cases h
        obtain ⟨g, hg, hl⟩ := psGap_inv l
        rw [Src.drop_txt, ht] at he
        simp only [List.drop_succ_cons, List.drop_zero] at he
        exact ⟨g, hn, hg, by rw [ht, he, hl]⟩
    · cases h
  · cases h

theorem hears_args (hp : Truthful e p) (fn : Option Src) (s : Src) (args : List Node) (named : List (Src × Node)) (st : PSt) :
    Sat True (psArgs p fn s args named) st (fun r _ => ∃ xs ms, r.2.1 = args ++ xs ∧ r.2.2 = named ++ ms ∧
      Accepts (modeOf e) (.args (fn.map (·.txt)) xs ms) s.txt r.1.txt) := by
  unfold psArgs
  dsimp only
  obtain ⟨g, hg, he⟩ := psGap_inv s
  rw [he]
  generalize psGap s = s0
  split
  · rename_i look name ha
    obtain ⟨g1, hn, hg1, h1⟩ := argName_written ha
    rw [h1]
    split
    · rename_i hf
      exact sat_pure ⟨[], [], by simp, by simp, by rw [hf]; exact .argsTag hg hn hg1⟩
    · rename_i hf
      obtain ⟨g2, hg2, he2⟩ := psGap_inv look
      refine sat_bind (sat_mono (hp.form (psGap look) st) id ?_)
      rintro ⟨s3, leg⟩ st3 hq
      cases leg with
      | none => exact sat_err
      | some x =>
        refine sat_mono (hp.args fn s3 args _ st3) id ?_
        rintro ⟨s4, a4, n4⟩ st4 ⟨xs, ms, h3, h4, h5⟩
        refine ⟨xs, (name, x) :: ms, h3, by rw [h4]; simp, ?_⟩
        have := Accepts.argNamed (g' := g1 ++ g2) hg hn hf (fun c hc => by
          rcases List.mem_append.mp hc with hc | hc
          · exact hg1 c hc
          · exact hg2 c hc) hq h5
        rw [List.append_assoc, ← he2] at this
        exact this
  · rcases star_written s0 with ⟨h1, g1, hg1, he1⟩ | h1
    · rw [h1, if_pos rfl]
      refine sat_bind (sat_mono (hp.form _ st) id ?_)
      rintro ⟨s2, leg⟩ st2 hq
      cases leg with
      | none => exact sat_err
      | some x =>
        refine sat_mono (hp.args fn s2 _ named st2) id ?_
        rintro ⟨s4, a4, n4⟩ st4 ⟨xs, ms, h3, h4, h5⟩
        refine ⟨.embed x :: xs, ms, by rw [h3]; simp, h4, ?_⟩
        rw [he1]
        exact .argEmbed hg hg1 hq h5
    · rw [h1, if_neg (by simp)]
      refine sat_bind (sat_mono (hp.form _ st) id ?_)
      rintro ⟨s2, leg⟩ st2 hq
      cases leg with
      | none =>
        cases (hq : s2 = s0)
        exact sat_pure ⟨[], [], by simp, by simp, .argsEnd hg⟩
      | some x =>
        refine sat_mono (hp.args fn s2 _ named st2) id ?_
        rintro ⟨s4, a4, n4⟩ st4 ⟨xs, ms, h3, h4, h5⟩
        exact ⟨x :: xs, ms, by rw [h3]; simp, h4, .arg hg hq h5⟩

theorem hears_application (hp : Truthful e p) (s : Src) (st : PSt) :
    Sat True (psApplication p s) st (Hears (FormHeard e) s) := by
  unfold psApplication
  split
  · exact hears_noMatch _ _
  rename_i hk
  have hk : s.starts kApply = true := by simpa using hk
  obtain ⟨t, ht⟩ := starts_inv hk
  have hpre : ['(', '$'] <+: s.txt := ⟨t, ht.symm⟩
  split
  · exact hears_noMatch _ _
  have key : ∀ {K : Node → Str → Str → Prop} {r : PM (Src × Option Node)}, (∀ x s r, K x s r → BodyHeard e x s r) →
      Sat True r st (Hears K s) → Sat True r st (Hears (FormHeard e) s) := by
    intro K r hK h
    refine sat_mono h id ?_
    rintro ⟨s1, leg⟩ st1 hq
    cases leg with
    | none => exact hq
    | some x => exact ⟨hK _ _ _ hq, hpre⟩
  split
  · exact key (fun _ _ _ h => h) (hears_code hp s st)
  split
  · exact hears_emit hp s st
  split
  · exact key (fun _ _ _ h => h.1) (hears_infix hp s st)
  dsimp only
  have h2 : (s.drop 2).txt = t := drop_add_txt ht
  cases h3 : (s.drop 2).at '$' with
  | true =>
    obtain ⟨u, hu⟩ := at_inv h3
    rw [if_pos rfl]
    obtain ⟨g, hg, he⟩ := psGap_inv ((s.drop 2).drop 1)
    rw [Src.drop_txt, hu] at he
    simp only [List.drop_succ_cons, List.drop_zero] at he
    refine sat_bind (sat_mono (hp.form _ st) id ?_)
    rintro ⟨s4, leg⟩ st4 hq
    cases leg with
    | none => exact sat_err
    | some f =>
      refine sat_bind (sat_mono (hp.args _ s4 [] [] st4) id ?_)
      rintro ⟨s5, a5, n5⟩ st5 ⟨xs, ms, h5, h6, h7⟩
      dsimp only at h5 h6 h7 ⊢
      rw [List.nil_append] at h5 h6
      subst h5 h6
      have h7 : Accepts (modeOf e) (.args (calledAs f) a5 n5) s4.txt s5.txt := by cases f <;> exact h7
      obtain ⟨g', hg', he'⟩ := psGap_inv s5
      split
      · rename_i hc
        obtain ⟨v, hv⟩ := at_inv hc
        refine sat_pure ⟨?_, hpre⟩
        unfold BodyHeard
        rw [he', hv] at h7
        rw [ht, ← h2, hu, he, Src.drop_txt, hv]
        exact .eval hg hq h7 hg'
      · exact sat_err
  | false =>
    rw [if_neg (by simp)]
    obtain ⟨g, hg, he⟩ := psGap_inv (s.drop 2)
    refine sat_bind (sat_mono (hp.form _ st) id ?_)
    rintro ⟨s4, leg⟩ st4 hq
    cases leg with
    | none => exact sat_err
    | some f =>
      refine sat_bind (sat_mono (hp.args _ s4 [] [] st4) id ?_)
      rintro ⟨s5, a5, n5⟩ st5 ⟨xs, ms, h5, h6, h7⟩
      dsimp only at h5 h6 h7 ⊢
      rw [List.nil_append] at h5 h6
      subst h5 h6
      have h7 : Accepts (modeOf e) (.args (calledAs f) a5 n5) s4.txt s5.txt := by cases f <;> exact h7
      obtain ⟨g', hg', he'⟩ := psGap_inv s5
      split
      · rename_i hc
        obtain ⟨v, hv⟩ := at_inv hc
        refine sat_pure ⟨?_, hpre⟩
        unfold BodyHeard
        rw [he', hv] at h7
        rw [ht, ← h2, he, Src.drop_txt, hv]
        simp only [List.cons_append, List.nil_append, kApply]
        exact .app hg hq h7 hg'
      · exact sat_err

theorem hears_lform (hp : Truthful e p) (s : Src) (st : PSt) : Sat True (psLForm p s) st (Hears (BodyHeard e) s) := by
  unfold psLForm
  refine hears_orElse (hears_code hp s st) (fun st1 => ?_)
  refine hears_orElse (hears_weaken (fun _ _ _ h => h.1) (hears_infix hp s st1)) (fun st2 => ?_)
  refine hears_orElse (hears_weaken (fun _ _ _ h => h.1) (hears_let hp s st2)) (fun st3 => ?_)
  refine hears_orElse (hears_weaken (fun _ _ _ h => h.1) (hears_application hp s st3)) (fun st4 => ?_)
  exact hears_list hp s st4

theorem hears_bounds (hp : Truthful e p) (s : Src) (bound : List Bound) (late : List Src) (st : PSt) :
    Sat True (psBounds p s bound late) st (fun r _ => ∃ bs, r.2 = bound ++ bs ∧
      Accepts (modeOf e) (.params late bs) s.txt r.1.txt) := by
  unfold psBounds
  split
  · rename_i h
    obtain ⟨t, ht⟩ := at_inv h
    split
    · rename_i h3
      obtain ⟨u, hu⟩ := starts_inv h3
      rw [Src.drop_txt, ht] at hu
      simp only [List.drop_succ_cons, List.drop_zero] at hu
      split
      · rename_i hl
        obtain ⟨g, hg, he⟩ := psGap_inv (s.drop 4)
        rw [Src.drop_txt, ht, hu] at he
        simp only [List.cons_append, List.nil_append, List.drop_succ_cons, List.drop_zero] at he
        refine sat_mono (hp.bounds _ _ _ st) id ?_
        rintro ⟨s6, b6⟩ st6 ⟨bs, h1, h2⟩
        refine ⟨([], { txt := ['.', '.', '.'] }, none) :: bs, by rw [h1]; simp, ?_⟩
        rw [List.isEmpty_iff.mp hl, ht, hu, he]
        simp only [List.cons_append, List.nil_append]
        exact .dots hg h2
      · exact sat_err
    · split
      · exact sat_err
      · rename_i s2 a ha
        obtain ⟨hn, he, hno⟩ := psAtom_inv ha
        rw [Src.drop_txt, ht] at he
        simp only [List.drop_succ_cons, List.drop_zero] at he
        have hd : Sat True (
            if s2.at ':' then do
              let (s, form) ← p.form (s2.drop 1)
              match form with
              | some x => pure (s, some x)
              | none => PM.err
            else pure (s2, none) : PM (Src × Option Node)) st (fun r _ =>
            match r.2 with
            | none => r.1 = s2
            | some x => ∃ u, s2.txt = ':' :: u ∧ Accepts (modeOf e) (.form x) u r.1.txt) := by
          split
          · rename_i hc
            obtain ⟨u, hu⟩ := at_inv hc
            refine sat_bind (sat_mono (hp.form _ st) id ?_)
            rintro ⟨s5, leg⟩ st5 hq
            cases leg with
            | none => exact sat_err
            | some x =>
              have hq : Accepts (modeOf e) (.form x) (s2.drop 1).txt s5.txt := hq
              rw [Src.drop_txt, hu] at hq
              exact sat_pure ⟨u, hu, hq⟩
          · exact sat_pure rfl
        refine sat_bind (sat_mono hd id ?_)
        rintro ⟨s5, dflt⟩ st5 h5
        dsimp only
        split
        · rename_i hdd
          obtain ⟨u, hu⟩ := starts_inv hdd
          obtain ⟨g, hg, he5⟩ := psGap_inv (s5.drop 2)
          rw [Src.drop_txt, hu] at he5
          simp only [List.cons_append, List.nil_append, List.drop_succ_cons, List.drop_zero] at he5
          refine sat_mono (hp.bounds _ _ _ st5) id ?_
          rintro ⟨s7, b7⟩ st7 ⟨bs, h1, h2⟩
          refine ⟨bs, h1, ?_⟩
          rw [ht, he]
          cases dflt with
          | none =>
            cases (h5 : s5 = s2)
            rw [hu, he5]
            simp only [List.cons_append, List.nil_append]
            exact .late hn hg h2
          | some x =>
            obtain ⟨w, hw, ha⟩ := h5
            dsimp only at ha
            rw [hu, he5] at ha
            simp only [List.cons_append, List.nil_append] at ha
            rw [hw]
            exact .lateDflt hn ha hg h2
        · split
          · rename_i hdd
            obtain ⟨u, hu⟩ := at_inv hdd
            obtain ⟨g, hg, he5⟩ := psGap_inv (s5.drop 1)
            rw [Src.drop_txt, hu] at he5
            simp only [List.drop_succ_cons, List.drop_zero] at he5
            refine sat_mono (hp.bounds _ _ _ st5) id ?_
            rintro ⟨s7, b7⟩ st7 ⟨bs, h1, h2⟩
            refine ⟨(late, a, dflt) :: bs, by rw [h1]; simp, ?_⟩
            rw [ht, he]
            cases dflt with
            | none =>
              cases (h5 : s5 = s2)
              rw [hu, he5]
              exact .par hn hg h2
            | some x =>
              obtain ⟨w, hw, ha⟩ := h5
              dsimp only at ha
              rw [hu, he5] at ha
              rw [hw]
              exact .dflt hn ha hg h2
          · exact sat_err
  · rename_i h
    refine sat_pure ⟨[], by simp, .paramsEnd (fun hh => h ?_)⟩
    cases ht : s.txt with
    | nil => rw [ht] at hh; cases hh
    | cons c t => rw [ht] at hh; cases hh; exact at_true ht

theorem hears_lambda (hp : Truthful e p) (s : Src) (st : PSt) : Sat True (psLambda p s) st (Hears (FormerHeard e) s) := by
  unfold psLambda
  split
  · rename_i h
    obtain ⟨t, ht⟩ := at_inv h
    split
    · rename_i hb
      obtain ⟨u, hu⟩ := at_inv hb
      rw [Src.drop_txt, ht] at hu
      simp only [List.drop_succ_cons, List.drop_zero] at hu
      obtain ⟨g1, hg1, he1⟩ := psGap_inv (s.drop 2)
      rw [Src.drop_txt, ht, hu] at he1
      simp only [List.drop_succ_cons, List.drop_zero] at he1
      refine sat_bind (sat_mono (hears_var (psGap (s.drop 2)) st) id ?_)
      rintro ⟨s4, v⟩ st4 hv
      dsimp only
      cases v with
      | none => exact sat_err
      | some v =>
        obtain ⟨lt, reg, a⟩ := v
        obtain ⟨w, hw, hs4⟩ := (hv : VarWritten _ _ _)
        dsimp only at hw hs4 ⊢
        obtain ⟨g2, hg2, he2⟩ := psGap_inv s4
        split
        · rename_i hc
          obtain ⟨v, hv⟩ := starts_inv hc
          obtain ⟨g3, hg3, he3⟩ := psGap_inv ((psGap s4).drop 2)
          rw [Src.drop_txt, hv] at he3
          simp only [List.cons_append, List.nil_append, List.drop_succ_cons, List.drop_zero] at he3
          refine sat_bind (sat_mono (hears_lform hp _ st4) id ?_)
          rintro ⟨s6, leg⟩ st6 hq
          cases leg with
          | none => exact sat_err
          | some x =>
            refine hears_some ?_
            unfold FormerHeard
            rw [ht, hu, he1, hs4, he2, hv, he3]
            simp only [List.cons_append, List.nil_append]
            exact .fnOf hw hg1 hg2 hg3 hq
        · exact sat_err
    · refine sat_bind (sat_mono (hears_bounds hp s [] [] st) id ?_)
      rintro ⟨s4, b4⟩ st4 ⟨bs, h1, h2⟩
      dsimp only at h1 h2 ⊢
      rw [List.nil_append] at h1
      subst h1
      refine sat_bind (sat_mono (hears_lform hp s4 st4) id ?_)
      rintro ⟨s6, leg⟩ st6 hq
      cases leg with
      | none => exact sat_err
      | some x => exact hears_some (.fn h2 hq (by rw [ht]; rfl))
  · exact hears_noMatch _ _

theorem hears_varNode (s : Src) (st : PSt) : Sat True (do
      let (s, v) ← psVar s
      pure (s, v.map (fun (late, reg, a) => Node.var late reg a)) : PM (Src × Option Node)) st (Hears (FormerHeard e) s) := by
  refine sat_bind (sat_mono (hears_var s st) id ?_)
  rintro ⟨s2, v⟩ st2 hv
  cases v with
  | none => exact sat_pure hv
  | some v =>
    obtain ⟨lt, reg, a⟩ := v
    obtain ⟨w, hw, hs⟩ := (hv : VarWritten _ _ _)
    refine sat_pure ?_
    show Accepts _ _ _ _
    rw [hs]
    exact .name hw

theorem hears_former (hp : Truthful e p) (s : Src) (st : PSt) : Sat True (psFormer e p s) st (Hears (FormerHeard e) s) := by
  unfold psFormer
  refine hears_orElse (hears_value s st) (fun st1 => ?_)
  refine hears_orElse (hears_varNode s st1) (fun st2 => ?_)
  refine hears_orElse (hears_lambda hp s st2) (fun st3 => ?_)
  exact hears_weaken (fun _ _ _ h => .former h) (hears_lform hp s st3)

theorem hears_form (hp : Truthful e p) (s : Src) (st : PSt) :
    Sat True (psForm e p s) st (Hears (fun x => Accepts (modeOf e) (.form x)) s) := by
  unfold psForm
  refine sat_bind (sat_mono (hears_former hp s st) id ?_)
  rintro ⟨s1, leg⟩ st1 hq
  cases leg with
  | none => exact sat_pure hq
  | some l1 =>
    have hq : Accepts (modeOf e) (.former l1) s.txt s1.txt := hq
    obtain ⟨g1, hg1, he1⟩ := psGap_inv s1
    dsimp only
    split
    · rename_i hc
      obtain ⟨u, hu⟩ := at_inv hc
      obtain ⟨g2, hg2, he2⟩ := psGap_inv ((psGap s1).drop 1)
      rw [Src.drop_txt, hu] at he2
      simp only [List.drop_succ_cons, List.drop_zero] at he2
      rw [he1, hu, he2] at hq
      refine sat_bind (sat_mono (hears_former hp _ st1) id ?_)
      rintro ⟨s3, leg⟩ st3 hq3
      cases leg with
      | none => exact sat_err
      | some c =>
        have hq3 : Accepts (modeOf e) (.former c) (psGap ((psGap s1).drop 1)).txt s3.txt := hq3
        obtain ⟨g3, hg3, he3⟩ := psGap_inv s3
        dsimp only
        split
        · rename_i hb
          obtain ⟨v, hv⟩ := at_inv hb
          obtain ⟨g4, hg4, he4⟩ := psGap_inv ((psGap s3).drop 1)
          rw [Src.drop_txt, hv] at he4
          simp only [List.drop_succ_cons, List.drop_zero] at he4
          rw [he3, hv, he4] at hq3
          refine sat_bind (sat_mono (hp.form _ st3) id ?_)
          rintro ⟨s5, leg⟩ st5 hq5
          cases leg with
          | none => exact sat_err
          | some l0 => exact sat_pure (.cond hq hq3 hq5 hg1 hg2 hg3 hg4)
        · rw [he3] at hq3
          exact sat_pure (.when hq hq3 hg1 hg2 hg3)
    · rw [he1] at hq
      exact sat_pure (.one hq hg1)

end

end Yupp
