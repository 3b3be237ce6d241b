import Verif.Spec.Accept
import Verif.Lemmas.PyString
import Verif.Lemmas.Builtin
/-!
# Every rule of the parser follows the grammar of accepted programs
-/

namespace Yupp

open PM (Sat sat_pure sat_pure' sat_err sat_timeout sat_mono sat_bind sat_bind' sat_get sat_set)

/-! ## Literals -/

theorem py1Tail_found {q : Char} : ∀ (n : Nat) (s : Str) (k : Nat), s.length ≤ n → py1Tail q s = some k →
    ∃ a r, s = a ++ q :: r ∧ k = a.length + 1
  | _, [], _, _, h => by cases h
  | 0, _ :: _, _, hn, _ => by simp at hn
  | n + 1, c :: t, k, hn, h => by
    rw [py1Tail.eq_def] at h
    dsimp only at h
    by_cases h1 : c = q
    · rw [if_pos h1] at h
      cases h
      exact ⟨[], t, by rw [h1]; rfl, rfl⟩
    · rw [if_neg h1] at h
      by_cases h2 : c = '\\'
      · rw [if_pos h2] at h
        cases t with
        | nil => cases h
        | cons d u =>
          dsimp only at h
          by_cases h3 : d = '\n'
          · rw [if_pos h3] at h; cases h
          · rw [if_neg h3] at h
            obtain ⟨m, hm, rfl⟩ := Option.map_eq_some_iff.mp h
            obtain ⟨a, r, rfl, rfl⟩ := py1Tail_found n u m (by simp at hn; omega) hm
            exact ⟨c :: d :: a, r, rfl, rfl⟩
      · rw [if_neg h2] at h
        obtain ⟨m, hm, rfl⟩ := Option.map_eq_some_iff.mp h
        obtain ⟨a, r, rfl, rfl⟩ := py1Tail_found n t m (by simp at hn; omega) hm
        exact ⟨c :: a, r, rfl, rfl⟩

theorem pyLines_yes {one : Bool} {tail : Str → Option Nat} {z : Char}
    (ht : ∀ ln k, tail ln = some k → ∃ a r, ln = a ++ z :: r ∧ k = a.length + 1) : ∀ (t : Str) (sk p k : Nat),
    pyLines one tail sk p t = .yes k → ∃ b r, t.drop sk = b ++ z :: r ∧ k + sk = p + sk + (b.length + 1)
  | [], 0, _, _, h => by rw [pyLines] at h; cases h
  | [], _ + 1, _, _, h => by rw [pyLines] at h; cases h
  | c :: t, 0, p, k, h => by
    rw [pyLines] at h
    cases hl : tail ((c :: t).take (lineLen (c :: t))) with
    | some j =>
      rw [hl] at h
      cases h
      obtain ⟨a, r, ha, rfl⟩ := ht _ _ hl
      refine ⟨a, r ++ (c :: t).drop (lineLen (c :: t)), ?_, by omega⟩
      have := List.take_append_drop (lineLen (c :: t)) (c :: t)
      rw [ha] at this
      simpa using this.symm
    | none =>
      rw [hl] at h
      dsimp only at h
      split at h
      · cases h
      · obtain ⟨b, r, hb, hk⟩ := pyLines_yes ht t _ _ k h
        refine ⟨(c :: t).take (lineLen (c :: t)) ++ b, r, ?_, ?_⟩
        · have h1 := List.take_append_drop (lineLen (c :: t)) (c :: t)
          have h2 : t.drop (((c :: t).take (lineLen (c :: t))).length - 1) = (c :: t).drop (lineLen (c :: t)) := by
            have hpos : 0 < lineLen (c :: t) := by rw [lineLen]; split <;> omega
            have hle := lineLen_le (c :: t)
            rw [List.length_take, Nat.min_eq_left hle]
            obtain ⟨j, hj⟩ : ∃ j, lineLen (c :: t) = j + 1 := ⟨lineLen (c :: t) - 1, by omega⟩
            rw [hj]
            rfl
          rw [← h2, hb] at h1
          rw [List.append_assoc, h1]
          rfl
        · have hpos : 0 < ((c :: t).take (lineLen (c :: t))).length := by
            have hpos : 0 < lineLen (c :: t) := by rw [lineLen]; split <;> omega
            have hle := lineLen_le (c :: t)
            rw [List.length_take, Nat.min_eq_left hle]
            exact hpos
          rw [List.length_append]
          omega
  | c :: t, sk + 1, p, k, h => by
    rw [pyLines] at h
    obtain ⟨b, r, hb, hk⟩ := pyLines_yes ht t sk p k h
    exact ⟨b, r, hb, by omega⟩

theorem pyLines_not_no (one : Bool) (tail : Str → Option Nat) : ∀ (t : Str) (sk p : Nat), pyLines one tail sk p t ≠ .no
  | [], 0, _ => by rw [pyLines]; simp
  | [], _ + 1, _ => by rw [pyLines]; simp
  | c :: t, 0, p => by
    rw [pyLines]
    split
    · simp
    · split
      · simp
      · exact pyLines_not_no one tail t _ _
  | c :: t, sk + 1, p => by
    rw [pyLines]
    exact pyLines_not_no one tail t _ _

theorem closingMark_of {q : Char} {a : Str} (hq : QuoteMark q) : ClosingMark q a (if q = '\'' ∨ '\'' ∈ a then '\'' else '"') := by
  by_cases h : q = '\'' ∨ '\'' ∈ a
  · rw [if_pos h]
    exact .inl ⟨by rcases h with rfl | h <;> simp [*], rfl⟩
  · rw [if_neg h]
    refine .inr ⟨fun hm => h ?_, ?_⟩
    · rcases List.mem_cons.mp hm with rfl | hm
      · exact .inl rfl
      · exact .inr hm
    · rcases hq with rfl | rfl
      · rfl
      · exact absurd (.inl rfl) h

/-- What the scanner takes for a Python literal is one. -/
theorem pyStrLen_written {m : Mode} (hm : m.python = true) {s : Str} {n : Nat} (h : pyStrLen s = .yes n) :
    ∃ l r, s = l ++ r ∧ l.length = n ∧ LiteralWritten m l r := by
  have hp := pyPrefix_take s
  have hs := List.take_append_drop (pyPrefix s) s
  generalize hpp : s.take (pyPrefix s) = p at hp hs
  cases hd : s.drop (pyPrefix s) with
  | nil => unfold pyStrLen at h; simp only [hd] at h; cases h
  | cons q t =>
    rw [hd] at hs
    by_cases hq : q = '\'' ∨ q = '"'
    · have hq : QuoteMark q := hq.symm
      by_cases h3 : [q, q].isPrefixOf t = true
      · obtain ⟨u, rfl⟩ := List.isPrefixOf_iff_prefix.mp h3
        rw [← hs] at h
        by_cases hx : ∃ a r, InsideLong q a ∧ u = a ++ q :: q :: q :: r
        · obtain ⟨a, r, ha, rfl⟩ := hx
          simp only [List.cons_append, List.nil_append] at h hs
          rw [pyStrLen_long hp hq ha] at h
          cases h
          refine ⟨p ++ q :: q :: q :: (a ++ [q, q, q]), r, by rw [← hs]; simp, by simp <;> omega, .text (.long hm hp hq ha)⟩
        · simp only [List.cons_append, List.nil_append] at h
          rw [pyStrLen_unended hp hq (fun a r ha hu => hx ⟨a, r, ha, hu⟩)] at h
          cases h
      · cases hh : py1Head q t with
        | none =>
          unfold pyStrLen at h
          simp only [hd] at h
          rw [if_pos hq.symm, if_neg h3, hh] at h
          cases h
        | some k =>
          rcases py1Head_inv hh with ⟨a, b, rfl, ha⟩ | ⟨a, b, rfl, ha⟩
          · have hab : a ≠ [] ∨ b.head? ≠ some q := by
              cases a with
              | cons => exact .inl (by simp)
              | nil =>
                right
                intro hb
                cases b with
                | nil => cases hb
                | cons d b => cases hb; exact h3 (by simp [List.isPrefixOf])
            rw [← hs, pyStrLen_literal hp hq ha hab] at h
            cases h
            exact ⟨p ++ q :: (a ++ [q]), b, by rw [← hs]; simp, by simp, .text (.py hm hp hq ha hab)⟩
          · rw [← hs, pyStrLen_continued hp hq ha] at h
            obtain ⟨b', r, hb, hk⟩ := pyLines_yes (fun ln k => py1Tail_found _ ln k (Nat.le_refl _)) b 0 _ _ h
            rw [List.drop_zero] at hb
            refine ⟨p ++ q :: (a ++ '\\' :: '\n' :: (b' ++ [if q = '\'' ∨ '\'' ∈ a then '\'' else '"'])), r, ?_, ?_,
              .lines hm hp hq ha (closingMark_of hq)⟩
            · rw [← hs, hb]; simp
            · simp only [List.length_append, List.length_cons, List.length_nil] at *
              omega
    · unfold pyStrLen at h
      simp only [hd] at h
      rw [if_neg hq] at h
      cases h

theorem cStrLen_written {m : Mode} (hm : m.python = false) {s : Str} {n : Nat} (h : cStrLen s = some n) :
    ∃ l r, s = l ++ r ∧ l.length = n ∧ LiteralWritten m l r := by
  obtain ⟨q, a, b, hq, ha, rfl⟩ := cStrLen_inv h
  rw [cStrLen_literal hq ha] at h
  cases h
  exact ⟨q :: (a ++ [q]), b, by simp, by simp, .text (.c hm hq ha)⟩

/-- Where a literal begins, the scanners do not say there is none. -/
theorem pyStrLen_begun {m : Mode} (hm : m.python = true) {s : Str} (h : StartsLiteral m s) : pyStrLen s ≠ .no := by
  cases h with
  | c h => rw [hm] at h; cases h
  | @py p q a s _ hp hq ha =>
    by_cases hab : a ≠ [] ∨ s.head? ≠ some q
    · rw [pyStrLen_literal hp hq ha hab]; simp
    · have h1 : a = [] := Classical.byContradiction (fun h => hab (.inl h))
      have h2 : s.head? = some q := Classical.byContradiction (fun h => hab (.inr h))
      subst h1
      cases s with
      | nil => cases h2
      | cons d s =>
        cases h2
        by_cases hx : ∃ a r, InsideLong q a ∧ s = a ++ q :: q :: q :: r
        · obtain ⟨a, r, ha, rfl⟩ := hx
          rw [List.nil_append, pyStrLen_long hp hq ha]; simp
        · rw [List.nil_append, pyStrLen_unended hp hq (fun a r ha hu => hx ⟨a, r, ha, hu⟩)]; simp
  | @long p q s _ hp hq =>
    by_cases hx : ∃ a r, InsideLong q a ∧ s = a ++ q :: q :: q :: r
    · obtain ⟨a, r, ha, rfl⟩ := hx
      rw [pyStrLen_long hp hq ha]; simp
    · rw [pyStrLen_unended hp hq (fun a r ha hu => hx ⟨a, r, ha, hu⟩)]; simp
  | lines _ hp hq ha =>
    rw [pyStrLen_continued hp hq ha]
    exact pyLines_not_no _ _ _ _ _

theorem cStrLen_begun {m : Mode} (hm : m.python = false) {s : Str} (h : StartsLiteral m s) : cStrLen s ≠ none := by
  cases h with
  | c _ hq ha => rw [cStrLen_literal hq ha]; simp
  | py h => rw [hm] at h; cases h
  | long h => rw [hm] at h; cases h
  | lines h => rw [hm] at h; cases h

/-! ## Remarks, numbers, names, bodies -/

theorem span_all (f : Char → Bool) : ∀ s : Str, ∀ c ∈ s.take (spanLen f s), f c = true
  | [], c, h => by simp at h
  | d :: s, c, h => by
    unfold spanLen at h
    rw [List.takeWhile_cons] at h
    split at h
    · rename_i hd
      rcases List.mem_cons.mp h with rfl | h
      · exact hd
      · exact span_all f s c h
    · simp at h

theorem span_stop (f : Char → Bool) : ∀ s : Str, ∀ c, (s.drop (spanLen f s)).head? = some c → f c = false
  | [], c, h => by simp at h
  | d :: s, c, h => by
    unfold spanLen at h
    rw [List.takeWhile_cons] at h
    split at h
    · exact span_stop f s c h
    · rename_i hd
      cases h
      simpa using hd

theorem remarkCLen_written {s : Str} {n : Nat} (h : remarkCLen s = .yes n) : TextRemark .c (s.take n) (s.drop n) := by
  unfold remarkCLen at h
  split at h
  · rename_i hh
    obtain ⟨t, rfl⟩ := List.isPrefixOf_iff_prefix.mp hh
    cases h
    rw [Nat.add_comm]
    refine .line (w := t.take (spanLen (fun c => !isEol c) t)) (fun c hc => ?_) (fun c hc => ?_)
    · have := span_all _ _ c hc
      rw [← isEol_iff]; simpa using this
    · have := span_stop (fun c => !isEol c) t c hc
      rw [← isEol_iff]; simpa using this
  · split at h
    · rename_i hh
      obtain ⟨t, rfl⟩ := List.isPrefixOf_iff_prefix.mp hh
      cases hf : findIdx ['*', '/'] t with
      | none => rw [show List.drop 2 (['/', '*'] ++ t) = t from rfl, hf] at h; cases h
      | some i =>
        rw [show List.drop 2 (['/', '*'] ++ t) = t from rfl, hf] at h
        cases h
        obtain ⟨⟨a, b, rfl, rfl⟩, hno⟩ := findIdx_occurs _ _ _ hf
        have e1 : (['/', '*'] ++ (a ++ ['*', '/'] ++ b)).take (a.length + 4) = '/' :: '*' :: (a ++ ['*', '/']) := by
          have : ['/', '*'] ++ (a ++ ['*', '/'] ++ b) = ('/' :: '*' :: (a ++ ['*', '/'])) ++ b := by simp
          rw [this, List.take_left' (by simp)]
        rw [e1]
        refine .block (fun c d hcd => ?_)
        rcases List.eq_nil_or_concat d with rfl | ⟨d', x, rfl⟩
        · have := congrArg List.getLast? hcd
          simp at this
        · rw [List.concat_eq_append] at hcd
          have h2 : a ++ ['*'] = (c ++ '*' :: '/' :: d') ++ [x] := by rw [hcd]; simp
          have h3 := (List.append_inj' h2 rfl).1
          have hx : x = '*' := by simpa using (List.append_inj' h2 rfl).2.symm
          refine hno c.length (by rw [h3]; simp) ⟨c, d' ++ ['*', '/'] ++ b, ?_, rfl⟩
          rw [h3]
          simp
    · cases h

theorem remarkPyLen_written {s : Str} {n : Nat} (h : remarkPyLen s = .yes n) : TextRemark .python (s.take n) (s.drop n) := by
  unfold remarkPyLen at h
  split at h
  · rename_i t
    cases h
    rw [Nat.add_comm]
    refine .python (w := t.take (spanLen (fun c => !isEol c) t)) (fun c hc => ?_) (fun c hc => ?_)
    · have := span_all _ _ c hc
      rw [← isEol_iff]; simpa using this
    · have := span_stop (fun c => !isEol c) t c hc
      rw [← isEol_iff]; simpa using this
  · cases h

theorem bodyLen_written {s : Src} {n : Nat} (h : bodyLen s.txt = some n) :
    Enclosed (s.txt.take n) ∧ s.txt = s.txt.take n ++ ')' :: (s.drop (n + 1)).txt := by
  obtain ⟨b, r, ⟨hs, hb⟩, hn, ha⟩ := (bodyLen_spec _ _).mp h
  have e1 : s.txt.take n = b := by rw [hs, List.take_left' hn]
  rw [e1]
  refine ⟨⟨hb, ha⟩, ?_⟩
  rw [Src.drop_txt, hs]
  congr 1
  rw [← hn, show b ++ ')' :: r = (b ++ [')']) ++ r by simp, List.drop_left' (by simp)]

theorem regions_heard {st : PSt} : ∀ (n : Nat) (s : Src) (reg : List Src) (a : Src), IsName a.txt →
    Sat True (regions n s reg a) st (fun r _ => ∃ rs t, r.2.1 = reg ++ rs ∧
      WrittenName false (rs.map (·.txt)) r.2.2.txt (a.txt ++ t) ∧ s.txt = t ++ r.1.txt)
  | 0, _, _, _, _ => sat_timeout trivial
  | n + 1, s, reg, a, ha => by
    unfold regions
    split
    · rename_i h2
      obtain ⟨t, ht⟩ := starts_inv h2
      split
      · rename_i s' b hb
        obtain ⟨hn, he, -⟩ := psAtom_inv hb
        refine sat_mono (regions_heard n s' (reg ++ [a]) b hn) id ?_
        rintro ⟨s3, reg3, a3⟩ st3 ⟨rs, t3, h1, h2, h3⟩
        refine ⟨a :: rs, ':' :: ':' :: (b.txt ++ t3), by rw [h1]; simp, .region ha h2, ?_⟩
        rw [Src.drop_txt, ht] at he
        rw [ht]
        simp only [List.cons_append, List.nil_append, List.drop_succ_cons, List.drop_zero, List.append_assoc] at he ⊢
        rw [he, h3]
      · exact sat_err
    · exact sat_pure ⟨[], [], by simp, by simpa using .plain ha, rfl⟩

/-- What a rule makes of the text: nothing, or something of the kind `K`. -/
def Hears (K : α → Str → Str → Prop) (s : Src) (r : Src × Option α) (_ : PSt) : Prop :=
  match r.2 with
  | none => r.1 = s
  | some x => K x s.txt r.1.txt

theorem hears_noMatch {K : α → Str → Str → Prop} (s : Src) (st : PSt) : Sat True (noMatch s) st (Hears K s) := sat_pure rfl

theorem hears_some {K : α → Str → Str → Prop} {s r : Src} {st : PSt} {x : α} (h : K x s.txt r.txt) :
    Sat True (pure (r, some x) : PM (Src × Option α)) st (Hears K s) := sat_pure h

theorem hears_orElse {K : α → Str → Str → Prop} {s : Src} {st : PSt} {r : PM (Src × Option α)}
    {next : Src → PM (Src × Option α)} (h1 : Sat True r st (Hears K s)) (h2 : ∀ st', Sat True (next s) st' (Hears K s)) :
    Sat True (orElse r next) st (Hears K s) := by
  refine sat_bind (sat_mono h1 id ?_)
  rintro ⟨s1, leg⟩ st1 hq
  cases leg with
  | some x => exact sat_pure hq
  | none =>
    cases (hq : s1 = s)
    exact h2 st1

/-- A name with its regions. -/
def VarWritten (v : Bool × List Src × Src) (s r : Str) : Prop :=
  ∃ t, WrittenName v.1 (v.2.1.map (·.txt)) v.2.2.txt t ∧ s = t ++ r

theorem hears_var (s : Src) (st : PSt) : Sat True (psVar s) st (Hears VarWritten s) := by
  unfold psVar
  split
  · rename_i h
    obtain ⟨t, ht⟩ := at_inv h
    split
    · rename_i r a ha
      obtain ⟨hn, he, -⟩ := psAtom_inv ha
      refine hears_some ⟨'&' :: a.txt, .late hn, ?_⟩
      rw [Src.drop_txt, ht] at he
      rw [ht]
      simp only [List.drop_succ_cons, List.drop_zero] at he
      rw [he]; rfl
    · exact sat_err
  · split
    · rename_i r ha
      cases psAtom_none ha
      exact hears_noMatch _ _
    · rename_i r a ha
      obtain ⟨hn, he, -⟩ := psAtom_inv ha
      refine sat_bind (sat_mono (regions_heard _ r [] a hn) id ?_)
      rintro ⟨s2, reg, a2⟩ st2 ⟨rs, t, h1, h2, h3⟩
      dsimp only at h1 h2 h3
      rw [List.nil_append] at h1
      subst h1
      exact hears_some ⟨a.txt ++ t, h2, by rw [he, h3]; simp⟩

theorem names_head {as : List Str} {t : Str} (h : Names as t) : t = [] ∨ ∃ c u, t = c :: u ∧ NameChar c := by
  cases h with
  | nil => exact .inl rfl
  | cons ha _ _ _ =>
    obtain ⟨c, u, rfl, hc, -⟩ := ha
    exact .inr ⟨c, _, rfl, .inl hc⟩

theorem names_cons {s1 : Src} {a g t r : Str} {as : List Str} (ha : IsName a) (hg : IsGap g) (h : Names as t)
    (hs : s1.txt = g ++ (t ++ r)) (hno : NoName s1.txt) : Names (a :: as) (a ++ (g ++ t)) := by
  refine .cons ha hg h ?_
  rcases names_head h with rfl | ⟨c, u, rfl, hc⟩
  · exact .inl rfl
  · right
    rintro rfl
    exact hno c (by rw [hs]; rfl) hc

theorem atoms1_written {st : PSt} : ∀ (n : Nat) (s : Src) (l : List Src),
    Sat True (atoms1 n s l) st (fun r _ => ∃ as t, r.2 = l ++ as ∧ as ≠ [] ∧ Names (as.map (·.txt)) t ∧
      s.txt = t ++ ')' :: r.1.txt)
  | 0, _, _ => sat_timeout trivial
  | n + 1, s, l => by
    unfold atoms1
    split
    · exact sat_err
    · rename_i s' a ha
      obtain ⟨hn, he, hno⟩ := psAtom_inv ha
      obtain ⟨g, hg, hs'⟩ := psGap_inv s'
      dsimp only
      split
      · rename_i hp
        obtain ⟨t, ht⟩ := at_inv hp
        refine sat_pure ⟨[a], a.txt ++ (g ++ []), rfl, by simp, .cons hn hg .nil (.inl rfl), ?_⟩
        rw [he, hs', ht, Src.drop_txt, ht]
        simp
      · refine sat_mono (atoms1_written n (psGap s') (l ++ [a])) id ?_
        rintro ⟨s3, l3⟩ st3 ⟨as, t, h1, h2, h3, h4⟩
        refine ⟨a :: as, a.txt ++ (g ++ t), by rw [h1]; simp, by simp,
          names_cons hn hg h3 (r := ')' :: s3.txt) (by rw [hs', h4]) hno, ?_⟩
        rw [he, hs', h4]
        simp

theorem atoms0_written {st : PSt} : ∀ (n : Nat) (s : Src) (l : List Src),
    Sat True (atoms0 n s l) st (fun r _ => ∃ as t, r.2 = l ++ as ∧ Names (as.map (·.txt)) t ∧ s.txt = t ++ ')' :: r.1.txt)
  | 0, _, _ => sat_timeout trivial
  | n + 1, s, l => by
    unfold atoms0
    split
    · rename_i hp
      obtain ⟨t, ht⟩ := at_inv hp
      exact sat_pure ⟨[], [], by simp, .nil, by rw [Src.drop_txt, ht]; rfl⟩
    · split
      · exact sat_err
      · rename_i s' a ha
        obtain ⟨hn, he, hno⟩ := psAtom_inv ha
        obtain ⟨g, hg, hs'⟩ := psGap_inv s'
        refine sat_mono (atoms0_written n (psGap s') (l ++ [a])) id ?_
        rintro ⟨s3, l3⟩ st3 ⟨as, t, h1, h3, h4⟩
        refine ⟨a :: as, a.txt ++ (g ++ t), by rw [h1]; simp,
          names_cons hn hg h3 (r := ')' :: s3.txt) (by rw [hs', h4]) hno, ?_⟩
        rw [he, hs', h4]
        simp

/-! ### Numbers -/

/-- The characters of a number, as the scanners see them. -/
def isNumeralChar (c : Char) : Bool := isLetter c || isFigure c || c == '+' || c == '.' || isBlank c

theorem numeralChar_iff {c : Char} (h : isNumeralChar c = true) : NumeralChar c := by
  unfold isNumeralChar isLetter isFigure isDig isBlank at h
  unfold NumeralChar NameChar NameStart
  simp only [Bool.or_eq_true, Bool.and_eq_true, decide_eq_true_eq, beq_iff_eq] at h
  grind

theorem take_all_add {f : Char → Prop} {s : Str} {a b : Nat} (h1 : ∀ c ∈ s.take a, f c) (h2 : ∀ c ∈ (s.drop a).take b, f c) :
    ∀ c ∈ s.take (a + b), f c := by
  intro c hc
  rw [List.take_add] at hc
  rcases List.mem_append.mp hc with hc | hc
  · exact h1 c hc
  · exact h2 c hc

theorem span_numeral {f : Char → Bool} (hf : ∀ c, f c = true → isNumeralChar c = true) (s : Str) :
    ∀ c ∈ s.take (spanLen f s), isNumeralChar c = true := fun c hc => hf c (span_all f s c hc)

theorem sign_numeral (s : Str) : ∀ c ∈ s.take (signLen s), isNumeralChar c = true := by
  intro c hc
  cases s with
  | nil => simp at hc
  | cons d t =>
    by_cases hd : d = '+' ∨ d = '-'
    · rw [show signLen (d :: t) = 1 by simp [signLen, hd]] at hc
      simp at hc
      subst hc
      rcases hd with rfl | rfl <;> decide
    · rw [show signLen (d :: t) = 0 by simp [signLen, hd]] at hc
      simp at hc

theorem dig_numeral {c : Char} (h : isDig c = true) : isNumeralChar c = true := by
  simp [isNumeralChar, isFigure, h]

theorem letter_numeral {c : Char} (h : isLetter c = true) : isNumeralChar c = true := by
  simp [isNumeralChar, h]

theorem hex_numeral (c : Char) (h : (isDig c || ('a' ≤ c && c ≤ 'f') || ('A' ≤ c && c ≤ 'F')) = true) :
    isNumeralChar c = true := by
  simp only [Bool.or_eq_true, Bool.and_eq_true, decide_eq_true_eq] at h
  rcases h with (h | h) | h
  · exact dig_numeral h
  · apply letter_numeral
    simp only [isLetter, Bool.or_eq_true, Bool.and_eq_true, decide_eq_true_eq]
    exact .inl (.inl ⟨h.1, Char.le_trans h.2 (by decide)⟩)
  · apply letter_numeral
    simp only [isLetter, Bool.or_eq_true, Bool.and_eq_true, decide_eq_true_eq]
    exact .inl (.inr ⟨h.1, Char.le_trans h.2 (by decide)⟩)

theorem bin_numeral (c : Char) (h : (c == '0' || c == '1') = true) : isNumeralChar c = true := by
  simp only [Bool.or_eq_true, beq_iff_eq] at h
  rcases h with rfl | rfl <;> decide

theorem oct_numeral (c : Char) (h : ('0' ≤ c && c ≤ '7') = true) : isNumeralChar c = true := by
  apply dig_numeral
  simp only [isDig, Bool.and_eq_true, decide_eq_true_eq] at h ⊢
  exact ⟨h.1, Char.le_trans h.2 (by decide)⟩

theorem cons_numeral {c : Char} {t : Str} {k : Nat} (hc : isNumeralChar c = true)
    (h : ∀ c ∈ t.take k, isNumeralChar c = true) : ∀ x ∈ (c :: t).take (1 + k), isNumeralChar x = true := by
  intro x hx
  rw [Nat.add_comm] at hx
  rcases List.mem_cons.mp hx with rfl | hx
  · exact hc
  · exact h x hx

theorem cons2_numeral {c d : Char} {t : Str} {k : Nat} (hc : isNumeralChar c = true) (hd : isNumeralChar d = true)
    (h : ∀ c ∈ t.take k, isNumeralChar c = true) : ∀ x ∈ (c :: d :: t).take (2 + k), isNumeralChar x = true := by
  intro x hx
  rw [Nat.add_comm] at hx
  rcases List.mem_cons.mp hx with rfl | hx
  · exact hc
  · rcases List.mem_cons.mp hx with rfl | hx
    · exact hd
    · exact h x hx

theorem intBody_numeral (s : Str) : ∀ c ∈ s.take (intBody s).1, isNumeralChar c = true := by
  unfold intBody
  split
  · split
    · rename_i x u
      split
      · rename_i h
        exact cons2_numeral (by decide) (by rcases h.1 with rfl | rfl <;> decide) (span_numeral hex_numeral u)
      · split
        · rename_i h
          exact cons2_numeral (by decide) (by rcases h.1 with rfl | rfl <;> decide) (span_numeral bin_numeral u)
        · split
          · rename_i h
            exact cons2_numeral (by decide) (by rcases h.1 with rfl | rfl <;> decide) (span_numeral oct_numeral u)
          · exact cons_numeral (by decide) (span_numeral oct_numeral _)
    · intro c hc
      simp at hc
      subst hc
      decide
  · rename_i c t _
    split
    · rename_i h
      refine cons_numeral (dig_numeral ?_) (span_numeral (fun c hc => dig_numeral hc) t)
      simp only [isDig, Bool.and_eq_true, decide_eq_true_eq]
      exact ⟨Char.le_trans (by decide) h.1, h.2⟩
    · intro c hc; simp at hc
  · intro c hc; simp at hc

theorem intLen_numeral (s : Str) : ∀ c ∈ s.take (intLen s), isNumeralChar c = true := by
  unfold intLen
  dsimp only
  split
  · intro c hc; simp at hc
  · refine take_all_add (take_all_add (take_all_add (sign_numeral s) (span_numeral (fun c hc => ?_) _))
      (intBody_numeral _)) ?_
    · simp [isNumeralChar, hc]
    · intro c hc
      unfold elLen at hc
      have := span_all (fun c => c == 'l' || c == 'L') _ c
        (List.IsPrefix.mem hc (List.take_prefix_take_left (Nat.min_le_right _ _)))
      simp only [Bool.or_eq_true, beq_iff_eq] at this
      rcases this with rfl | rfl <;> decide

theorem expLen_numeral (s : Str) : ∀ c ∈ s.take (expLen s), isNumeralChar c = true := by
  unfold expLen
  split
  · rename_i c t
    split
    · rename_i h
      dsimp only
      split
      · intro c hc; simp at hc
      · rw [Nat.add_assoc]
        exact cons_numeral (by rcases h with rfl | rfl <;> decide)
          (take_all_add (sign_numeral t) (span_numeral (fun c hc => dig_numeral hc) _))
    · intro c hc; simp at hc
  · intro c hc; simp at hc

theorem floatLen_numeral (s : Str) : ∀ c ∈ s.take (floatLen s), isNumeralChar c = true := by
  unfold floatLen
  dsimp only
  split
  · rename_i t ht
    split
    · intro c hc; simp at hc
    · rw [Nat.add_assoc, Nat.add_assoc]
      refine take_all_add (take_all_add (take_all_add (sign_numeral s) (span_numeral (fun c hc => ?_) _))
        (span_numeral (fun c hc => dig_numeral hc) _)) ?_
      · simp only [beq_iff_eq] at hc; subst hc; decide
      · rw [ht]
        exact cons_numeral (by decide) (take_all_add (span_numeral (fun c hc => dig_numeral hc) t) (expLen_numeral _))
  · intro c hc; simp at hc

end Yupp
