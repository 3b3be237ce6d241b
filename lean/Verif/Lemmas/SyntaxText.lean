import Verif.Lemmas.SyntaxForms
import Verif.Lemmas.Free
import Verif.Lemmas.Header
/-!
# Reading written texts
-/

namespace Yupp

variable {e : PEnv}

/-! ## Where a text ends -/

theorem isEol_iff (c : Char) : isEol c = true ↔ LineEnd c := by
  unfold isEol LineEnd
  simp only [Bool.or_eq_true, beq_iff_eq]

theorem psEol_cons {s : Src} {c : Char} {t : Str} (hs : s.txt = c :: t) (hc : LineEnd c) :
    psEol s = (s.drop 1, some (s.take 1)) := by
  unfold psEol
  rw [hs]
  simp only [(isEol_iff c).mpr hc, if_true]

theorem psEol_no {s : Src} (h : ∀ c, s.txt.head? = some c → ¬ LineEnd c) : psEol s = (s, none) := by
  unfold psEol
  split
  · next c t hs =>
    rw [if_neg]
    intro hc
    exact h c (by rw [hs]; rfl) ((isEol_iff c).mp hc)
  · rfl

theorem psEol_inv {s r : Src} {x : Src} (h : psEol s = (r, some x)) : ∃ c t, s.txt = c :: t ∧ LineEnd c ∧ r = s.drop 1 := by
  unfold psEol at h
  split at h
  · next c t hs =>
    split at h
    · next hc =>
      simp only [Prod.mk.injEq] at h
      exact ⟨c, t, hs, (isEol_iff c).mp hc, h.1.symm⟩
    · simp at h
  · simp at h

/-- A name and what follows it. -/
theorem psAtom_inv {s r a : Src} (h : psAtom s = (r, some a)) : IsName a.txt ∧ s.txt = a.txt ++ r.txt ∧ NoName r.txt := by
  by_cases hn : ∀ c, s.txt.head? = some c → ¬ NameStart c
  · rw [psAtom_none_of hn] at h; simp at h
  · cases ht : s.txt with
    | nil => exfalso; refine hn (fun c hc => ?_); rw [ht] at hc; cases hc
    | cons c t =>
      have hc : NameStart c := by
        refine Classical.byContradiction (fun hc => hn ?_)
        intro d hd
        rw [ht] at hd
        simp only [List.head?_cons, Option.some.injEq] at hd
        exact hd ▸ hc
      obtain ⟨w, u, rfl, hw, hu⟩ := split_name t
      have ha : IsName (c :: w) := ⟨c, w, rfl, hc, hw⟩
      have hs' : s.txt = (c :: w) ++ u := ht
      rw [psAtom_append hs' ha hu] at h
      simp only [Prod.mk.injEq, Option.some.injEq] at h
      obtain ⟨rfl, rfl⟩ := h
      rw [Src.take_pre _ _ _ hs', Src.drop_pre _ _ _ hs']
      exact ⟨ha, rfl, hu⟩

theorem openBracket_one {s : Src} {t : Str} (h : s.txt = '[' :: t) : openBracket s = 1 := by
  unfold openBracket
  rw [at_true h]
  rfl

theorem openBracket_two {s : Src} {t : Str} (h : s.txt = '\\' :: '[' :: t) : openBracket s = 2 := by
  unfold openBracket
  rw [at_false (by rw [h]; simp), starts_pre (k := ['\\', '[']) h]
  rfl

theorem openBracket_inv {s : Src} (h : openBracket s ≠ 0) :
    (openBracket s = 1 ∧ ∃ t, s.txt = '[' :: t) ∨ (openBracket s = 2 ∧ ∃ t, s.txt = '\\' :: '[' :: t) := by
  unfold openBracket at h ⊢
  split
  · next h1 =>
    refine .inl ⟨rfl, ?_⟩
    unfold Src.at Src.starts at h1
    obtain ⟨t, ht⟩ := List.isPrefixOf_iff_prefix.mp h1
    exact ⟨t, ht.symm⟩
  · next h1 =>
    rw [if_neg h1] at h
    split
    · next h2 =>
      refine .inr ⟨rfl, ?_⟩
      unfold Src.starts at h2
      obtain ⟨t, ht⟩ := List.isPrefixOf_iff_prefix.mp h2
      exact ⟨t, ht.symm⟩
    · next h2 => rw [if_neg h2] at h; exact absurd rfl h

theorem at_inv {s : Src} {c : Char} (h : s.at c = true) : ∃ t, s.txt = c :: t := by
  unfold Src.at Src.starts at h
  obtain ⟨t, ht⟩ := List.isPrefixOf_iff_prefix.mp h
  exact ⟨t, ht.symm⟩

theorem starts_inv {s : Src} {k : Str} (h : s.starts k = true) : ∃ t, s.txt = k ++ t := by
  unfold Src.starts at h
  obtain ⟨t, ht⟩ := List.isPrefixOf_iff_prefix.mp h
  exact ⟨t, ht.symm⟩

theorem psGap_inv (s : Src) : ∃ g, IsGap g ∧ s.txt = g ++ (psGap s).txt := by
  obtain ⟨g, r, h, hg, hr⟩ := split_gap s.txt
  refine ⟨g, hg, ?_⟩
  rw [gap_of h hg hr, h]

/-- The look-ahead of `]` text `[`. -/
def lookClose (look : Src) : Bool :=
  if look.at '\\' then
    match psAtom (look.drop 1) with
    | (_, none) => false
    | (look, some _) => (psGap look).at ')'
  else (psGap look).at ')'

theorem stopAt_bracket (s : Src) (sq pth : Nat) : stopAt .bracket s sq pth =
    if openBracket s = 0 then none
    else if lookClose (psGap (s.drop (openBracket s))) then some (s.drop (openBracket s)) else none := by
  unfold stopAt lookClose
  simp only []
  split
  · rfl
  · split
    · split <;> simp_all
    · rfl

theorem noName_backslash (t : Str) : NoName ('\\' :: t) := noName_cons (by decide) t

theorem lookClose_iff (s : Src) : lookClose (psGap s) = true ↔ CloseAhead s.txt := by
  constructor
  · intro h
    obtain ⟨g, hg, hs⟩ := psGap_inv s
    unfold lookClose at h
    split at h
    · next h1 =>
      obtain ⟨t, ht⟩ := at_inv h1
      split at h
      · cases h
      · next look a ha =>
        obtain ⟨h2, h3, h4⟩ := psAtom_inv ha
        obtain ⟨g', hg', hs'⟩ := psGap_inv look
        obtain ⟨u, hu⟩ := at_inv h
        refine ⟨g, u, hg, .inr ⟨a.txt, g', h2, hg', ?_⟩⟩
        rw [hs, ht]
        rw [Src.drop_txt, ht] at h3
        simp only [List.drop_succ_cons, List.drop_zero] at h3
        rw [h3, hs', hu]
    · obtain ⟨g', hg', hs'⟩ := psGap_inv (psGap s)
      obtain ⟨u, hu⟩ := at_inv h
      refine ⟨g ++ g', u, ?_, .inl ?_⟩
      · intro c hc
        rcases List.mem_append.mp hc with hc | hc
        · exact hg c hc
        · exact hg' c hc
      · rw [hs, hs', hu, List.append_assoc]
  · rintro ⟨g, t, hg, h | ⟨a, g', ha, hg', h⟩⟩
    · have h1 := gap_of h hg (noGap_close t)
      unfold lookClose
      rw [at_false (by rw [h1]; simp)]
      simp only [Bool.false_eq_true, if_false]
      rw [gap_same (by rw [h1]; exact noGap_close t)]
      exact at_true h1
    · have h1 := gap_of h hg (noGap_backslash _)
      have h2 : ((psGap s).drop 1).txt = a ++ (g' ++ ')' :: t) := by rw [Src.drop_txt, h1]; rfl
      unfold lookClose
      rw [at_true h1, if_pos rfl, psAtom_append h2 ha (noName_gap_close hg' t)]
      exact at_true (gap_of (Src.drop_pre _ _ _ h2) hg' (noGap_close t))

theorem blanks_bracket {s : Src} {b r : Str} {c : Char} (hs : s.txt = b ++ c :: r) (hb : Blanks b)
    (hc : c = '[' ∨ c = '\\') : (psSpace s).txt = c :: r := by
  refine (psSpace_blanks hs hb (fun d hd => ?_)).2
  simp only [List.head?_cons, Option.some.injEq] at hd
  subst hd
  rcases hc with rfl | rfl <;> rfl

/-- The text ends where the specification says. -/
theorem stopAt_ends {k : TextEnd} {sq pth : Nat} {s r : Str} (h : EndsAt k sq pth s r) {src : Src} (hs : src.txt = s) :
    ∃ src', src'.txt = r ∧ stopAt (stopOf k) src sq pth = some src' := by
  cases h with
  | file => exact ⟨src, hs, by simp [stopOf, stopAt, hs]⟩
  | @lines _ _ c b r hc hb =>
    have h1 : (src.drop 1).txt = b ++ '[' :: r := by rw [Src.drop_txt, hs]; rfl
    have h2 := blanks_bracket h1 hb (.inl rfl)
    refine ⟨(psSpace (src.drop 1)).drop 1, by rw [Src.drop_txt, h2]; rfl, ?_⟩
    unfold stopOf stopAt
    simp only [psEol_cons hs hc, openBracket_one h2]
    rfl
  | @lines' _ _ c b r hc hb =>
    have h1 : (src.drop 1).txt = b ++ '\\' :: '[' :: r := by rw [Src.drop_txt, hs]; rfl
    have h2 := blanks_bracket h1 hb (.inr rfl)
    refine ⟨(psSpace (src.drop 1)).drop 2, by rw [Src.drop_txt, h2]; rfl, ?_⟩
    unfold stopOf stopAt
    simp only [psEol_cons hs hc, openBracket_two h2]
    rfl
  | bracket h =>
    have h1 : (src.drop 1).txt = r := by rw [Src.drop_txt, hs]; rfl
    refine ⟨src.drop 1, h1, ?_⟩
    change stopAt .bracket _ _ _ = _
    rw [stopAt_bracket, openBracket_one hs, (lookClose_iff (src.drop 1)).mpr (h1 ▸ h)]
    rfl
  | bracket' h =>
    have h1 : (src.drop 2).txt = r := by rw [Src.drop_txt, hs]; rfl
    refine ⟨src.drop 2, h1, ?_⟩
    change stopAt .bracket _ _ _ = _
    rw [stopAt_bracket, openBracket_two hs, (lookClose_iff (src.drop 2)).mpr (h1 ▸ h)]
    rfl
  | square => exact ⟨src.drop 1, by rw [Src.drop_txt, hs]; rfl, by simp [stopOf, stopAt, at_true hs]⟩
  | paren => exact ⟨src.drop 1, by rw [Src.drop_txt, hs]; rfl, by simp [stopOf, stopAt, at_true hs]⟩
  | semi =>
    refine ⟨src.drop 2, by rw [Src.drop_txt, hs]; rfl, ?_⟩
    unfold stopOf stopAt
    simp only [show src.starts kSemi = true from starts_pre (k := kSemi) hs, if_true]
    rfl
  | comma =>
    refine ⟨src, hs, ?_⟩
    unfold stopOf stopAt
    simp only [show src.starts kSemi = false from starts_head (by rw [hs]; simp),
      show src.starts kComma = true from starts_pre (k := kComma) hs, if_true, Bool.false_eq_true, if_false]
  | close =>
    refine ⟨src, hs, ?_⟩
    unfold stopOf stopAt
    simp only [show src.starts kSemi = false from starts_head (by rw [hs]; simp),
      show src.starts kComma = false from starts_head (by rw [hs]; simp), at_false (show src.txt.head? ≠ some '\\' by rw [hs]; simp),
      at_true hs, Bool.false_eq_true, if_false]
    rfl
  | @tag _ a g r ha hg =>
    refine ⟨src, hs, ?_⟩
    have h1 : (src.drop 1).txt = a ++ (g ++ ')' :: r) := by rw [Src.drop_txt, hs]; rfl
    unfold stopOf stopAt
    simp only [show src.starts kSemi = false from starts_head (by rw [hs]; simp),
      show src.starts kComma = false from starts_head (by rw [hs]; simp), at_true hs, if_true, Bool.false_eq_true, if_false,
      psAtom_append h1 ha (noName_gap_close hg r), at_true (gap_of (Src.drop_pre _ _ _ h1) hg (noGap_close r))]
    rfl
  | brace => exact ⟨src.drop 1, by rw [Src.drop_txt, hs]; rfl, by simp [stopOf, stopAt, at_true hs]⟩

/-- The text ends nowhere else. -/
theorem ends_stopAt {k : TextEnd} {sq pth : Nat} {src src' : Src} (h : stopAt (stopOf k) src sq pth = some src') :
    EndsAt k sq pth src.txt src'.txt := by
  cases k with
  | file =>
    unfold stopOf stopAt at h
    simp only at h
    split at h
    · next he => cases h; rw [List.isEmpty_iff.mp he]; exact .file
    · cases h
  | lines =>
    unfold stopOf stopAt at h
    simp only at h
    split at h
    · next rest x he =>
      obtain ⟨c, t, hs, hc, rfl⟩ := psEol_inv he
      split at h
      · cases h
      · next ho =>
        cases h
        obtain ⟨b, u, hb, hb', hu⟩ := blanks_split (src.drop 1).txt
        have h1 := (psSpace_blanks hb hb' hu).2
        have ht : t = b ++ u := by rw [← hb, Src.drop_txt, hs]; rfl
        rcases openBracket_inv ho with ⟨h2, v, hv⟩ | ⟨h2, v, hv⟩
        · rw [h2, Src.drop_txt, hv, hs, ht, ← h1, hv]
          exact .lines hc hb'
        · rw [h2, Src.drop_txt, hv, hs, ht, ← h1, hv]
          exact .lines' hc hb'
    · cases h
  | bracket =>
    change stopAt .bracket _ _ _ = _ at h
    rw [stopAt_bracket] at h
    split at h
    · cases h
    · next ho =>
      split at h
      · next hl =>
        cases h
        rw [lookClose_iff] at hl
        rcases openBracket_inv ho with ⟨h2, v, hv⟩ | ⟨h2, v, hv⟩
        · rw [h2, Src.drop_txt, hv] at hl
          rw [h2, Src.drop_txt, hv]
          exact .bracket hl
        · rw [h2, Src.drop_txt, hv] at hl
          rw [h2, Src.drop_txt, hv]
          exact .bracket' hl
      · cases h
  | square =>
    unfold stopOf stopAt at h
    simp only at h
    split at h
    · next h1 =>
      cases h
      simp only [Bool.and_eq_true, beq_iff_eq] at h1
      obtain ⟨t, ht⟩ := at_inv h1.1
      rw [Src.drop_txt, ht, h1.2]
      exact .square
    · cases h
  | paren =>
    unfold stopOf stopAt at h
    simp only at h
    split at h
    · next h1 =>
      cases h
      simp only [Bool.and_eq_true, beq_iff_eq] at h1
      obtain ⟨t, ht⟩ := at_inv h1.1
      rw [Src.drop_txt, ht, h1.2]
      exact .paren
    · cases h
  | brace =>
    unfold stopOf stopAt at h
    simp only at h
    split at h
    · next h1 =>
      cases h
      obtain ⟨t, ht⟩ := at_inv h1
      rw [Src.drop_txt, ht]
      exact .brace
    · cases h
  | comma =>
    unfold stopOf stopAt at h
    simp only at h
    split at h
    · next h1 =>
      cases h
      obtain ⟨t, ht⟩ := starts_inv h1
      rw [Src.drop_txt, ht]
      exact .semi
    · split at h
      · next h1 =>
        cases h
        obtain ⟨t, ht⟩ := starts_inv h1
        rw [ht]
        exact .comma
      · split at h
        · next h1 =>
          obtain ⟨t, ht⟩ := at_inv h1
          split at h
          · cases h
          · next look a ha =>
            split at h
            · next h2 =>
              cases h
              simp only [Bool.and_eq_true, beq_iff_eq] at h2
              obtain ⟨k1, k2, k3⟩ := psAtom_inv ha
              obtain ⟨g, hg, hs⟩ := psGap_inv look
              obtain ⟨u, hu⟩ := at_inv h2.1
              rw [Src.drop_txt, ht] at k2
              simp only [List.drop_succ_cons, List.drop_zero] at k2
              rw [ht, k2, hs, hu, h2.2]
              exact .tag k1 hg
            · cases h
        · split at h
          · next h2 =>
            cases h
            simp only [Bool.and_eq_true, beq_iff_eq] at h2
            obtain ⟨u, hu⟩ := at_inv h2.1
            rw [hu, h2.2]
            exact .close
          · cases h

/-! ## Literals -/

theorem cStrTail_inv {q : Char} : ∀ {t : Str} {k : Nat}, cStrTail q t = some k → ∃ a b, t = a ++ q :: b ∧ InsideC q a := by
  intro t
  induction t using cStrTail.induct (q := q) with
  | case1 => intro k h; rw [cStrTail.eq_def] at h; cases h
  | case2 t => intro k _; exact ⟨[], t, rfl, .nil⟩
  | case3 hc => intro k h; rw [cStrTail.eq_def] at h; simp only [if_neg hc, if_true] at h; cases h
  | case4 u hc => intro k h; rw [cStrTail.eq_def] at h; simp only [if_neg hc, if_true] at h; cases h
  | case5 d u hd hc ih =>
    intro k h
    rw [cStrTail.eq_def] at h
    simp only [if_neg hc, if_true, if_neg hd, Option.map_eq_some_iff] at h
    obtain ⟨n, hn, -⟩ := h
    obtain ⟨a, b, rfl, ha⟩ := ih hn
    exact ⟨'\\' :: d :: a, b, rfl, .escape hd ha⟩
  | case6 c t hc hb ih =>
    intro k h
    rw [cStrTail.eq_def] at h
    simp only [if_neg hc, if_neg hb, Option.map_eq_some_iff] at h
    obtain ⟨n, hn, -⟩ := h
    obtain ⟨a, b, rfl, ha⟩ := ih hn
    exact ⟨c :: a, b, rfl, .char hc hb ha⟩

theorem cStrTail_insideC {q : Char} (hq : q ≠ '\\') {s : Str} (h : InsideC q s) (r : Str) :
    cStrTail q (s ++ q :: r) = some (s.length + 1) := by
  induction h with
  | nil => rw [List.nil_append, cStrTail.eq_def]; simp only [if_true]; rfl
  | char h1 h2 _ ih =>
    simp only [List.cons_append]
    rw [cStrTail.eq_def]
    simp only [if_neg h1, if_neg h2, ih]
    rfl
  | escape h1 _ ih =>
    simp only [List.cons_append]
    rw [cStrTail.eq_def]
    simp only [if_neg hq.symm, if_true, if_neg h1, ih]
    rfl

theorem QuoteMark.ne {q : Char} (h : QuoteMark q) : q ≠ '\\' ∧ q ≠ '\n' := by
  rcases h with rfl | rfl <;> decide

theorem cStrLen_inv {t : Str} {k : Nat} (h : cStrLen t = some k) :
    ∃ q a b, QuoteMark q ∧ InsideC q a ∧ t = q :: (a ++ q :: b) := by
  unfold cStrLen at h
  split at h
  · rw [Option.map_eq_some_iff] at h
    obtain ⟨n, hn, -⟩ := h
    obtain ⟨a, b, rfl, ha⟩ := cStrTail_inv hn
    exact ⟨_, a, b, .inl rfl, ha, rfl⟩
  · rw [Option.map_eq_some_iff] at h
    obtain ⟨n, hn, -⟩ := h
    obtain ⟨a, b, rfl, ha⟩ := cStrTail_inv hn
    exact ⟨_, a, b, .inr rfl, ha, rfl⟩
  · cases h

theorem cStrLen_literal {q : Char} {a : Str} (hq : QuoteMark q) (ha : InsideC q a) (s : Str) :
    cStrLen (q :: (a ++ q :: s)) = some (a.length + 2) := by
  have := cStrTail_insideC hq.ne.1 ha s
  rcases hq with rfl | rfl <;> simp [cStrLen, this]

theorem py1Head_inv {q : Char} : ∀ {t : Str} {k : Nat}, py1Head q t = some k →
    (∃ a b, t = a ++ q :: b ∧ Inside q a) ∨ ∃ a b, t = a ++ '\\' :: '\n' :: b ∧ Inside q a := by
  intro t
  induction t using py1Head.induct (q := q) with
  | case1 => intro k h; rw [py1Head.eq_def] at h; cases h
  | case2 t => intro k _; exact .inl ⟨[], t, rfl, .nil⟩
  | case3 t hc => intro k h; rw [py1Head.eq_def] at h; simp only [if_neg hc, if_true] at h; cases h
  | case4 hc hn =>
    intro k h
    rw [py1Head.eq_def] at h
    simp only [if_neg hc, if_neg hn, if_true] at h
    cases h
  | case5 u hc hn => intro k _; exact .inr ⟨[], u, rfl, .nil⟩
  | case6 d u hd hc hn ih =>
    intro k h
    rw [py1Head.eq_def] at h
    simp only [if_neg hc, if_neg hn, if_true, if_neg hd, Option.map_eq_some_iff] at h
    obtain ⟨n, hn, -⟩ := h
    rcases ih hn with ⟨a, b, rfl, ha⟩ | ⟨a, b, rfl, ha⟩
    · exact .inl ⟨'\\' :: d :: a, b, rfl, .escape hd ha⟩
    · exact .inr ⟨'\\' :: d :: a, b, rfl, .escape hd ha⟩
  | case7 c t hc hn hb ih =>
    intro k h
    rw [py1Head.eq_def] at h
    simp only [if_neg hc, if_neg hn, if_neg hb, Option.map_eq_some_iff] at h
    obtain ⟨n, hn', -⟩ := h
    rcases ih hn' with ⟨a, b, rfl, ha⟩ | ⟨a, b, rfl, ha⟩
    · exact .inl ⟨c :: a, b, rfl, .char hc hb hn ha⟩
    · exact .inr ⟨c :: a, b, rfl, .char hc hb hn ha⟩

theorem pyPrefix_take (s : Str) : LiteralPrefix (s.take (pyPrefix s)) := by
  unfold LiteralPrefix
  cases s with
  | nil => exact .inl rfl
  | cons c t =>
    unfold pyPrefix
    by_cases hu : c = 'u' ∨ c = 'U'
    · simp only [if_pos hu]
      cases t with
      | nil => exact .inr (.inl ⟨c, hu, rfl⟩)
      | cons d t =>
        by_cases hr : d = 'r' ∨ d = 'R'
        · simp only [if_pos hr]
          exact .inr (.inr (.inr ⟨c, d, hu, hr, rfl⟩))
        · simp only [if_neg hr]
          exact .inr (.inl ⟨c, hu, rfl⟩)
    · simp only [if_neg hu]
      by_cases hr : c = 'r' ∨ c = 'R'
      · simp only [if_pos hr]
        exact .inr (.inr (.inl ⟨c, hr, rfl⟩))
      · simp only [if_neg hr]
        exact .inl rfl

theorem pyPrefix_prefix {p : Str} {q : Char} (hp : LiteralPrefix p) (hq : QuoteMark q) (t : Str) :
    pyPrefix (p ++ q :: t) = p.length := by
  rcases hp with rfl | ⟨u, hu, rfl⟩ | ⟨r, hr, rfl⟩ | ⟨u, r, hu, hr, rfl⟩
  · rcases hq with rfl | rfl <;> rfl
  · rcases hq with rfl | rfl <;> rcases hu with rfl | rfl <;> rfl
  · rcases hq with rfl | rfl <;> rcases hr with rfl | rfl <;> rfl
  · rcases hu with rfl | rfl <;> rcases hr with rfl | rfl <;> rfl

/-- Where no literal begins, none is found. -/
theorem pyStrLen_none {s : Str} (h1 : ∀ p q a b, LiteralPrefix p → QuoteMark q → Inside q a → s ≠ p ++ q :: (a ++ q :: b))
    (h2 : ∀ p q b, LiteralPrefix p → QuoteMark q → s ≠ p ++ q :: q :: q :: b)
    (h3 : ∀ p q a b, LiteralPrefix p → QuoteMark q → Inside q a → s ≠ p ++ q :: (a ++ '\\' :: '\n' :: b)) :
    pyStrLen s = .no := by
  have hp := pyPrefix_take s
  have hs := List.take_append_drop (pyPrefix s) s
  unfold pyStrLen
  dsimp only
  split
  · rfl
  · next q t hd =>
    split
    · next hq =>
      have hq : QuoteMark q := hq.symm
      rw [hd] at hs
      rw [if_neg]
      · split
        · rfl
        · next k hk =>
          exfalso
          rcases py1Head_inv hk with ⟨a, b, rfl, ha⟩ | ⟨a, b, rfl, ha⟩
          · exact h1 _ q a b hp hq ha hs.symm
          · exact h3 _ q a b hp hq ha hs.symm
      · rw [List.isPrefixOf_iff_prefix]
        rintro ⟨u, rfl⟩
        exact h2 _ q u hp hq hs.symm
    · rfl

theorem pyStrLen_literal {p : Str} {q : Char} {a s : Str} (hp : LiteralPrefix p) (hq : QuoteMark q) (ha : Inside q a)
    (hs : a ≠ [] ∨ s.head? ≠ some q) : pyStrLen (p ++ q :: (a ++ q :: s)) = .yes (p.length + (a.length + 2)) := by
  have htr : ¬ [q, q].isPrefixOf (a ++ q :: s) = true := by
    rw [List.isPrefixOf_iff_prefix]
    intro hpp
    cases ha with
    | nil =>
      have := (pre_cons.mp hpp).2
      cases s with
      | nil => exact absurd (List.prefix_nil.mp this) (by simp)
      | cons d s =>
        rcases hs with hs | hs
        · exact hs rfl
        · exact hs (by rw [(pre_cons.mp this).1]; rfl)
    | char h1 _ _ _ => exact h1 (pre_cons.mp hpp).1.symm
    | escape _ _ => exact hq.ne.1 (pre_cons.mp hpp).1
  have htk : (a ++ q :: s).take (a.length + 1) = a ++ [q] := by
    rw [List.take_append, List.take_of_length_le (by omega), Nat.add_sub_cancel_left]
    rfl
  unfold pyStrLen
  simp only [pyPrefix_prefix hp hq, List.drop_left]
  rw [if_pos (by rcases hq with rfl | rfl <;> simp), if_neg htr, py1Head_inside hq.ne.1 ha s]
  simp only [htk, List.getLast?_append, List.getLast?_singleton, Option.some_or]
  rw [if_neg (by simp [hq.ne.2])]
  congr 1
  omega

/-! ## Comments of the target language -/

theorem spanLen_line {w s : Str} (h1 : ∀ c ∈ w, ¬ LineEnd c) (h2 : ∀ c, s.head? = some c → LineEnd c) :
    spanLen (fun c => !isEol c) (w ++ s) = w.length := by
  refine spanLen_append _ _ _ (fun c hc => ?_) (fun c hc => ?_)
  · have := h1 c hc
    rw [← isEol_iff] at this
    simpa using this
  · have := h2 c hc
    rw [← isEol_iff] at this
    simp [this]

theorem findIdx_block : ∀ (w s : Str), (∀ a b, w ++ ['*'] ≠ a ++ '*' :: '/' :: b) →
    findIdx ['*', '/'] (w ++ '*' :: '/' :: s) = some w.length
  | [], s, _ => rfl
  | c :: w, s, h => by
    have ih := findIdx_block w s (fun a b hab => h (c :: a) b (by rw [List.cons_append, hab]; rfl))
    rw [List.cons_append, findIdx, if_neg, ih]
    · rfl
    · rw [List.isPrefixOf_iff_prefix]
      intro hp
      obtain ⟨rfl, hp'⟩ := pre_cons.mp hp
      clear hp
      cases w with
      | nil => exact absurd (pre_cons.mp hp').1 (by decide)
      | cons d w =>
        obtain ⟨rfl, -⟩ := pre_cons.mp hp'
        exact h [] (w ++ ['*']) rfl

/-! ## Places where nothing but plain text begins -/

theorem pre_of {s : Src} {k t : Str} (h : ¬ k <+: s.txt) : s.starts (k ++ t) = false := by
  refine starts_not ?_
  rintro ⟨u, hu⟩
  exact h ⟨t ++ u, by rw [← hu, List.append_assoc]⟩

theorem starts_eq {s : Src} {k k' : Str} (h : s.starts k = false) (he : k = k') : s.starts k' = false := he ▸ h

theorem psQuote_no {s : Src} (h1 : ¬ ['(', '$'] <+: s.txt) (h2 : ¬ ['(', '`'] <+: s.txt)
    (h3 : ¬ StartsLiteral (modeOf e) s.txt) : psQuote e s = noMatch s := by
  have hq : psQuoted s = noMatch s := psQuoted_none (starts_not h2)
    (starts_eq (pre_of (k := ['(', '$']) (t := ['q', 'u', 'o', 't', 'e']) h1) rfl)
  unfold psQuote
  cases he : e.outputPython with
  | true =>
    have : pyStrLen s.txt = .no := pyStrLen_none
      (fun p q a b hp hq ha hs => h3 (by rw [hs]; exact .py he hp hq ha))
      (fun p q b hp hq hs => h3 (by rw [hs]; exact .long he hp hq))
      (fun p q a b hp hq ha hs => h3 (by rw [hs]; exact .lines he hp hq ha))
    rw [this]
    exact hq
  | false =>
    have : cStrLen s.txt = none := by
      cases hc : cStrLen s.txt with
      | none => rfl
      | some k =>
        obtain ⟨q, a, b, hq, ha, hs⟩ := cStrLen_inv hc
        exact absurd (by rw [hs]; exact .c he hq ha) h3
    rw [this]
    exact hq

theorem psRemark_no {s : Src} (h : ¬ StartsRemark (modeOf e).remarks s.txt) : psRemark e s = noMatch s := by
  unfold psRemark
  unfold modeOf at h
  cases he : e.skip with
  | none => rfl
  | c =>
    rw [he] at h
    have h1 : ¬ ['/', '/'] <+: s.txt := fun hp => h (.inl hp)
    have h2 : ¬ ['/', '*'] <+: s.txt := fun hp => h (.inr hp)
    have : remarkCLen s.txt = .no := by
      unfold remarkCLen
      rw [if_neg (by rw [List.isPrefixOf_iff_prefix]; exact h1), if_neg (by rw [List.isPrefixOf_iff_prefix]; exact h2)]
    simp only [this]
  | python =>
    rw [he] at h
    have : remarkPyLen s.txt = .no := by
      unfold remarkPyLen
      split
      · next t ht => exact absurd (show ['#'] <+: s.txt from ⟨t, by rw [ht]; rfl⟩) h
      · rfl
    simp only [this]

/-- No alternative before plain text matches. -/
theorem leg_none (p : Parsers) {s : Src} (h1 : ¬ ['(', '$'] <+: s.txt) (h2 : ¬ ['(', '`'] <+: s.txt)
    (h3 : ¬ StartsLiteral (modeOf e) s.txt) (h4 : ¬ StartsRemark (modeOf e).remarks s.txt) :
    psTextLeg e p s = noMatch s := by
  have hk : ∀ k, s.starts ('(' :: '$' :: k) = false := fun k => pre_of (k := ['(', '$']) h1
  have a1 : psSet p s = noMatch s := by unfold psSet; rw [show s.starts kSet = false from hk _]; rfl
  have a2 : psLet p s = noMatch s := by unfold psLet; rw [show s.starts kLet = false from hk _]; rfl
  have a3 : psImport e p s = noMatch s := by unfold psImport; rw [show s.starts kImport = false from hk _]; rfl
  have a4 : psMacro s = noMatch s := by unfold psMacro; rw [show s.starts kMacro = false from hk _]; rfl
  have a5 : psComment s = noMatch s := by unfold psComment; rw [show s.starts kComment = false from hk _]; rfl
  have a6 : psApplication p s = noMatch s := by unfold psApplication; rw [show s.starts kApply = false from hk _]; rfl
  rw [textLeg_eq, a1, asList_noMatch, a2, asList_noMatch, a3, noMatch_orElse, a4, asList_noMatch, a5, asList_noMatch,
    a6, asList_noMatch, psQuote_no h1 h2 h3, asList_noMatch, psRemark_no h4]
  rfl

/-- Characters with which something else than plain text may begin. -/
def MarkChar (c : Char) : Prop := c = '(' ∨ c = '"' ∨ c = '\'' ∨ c = 'u' ∨ c = 'U' ∨ c = 'r' ∨ c = 'R' ∨ c = '/' ∨ c = '#'

theorem LiteralPrefix.head {p : Str} {q : Char} (hp : LiteralPrefix p) (hq : QuoteMark q) (t : Str) :
    ∃ c u, p ++ q :: t = c :: u ∧ MarkChar c := by
  have hq : MarkChar q := by rcases hq with rfl | rfl <;> simp [MarkChar]
  rcases hp with rfl | ⟨u, hu, rfl⟩ | ⟨r, hr, rfl⟩ | ⟨u, r, hu, hr, rfl⟩
  · exact ⟨q, t, rfl, hq⟩
  · exact ⟨u, _, rfl, by rcases hu with rfl | rfl <;> simp [MarkChar]⟩
  · exact ⟨r, _, rfl, by rcases hr with rfl | rfl <;> simp [MarkChar]⟩
  · exact ⟨u, _, rfl, by rcases hu with rfl | rfl <;> simp [MarkChar]⟩

theorem StartsLiteral.head {mo : Mode} {s : Str} (h : StartsLiteral mo s) : ∃ c u, s = c :: u ∧ MarkChar c := by
  cases h with
  | c _ hq _ => exact ⟨_, _, rfl, by rcases hq with rfl | rfl <;> simp [MarkChar]⟩
  | py _ hp hq _ => exact hp.head hq _
  | long _ hp hq => exact hp.head hq _
  | lines _ hp hq _ => exact hp.head hq _

theorem StartsRemark.head {k : Remarks} {s : Str} (h : StartsRemark k s) : ∃ c u, s = c :: u ∧ MarkChar c := by
  cases k with
  | none => cases h
  | c =>
    rcases h with ⟨u, rfl⟩ | ⟨u, rfl⟩
    · exact ⟨_, _, rfl, by simp [MarkChar]⟩
    · exact ⟨_, _, rfl, by simp [MarkChar]⟩
  | python => obtain ⟨u, rfl⟩ := h; exact ⟨_, _, rfl, by simp [MarkChar]⟩

theorem leg_none_head (p : Parsers) {s : Src} (h : ∀ c, s.txt.head? = some c → ¬ MarkChar c) :
    psTextLeg e p s = noMatch s := by
  have hx : ∀ c u, s.txt = c :: u → ¬ MarkChar c := fun c u hs => h c (by rw [hs]; rfl)
  refine leg_none p ?_ ?_ ?_ ?_
  · rintro ⟨u, hu⟩; exact hx _ _ hu.symm (.inl rfl)
  · rintro ⟨u, hu⟩; exact hx _ _ hu.symm (.inl rfl)
  · intro h'; obtain ⟨c, u, hu, hc⟩ := h'.head; exact hx _ _ hu hc
  · intro h'; obtain ⟨c, u, hu, hc⟩ := h'.head; exact hx _ _ hu hc

theorem EndsAt.head {k : TextEnd} {sq pth : Nat} {s r : Str} (h : EndsAt k sq pth s r) :
    ∀ c, s.head? = some c → ¬ MarkChar c := by
  intro c hc
  cases h with
  | file => cases hc
  | lines h _ => simp only [List.head?_cons, Option.some.injEq] at hc; subst hc; rcases h with rfl | rfl <;> simp [MarkChar]
  | lines' h _ => simp only [List.head?_cons, Option.some.injEq] at hc; subst hc; rcases h with rfl | rfl <;> simp [MarkChar]
  | _ => simp only [List.head?_cons, Option.some.injEq] at hc; subst hc; simp [MarkChar]

/-! ## The loop -/

theorem Gives.text {k : Stop} {t : TextSt} {a : Src × List Node} (h : Gives e (fun p => psText e p k t) a) :
    Gives e (fun p => p.text k t) a := h.step (fun _ => rfl)

theorem text_leg {k : Stop} {t : TextSt} {s : Src} {ns : List Node} {a : Src × List Node}
    (h1 : Gives e (fun p => psTextLeg e p t.sou) (s, some ns))
    (h2 : Gives e (fun p => psText e p k { t with sou := s, ast := t.ast ++ ns, gen := none }) a) :
    Gives e (fun p => psText e p k t) a := by
  unfold psText
  exact Gives.bind h1 h2.text

theorem text_stop {k : Stop} {t : TextSt} {src' : Src} (h1 : ∀ p, psTextLeg e p t.sou = noMatch t.sou)
    (h2 : stopAt k t.sou t.sq t.pth = some src') : Gives e (fun p => psText e p k t) (src', t.ast) := by
  refine Gives.of_eq (Gives.pure _) (fun p => ?_)
  unfold psText
  rw [h1]
  funext st
  rw [pm_bind_ok (show noMatch t.sou st = .ok ((t.sou, none), st) from rfl)]
  simp only [h2]

theorem text_plain {k : Stop} {t t' : TextSt} {a : Src × List Node} (h1 : ∀ p, psTextLeg e p t.sou = noMatch t.sou)
    (h2 : stopAt k t.sou t.sq t.pth = none) (h3 : plainStep t = some t')
    (h4 : Gives e (fun p => psText e p k t') a) : Gives e (fun p => psText e p k t) a := by
  refine Gives.of_eq h4.text (fun p => ?_)
  unfold psText
  rw [h1]
  funext st
  rw [pm_bind_ok (show noMatch t.sou st = .ok ((t.sou, none), st) from rfl)]
  simp only [h2]
  rw [show ({ t with sou := t.sou } : TextSt) = t from rfl, h3]
  rfl

end Yupp
