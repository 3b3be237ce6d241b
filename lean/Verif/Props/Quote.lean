import Verif.Props.Parse
import Verif.Lemmas.Balanced
import Verif.Lemmas.Lexeme
/-!
# Quotes, comments and macro bodies (C21)
-/

namespace Yupp

/-- The opening marks of a quote. -/
def IsQuoteMark (mark : Str) : Prop := mark = ['(', '`'] ∨ mark = ['(', '$', 'q', 'u', 'o', 't', 'e']

theorem bodyLen_none (u : Str) (h : ¬ ∃ body rest, Closed u body rest ∧ ∀ c ∈ body, Admissible c) :
    bodyLen u = none := by
  cases hb : bodyLen u with
  | none => rfl
  | some n =>
    obtain ⟨body, rest, h1, -, h2⟩ := (bodyLen_spec u n).mp hb
    exact absurd ⟨body, rest, h1, h2⟩ h

theorem bodyLen_some {u body rest : Str} (h : Closed u body rest) (ha : ∀ c ∈ body, Admissible c) :
    bodyLen u = some body.length := (bodyLen_spec u _).mpr ⟨body, rest, h, rfl, ha⟩

theorem closed_take {u body rest : Str} (h : Closed u body rest) : u.take body.length = body := by
  rw [h.1]; simp

theorem psQuote_mark (e : PEnv) (s : Src) (mark u : Str) (hm : IsQuoteMark mark) (hs : s.txt = mark ++ u) :
    psQuote e s = psQuoted s := by
  unfold psQuote
  rcases hm with rfl | rfl
  · have h1 : cStrLen s.txt = none := by rw [hs]; rfl
    have h2 : pyStrLen s.txt = .no := by rw [hs]; rfl
    simp only [h1, h2, ite_self]
  · have h1 : cStrLen s.txt = none := by rw [hs]; rfl
    have h2 : pyStrLen s.txt = .no := by rw [hs]; rfl
    simp only [h1, h2, ite_self]

theorem psQuoted_mark (s : Src) (mark u : Str) (hm : IsQuoteMark mark) (hs : s.txt = mark ++ u) :
    psQuoted s = match bodyLen u with
      | some 0 => pure ((s.drop mark.length).drop 1, some (.str { txt := [] }))
      | some n => pure ((s.drop mark.length).drop (n + 1), some (.str ((s.drop mark.length).take n)))
      | none => PM.err := by
  have hu : (s.drop mark.length).txt = u := by simp [Src.drop, hs]
  unfold psQuoted
  rcases hm with rfl | rfl
  · have h1 : s.starts kBquote = true := by unfold Src.starts; rw [hs]; rfl
    rw [if_pos h1]
    rw [if_neg (by decide)]
    change (match bodyLen (s.drop 2).txt with | some 0 => _ | some n => _ | none => _) = _
    rw [show (s.drop 2).txt = u from hu]
    rfl
  · have h1 : s.starts kBquote = false := by unfold Src.starts; rw [hs]; rfl
    have h2 : s.starts kQuote = true := by unfold Src.starts; rw [hs]; rfl
    rw [h1, h2]
    change (match bodyLen (s.drop 7).txt with | some 0 => _ | some n => _ | none => _) = _
    rw [show (s.drop 7).txt = u from hu]
    rfl

/-- The value of a quote: its body, located where the body is (an empty body has no location). -/
def quoteBody (s : Src) (mark body : Str) (x : Src) : Prop :=
  x.txt = body ∧ (body ≠ [] → x.loc = (s.drop mark.length).loc)

theorem psQuote_closed (e : PEnv) (s : Src) (mark u body rest : Str) (hm : IsQuoteMark mark)
    (hs : s.txt = mark ++ u) (hc : Closed u body rest) (ha : ∀ c ∈ body, Admissible c) :
    ∃ x, quoteBody s mark body x ∧
      psQuote e s = pure (s.drop (mark.length + body.length + 1), some (.str x)) := by
  rw [psQuote_mark e s mark u hm hs, psQuoted_mark s mark u hm hs, bodyLen_some hc ha]
  have hu : (s.drop mark.length).txt = u := by simp [Src.drop, hs]
  match hb : body.length with
  | 0 =>
    cases List.eq_nil_of_length_eq_zero hb
    exact ⟨{ txt := [] }, ⟨rfl, fun h => absurd rfl h⟩, by simp only [Src.drop_drop]⟩
  | n + 1 =>
    refine ⟨(s.drop mark.length).take (n + 1), ⟨?_, fun _ => rfl⟩, ?_⟩
    · simp only [Src.take, hu]; exact (congrArg (List.take · u) hb).symm.trans (closed_take hc)
    · simp only [Src.drop_drop]; rfl

theorem psQuote_open (e : PEnv) (s : Src) (mark u : Str) (hm : IsQuoteMark mark)
    (hs : s.txt = mark ++ u) (hn : ¬ ∃ body rest, Closed u body rest ∧ ∀ c ∈ body, Admissible c) :
    psQuote e s = PM.err := by
  rw [psQuote_mark e s mark u hm hs, psQuoted_mark s mark u hm hs, bodyLen_none u hn]

/-- The node of a rule, as a list of nodes. -/
def asList (r : PM (Src × Option Node)) : PM (Src × Option (List Node)) := do
  let (s, leg) ← r
  pure (s, leg.map ([·]))

theorem noMatch_orElse (s : Src) (f : Src → PM (Src × Option α)) : orElse (noMatch s) f = f s := rfl

theorem asList_noMatch (s : Src) (f : Src → PM (Src × Option (List Node))) :
    orElse (asList (noMatch s)) f = f s := rfl

theorem textLeg_eq (e : PEnv) (p : Parsers) (s : Src) : psTextLeg e p s =
    orElse (asList (psSet p s)) fun s =>
    orElse (asList (psLet p s)) fun s =>
    orElse (psImport e p s) fun s =>
    orElse (asList (psMacro s)) fun s =>
    orElse (asList (psComment s)) fun s =>
    orElse (asList (psApplication p s)) fun s =>
    orElse (asList (psQuote e s)) fun s => asList (psRemark e s) := rfl

theorem textLeg_quote (e : PEnv) (p : Parsers) (s : Src) (mark u : Str) (hm : IsQuoteMark mark)
    (hs : s.txt = mark ++ u) : psTextLeg e p s =
      orElse (asList (psQuote e s)) fun s => asList (psRemark e s) := by
  have h1 : psSet p s = noMatch s := by
    unfold psSet; refine if_neg ?_; unfold Src.starts; rw [hs]
    rcases hm with rfl | rfl <;> simp [kSet]
  have h2 : psLet p s = noMatch s := by
    unfold psLet; refine if_neg ?_; unfold Src.starts; rw [hs]
    rcases hm with rfl | rfl <;> simp [kLet]
  have h3 : psImport e p s = noMatch s := by
    unfold psImport; refine if_neg ?_; unfold Src.starts; rw [hs]
    rcases hm with rfl | rfl <;> simp [kImport]
  have h4 : psMacro s = noMatch s := by
    unfold psMacro; refine if_neg ?_; unfold Src.starts; rw [hs]
    rcases hm with rfl | rfl <;> simp [kMacro]
  have h5 : psComment s = noMatch s := by
    unfold psComment; refine if_neg ?_; unfold Src.starts; rw [hs]
    rcases hm with rfl | rfl <;> simp [kComment]
  have h6 : psApplication p s = noMatch s := by
    unfold psApplication
    rcases hm with rfl | rfl
    · rw [if_pos]; unfold Src.starts; rw [hs]; rfl
    · rw [if_neg, if_pos]
      · unfold Src.starts; rw [hs]; simp [kQuote]
      · unfold Src.starts; rw [hs]; simp [kApply]
  rw [textLeg_eq, h1, asList_noMatch, h2, asList_noMatch, h3, noMatch_orElse, h4, asList_noMatch, h5,
    asList_noMatch, h6, asList_noMatch]

/-- C21. In a text, a quote is its body, which ends at the first closing parenthesis not matched by an
    opening one; parsing goes on behind that parenthesis. -/
theorem C21_quote (e : PEnv) (n : Nat) (stop : Stop) (t : TextSt) (st : PSt) (mark u body rest : Str)
    (hm : IsQuoteMark mark) (hs : t.sou.txt = mark ++ u) (hc : Closed u body rest)
    (ha : ∀ c ∈ body, Admissible c) :
    ∃ x, quoteBody t.sou mark body x ∧ (P e (n + 1)).text stop t st =
      (P e n).text stop { t with sou := t.sou.drop (mark.length + body.length + 1)
                                 ast := t.ast ++ [.str x], gen := none } st := by
  obtain ⟨x, hx, hq⟩ := psQuote_closed e t.sou mark u body rest hm hs hc ha
  refine ⟨x, hx, ?_⟩
  change psText e (P e n) stop t st = _
  unfold psText
  rw [textLeg_quote e _ _ mark u hm hs, hq]
  rfl

/-- C21. The same where an expression is expected. -/
theorem C21_quote_form (e : PEnv) (n : Nat) (s : Src) (st : PSt) (mark u body rest : Str)
    (hm : IsQuoteMark mark) (hs : s.txt = mark ++ u) (hc : Closed u body rest)
    (ha : ∀ c ∈ body, Admissible c) :
    ∃ x, quoteBody s mark body x ∧ psFormer e (P e n) s st =
      .ok ((s.drop (mark.length + body.length + 1), some (.str x)), st) := by
  obtain ⟨x, hx, hq⟩ := psQuote_closed e s mark u body rest hm hs hc ha
  refine ⟨x, hx, ?_⟩
  unfold psFormer psValue
  rw [hq]
  rfl

/-- C21. A quote without the closing parenthesis, or with a forbidden character before it, makes the
    translation fail. -/
theorem C21_quote_unclosed (e : PEnv) (n : Nat) (stop : Stop) (t : TextSt) (st : PSt) (mark u : Str)
    (hm : IsQuoteMark mark) (hs : t.sou.txt = mark ++ u)
    (hn : ¬ ∃ body rest, Closed u body rest ∧ ∀ c ∈ body, Admissible c) :
    (P e (n + 1)).text stop t st = .err := by
  change psText e (P e n) stop t st = _
  unfold psText
  rw [textLeg_quote e _ _ mark u hm hs, psQuote_open e _ mark u hm hs hn]
  rfl

theorem textLeg_comment (e : PEnv) (p : Parsers) (s : Src) (u : Str)
    (hs : s.txt = ['(', '$', '!'] ++ u) : psTextLeg e p s =
      orElse (asList (psComment s)) fun s =>
      orElse (asList (psApplication p s)) fun s =>
      orElse (asList (psQuote e s)) fun s => asList (psRemark e s) := by
  have h1 : psSet p s = noMatch s := by
    unfold psSet; refine if_neg ?_; unfold Src.starts; rw [hs]; simp [kSet]
  have h2 : psLet p s = noMatch s := by
    unfold psLet; refine if_neg ?_; unfold Src.starts; rw [hs]; simp [kLet]
  have h3 : psImport e p s = noMatch s := by
    unfold psImport; refine if_neg ?_; unfold Src.starts; rw [hs]; simp [kImport]
  have h4 : psMacro s = noMatch s := by
    unfold psMacro; refine if_neg ?_; unfold Src.starts; rw [hs]; simp [kMacro]
  rw [textLeg_eq, h1, asList_noMatch, h2, asList_noMatch, h3, noMatch_orElse, h4, asList_noMatch]

theorem psComment_eq (s : Src) (u : Str) (hs : s.txt = ['(', '$', '!'] ++ u) :
    psComment s = match bodyLen u with
      | some n => pure ((s.drop 3).drop (n + 1), some .comment)
      | none => PM.err := by
  have hu : (s.drop 3).txt = u := by simp [Src.drop, hs]
  unfold psComment
  rw [if_pos (by unfold Src.starts; rw [hs]; rfl)]
  change (match bodyLen (s.drop 3).txt with | some n => _ | none => _) = _
  rw [hu]
  rfl

/-- C21. A comment ends at the first closing parenthesis not matched by an opening one. -/
theorem C21_comment (e : PEnv) (n : Nat) (stop : Stop) (t : TextSt) (st : PSt) (u body rest : Str)
    (hs : t.sou.txt = ['(', '$', '!'] ++ u) (hc : Closed u body rest) (ha : ∀ c ∈ body, Admissible c) :
    (P e (n + 1)).text stop t st =
      (P e n).text stop { t with sou := t.sou.drop (3 + body.length + 1)
                                 ast := t.ast ++ [.comment], gen := none } st := by
  change psText e (P e n) stop t st = _
  unfold psText
  rw [textLeg_comment e _ _ u hs, psComment_eq _ u hs, bodyLen_some hc ha]
  simp only [Src.drop_drop]
  rfl

theorem C21_comment_unclosed (e : PEnv) (n : Nat) (stop : Stop) (t : TextSt) (st : PSt) (u : Str)
    (hs : t.sou.txt = ['(', '$', '!'] ++ u)
    (hn : ¬ ∃ body rest, Closed u body rest ∧ ∀ c ∈ body, Admissible c) :
    (P e (n + 1)).text stop t st = .err := by
  change psText e (P e n) stop t st = _
  unfold psText
  rw [textLeg_comment e _ _ u hs, psComment_eq _ u hs, bodyLen_none u hn]
  rfl

theorem atoms0_names {as : List Str} {t : Str} (h : Names as t) : ∀ (n : Nat) (s : Src) (u : Str) (pars : List Src),
    as.length < n → s.txt = t ++ ')' :: u →
    ∃ new, new.map Src.txt = as ∧ ∀ st, atoms0 n s pars st = .ok ((s.drop (t.length + 1), pars ++ new), st) := by
  induction h with
  | nil =>
    intro n s u pars hn hs
    cases n with
    | zero => simp at hn
    | succ n =>
      refine ⟨[], rfl, fun st => ?_⟩
      unfold atoms0
      rw [if_pos (by unfold Src.at Src.starts; rw [hs]; rfl), List.append_nil]
      rfl
  | @cons a g t as ha hg ht hglue ih =>
    intro n s u pars hn hs
    cases n with
    | zero => simp at hn
    | succ n =>
      have hnp : NoName (')' :: u) := by
        intro c hc; simp only [List.head?_cons, Option.some.injEq] at hc; subst hc
        unfold NameChar NameStart; decide
      have hng : NoGap (')' :: u) := by
        intro c hc; simp only [List.head?_cons, Option.some.injEq] at hc; subst hc
        unfold GapChar; decide
      have hs' : s.txt = a ++ (g ++ (t ++ ')' :: u)) := by rw [hs]; simp
      have hnn : NoName (g ++ (t ++ ')' :: u)) := by
        refine noName_gap hg ?_
        rcases hglue with h | h
        · subst h; exact .inr hnp
        · exact .inl h
      unfold atoms0
      rw [if_neg (by
        unfold Src.at Src.starts; rw [hs']
        obtain ⟨c, w, rfl, hc, -⟩ := ha
        simp only [List.cons_append, List.isPrefixOf_cons_cons, List.isPrefixOf_nil_left, Bool.and_true, beq_iff_eq]
        rintro rfl
        revert hc; unfold NameStart; decide)]
      rw [psAtom_append hs' ha hnn]
      dsimp only
      have h2 : (s.drop a.length).txt = g ++ (t ++ ')' :: u) := Src.drop_pre s _ _ hs'
      rw [psGap_append h2 hg (ht.noGap hng), Src.drop_drop]
      have h3 : (s.drop (a.length + g.length)).txt = t ++ ')' :: u := by
        rw [← Src.drop_drop]; exact Src.drop_pre _ _ _ h2
      obtain ⟨new, hn1, hn2⟩ := ih n (s.drop (a.length + g.length)) u (pars ++ [s.take a.length])
        (by simp only [List.length_cons] at hn; omega) h3
      refine ⟨s.take a.length :: new, ?_, fun st => ?_⟩
      · simp only [List.map_cons, hn1, Src.take_pre s _ _ hs']
      · rw [hn2]
        simp only [List.append_assoc, List.cons_append, List.nil_append, Src.drop_drop, List.length_append]
        simp only [Nat.add_assoc]

theorem names_length {as : List Str} {t : Str} (h : Names as t) : as.length ≤ t.length := by
  induction h with
  | nil => simp
  | cons ha _ _ _ ih =>
    have := List.length_pos_iff.mpr ha.ne_nil
    simp only [List.length_cons, List.length_append]
    omega

/-- The text of a macro definition up to its body: `($macro name ( parameters )`. -/
def macroHead (g0 name g1 g2 pars : Str) : Str :=
  ['(', '$', 'm', 'a', 'c', 'r', 'o'] ++ (g0 ++ (name ++ (g1 ++ ('(' :: (g2 ++ (pars ++ [')']))))))

theorem textLeg_macro (e : PEnv) (p : Parsers) (s : Src) (u : Str)
    (hs : s.txt = ['(', '$', 'm', 'a', 'c', 'r', 'o'] ++ u) : psTextLeg e p s =
      orElse (asList (psMacro s)) fun s =>
      orElse (asList (psComment s)) fun s =>
      orElse (asList (psApplication p s)) fun s =>
      orElse (asList (psQuote e s)) fun s => asList (psRemark e s) := by
  have h1 : psSet p s = noMatch s := by
    unfold psSet; refine if_neg ?_; unfold Src.starts; rw [hs]; simp [kSet]
  have h2 : psLet p s = noMatch s := by
    unfold psLet; refine if_neg ?_; unfold Src.starts; rw [hs]; simp [kLet]
  have h3 : psImport e p s = noMatch s := by
    unfold psImport; refine if_neg ?_; unfold Src.starts; rw [hs]; simp [kImport]
  rw [textLeg_eq, h1, asList_noMatch, h2, asList_noMatch, h3, noMatch_orElse]

theorem noName_paren (u : Str) : NoName ('(' :: u) := by
  intro c hc; simp only [List.head?_cons, Option.some.injEq] at hc; subst hc
  unfold NameChar NameStart; decide

theorem noGap_paren (u : Str) : NoGap ('(' :: u) := by
  intro c hc; simp only [List.head?_cons, Option.some.injEq] at hc; subst hc
  unfold GapChar; decide

theorem noGap_close (u : Str) : NoGap (')' :: u) := by
  intro c hc; simp only [List.head?_cons, Option.some.injEq] at hc; subst hc
  unfold GapChar; decide

theorem psMacro_head (s : Src) (g0 name g1 g2 pars u : Str) (as : List Str)
    (hg0 : IsGap g0) (hn : IsName name) (hg1 : IsGap g1) (hg2 : IsGap g2) (hp : Names as pars)
    (hs : s.txt = macroHead g0 name g1 g2 pars ++ u) :
    ∃ nm new, nm.txt = name ∧ new.map Src.txt = as ∧ ∀ st,
      psMacro s st = (match bodyLen u with
        | some n => .ok ((s.drop ((macroHead g0 name g1 g2 pars).length + (n + 1)),
            some (.macro nm new { txt := u.take n })), st)
        | none => .err) := by
  have e0 : s.txt = ['(', '$', 'm', 'a', 'c', 'r', 'o'] ++
      (g0 ++ (name ++ (g1 ++ ('(' :: (g2 ++ (pars ++ (')' :: u))))))) := by
    rw [hs]; simp [macroHead]
  have e1 := Src.drop_pre _ _ _ e0
  have e2 := Src.drop_pre _ _ _ e1
  rw [Src.drop_drop] at e2
  have e3 := Src.drop_pre _ _ _ e2
  rw [Src.drop_drop] at e3
  have e4 := Src.drop_pre _ _ _ e3
  rw [Src.drop_drop] at e4
  have e5 := Src.drop_pre (a := ['(']) _ _ e4
  rw [Src.drop_drop] at e5
  have e6 := Src.drop_pre _ _ _ e5
  rw [Src.drop_drop] at e6
  obtain ⟨new, hn1, hn2⟩ := atoms0_names hp ((pars ++ ')' :: u).length + 1) _ u []
    (by have := names_length hp; simp only [List.length_append, List.length_cons]; omega) e6
  refine ⟨(s.drop (7 + g0.length)).take name.length, new, Src.take_pre _ _ _ e2, hn1, fun st => ?_⟩
  unfold psMacro
  rw [if_pos (by unfold Src.starts; rw [e0]; rfl)]
  rw [show kMacro.length = (['(', '$', 'm', 'a', 'c', 'r', 'o'] : Str).length from rfl]
  rw [psGap_append e1 hg0 hn.noGap, Src.drop_drop,
    psAtom_append e2 hn (noName_gap hg1 (.inr (noName_paren _)))]
  dsimp only
  rw [Src.drop_drop, psGap_append e3 hg1 (noGap_paren _), Src.drop_drop]
  rw [if_pos (by unfold Src.at Src.starts; rw [e4]; rfl)]
  rw [Src.drop_drop]
  have e5' : (s.drop (((['(', '$', 'm', 'a', 'c', 'r', 'o'] : Str).length + g0.length + name.length + g1.length) + 1)).txt
      = g2 ++ (pars ++ ')' :: u) := e5
  rw [psGap_append e5' hg2 (hp.noGap (noGap_close u)), Src.drop_drop]
  have e6' : (s.drop (((['(', '$', 'm', 'a', 'c', 'r', 'o'] : Str).length + g0.length + name.length + g1.length) + 1 + g2.length)).txt
      = pars ++ ')' :: u := e6
  rw [e6']
  have e7 := Src.drop_pre (a := pars ++ [')']) _ u (e6'.trans (by simp))
  refine (bind_ok (m := atoms0 _ _ _) (hn2 st)).trans ?_
  dsimp only
  rw [Src.drop_drop] at e7 ⊢
  have e7' : (s.drop (((['(', '$', 'm', 'a', 'c', 'r', 'o'] : Str).length + g0.length + name.length + g1.length) + (['('] : Str).length + g2.length
      + (pars.length + 1))).txt = u := by
    rw [List.length_append] at e7
    exact e7
  simp only [e7', List.nil_append]
  have hl : (macroHead g0 name g1 g2 pars).length = ((['(', '$', 'm', 'a', 'c', 'r', 'o'] : Str).length + g0.length + name.length + g1.length) + 1 + g2.length
      + (pars.length + 1) := by
    simp [macroHead]; omega
  rw [hl]
  cases bodyLen u with
  | none => rfl
  | some n =>
    simp only [← Src.drop_drop s _ (n + 1)]
    rfl

/-- C21. The body of a macro is the text between the parenthesis that ends its parameters and the first
    closing parenthesis not matched by an opening one. -/
theorem C21_macro (e : PEnv) (n : Nat) (stop : Stop) (t : TextSt) (st : PSt)
    (g0 name g1 g2 pars u body rest : Str) (as : List Str) (hg0 : IsGap g0) (hn : IsName name)
    (hg1 : IsGap g1) (hg2 : IsGap g2) (hp : Names as pars)
    (hs : t.sou.txt = macroHead g0 name g1 g2 pars ++ u) (hc : Closed u body rest)
    (ha : ∀ c ∈ body, Admissible c) :
    ∃ nm new, nm.txt = name ∧ new.map Src.txt = as ∧ (P e (n + 1)).text stop t st =
      (P e n).text stop { t with sou := t.sou.drop ((macroHead g0 name g1 g2 pars).length + body.length + 1)
                                 ast := t.ast ++ [.macro nm new { txt := body }], gen := none } st := by
  obtain ⟨nm, new, h1, h2, h3⟩ := psMacro_head t.sou g0 name g1 g2 pars u as hg0 hn hg1 hg2 hp hs
  replace h3 := h3 st
  refine ⟨nm, new, h1, h2, ?_⟩
  rw [bodyLen_some hc ha] at h3
  change psText e (P e n) stop t st = _
  unfold psText
  have hl : psTextLeg e (P e n) t.sou st = .ok ((t.sou.drop ((macroHead g0 name g1 g2 pars).length + (body.length + 1)),
      some [.macro nm new { txt := u.take body.length }]), st) := by
    rw [textLeg_macro e _ _ _ (by rw [hs]; unfold macroHead; rw [List.append_assoc])]
    refine (bind_ok (m := asList (psMacro t.sou)) (bind_ok (m := psMacro t.sou) h3)).trans ?_
    rfl
  refine (bind_ok hl).trans ?_
  rw [closed_take hc, ← Nat.add_assoc]

/-- A body with parentheses of its own. -/
theorem closed_example : Closed (lit "a(b(c)d)e) f)") (lit "a(b(c)d)e") (lit " f)") := by
  refine ⟨by decide, ?_⟩
  rw [← depth_balanced]
  decide

/-- A quote and a comment with that body, and a macro `($macro m (x y)`. -/
example (e : PEnv) (n : Nat) (st : PSt) :
    (∃ x, quoteBody { txt := lit "(`a(b(c)d)e) f)" } ['(', '`'] (lit "a(b(c)d)e") x ∧
      (P e (n + 1)).text .eof { sou := { txt := lit "(`a(b(c)d)e) f)" } } st =
      (P e n).text .eof { sou := ({ txt := lit "(`a(b(c)d)e) f)" } : Src).drop 12, ast := [.str x] } st) ∧
    (P e (n + 1)).text .eof { sou := { txt := lit "($!a(b(c)d)e) f)" } } st =
      (P e n).text .eof { sou := ({ txt := lit "($!a(b(c)d)e) f)" } : Src).drop 13, ast := [.comment] } st :=
  ⟨C21_quote e n .eof { sou := { txt := lit "(`a(b(c)d)e) f)" } } st _ (lit "a(b(c)d)e) f)") _ (lit " f)") (.inl rfl)
    rfl closed_example (fun c hc => (isAny_iff c).mp (by revert c; decide)),
   C21_comment e n .eof { sou := { txt := lit "($!a(b(c)d)e) f)" } } st (lit "a(b(c)d)e) f)") _ (lit " f)")
    rfl closed_example (fun c hc => (isAny_iff c).mp (by revert c; decide))⟩

example (e : PEnv) (n : Nat) (st : PSt) :
    ∃ nm new, nm.txt = lit "m" ∧ new.map Src.txt = [lit "x", lit "y"] ∧
      (P e (n + 1)).text .eof { sou := { txt := lit "($macro m (x y)a(b(c)d)e) f)" } } st =
      (P e n).text .eof { sou := ({ txt := lit "($macro m (x y)a(b(c)d)e) f)" } : Src).drop 25
                          ast := [.macro nm new { txt := lit "a(b(c)d)e" }] } st := by
  have hx : ∀ c, c = 'm' ∨ c = 'x' ∨ c = 'y' → IsName [c] := by
    rintro c (rfl | rfl | rfl) <;> exact ⟨_, [], rfl, .inl (by decide), by simp⟩
  have hsp : IsGap [' '] := by intro c hc; simp at hc; subst hc; exact .inl rfl
  have h0 : IsGap [] := by intro c hc; cases hc
  exact C21_macro e n .eof { sou := { txt := lit "($macro m (x y)a(b(c)d)e) f)" } } st [' '] ['m'] [' '] []
    ['x', ' ', 'y'] (lit "a(b(c)d)e) f)") _ (lit " f)") [['x'], ['y']] hsp (hx _ (.inl rfl)) hsp h0
    (.cons (a := ['x']) (hx _ (.inr (.inl rfl))) hsp
      (.cons (a := ['y']) (g := []) (t := []) (hx _ (.inr (.inr rfl))) h0 .nil (.inl rfl)) (.inr (by simp)))
    rfl closed_example (fun c hc => (isAny_iff c).mp (by revert c; decide))

/-- An unclosed one. -/
example (e : PEnv) (n : Nat) (st : PSt) :
    (P e (n + 1)).text .eof { sou := { txt := lit "(`a(b)" } } st = .err := by
  refine C21_quote_unclosed e n .eof _ st _ (lit "a(b)") (.inl rfl) rfl ?_
  rintro ⟨body, rest, h1, h2⟩
  have := bodyLen_some h1 h2
  revert this
  have : bodyLen (lit "a(b)") = none := by decide
  rw [this]
  simp

theorem C21_macro_unclosed (e : PEnv) (n : Nat) (stop : Stop) (t : TextSt) (st : PSt)
    (g0 name g1 g2 pars u : Str) (as : List Str) (hg0 : IsGap g0) (hn : IsName name)
    (hg1 : IsGap g1) (hg2 : IsGap g2) (hp : Names as pars)
    (hs : t.sou.txt = macroHead g0 name g1 g2 pars ++ u)
    (hno : ¬ ∃ body rest, Closed u body rest ∧ ∀ c ∈ body, Admissible c) :
    (P e (n + 1)).text stop t st = .err := by
  obtain ⟨nm, new, h1, h2, h3⟩ := psMacro_head t.sou g0 name g1 g2 pars u as hg0 hn hg1 hg2 hp hs
  replace h3 := h3 st
  rw [bodyLen_none u hno] at h3
  change psText e (P e n) stop t st = _
  unfold psText
  rw [textLeg_macro e _ _ _ (by rw [hs]; unfold macroHead; rw [List.append_assoc])]
  change PM.bind (PM.bind (PM.bind (psMacro t.sou) _) _) _ st = _
  simp only [PM.bind, h3]

end Yupp
