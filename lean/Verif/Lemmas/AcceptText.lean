import Verif.Lemmas.AcceptRules
/-!
# Every rule of the parser follows the grammar of accepted programs: texts
-/

namespace Yupp

open PM (Sat sat_pure sat_pure' sat_err sat_timeout sat_mono sat_bind sat_bind' sat_get sat_set)

section
variable {e : PEnv} {p : Parsers}

theorem textParts_append : ∀ l k : List Node, textParts (l ++ k) = textParts l ++ textParts k
  | [], _ => rfl
  | x :: l, k => by
    have ih := textParts_append l k
    cases x <;> simp [textParts, ih]

theorem body_parts {m : Mode} {x : Node} {s r : Str} (h : Accepts m (.body x) s r) : textParts [x] = [.node x] := by
  cases h <;> rfl

theorem parts_form {x : Node} {s r : Str} (h : FormHeard e x s r) : PartHeard e x s r := by
  intro k sq pth xs r' hr
  rw [body_parts h.1]
  exact .textExpr h.1 h.2 hr

theorem parts_str {x : Node} {s r : Str} (h : StrHeard e x s r) : PartHeard e x s r := by
  obtain ⟨q, rfl, h⟩ := h
  intro k sq pth xs r' hr
  exact .textStr h hr

theorem hears_one {r : PM (Src × Option Node)} {s : Src} {st : PSt} (h : Sat True r st (Hears (PartHeard e) s)) :
    Sat True (do
      let (s, leg) ← r
      pure (s, leg.map ([·])) : PM (Src × Option (List Node))) st (Hears (PartsHeard e) s) := by
  refine sat_bind (sat_mono h id ?_)
  rintro ⟨s2, leg⟩ st2 hq
  cases leg with
  | none => exact sat_pure hq
  | some x => exact sat_pure hq

theorem sat_any {α : Type} (m : PM α) (st : PSt) {Q : α → PSt → Prop} (h : ∀ a st', Q a st') : Sat True m st Q := by
  unfold Sat
  split
  · exact h _ _
  · trivial
  · trivial

theorem hears_import (hp : Truthful e p) (s : Src) (st : PSt) : Sat True (psImport e p s) st (Hears (PartsHeard e) s) := by
  unfold psImport
  split
  · rename_i h
    obtain ⟨t, ht⟩ := starts_inv h
    obtain ⟨g, hg, he⟩ := psGap_inv (s.drop kImport.length)
    rw [drop_add_txt ht] at he
    have hsrc : s.txt = '(' :: '$' :: 'i' :: 'm' :: 'p' :: 'o' :: 'r' :: 't' :: (g ++ (psGap (s.drop kImport.length)).txt) := by
      rw [ht, he]; rfl
    refine sat_bind (sat_mono (Q := fun r _ => ∀ g2 s' s'', IsGap g2 → r.1.txt = g2 ++ s' →
      Closing ['i', 'm', 'p', 'o', 'r', 't'] s' s'' → PartsHeard e r.2 s.txt s'') ?_ id ?_)
    · split
      · rename_i s2 a ha
        obtain ⟨hn, he2, -⟩ := psAtom_inv ha
        refine sat_bind (sat_any _ _ (fun key st1 => ?_))
        refine sat_bind (sat_any _ _ (fun ast st2 => ?_))
        refine sat_pure ?_
        intro g2 s' s'' hg2 hs' hc k sq pth xs r' hx
        dsimp only at hs'
        rw [hsrc, he2, hs']
        exact .importName hg hn hg2 hc hx
      · rename_i s2 ha
        cases psAtom_none ha
        refine sat_bind (sat_mono (hears_quote (e := e) _ st) id ?_)
        rintro ⟨s3, leg⟩ st3 hq
        have done : ∀ (x : Node) (ys : List Node) (s4 : Src), Accepts (modeOf e) (.former x) (psGap (s.drop kImport.length)).txt s4.txt →
            ((∃ q, x = .str q) ∨ (∃ zs l, x = .infix (.text zs) l)) → ∀ g2 s' s'', IsGap g2 → s4.txt = g2 ++ s' →
            Closing ['i', 'm', 'p', 'o', 'r', 't'] s' s'' → PartsHeard e ys s.txt s'' := by
          intro x ys s4 ha hx g2 s' s'' hg2 hs' hc k sq pth xs r' hxs
          rw [hs'] at ha
          rw [hsrc]
          exact .importFile hg ha hx hg2 hc hxs
        dsimp only
        split
        · rename_i q
          obtain ⟨q', -, hq⟩ := (hq : StrHeard _ _ _ _)
          split
          · refine sat_bind (sat_any _ _ (fun _ st4 => ?_))
            exact sat_pure (done _ _ s3 hq (.inl ⟨_, rfl⟩))
          · refine sat_bind (sat_any _ _ (fun key st4 => ?_))
            refine sat_bind (sat_any _ _ (fun ast st5 => ?_))
            exact sat_pure (done _ _ s3 hq (.inl ⟨_, rfl⟩))
        · rename_i hno
          cases leg with
          | some x =>
            obtain ⟨q, rfl, -⟩ := (hq : StrHeard _ _ _ _)
            exact absurd rfl (hno q)
          | none =>
            cases (hq : s3 = _)
            refine sat_bind (sat_mono (hears_infix hp _ st3) id ?_)
            rintro ⟨s4, leg⟩ st4 hq4
            dsimp only
            split
            · rename_i ast loc
              have hq4 : BodyHeard e _ _ _ ∧ _ := hq4
              refine sat_bind (sat_any _ _ (fun key st5 => ?_))
              refine sat_bind (sat_any _ _ (fun ast st6 => ?_))
              exact sat_pure (done _ _ s4 (.former hq4.1) (.inr ⟨_, _, rfl⟩))
            · exact sat_err
    · rintro ⟨s2, ast⟩ st2 hq
      dsimp only at hq ⊢
      obtain ⟨g2, hg2, he2⟩ := psGap_inv s2
      refine sat_bind (closing_written ?_)
      intro r hr
      exact sat_pure (hq g2 _ _ hg2 he2 hr)
  · exact hears_noMatch _ _

theorem hears_leg (hp : Truthful e p) (s : Src) (st : PSt) : Sat True (psTextLeg e p s) st (Hears (PartsHeard e) s) := by
  unfold psTextLeg
  dsimp only
  refine hears_orElse (hears_one (hears_set hp s st)) (fun st1 => ?_)
  refine hears_orElse (hears_one (hears_weaken (fun _ _ _ => parts_form) (hears_let hp s st1))) (fun st2 => ?_)
  refine hears_orElse (hears_import hp s st2) (fun st3 => ?_)
  refine hears_orElse (hears_one (hears_macro s st3)) (fun st4 => ?_)
  refine hears_orElse (hears_one (hears_comment s st4)) (fun st5 => ?_)
  refine hears_orElse (hears_one (hears_weaken (fun _ _ _ => parts_form) (hears_application hp s st5))) (fun st6 => ?_)
  refine hears_orElse (hears_one (hears_weaken (fun _ _ _ => parts_str) (hears_quote s st6))) (fun st7 => ?_)
  exact hears_one (hears_remark s st7)

/-! ## Where nothing is recognised, nothing begins -/

/-- If the rule recognises nothing, then `A` holds. -/
def Misses (A : Prop) (s : Src) (r : Src × Option α) (_ : PSt) : Prop := r.2 = none → r.1 = s ∧ A

theorem misses_some {A : Prop} {s r : Src} {st : PSt} {x : α} :
    Sat True (pure (r, some x) : PM (Src × Option α)) st (Misses A s) := sat_pure (fun h => by cases h)

theorem misses_noMatch {A : Prop} {s : Src} {st : PSt} (h : A) : Sat True (noMatch s : PM (Src × Option α)) st (Misses A s) :=
  sat_pure (fun _ => ⟨rfl, h⟩)

/-- Both rules are tried at the same place. -/
theorem misses_orElse {A B : Prop} {s : Src} {st : PSt} {r : PM (Src × Option α)}
    {next : Src → PM (Src × Option α)} (h1 : Sat True r st (Misses A s)) (h2 : ∀ st', Sat True (next s) st' (Misses B s)) :
    Sat True (orElse r next) st (Misses (A ∧ B) s) := by
  refine sat_bind (sat_mono h1 id ?_)
  rintro ⟨s1, leg⟩ st1 hq
  cases leg with
  | some x => exact sat_pure (fun h => by cases h)
  | none =>
    obtain ⟨h3, ha⟩ := hq rfl
    cases (h3 : s1 = s)
    refine sat_mono (h2 st1) id ?_
    intro a st' hb hn
    obtain ⟨h4, h5⟩ := hb hn
    exact ⟨h4, ha, h5⟩

theorem misses_of_hears {K : α → Str → Str → Prop} {r : PM (Src × Option α)} {s : Src} {st : PSt}
    (h : Sat True r st (Hears K s)) : Sat True r st (Misses True s) := by
  refine sat_mono h id ?_
  rintro ⟨s1, leg⟩ st1 hq hn
  cases hn
  exact ⟨hq, trivial⟩

theorem misses_one {A : Prop} {r : PM (Src × Option Node)} {s : Src} {st : PSt} (h : Sat True r st (Misses A s)) :
    Sat True (do
      let (s, leg) ← r
      pure (s, leg.map ([·])) : PM (Src × Option (List Node))) st (Misses A s) := by
  refine sat_bind (sat_mono h id ?_)
  rintro ⟨s2, leg⟩ st2 hq
  cases leg with
  | none => exact sat_pure (fun _ => hq rfl)
  | some x => exact sat_pure (fun h => by cases h)

theorem misses_quoted (s : Src) (st : PSt) :
    Sat True (psQuoted s) st (Misses (s.starts kBquote = false ∧ s.starts kQuote = false) s) := by
  unfold psQuoted
  by_cases h1 : s.starts kBquote = true
  · rw [if_pos h1]
    dsimp only
    rw [if_neg (by decide)]
    split
    · exact misses_some
    · exact misses_some
    · exact sat_err
  · rw [if_neg h1]
    by_cases h2 : s.starts kQuote = true
    · rw [if_pos h2]
      dsimp only
      rw [if_neg (by decide)]
      split
      · exact misses_some
      · exact misses_some
      · exact sat_err
    · rw [if_neg h2]
      exact misses_noMatch ⟨by simpa using h1, by simpa using h2⟩

theorem misses_quote (s : Src) (st : PSt) :
    Sat True (psQuote e s) st (Misses ((s.starts kBquote = false ∧ s.starts kQuote = false) ∧ ¬ StartsLiteral (modeOf e) s.txt) s) := by
  have w : ¬ StartsLiteral (modeOf e) s.txt → Sat True (psQuoted s) st
      (Misses ((s.starts kBquote = false ∧ s.starts kQuote = false) ∧ ¬ StartsLiteral (modeOf e) s.txt) s) := by
    intro hl
    refine sat_mono (misses_quoted s st) id ?_
    intro a st' hq hn
    exact ⟨(hq hn).1, (hq hn).2, hl⟩
  unfold psQuote
  split
  · rename_i hm
    split
    · exact misses_some
    · exact sat_err
    · rename_i hn
      exact w (fun hl => pyStrLen_begun (m := modeOf e) hm hl hn)
  · rename_i hm
    split
    · exact misses_some
    · rename_i hn
      exact w (fun hl => cStrLen_begun (m := modeOf e) (show e.outputPython = false by simpa using hm) hl hn)

theorem misses_remark (s : Src) (st : PSt) :
    Sat True (psRemark e s) st (Misses (¬ StartsRemark (modeOf e).remarks s.txt) s) := by
  unfold psRemark modeOf
  cases e.skip with
  | none => exact misses_noMatch (fun h => h)
  | c =>
    dsimp only
    split
    · exact misses_some
    · exact sat_err
    · rename_i hn
      refine misses_noMatch (fun h => ?_)
      unfold remarkCLen at hn
      rcases h with h | h
      · rw [if_pos (List.isPrefixOf_iff_prefix.mpr h)] at hn
        cases hn
      · obtain ⟨t, ht⟩ := h
        rw [← ht] at hn
        rw [if_neg (by simp [List.isPrefixOf]), if_pos (by simp [List.isPrefixOf])] at hn
        split at hn <;> cases hn
  | python =>
    dsimp only
    split
    · exact misses_some
    · exact sat_err
    · rename_i hn
      refine misses_noMatch (fun h => ?_)
      obtain ⟨t, ht⟩ := h
      rw [← ht] at hn
      cases hn

theorem misses_text {stop : Stop} {t : TextSt} {f : List Node → Node} {A : Prop} {s : Src} {st : PSt} : Sat True (do
      let (rest, ast) ← p.text stop t
      pure (rest, some (f ast)) : PM (Src × Option Node)) st (Misses A s) := by
  refine sat_bind (sat_any _ _ (fun _ _ => ?_))
  exact misses_some

theorem misses_application (s : Src) (st : PSt) :
    Sat True (psApplication p s) st (Misses (s.starts kApply = false ∨ s.starts kQuote = true) s) := by
  unfold psApplication
  split
  · rename_i h
    exact misses_noMatch (.inl (by simpa using h))
  rename_i hk
  have hk : s.starts kApply = true := by simpa using hk
  obtain ⟨t, ht⟩ := starts_inv hk
  have h1 : s.at ']' = false := at_false (by rw [ht]; simp [kApply])
  have h2 : s.at '[' = false := at_false (by rw [ht]; simp [kApply])
  have h3 : s.at '{' = false := at_false (by rw [ht]; simp [kApply])
  split
  · rename_i h
    exact misses_noMatch (.inr h)
  split
  · rename_i hc
    unfold psCode
    dsimp only
    rw [h1, h2, if_neg (by simp), if_neg (by simp), if_pos hc]
    exact misses_text
  split
  · rename_i hc
    unfold psEmit
    rw [if_pos hc]
    refine sat_bind (sat_any _ _ (fun v _ => ?_))
    obtain ⟨s2, v⟩ := v
    dsimp only
    cases v with
    | none => exact sat_err
    | some v =>
      refine sat_bind (sat_any _ _ (fun v _ => ?_))
      refine sat_bind (sat_any _ _ (fun _ _ => ?_))
      exact misses_some
  split
  · rename_i hc
    unfold psInfix
    rw [h3, if_neg (by simp), if_pos hc]
    refine sat_bind (sat_any _ _ (fun _ _ => ?_))
    exact misses_some
  dsimp only
  refine sat_bind (sat_any _ _ (fun v _ => ?_))
  obtain ⟨s4, leg⟩ := v
  cases leg with
  | none => exact sat_err
  | some f =>
    refine sat_bind (sat_any _ _ (fun v _ => ?_))
    obtain ⟨s5, a5, n5⟩ := v
    dsimp only
    split
    · exact misses_some
    · exact sat_err

/-- Where the text rule recognises nothing, neither a form nor a literal nor a remark begins. -/
theorem misses_leg (hp : Truthful e p) (s : Src) (st : PSt) : Sat True (psTextLeg e p s) st
    (Misses (¬ ['(', '$'] <+: s.txt ∧ ¬ ['(', '`'] <+: s.txt ∧ ¬ StartsLiteral (modeOf e) s.txt ∧
      ¬ StartsRemark (modeOf e).remarks s.txt) s) := by
  have h : Sat True (psTextLeg e p s) st (Misses (True ∧ True ∧ True ∧ True ∧ True ∧
      (s.starts kApply = false ∨ s.starts kQuote = true) ∧
      ((s.starts kBquote = false ∧ s.starts kQuote = false) ∧ ¬ StartsLiteral (modeOf e) s.txt) ∧
      ¬ StartsRemark (modeOf e).remarks s.txt) s) := by
    unfold psTextLeg
    dsimp only
    refine misses_orElse (misses_one (misses_of_hears (hears_set hp s st))) (fun st1 => ?_)
    refine misses_orElse (misses_one (misses_of_hears (hears_let hp s st1))) (fun st2 => ?_)
    refine misses_orElse (misses_of_hears (hears_import hp s st2)) (fun st3 => ?_)
    refine misses_orElse (misses_one (misses_of_hears (hears_macro (e := e) s st3))) (fun st4 => ?_)
    refine misses_orElse (misses_one (misses_of_hears (hears_comment (e := e) s st4))) (fun st5 => ?_)
    refine misses_orElse (misses_one (misses_application s st5)) (fun st6 => ?_)
    refine misses_orElse (misses_one (misses_quote s st6)) (fun st7 => ?_)
    exact misses_one (misses_remark s st7)
  refine sat_mono h id ?_
  intro a st' hm hn
  obtain ⟨h0, -, -, -, -, -, h1, ⟨⟨h2, h3⟩, h4⟩, h5⟩ := hm hn
  refine ⟨h0, fun hh => ?_, fun hh => ?_, h4, h5⟩
  · rcases h1 with h1 | h1
    · rw [show s.starts kApply = true from List.isPrefixOf_iff_prefix.mpr hh] at h1; cases h1
    · rw [h3] at h1; cases h1
  · rw [show s.starts kBquote = true from List.isPrefixOf_iff_prefix.mpr hh] at h2; cases h2

/-! ## Texts -/

/-- One more character of plain text. -/
theorem plainStep_written {t t' : TextSt}
    (hg : ∀ g, t.gen = some g → t.sou = g.start.drop g.i ∧ ∃ pre i b, t.ast = pre ++ [.plain (g.start.take g.i) i b])
    (h : plainStep t = some t') : ∃ c, t.sou.txt = c :: t'.sou.txt ∧ Admissible c ∧
      textParts t'.ast = textParts t.ast ++ [.char c] ∧ t'.sq = opened '[' ']' t.sq c ∧ t'.pth = opened '(' ')' t.pth c ∧
      (∀ g, t'.gen = some g → t'.sou = g.start.drop g.i ∧ ∃ pre i b, t'.ast = pre ++ [.plain (g.start.take g.i) i b]) := by
  unfold plainStep at h
  cases hsou : t.sou.txt with
  | nil => simp [hsou] at h
  | cons c cs =>
    have hd : (t.sou.drop 1).txt = cs := by rw [Src.drop_txt, hsou]; rfl
    cases hgen : t.gen with
    | none =>
      simp only [hgen, hsou] at h
      split at h
      · cases h
      · rename_i ha
        cases h
        refine ⟨c, by rw [hd], (isAny_iff c).mp (by simpa using ha), ?_, rfl, rfl, ?_⟩
        · rw [textParts_append]
          simp [textParts, Src.take_txt, hsou]
        · intro g hg'
          cases hg'
          exact ⟨rfl, _, _, _, rfl⟩
    | some g =>
      obtain ⟨h1, pre, i, b, h2⟩ := hg g hgen
      simp only [hgen, hsou] at h
      split at h
      · cases h
      · rename_i ha
        cases h
        refine ⟨c, by rw [hd], (isAny_iff c).mp (by simpa using ha), ?_, rfl, rfl, ?_⟩
        · rw [h2, List.dropLast_concat, textParts_append, textParts_append]
          have h3 : g.start.txt.drop g.i = c :: cs := by rw [← hsou, h1, Src.drop_txt]
          have h4 : g.start.txt.take (g.i + 1) = g.start.txt.take g.i ++ [c] := by
            rw [List.take_add, h3]; rfl
          simp [textParts, Src.take_txt, h4]
        · intro g' hg'
          cases hg'
          exact ⟨by dsimp only; rw [h1, Src.drop_drop], _, _, _, rfl⟩

theorem sat_and {α : Type} {m : PM α} {st : PSt} {Q R : α → PSt → Prop} (h1 : Sat True m st Q) (h2 : Sat True m st R) :
    Sat True m st (fun a st' => Q a st' ∧ R a st') := by
  unfold Sat at *
  split
  · rename_i a st' ha
    rw [ha] at h1 h2
    exact ⟨h1, h2⟩
  · trivial
  · trivial

theorem hears_text (hp : Truthful e p) (k : TextEnd) (t : TextSt) (st : PSt)
    (hg : ∀ g, t.gen = some g → t.sou = g.start.drop g.i ∧ ∃ pre i b, t.ast = pre ++ [.plain (g.start.take g.i) i b]) :
    Sat True (psText e p (stopOf k) t) st (fun r _ => ∃ xs, textParts r.2 = textParts t.ast ++ xs ∧
      Accepts (modeOf e) (.text k t.sq t.pth xs) t.sou.txt r.1.txt) := by
  unfold psText
  refine sat_bind (sat_mono (sat_and (hears_leg hp t.sou st) (misses_leg hp t.sou st)) id ?_)
  rintro ⟨s1, leg⟩ st1 ⟨hq, hm⟩
  cases leg with
  | some ns =>
    have hq : PartsHeard e ns t.sou.txt s1.txt := hq
    refine sat_mono (hp.text k _ st1 (fun g hg => by cases hg)) id ?_
    rintro ⟨s2, ast⟩ st2 ⟨xs, h1, h2⟩
    refine ⟨textParts ns ++ xs, ?_, hq _ _ _ _ _ h2⟩
    rw [h1, textParts_append, List.append_assoc]
  | none =>
    obtain ⟨h0, h1, h2, h3, h4⟩ := hm rfl
    cases (h0 : s1 = t.sou)
    dsimp only
    split
    · rename_i rest hr
      exact sat_pure ⟨[], by simp, .textEnd (ends_stopAt hr)⟩
    · rename_i hs
      cases ht : plainStep t with
      | none => exact sat_err
      | some t' =>
        obtain ⟨c, h5, h6, h7, h8, h9, h10⟩ := plainStep_written hg ht
        refine sat_bind (m := PM.ofOption (some t')) (sat_pure' ?_)
        refine sat_mono (hp.text k t' st1 h10) id ?_
        rintro ⟨s3, ast⟩ st3 ⟨xs, h11, h12⟩
        refine ⟨.char c :: xs, by rw [h11, h7]; simp, ?_⟩
        rw [h8, h9] at h12
        rw [h5] at h1 h2 h3 h4 ⊢
        refine .textChar ⟨h6, fun r hr => ?_, h1, h2, h3, h4⟩ h12
        obtain ⟨src', -, h13⟩ := stopAt_ends hr h5
        rw [hs] at h13
        cases h13

theorem Truthful.step (hp : Truthful e p) : Truthful e (p.step e) where
  form := hears_form hp
  args := hears_args hp
  items := hears_items hp
  bounds := hears_bounds hp
  text := hears_text hp

end

/-- Whatever the parser recognises, it recognises by the grammar. -/
theorem P_truthful (e : PEnv) : ∀ n, Truthful e (P e n)
  | 0 => Truthful.bot e
  | n + 1 => (P_truthful e n).step

end Yupp
