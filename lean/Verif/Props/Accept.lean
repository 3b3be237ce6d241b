import Verif.Lemmas.AcceptText
import Verif.Props.StdlibText
/-!
# C96: what the parser accepts is written according to the grammar
-/

namespace Yupp

open PM (Sat)

/-! ## The grammar itself: every form is closed -/

theorem suf_app {a s r : Str} (h : r <:+ s) : r <:+ a ++ s := h.trans (List.suffix_append _ _)

theorem suf_cons {c : Char} {s r : Str} (h : r <:+ s) : r <:+ c :: s := h.trans (List.suffix_cons _ _)

theorem suf_self (r : Str) : r <:+ r := List.suffix_refl r

theorem closing_suf {tag s r : Str} (h : Closing tag s r) : ')' :: r <:+ s := by
  cases h with
  | plain => exact suf_self _
  | tag => exact suf_cons (suf_app (suf_app (suf_self _)))

theorem ends_suf {k : TextEnd} {sq pth : Nat} {s r : Str} (h : EndsAt k sq pth s r) : r <:+ s := by
  cases h with
  | file => exact suf_self _
  | lines => exact suf_cons (suf_app (suf_cons (suf_self _)))
  | lines' => exact suf_cons (suf_app (suf_cons (suf_cons (suf_self _))))
  | bracket => exact suf_cons (suf_self _)
  | bracket' => exact suf_cons (suf_cons (suf_self _))
  | square => exact suf_cons (suf_self _)
  | paren => exact suf_cons (suf_self _)
  | semi => exact suf_cons (suf_cons (suf_self _))
  | comma => exact suf_self _
  | close => exact suf_self _
  | tag => exact suf_self _
  | brace => exact suf_cons (suf_self _)

/-- The end of what is recognised. -/
def EndsWell : Heard → Str → Str → Prop
  | .body _, s, r => r <:+ s ∧ (s.head? = some '(' → ')' :: r <:+ s)
  | .items _, s, r => ')' :: r <:+ s
  | .text k _ _ _, s, r => r <:+ s ∧ (k = .paren → ')' :: r <:+ s) ∧ (k = .file → r = [])
  | _, s, r => r <:+ s

theorem suf_close {r s : Str} (h : ')' :: r <:+ s) : r <:+ s := (suf_cons (suf_self r)).trans h

theorem through {k : TextEnd} {s s' r : Str} (h : s' <:+ s)
    (ih : r <:+ s' ∧ (k = .paren → ')' :: r <:+ s') ∧ (k = .file → r = [])) :
    r <:+ s ∧ (k = .paren → ')' :: r <:+ s) ∧ (k = .file → r = []) :=
  ⟨ih.1.trans h, fun hk => (ih.2.1 hk).trans h, ih.2.2⟩

theorem accepts_ends {m : Mode} {k : Heard} {s r : Str} (h : Accepts m k s r) : EndsWell k s r := by
  have two : ∀ {r s : Str}, ')' :: r <:+ s → r <:+ s ∧ (s.head? = some '(' → ')' :: r <:+ s) :=
    fun h => ⟨suf_close h, fun _ => h⟩
  induction h with
  | one _ _ ih => exact (suf_app (suf_self _)).trans ih
  | cond _ _ _ _ _ _ _ ih1 ih2 ih3 =>
    exact (suf_app (suf_cons (suf_app ((suf_app (suf_cons (suf_app ih3))).trans ih2)))).trans ih1
  | «when» _ _ _ _ _ ih1 ih2 =>
    exact (suf_app (suf_cons (suf_app ((suf_app (suf_self _)).trans ih2)))).trans ih1
  | name _ => exact suf_app (suf_self _)
  | int _ _ => exact suf_app (suf_self _)
  | float _ _ => exact suf_app (suf_self _)
  | literal _ => exact suf_app (suf_self _)
  | quote _ => exact suf_cons (suf_cons (suf_app (suf_cons (suf_self _))))
  | quote' _ => exact suf_cons (suf_cons (suf_cons (suf_cons (suf_cons (suf_cons (suf_cons (suf_app (suf_cons (suf_self _)))))))))
  | fn _ _ _ ih1 ih2 => exact ih2.1.trans ih1
  | fnOf _ _ _ _ _ ih => exact suf_cons (suf_cons (suf_app (suf_app (suf_app (suf_cons (suf_cons (suf_app ih.1)))))))
  | former _ ih => exact ih.1
  | list _ _ ih => exact two (suf_cons (suf_app ih))
  | app _ _ _ _ ih1 ih2 => exact two (suf_cons (suf_cons (suf_app (((suf_app (suf_self _)).trans ih2).trans ih1))))
  | eval _ _ _ _ ih1 ih2 => exact two (suf_cons (suf_cons (suf_cons (suf_app (((suf_app (suf_self _)).trans ih2).trans ih1)))))
  | letIn _ _ _ _ _ _ _ hc ih1 ih2 =>
    exact two (suf_cons (suf_cons (suf_cons (suf_cons (suf_cons (suf_app (suf_app (suf_app
      ((suf_app ((suf_app (closing_suf hc)).trans ih2)).trans ih1)))))))))
  | emit _ _ _ hc =>
    exact two (suf_cons (suf_cons (suf_cons (suf_cons (suf_cons (suf_cons (suf_app (suf_app (suf_app (closing_suf hc))))))))))
  | emitWith _ _ _ _ _ hc ih =>
    exact two (suf_cons (suf_cons (suf_cons (suf_cons (suf_cons (suf_cons (suf_app (suf_app (suf_app
      ((suf_app (closing_suf hc)).trans ih))))))))))
  | itemsEnd => exact suf_self _
  | item _ _ _ ih1 ih2 => exact (suf_app ih2).trans ih1
  | itemEmbed _ _ _ _ ih1 ih2 => exact suf_cons (suf_app ((suf_app ih2).trans ih1))
  | argsEnd _ => exact suf_app (suf_self _)
  | argsTag _ _ _ => exact suf_app (suf_cons (suf_app (suf_app (suf_self _))))
  | arg _ _ _ ih1 ih2 => exact suf_app (ih2.trans ih1)
  | argEmbed _ _ _ _ ih1 ih2 => exact suf_app (suf_cons (suf_app (ih2.trans ih1)))
  | argNamed _ _ _ _ _ _ ih1 ih2 => exact suf_app (suf_cons (suf_app (suf_app (ih2.trans ih1))))
  | paramsEnd _ => exact suf_self _
  | late _ _ _ ih => exact suf_cons (suf_app (suf_cons (suf_cons (suf_app ih))))
  | lateDflt _ _ _ _ ih1 ih2 => exact suf_cons (suf_app (suf_cons ((suf_cons (suf_cons (suf_app ih2))).trans ih1)))
  | par _ _ _ ih => exact suf_cons (suf_app (suf_cons (suf_app ih)))
  | dflt _ _ _ _ ih1 ih2 => exact suf_cons (suf_app (suf_cons ((suf_cons (suf_app ih2)).trans ih1)))
  | dots _ _ ih => exact suf_cons (suf_cons (suf_cons (suf_cons (suf_app ih))))
  | square _ ih => exact ⟨suf_cons ih.1, fun h => by simp at h⟩
  | code _ ih => exact two (suf_cons (suf_cons (suf_cons (suf_cons (suf_cons (suf_cons (ih.2.1 rfl)))))))
  | comma _ ih => exact ⟨suf_cons (suf_cons ih.1), fun h => by simp at h⟩
  | lines _ _ _ ih => exact ⟨suf_cons (suf_app (suf_cons ih.1)), fun h => by simp at h⟩
  | bracket _ ih => exact ⟨suf_cons ih.1, fun h => by simp at h⟩
  | brace _ ih => exact ⟨suf_cons ih.1, fun h => by simp at h⟩
  | python _ ih => exact two (suf_cons (suf_cons (suf_cons (suf_cons (ih.2.1 rfl)))))
  | textEnd h =>
    refine ⟨ends_suf h, ?_, ?_⟩
    · rintro rfl; cases h; exact suf_self _
    · rintro rfl; cases h; rfl
  | textChar _ _ ih => exact ⟨suf_cons ih.1, fun hk => suf_cons (ih.2.1 hk), ih.2.2⟩
  | textExpr _ _ _ ih1 ih2 => exact ⟨ih2.1.trans ih1.1, fun hk => (ih2.2.1 hk).trans ih1.1, ih2.2.2⟩
  | textSet _ _ _ _ _ hc _ ih1 ih2 =>
    exact through (suf_cons (suf_cons (suf_cons (suf_cons (suf_cons (suf_app (suf_app (suf_app
      ((suf_app (suf_close (closing_suf hc))).trans ih1))))))))) ih2
  | textMacro _ _ _ _ _ _ _ ih =>
    exact through (suf_cons (suf_cons (suf_cons (suf_cons (suf_cons (suf_cons (suf_cons (suf_app (suf_app (suf_app (suf_cons
      (suf_app (suf_app (suf_cons (suf_app (suf_cons (suf_self _))))))))))))))))) ih
  | textComment _ _ ih => exact through (suf_cons (suf_cons (suf_cons (suf_app (suf_cons (suf_self _)))))) ih
  | textStr _ _ ih1 ih2 => exact through ih1 ih2
  | textRemark _ _ ih => exact through (suf_app (suf_self _)) ih
  | importName _ _ _ hc _ ih =>
    exact through (suf_cons (suf_cons (suf_cons (suf_cons (suf_cons (suf_cons (suf_cons (suf_cons (suf_app (suf_app (suf_app
      (suf_close (closing_suf hc))))))))))))) ih
  | importFile _ _ _ _ hc _ ih1 ih2 =>
    exact through (suf_cons (suf_cons (suf_cons (suf_cons (suf_cons (suf_cons (suf_cons (suf_cons (suf_app
      ((suf_app (suf_close (closing_suf hc))).trans ih1)))))))))) ih2

/-- Text in front of the first form: no parenthesis, no quotation mark, no comment. -/
def Leading (m : Mode) (s : Str) : Prop :=
  (∀ c ∈ s, c ≠ '(' ∧ c ≠ '"' ∧ c ≠ '\'') ∧ (m.remarks = .c → '/' ∉ s) ∧ (m.remarks = .python → '#' ∉ s)

theorem Leading.tail {m : Mode} {c : Char} {s : Str} (h : Leading m (c :: s)) : Leading m s :=
  ⟨fun d hd => h.1 d (List.mem_cons_of_mem _ hd), fun hm hd => h.2.1 hm (List.mem_cons_of_mem _ hd),
    fun hm hd => h.2.2 hm (List.mem_cons_of_mem _ hd)⟩

theorem literal_opens {m : Mode} {l r : Str} (h : LiteralWritten m l r) : ∃ p q t, l = p ++ q :: t ∧ LiteralPrefix p ∧ QuoteMark q := by
  cases h with
  | text h =>
    cases h with
    | c _ hq _ => exact ⟨[], _, _, rfl, .inl rfl, hq⟩
    | py _ hp hq _ _ => exact ⟨_, _, _, rfl, hp, hq⟩
    | long _ hp hq _ => exact ⟨_, _, _, rfl, hp, hq⟩
    | lines _ hp hq _ _ _ => exact ⟨_, _, _, rfl, hp, hq⟩
  | lines _ hp hq _ _ => exact ⟨_, _, _, rfl, hp, hq⟩

theorem quote_no_paren {q : Char} (h : QuoteMark q) : '(' ≠ q := by
  rintro rfl
  rcases h with h | h <;> cases h

theorem prefix_no_paren {p : Str} (h : LiteralPrefix p) : '(' ∉ p := by
  rcases h with rfl | ⟨u, hu, rfl⟩ | ⟨r, hr, rfl⟩ | ⟨u, r, hu, hr, rfl⟩
  · simp
  · rcases hu with rfl | rfl <;> simp
  · rcases hr with rfl | rfl <;> simp
  · rcases hu with rfl | rfl <;> rcases hr with rfl | rfl <;> simp

theorem mem_suf {c : Char} {r s : Str} (h : c :: r <:+ s) : c ∈ s := by
  obtain ⟨a, rfl⟩ := h
  simp

/-- Where the first form of a text begins, a closing parenthesis follows. -/
theorem first_form_closed {m : Mode} {d : Char} {post r : Str} (hd : d = '$' ∨ d = '`') : ∀ (pre : Str) (sq pth : Nat) (xs : List TextPart),
    Leading m pre → Accepts m (.text .file sq pth xs) (pre ++ '(' :: d :: post) r → ')' ∈ post := by
  have hd' : d ≠ ')' := by rcases hd with rfl | rfl <;> decide
  intro pre
  induction pre with
  | nil =>
    intro sq pth xs hl h
    have fin : ')' ∈ '(' :: d :: post → ')' ∈ post := by
      intro hm
      rcases List.mem_cons.mp hm with hm | hm
      · simp at hm
      · rcases List.mem_cons.mp hm with hm | hm
        · exact absurd hm.symm hd'
        · exact hm
    rw [List.nil_append] at h
    generalize hs : '(' :: d :: post = s at h fin
    cases h with
    | textEnd h => cases h; cases hs
    | textChar hp _ =>
      cases hs
      rcases hd with rfl | rfl
      · exact absurd ⟨post, rfl⟩ hp.form
      · exact absurd ⟨post, rfl⟩ hp.quote
    | textExpr hb hpre _ =>
      obtain ⟨t, rfl⟩ := hpre
      exact fin (mem_suf ((accepts_ends hb).2 rfl))
    | textSet _ _ _ hx _ hc _ =>
      exact fin (mem_suf (suf_cons (suf_cons (suf_cons (suf_cons (suf_cons (suf_app (suf_app (suf_app
        ((suf_app (closing_suf hc)).trans (accepts_ends hx)))))))))))
    | textMacro => exact fin (by simp)
    | textComment => exact fin (by simp)
    | textStr hx _ =>
      cases hx with
      | literal hw =>
        exfalso
        obtain ⟨p, q, t, hq, hp, hm⟩ := literal_opens hw
        rw [hq] at hs
        cases p with
        | nil => exact quote_no_paren hm (List.cons.inj hs).1
        | cons c p => exact prefix_no_paren hp (by rw [(List.cons.inj hs).1]; exact List.mem_cons_self)
      | quote => exact fin (by simp)
      | quote' => exact fin (by simp)
      | former hb => cases hb
    | textRemark hw _ =>
      exfalso
      generalize m.remarks = k at hw
      generalize hq : (_ : Src).txt = w at hw hs
      cases hw <;> cases hs
    | importName _ _ _ hc _ =>
      exact fin (mem_suf (suf_cons (suf_cons (suf_cons (suf_cons (suf_cons (suf_cons (suf_cons (suf_cons (suf_app (suf_app (suf_app
        (closing_suf hc)))))))))))))
    | importFile _ hx _ _ hc _ =>
      exact fin (mem_suf (suf_cons (suf_cons (suf_cons (suf_cons (suf_cons (suf_cons (suf_cons (suf_cons (suf_app
        ((suf_app (closing_suf hc)).trans (accepts_ends hx))))))))))))
  | cons c pre ih =>
    intro sq pth xs hl h
    have hc := hl.1 c List.mem_cons_self
    generalize hs : c :: pre ++ '(' :: d :: post = s at h
    have no : ∀ {t : Str}, s ≠ '(' :: t := by
      intro t ht
      rw [← hs] at ht
      cases ht
      exact hc.1 rfl
    cases h with
    | textEnd h => cases h; cases hs
    | textChar _ h =>
      cases hs
      exact ih _ _ _ hl.tail h
    | textExpr hb hpre _ =>
      obtain ⟨t, rfl⟩ := hpre
      exact absurd rfl no
    | textSet => exact absurd rfl no
    | textMacro => exact absurd rfl no
    | textComment => exact absurd rfl no
    | textStr hx _ =>
      cases hx with
      | literal hw =>
        exfalso
        obtain ⟨p, q, t, hq, hp, hm⟩ := literal_opens hw
        rw [hq, List.append_assoc] at hs
        rcases List.append_eq_append_iff.mp hs with ⟨a, h1, h2⟩ | ⟨a, h1, h2⟩
        · cases a with
          | nil => exact quote_no_paren hm (List.cons.inj h2).1
          | cons x a => exact prefix_no_paren hp (by rw [h1, (List.cons.inj h2).1]; simp)
        · cases a with
          | nil => exact quote_no_paren hm (List.cons.inj h2).1.symm
          | cons x a =>
            have hq' := hl.1 q (by rw [h1, (List.cons.inj h2).1]; simp)
            rcases hm with hm | hm
            · exact hq'.2.1 hm
            · exact hq'.2.2 hm
      | quote => exact absurd rfl no
      | quote' => exact absurd rfl no
      | former hb => cases hb
    | textRemark hw _ =>
      exfalso
      generalize hk : m.remarks = k at hw
      generalize hq : (_ : Src).txt = w at hw hs
      cases hw with
      | line => exact hl.2.1 hk (by rw [(List.cons.inj hs).1]; exact List.mem_cons_self)
      | block => exact hl.2.1 hk (by rw [(List.cons.inj hs).1]; exact List.mem_cons_self)
      | python => exact hl.2.2 hk (by rw [(List.cons.inj hs).1]; exact List.mem_cons_self)
    | importName => exact absurd rfl no
    | importFile => exact absurd rfl no

/-- A text of which only characters are made is these characters. -/
theorem only_chars {m : Mode} : ∀ (w : Str) {sq pth : Nat} {s r : Str}, Accepts m (.text .file sq pth (w.map .char)) s r →
    (∀ k, ¬ ['(', '$', 'i', 'm', 'p', 'o', 'r', 't'] <+: s.drop k) → s = w := by
  intro w
  induction w with
  | nil =>
    intro sq pth s r h hi
    generalize hx : ([] : Str).map TextPart.char = xs at h
    cases h with
    | textEnd h => cases h; rfl
    | textChar => cases hx
    | textExpr => cases hx
    | textSet => cases hx
    | textMacro => cases hx
    | textComment => cases hx
    | textStr => cases hx
    | textRemark => cases hx
    | importName => exact absurd ⟨_, rfl⟩ (hi 0)
    | importFile => exact absurd ⟨_, rfl⟩ (hi 0)
  | cons c w ih =>
    intro sq pth s r h hi
    generalize hx : (c :: w).map TextPart.char = xs at h
    cases h with
    | textEnd h => cases hx
    | textChar _ h =>
      cases hx
      rw [ih h (fun k => hi (k + 1))]
    | textExpr => cases hx
    | textSet => cases hx
    | textMacro => cases hx
    | textComment => cases hx
    | textStr => cases hx
    | textRemark => cases hx
    | importName => exact absurd ⟨_, rfl⟩ (hi 0)
    | importFile => exact absurd ⟨_, rfl⟩ (hi 0)

/-! ## C96 -/

/-- **C96**. The parser accepts nothing but the grammar: a text that is accepted is written according to it, and
    the tree that is returned is that of the whole text. -/
theorem C96_text (e : PEnv) (n : Nat) (src rest : Src) (ast : List Node) (st st' : PSt)
    (h : (P e n).text .eof { sou := src } st = .ok ((rest, ast), st')) :
    Accepts (modeOf e) (.text .file 0 0 (textParts ast)) src.txt [] := by
  obtain ⟨xs, h1, h2⟩ := sat_ok ((P_truthful e n).text .file { sou := src } st (fun g hg => by cases hg)) h
  have h1 : textParts ast = xs := by simpa [textParts] using h1
  subst h1
  have h3 := (accepts_ends h2).2.2 rfl
  dsimp only at h3
  rw [h3] at h2
  exact h2

/-- **C96**. A form that is recognised is written according to the grammar. -/
theorem C96_form (e : PEnv) (n : Nat) (src rest : Src) (x : Node) (st st' : PSt)
    (h : (P e n).form src st = .ok ((rest, some x), st')) : Accepts (modeOf e) (.form x) src.txt rest.txt :=
  sat_ok ((P_truthful e n).form src st) h

theorem run_accepts {e : PEnv} {n : Nat} {s : Src} {header ast : List Node} {st st' : PSt}
    (h : psRun (P e n) s header st = .ok (ast, st')) :
    ∃ body, (ast = header ++ body ∨ ast = [] ∧ body = []) ∧ Accepts (modeOf e) (.text .file 0 0 (textParts body)) s.txt [] := by
  unfold psRun at h
  split at h
  · cases h
  · change (PM.bind ((P e n).text .eof { sou := s }) _) st = _ at h
    unfold PM.bind at h
    split at h
    · rename_i a st1 ha
      obtain ⟨rest, body⟩ := a
      refine ⟨body, ?_, C96_text e n s rest body st st1 ha⟩
      cases h
      cases body with
      | nil => exact .inr ⟨rfl, rfl⟩
      | cons => exact .inl rfl
    · cases h
    · cases h

/-- **C96**. A source text that is accepted, the input file or a library, is written according to the grammar, from
    its beginning or, for a Python input file, from behind its first lines, and its tree is what is returned. -/
theorem C96_program (e : PEnv) (n : Nat) (file : Str) (d : Decl) (txt : Str) (ast : List Node) (st st' : PSt)
    (hf : st.world.find file = some (d, txt)) (h : (P e n).parse file st = .ok (ast, st')) :
    ∃ header body rest, (ast = header ++ body ∨ ast = [] ∧ body = []) ∧ rest <:+ txt ∧
      (e.outputPython = false ∨ e.inputFile ≠ file → header = [] ∧ rest = txt) ∧
      Accepts (modeOf e) (.text .file 0 0 (textParts body)) rest [] := by
  cases n with
  | zero => cases h
  | succ n =>
    change psParse e (P e n) file st = _ at h
    unfold psParse at h
    change (match st.world.find file with | none => _ | some (_, []) => _ | some (_, txt) => _ : PM (List Node)) st = _ at h
    rw [hf] at h
    cases txt with
    | nil =>
      cases h
      exact ⟨[], [], [], .inl rfl, suf_self _, fun _ => ⟨rfl, rfl⟩, .textEnd .file⟩
    | cons c cs =>
      dsimp only at h
      have whole : psRun (P e n) { txt := c :: cs, loc := some ⟨file, 0⟩ } [] st = .ok (ast, st') →
          ∃ header body rest, (ast = header ++ body ∨ ast = [] ∧ body = []) ∧ rest <:+ c :: cs ∧
          (e.outputPython = false ∨ e.inputFile ≠ file → header = [] ∧ rest = c :: cs) ∧
          Accepts (modeOf e) (.text .file 0 0 (textParts body)) rest [] := by
        intro h
        obtain ⟨body, h1, h2⟩ := run_accepts h
        exact ⟨[], body, c :: cs, h1, suf_self _, fun _ => ⟨rfl, rfl⟩, h2⟩
      split at h
      · rename_i hk
        simp only [Bool.and_eq_true, decide_eq_true_eq] at hk
        cases hh : psHeader e.word { txt := c :: cs, loc := some ⟨file, 0⟩ } with
        | none => rw [hh] at h; exact whole h
        | some q =>
          obtain ⟨rest, header, shrink⟩ := q
          rw [hh] at h
          have h0 : SouOK st { txt := c :: cs, loc := some ⟨file, 0⟩ } :=
            ⟨file, d, c :: cs, 0, rfl, find_mem hf, Nat.zero_le _, rfl⟩
          obtain ⟨⟨k, hk1, hk2⟩, -⟩ := psHeader_some h0 hh
          obtain ⟨body, h1, h2⟩ := run_accepts h
          refine ⟨header, body, rest.txt, h1, ?_, ?_, h2⟩
          · rw [hk2, Src.drop_txt]
            exact List.drop_suffix _ _
          · rintro (h3 | h3)
            · rw [h3] at hk; cases hk.2
            · exact absurd hk.1 h3
      · exact whole h

/-- **C96**. A form is closed: what is recognised from a `(` on as a form that may be a function's body ends with
    a `)`. -/
theorem C96_closed (e : PEnv) {x : Node} {s r : Str} (h : Accepts (modeOf e) (.body x) s r) (hs : s.head? = some '(') :
    ∃ a, s = a ++ ')' :: r := by
  obtain ⟨a, ha⟩ := (accepts_ends h).2 hs
  exact ⟨a, ha.symm⟩

/-- **C96**. A program whose first form is not closed is refused: whatever stands in front of it, no tree is returned. -/
theorem C96_unclosed (e : PEnv) (n : Nat) (src : Src) (st : PSt) (pre post : Str) (d : Char) (hd : d = '$' ∨ d = '`')
    (hs : src.txt = pre ++ '(' :: d :: post) (hpre : Leading (modeOf e) pre) (hpost : ')' ∉ post) (a : Src × List Node) (st' : PSt) :
    (P e n).text .eof { sou := src } st ≠ .ok (a, st') := by
  intro h
  have h1 := C96_text e n src a.1 a.2 st st' h
  rw [hs] at h1
  exact hpost (first_form_closed hd pre 0 0 _ hpre h1)

/-- **C96**. It is refused with an error, after a number of steps that depends on its length only, if it does not
    import anything. -/
theorem C96_unclosed_error (e : PEnv) (src : Src) (st : PSt) (pre post : Str) (d : Char) (hd : d = '$' ∨ d = '`')
    (hs : src.txt = pre ++ '(' :: d :: post) (hpre : Leading (modeOf e) pre) (hpost : ')' ∉ post)
    (hi : ∀ k, ¬ ['(', '$', 'i', 'm', 'p', 'o', 'r', 't'] <+: src.txt.drop k) (n : Nat) (hn : 2 * src.txt.length + 1 ≤ n) :
    (P e n).text .eof { sou := src } st = .err := by
  obtain ⟨r, h1, h2⟩ := C17_text_terminates e st .eof src hi
  have h3 := h2 n hn
  cases hr : r with
  | ok a =>
    obtain ⟨a, st'⟩ := a
    rw [hr] at h3
    exact absurd h3 (C96_unclosed e n src st pre post d hd hs hpre hpost a st')
  | err => rw [h3, hr]
  | timeout => exact absurd hr h1

/-- **C96**. The same for a source text, the input file (unless it is Python) or a library: no tree is returned. -/
theorem C96_unclosed_file (e : PEnv) (n : Nat) (file : Str) (d : Decl) (txt pre post : Str) (c : Char) (st st' : PSt) (ast : List Node)
    (hf : st.world.find file = some (d, txt)) (hp : e.outputPython = false ∨ e.inputFile ≠ file) (hc : c = '$' ∨ c = '`')
    (ht : txt = pre ++ '(' :: c :: post) (hpre : Leading (modeOf e) pre) (hpost : ')' ∉ post) :
    (P e n).parse file st ≠ .ok (ast, st') := by
  intro h
  obtain ⟨header, body, rest, -, -, h1, h2⟩ := C96_program e n file d txt ast st st' hf h
  rw [(h1 hp).2, ht] at h2
  exact hpost (first_form_closed hc pre 0 0 _ hpre h2)

/-- **C96**. Nothing is lost or added: if the tree of a program without imports consists of plain text only, this text
    is the program. -/
theorem C96_plain (e : PEnv) (n : Nat) (src rest : Src) (ast : List Node) (w : Str) (st st' : PSt)
    (h : (P e n).text .eof { sou := src } st = .ok ((rest, ast), st')) (hw : textParts ast = w.map .char)
    (hi : ∀ k, ¬ ['(', '$', 'i', 'm', 'p', 'o', 'r', 't'] <+: src.txt.drop k) : src.txt = w := by
  have h1 := C96_text e n src rest ast st st' h
  rw [hw] at h1
  exact only_chars w h1 hi

/-! ## Examples -/

set_option maxRecDepth 100000 in
/-- A program that is accepted: text, an application, text. -/
example : okWith ((P { inputFile := ['f'] } 60).text .eof { sou := { txt := lit "a ($f [x] (1 2)) b" } } {})
    (fun r _ => r.1.txt = [] && (textParts r.2).length = 5) = true := by decide +kernel

set_option maxRecDepth 100000 in
/-- A program of plain text. -/
example : okWith ((P { inputFile := ['f'] } 60).text .eof { sou := { txt := lit "f( x );" } } {})
    (fun r _ => (textParts r.2).length = 7) = true := by decide +kernel

/-- A program with an unclosed application behind some text is refused. -/
example (e : PEnv) (n : Nat) (hn : 21 ≤ n) :
    (P e n).text .eof { sou := { txt := ['a', ' ', '(', '$', 'f', ' ', '[', 'x', ']', ';'] } } {} = .err :=
  C96_unclosed_error e _ _ ['a', ' '] ['f', ' ', '[', 'x', ']', ';'] '$' (.inl rfl) rfl
    ⟨by decide, fun _ => by decide, fun _ => by decide⟩ (by decide) (by
      intro k
      match k with
      | 0 => decide
      | 1 => decide
      | 2 => decide
      | 3 => decide
      | 4 => decide
      | 5 => decide
      | 6 => decide
      | 7 => decide
      | 8 => decide
      | 9 => decide
      | k + 10 => simp) n hn

end Yupp
