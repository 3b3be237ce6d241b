import Verif.Spec.PyString
import Verif.Props.Mixed
/-!
# String literals of Python sources: C77
-/

namespace Yupp

variable {e : PEnv}

theorem InsideLines.plain {q : Char} {b : Str} (h : InsideLines q b) (hn : '\n' ∉ b) : Inside q b := by
  induction h with
  | nil => exact .nil
  | char h1 h2 h3 _ ih => exact .char h1 h2 h3 (ih (fun h => hn (by simp [h])))
  | escape _ ih => exact .escape (fun hc => hn (by simp [hc])) (ih (fun h => hn (by simp [h])))

theorem InsideLines.first {q : Char} {b : Str} (h : InsideLines q b) (hn : '\n' ∈ b) :
    ∃ a t, b = a ++ '\\' :: '\n' :: t ∧ Inside q a ∧ InsideLines q t := by
  induction h with
  | nil => cases hn
  | @char c s h1 h2 h3 hs ih =>
    obtain ⟨a, t, rfl, ha, ht⟩ := ih (by simpa [Ne.symm h3] using hn)
    exact ⟨c :: a, t, rfl, .char h1 h2 h3 ha, ht⟩
  | @escape c s hs ih =>
    by_cases hc : c = '\n'
    · subst hc
      exact ⟨[], s, rfl, .nil, hs⟩
    · obtain ⟨a, t, rfl, ha, ht⟩ := ih (by simpa [Ne.symm hc] using hn)
      exact ⟨'\\' :: c :: a, t, rfl, .escape hc ha, ht⟩

theorem PyLiteral.text {m : Mode} (hm : m.python = true) {l s : Str} (h : PyLiteral l s) (hl : ¬ ApostropheContinued l) :
    TextLiteral m l s := by
  cases h with
  | @long p q b _ hp hq hb => exact .long hm hp hq hb
  | @short p q b _ hp hq hb hx =>
    by_cases hn : '\n' ∈ b
    · obtain ⟨a, t, rfl, ha, ht⟩ := hb.first hn
      have hx : p ++ q :: (a ++ '\\' :: '\n' :: t ++ [q]) = p ++ q :: (a ++ '\\' :: '\n' :: (t ++ [q])) := by simp
      rw [hx] at hl ⊢
      refine .lines hm hp hq ha ?_ ht
      rcases hq with rfl | rfl
      · refine .inr ⟨?_, rfl⟩
        intro h
        rcases List.mem_cons.mp h with h | h
        · cases h
        · exact hl ⟨p, a, _, hp, ha, h, rfl⟩
      · exact .inl ⟨List.mem_cons_self .., rfl⟩
    · exact .py hm hp hq (hb.plain hn) hx

theorem text_passes_literal {l s : Str} (h : TextLiteral (modeOf e) l s) (n : Nat) (k : Stop) (t : TextSt)
    (ht : t.sou.txt = l ++ s) (st : PSt) :
    ∃ x : Src, x.txt = l ∧ (P e (n + 1)).text k t st =
      (P e n).text k { t with sou := t.sou.drop l.length, ast := t.ast ++ [.str x], gen := none } st := by
  obtain ⟨h1, x, hx, hq⟩ := h.quote ht
  refine ⟨x, hx, ?_⟩
  change psText e (P e n) k t st = _
  unfold psText
  rw [textLeg_plain _ h1, hq]
  rfl

/-- **C77**. In a Python source, wherever the reading of a text has come to a string literal of Python, the whole literal is
    taken as one piece and left alone, whatever is inside it — application signs, quotes of the other kind, comment signs,
    line ends — and the reading goes on behind it. (The exception is `C77_apostrophe`.) -/
theorem C77_literal (he : e.outputPython = true) {l s : Str} (h : PyLiteral l s) (hl : ¬ ApostropheContinued l) (n : Nat)
    (k : Stop) (t : TextSt) (ht : t.sou.txt = l ++ s) (st : PSt) :
    ∃ x : Src, x.txt = l ∧ (P e (n + 1)).text k t st =
      (P e n).text k { t with sou := t.sou.drop l.length, ast := t.ast ++ [.str x], gen := none } st :=
  text_passes_literal (h.text he hl) n k t ht st

/-- **C77**. A file with a literal at its beginning, if the rest follows the grammar: the tree has the literal, and then the
    rest. -/
theorem C77_file (he : e.outputPython = true) (input : Option Str) {l s : Str} {xs : ExprText} (h : PyLiteral l s)
    (hl : ¬ ApostropheContinued l) (hs : Reads (modeOf e) (.text .file 0 0 xs) s []) (hcr : '\r' ∉ l ++ s)
    (hm : ¬ MagicFirst e.word (l ++ s) ∧ ¬ MagicSecond e.word (l ++ s)) :
    ∃ nodes, TextTrees true (.str l xs) nodes ∧ ∃ N, ∀ n, N ≤ n →
      (P e n).parse e.inputFile (PSt.start e input (l ++ s)) = .ok (nodes, PSt.start e input (l ++ s)) := by
  have hne : l ++ s ≠ [] := by cases h <;> simp
  obtain ⟨nodes, h1, -, h2⟩ := C61_file e input (.textLiteral (h.text he hl) hs) hne hcr (fun _ => hm)
  exact ⟨nodes, h1, h2⟩

theorem text_raises {t : TextSt} (he : e.outputPython = true) (h1 : ¬ ['(', '$'] <+: t.sou.txt)
    (hr : pyStrLen t.sou.txt = .raises) (n : Nat) (k : Stop) (st : PSt) : (P e (n + 1)).text k t st = .err := by
  change psText e (P e n) k t st = _
  unfold psText
  rw [textLeg_plain _ h1]
  unfold psQuote
  rw [he, hr]
  rfl

/-- **C77**. If three quotation marks are opened in a Python source and never closed, the translation fails: the rest is not
    taken as plain text. -/
theorem C77_unended (he : e.outputPython = true) {p : Str} {q : Char} {u : Str} (hp : LiteralPrefix p) (hq : QuoteMark q)
    (hu : ∀ a r, InsideLong q a → u ≠ a ++ q :: q :: q :: r) (n : Nat) (k : Stop) (t : TextSt)
    (ht : t.sou.txt = p ++ q :: q :: q :: u) (st : PSt) : (P e (n + 1)).text k t st = .err :=
  text_raises he (by rw [ht]; exact hp.no_form hq _) (by rw [ht]; exact pyStrLen_unended hp hq hu) n k st

/-- **C77**, finding. A literal in double quotes that is continued on the next line, with an apostrophe in its first line
    `a`, is taken to end at the first apostrophe of the following lines, `b` being what is before it. -/
theorem C77_apostrophe (he : e.outputPython = true) {p a b s : Str} (hp : LiteralPrefix p) (ha : Inside '"' a) (hq : '\'' ∈ a)
    (hb : InsideLines '\'' b) (n : Nat) (k : Stop) (t : TextSt)
    (ht : t.sou.txt = p ++ '"' :: (a ++ '\\' :: '\n' :: (b ++ '\'' :: s))) (st : PSt) :
    ∃ x : Src, x.txt = p ++ '"' :: (a ++ '\\' :: '\n' :: (b ++ ['\''])) ∧ ∃ src : Src, src.txt = s ∧
      (P e (n + 1)).text k t st = (P e n).text k { t with sou := src, ast := t.ast ++ [.str x], gen := none } st := by
  have hl : TextLiteral (modeOf e) (p ++ '"' :: (a ++ '\\' :: '\n' :: (b ++ ['\'']))) s :=
    .lines he hp (.inl rfl) ha (.inl ⟨List.mem_cons_of_mem _ hq, rfl⟩) hb
  have ht' : t.sou.txt = p ++ '"' :: (a ++ '\\' :: '\n' :: (b ++ ['\''])) ++ s := by rw [ht]; simp
  obtain ⟨x, hx, h⟩ := text_passes_literal hl n k t ht' st
  exact ⟨x, hx, _, by rw [Src.drop_txt, ht', List.drop_left], h⟩

theorem py1Tail_nothing {q : Char} : ∀ {b : Str}, q ∉ b → '\\' ∉ b → py1Tail q b = none
  | [], _, _ => rfl
  | c :: b, h1, h2 => by
    rw [py1Tail.eq_def]
    dsimp only
    rw [if_neg (fun hc => h1 (by simp [hc])), if_neg (fun hc => h2 (by simp [hc])),
      py1Tail_nothing (fun h => h1 (by simp [h])) (fun h => h2 (by simp [h]))]
    rfl

/-- **C77**, finding. .. and if the next line `b` has no apostrophe (nor a backslash), the translation fails, although the
    literal may be a correct one. -/
theorem C77_apostrophe_fails (he : e.outputPython = true) {p a b s : Str} (hp : LiteralPrefix p) (ha : Inside '"' a)
    (hq : '\'' ∈ a) (hb : ∀ c ∈ b, c ≠ '\'' ∧ c ≠ '\\' ∧ c ≠ '\n') (n : Nat) (k : Stop) (t : TextSt)
    (ht : t.sou.txt = p ++ '"' :: (a ++ '\\' :: '\n' :: (b ++ '\n' :: s))) (st : PSt) : (P e (n + 1)).text k t st = .err := by
  refine text_raises he (by rw [ht]; exact hp.no_form (.inl rfl) _) ?_ n k st
  rw [ht, pyStrLen_continued hp (.inl rfl) ha, if_pos (.inr hq)]
  have hbn : '\n' ∉ b := fun h => (hb _ h).2.2 rfl
  have h1 : py1Tail '\'' (b ++ ['\n']) = none := by
    refine py1Tail_nothing ?_ ?_
    · simp only [List.mem_append, List.mem_singleton]
      rintro (h | h)
      · exact (hb _ h).1 rfl
      · cases h
    · simp only [List.mem_append, List.mem_singleton]
      rintro (h | h)
      · exact (hb _ h).2.1 rfl
      · cases h
  have hln := take_line_end b s hbn
  have hr : ¬ ['\n', '\\'].isPrefixOf (b ++ ['\n']).reverse = true := by
    rw [List.isPrefixOf_iff_prefix, List.reverse_append]
    intro h
    have h := (pre_cons.mp h).2
    cases hrev : b.reverse with
    | nil =>
      have h : ['\\'] <+: b.reverse := h
      rw [hrev] at h
      exact absurd (List.prefix_nil.mp h) (by simp)
    | cons c r =>
      have h : ['\\'] <+: b.reverse := h
      rw [hrev] at h
      have hc : c ∈ b := List.mem_reverse.mp (by rw [hrev]; exact List.mem_cons_self ..)
      exact (hb _ hc).2.1 (pre_cons.mp h).1.symm
  cases hbs : b ++ '\n' :: s with
  | nil => simp at hbs
  | cons c r =>
    rw [hbs] at hln
    rw [pyLines]
    simp only [hln, h1]
    rw [if_pos (by rw [Bool.eq_false_iff.mpr hr]; rfl)]

/-! ## Concrete cases -/

/-- `r"""a "b" ($ x) \` … `'"""` -/
example : PyLiteral (['r', '"', '"', '"'] ++ (['a', '"', '"', 'b', '(', '$', ' ', 'x', ')', '\\', '"', '\n', '\''] ++ ['"', '"', '"']))
    ['\n'] :=
  .long (p := ['r']) (.inr (.inr (.inl ⟨'r', .inl rfl, rfl⟩))) (.inl rfl) (by
    repeat first
      | exact .nil
      | refine .escape ?_
      | refine .char (by decide) (by decide) ?_)

/-- `'it\` … `is "so"'` -/
example : PyLiteral ('\'' :: (['i', 't', '\\', '\n', 'i', 's', ' ', '"', 's', 'o', '"'] ++ ['\''])) ['\n'] :=
  .short (p := []) (.inl rfl) (.inr rfl) (by
    repeat first
      | exact .nil
      | refine .escape ?_
      | refine .char (by decide) (by decide) (by decide) ?_) (.inl (by decide))

/-- `"it's \` … `so"`: a literal of Python, but the translation fails. -/
example : PyLiteral ('"' :: (['i', 't', '\'', 's', '\\', '\n', 's', 'o'] ++ ['"'])) ['\n'] ∧
    ∀ (e : PEnv), e.outputPython = true → ∀ n st, (P e (n + 1)).text .eof
      { sou := { txt := '"' :: (['i', 't', '\'', 's', '\\', '\n', 's', 'o'] ++ ['"']) ++ ['\n'] } } st = .err := by
  refine ⟨.short (p := []) (.inl rfl) (.inl rfl) (by
    repeat first
      | exact .nil
      | refine .escape ?_
      | refine .char (by decide) (by decide) (by decide) ?_) (.inl (by decide)), fun e he n st => ?_⟩
  refine C77_apostrophe_fails he (p := []) (a := ['i', 't', '\'', 's']) (b := ['s', 'o', '"']) (s := []) (.inl rfl) ?_ (by decide)
    (by decide) n _ _ rfl st
  repeat first
    | exact .nil
    | refine .char (by decide) (by decide) (by decide) ?_

example : ∀ a r, InsideLong '"' a → (['a', '"', '"', '\n'] : Str) ≠ a ++ '"' :: '"' :: '"' :: r := by
  intro a r _ h
  have := congrArg (List.count '"') h
  simp at this
  have h2 := congrArg List.length h
  simp at h2
  omega

end Yupp
