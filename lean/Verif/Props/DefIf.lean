import Verif.Props.SkipIf
/-!
# C92 — `$def-if` of the library
-/

namespace Yupp

open Spec

variable {m : Mode} {e : EEnv}

/-! ## A line is not moved -/

theorem reindent_line (cfg : Config) (i : Str) {c : Char} {t : Str} (h : ∀ d ∈ c :: t, isLineBreak d = false) (hc : blankChar c = false) :
    reindent cfg i (c :: t) = c :: t := by
  have hk := splitKeep_noBreak (c :: t) h (by simp)
  have hn := splitNL_noNL (c :: t) (fun d hd => by rintro rfl; exact absurd (h _ hd) (by decide))
  have he := emptyLine_noNL (c :: t) h
  have hc' : isBlank c = false := hc
  unfold reindent trim trimWithBrowse
  cases cfg.trimAppIndent
  · cases cfg.browse <;> simp
  · cases cfg.browse
    · obtain ⟨p, h1, -, h3⟩ := dedent_spec (c :: t)
      rw [hn] at h1 h3
      have hall : (c :: t).all blankChar = false := by simp [hc]
      have hp : p = [] := by
        obtain ⟨⟨hb, hpre⟩, -⟩ := h1 ⟨c :: t, by simp, hall⟩
        cases p with
        | nil => rfl
        | cons d p =>
          obtain ⟨_, hpre⟩ := hpre (c :: t) (by simp) hall
          simp only [List.cons_append, List.cons.injEq] at hpre
          have := hb d (by simp)
          rw [hpre.1, hc] at this
          cases this
      rw [if_neg (by simp), if_neg (by simp), h3, hp]
      simp only [List.map_cons, List.map_nil, hall, Bool.false_eq_true, if_false, List.length_nil, List.drop_zero]
      change joinStr i (splitKeep (c :: t)) = c :: t
      rw [hk]; rfl
    · simp [hk, cutLen, cutStep, he, trimLines, trimLine, spaceSplit, hc']

/-! ## Reading -/

def defIfText (a c : Str) : Str :=
  '(' :: '$' :: 's' :: 'e' :: 't' :: ([' '] ++ (a ++ ([' '] ++ '1' :: ' ' :: '?' :: ' ' :: (c ++ ' ' :: '|' :: ' ' :: '0' :: ')' :: '\n' ::
    '(' :: '$' :: 'i' :: 'f' :: ' ' :: (a ++ ' ' :: '[' :: '(' :: '$' :: 'u' :: 'n' :: 'q' :: ' ' :: '"' :: '#' :: 'd' :: 'e' :: 'f' :: 'i' :: 'n' :: 'e' :: '"' :: ')' ::
      ' ' :: (a ++ [']', ')']))))))

def defineExpr (a : Str) : ExprText :=
  .expr (.app (.name false [] ['u', 'n', 'q']) (.pos (.str ['"', '#', 'd', 'e', 'f', 'i', 'n', 'e', '"']) .nil) .nil) (.chars (' ' :: a) .nil)

def defIfExpr (a : Str) (x : Expr) : ExprText :=
  .set (.one a) (.cond x (.int 1) (.int 0)) (.chars ['\n'] (.expr (.app (.name false [] ['i', 'f'])
    (.pos (.name false [] a) (.pos (.code (defineExpr a)) .nil)) .nil) .nil))

theorem defIf_text (a c : Str) : substitute [(['c', 'o', 'n', 'd'], c), (['n', 'a', 'm', 'e'], a)] defIfBody = defIfText a c := rfl

/-- A letter, a digit or a blank in front of others and of `]`. -/
theorem square_plain {c : Char} {w r : Str} (h : ∀ d ∈ c :: w, NameChar d ∨ d = ' ') : PlainAt m .square 0 0 c (w ++ ']' :: r) := by
  have key : ∀ d : Char, (NameChar d ∨ d = ' ') → Admissible d ∧ d ≠ '"' ∧ d ≠ '\'' ∧ d ≠ '#' ∧ d ≠ '/' ∧ d ≠ '(' ∧ d ≠ ']' := by
    rintro d (hd | rfl)
    · obtain ⟨k1, -, k2, k3, k4, k5, k6, -, -⟩ := nameChar_plain hd
      exact ⟨k1, k2, k3, k4, k5, k6, by rintro rfl; revert hd; unfold NameChar NameStart; decide⟩
    · unfold Admissible; decide
  obtain ⟨k1, k2, k3, k4, k5, k6, k7⟩ := key c (h c (by simp))
  refine ⟨k1, ?_, ?_, ?_, ?_, ?_⟩
  · rintro r' h'
    cases h' with
    | square => exact k7 rfl
  · rintro ⟨_, h'⟩; simp only [List.cons_append, List.cons.injEq] at h'; exact k6 h'.1.symm
  · rintro ⟨_, h'⟩; simp only [List.cons_append, List.cons.injEq] at h'; exact k6 h'.1.symm
  · intro h'
    obtain ⟨p, q, t, hp, hq, he⟩ := literal_quote h'
    have he : (c :: w) ++ ']' :: r = p ++ q :: t := he
    have hq' : q ≠ ']' := by rintro rfl; revert hq; unfold QuoteMark; decide
    rcases List.append_eq_append_iff.1 he with ⟨as, h1, h2⟩ | ⟨bs, h1, h2⟩
    · cases as with
      | nil => simp only [List.nil_append, List.cons.injEq] at h2; exact hq' h2.1.symm
      | cons d as =>
        simp only [List.cons_append, List.cons.injEq] at h2
        have := prefix_chars hp d (by rw [h1]; simp)
        rw [← h2.1] at this
        revert this; unfold PrefixChar; decide
    · cases bs with
      | nil => simp only [List.nil_append, List.cons.injEq] at h2; exact hq' h2.1
      | cons d bs =>
        simp only [List.cons_append, List.cons.injEq] at h2
        have := key q (h q (by rw [h1, h2.1]; simp))
        rcases hq with h | h
        · exact this.2.1 h
        · exact this.2.2.1 h
  · intro h'
    cases hm : m.remarks with
    | none => rw [hm] at h'; exact h'
    | c =>
      rw [hm] at h'
      rcases h' with ⟨_, h'⟩ | ⟨_, h'⟩ <;> (simp only [List.cons_append, List.cons.injEq] at h'; exact k5 h'.1.symm)
    | python =>
      rw [hm] at h'
      obtain ⟨_, h'⟩ := h'
      simp only [List.cons_append, List.cons.injEq] at h'
      exact k4 h'.1.symm

theorem opened_plain {c : Char} (h : NameChar c ∨ c = ' ') : opened '[' ']' 0 c = 0 ∧ opened '(' ')' 0 c = 0 := by
  have : c ≠ '[' ∧ c ≠ ']' ∧ c ≠ '(' ∧ c ≠ ')' := by
    rcases h with h | rfl
    · refine ⟨?_, ?_, ?_, ?_⟩ <;> (rintro rfl; revert h; unfold NameChar NameStart; decide)
    · decide
  unfold opened
  simp [this]

theorem square_run {r : Str} : ∀ (w v : Str), (∀ d ∈ w, NameChar d ∨ d = ' ') →
    Reads m (.run .square 0 0 v (.chars (v ++ w) .nil)) (w ++ ']' :: r) r := by
  intro w
  induction w with
  | nil => intro v _; rw [List.append_nil]; exact .runEnd rfl (.textEnd .square)
  | cons c w ih =>
    intro v h
    have ho := opened_plain (h c (by simp))
    refine .runChar (square_plain h) ?_
    rw [ho.1, ho.2]
    have := ih (v ++ [c]) (fun d hd => h d (by simp [hd]))
    simpa using this

theorem square_chars {c : Char} {w r : Str} (h : ∀ d ∈ c :: w, NameChar d ∨ d = ' ') :
    Reads m (.text .square 0 0 (.chars (c :: w) .nil)) (c :: w ++ ']' :: r) r := by
  have ho := opened_plain (h c (by simp))
  refine .textChar (square_plain h) ?_
  rw [ho.1, ho.2]
  exact square_run w [c] (fun d hd => h d (by simp [hd]))

theorem name_unq : IsName ['u', 'n', 'q'] :=
  ⟨'u', ['n', 'q'], rfl, .inl (by decide), by intro x hx; unfold NameChar NameStart; revert x hx; decide⟩

theorem define_reads {a : Str} (ha : IsName a) (r : Str) :
    Reads m (.text .square 0 0 (defineExpr a))
      ('(' :: '$' :: 'u' :: 'n' :: 'q' :: ' ' :: '"' :: '#' :: 'd' :: 'e' :: 'f' :: 'i' :: 'n' :: 'e' :: '"' :: ')' :: ' ' :: (a ++ ']' :: r)) r := by
  refine .textExpr (s' := ' ' :: (a ++ ']' :: r)) ?_ ⟨_, rfl⟩ (by simp [NoDirective]) ?_
  · refine .app (g := []) isGap_nil (.inr (by simp [NoKeyword])) (form_space (.name (t := ['u', 'n', 'q']) (.plain name_unq) (ended_space _))
      (by unfold GapChar; decide) (by decide)) (.arg (notNamed_of (by simp)) (form_shut (.literal (s := ['#', 'd', 'e', 'f', 'i', 'n', 'e']) (.inl rfl) ?_ (ended_close _))) .argsEnd)
    repeat refine .char (by decide) (by decide) (by decide) ?_
    exact .nil
  · refine square_chars (c := ' ') (w := a) ?_
    intro d hd
    rcases List.mem_cons.1 hd with rfl | hd
    · exact .inr rfl
    · exact .inl (isName_chars ha d hd)

theorem digit_former (d : Char) (n : Int) (hd : (d = '0' ∧ n = 0) ∨ (d = '1' ∧ n = 1)) {r : Str} (hr : Ended r) :
    Reads m (.former (.int n)) (d :: r) r := by
  have := printInt_reads (m := m) n hr
  have h0 : printInt 0 = ['0'] := by decide +kernel
  have h1 : printInt 1 = ['1'] := by decide +kernel
  rcases hd with ⟨rfl, rfl⟩ | ⟨rfl, rfl⟩
  · rwa [h0] at this
  · rwa [h1] at this

theorem defIf_reads {a c : Str} {x : Expr} (ha : IsName a) (hc : Guard m c x) :
    Reads m (.text .file 0 0 (defIfExpr a x)) (defIfText a c) [] := by
  refine .textSet isGap_space (.one ha) isGap_space
    (.cond (g1 := [' ']) (g2 := [' ']) (g3 := [' ']) (g4 := [' ']) (digit_former '1' 1 (.inr ⟨rfl, rfl⟩) (ended_space _)) (hc.before _)
      (form_shut (digit_former '0' 0 (.inl ⟨rfl, rfl⟩) (ended_close _))) isGap_space isGap_space isGap_space isGap_space)
    .plain (.inl (noName_cons (by unfold NameChar NameStart; decide) _)) ?_
  refine chars_reads (top := true) (w := ['\n']) (plainOk_of_check m (by simp) (by decide)) rfl ?_ rfl (fun sq => ?_)
  · intro c hc; cases hc; exact .inl rfl
  refine .textExpr (s' := []) ?_ ⟨_, rfl⟩ (by simp [NoDirective]) (.textEnd .file)
  have h1 : Reads m (.form (.name false [] a)) (a ++ ' ' :: '[' :: '(' :: '$' :: 'u' :: 'n' :: 'q' :: ' ' :: '"' :: '#' :: 'd' :: 'e' :: 'f' :: 'i' :: 'n' :: 'e' :: '"' :: ')' ::
      ' ' :: (a ++ [']', ')'])) ('[' :: '(' :: '$' :: 'u' :: 'n' :: 'q' :: ' ' :: '"' :: '#' :: 'd' :: 'e' :: 'f' :: 'i' :: 'n' :: 'e' :: '"' :: ')' ::
      ' ' :: (a ++ [']', ')'])) := form_space (.name (.plain ha) (ended_space _)) (by unfold GapChar; decide) (by decide)
  have h2 : Reads m (.form (.code (defineExpr a))) ('[' :: '(' :: '$' :: 'u' :: 'n' :: 'q' :: ' ' :: '"' :: '#' :: 'd' :: 'e' :: 'f' :: 'i' :: 'n' :: 'e' :: '"' :: ')' ::
      ' ' :: (a ++ [']', ')'])) [')'] := form_shut (.former (.square (define_reads ha [')'])))
  obtain ⟨k, t, hkt, hk1, -⟩ := id ha
  have hk : ¬ GapChar k ∧ k ≠ '?' ∧ k ≠ '\\' := by
    refine ⟨(nameChar_plain (.inl hk1)).2.1, ?_, ?_⟩ <;> (rintro rfl; revert hk1; unfold NameStart; decide)
  have h0 : ∀ u, Reads m (.form (.name false [] ['i', 'f'])) ('i' :: 'f' :: ' ' :: (a ++ u)) (a ++ u) := by
    intro u
    rw [hkt]
    exact form_space (.name (t := ['i', 'f']) (.plain name_if) (ended_space _)) hk.1 hk.2.1
  refine .app (g := []) isGap_nil (.inr (by simp [NoKeyword])) (h0 _) ?_
  exact .arg (notNamed_of (by rw [hkt]; simp [hk.2.2])) h1 (.arg (notNamed_of (by simp)) h2 .argsEnd)

/-! ## The pieces -/

theorem tree_cond {c x y : Expr} {n : Node} (h : Tree (.cond c x y) n) : ∃ nc nx ny, n = .cond nc nx ny ∧ Tree c nc ∧ Tree x nx ∧ Tree y ny := by
  cases h with
  | cond h1 h2 h3 => exact ⟨_, _, _, rfl, h1, h2, h3⟩

theorem tree_code {xs : ExprText} {n : Node} (h : Tree (.code xs) n) : ∃ ns, n = .text ns ∧ TextTrees true xs ns := by
  cases h with
  | code h => exact ⟨_, rfl, h⟩

theorem define_pieces {a : Str} (ha : IsName a) {nodes : List Node} (h : TextTrees true (defineExpr a) nodes) :
    ∃ (q lw : Src) (l loc : Option Loc), q.txt = ' ' :: a ∧ lw.txt = ['"', '#', 'd', 'e', 'f', 'i', 'n', 'e', '"'] ∧
      nodes = [fnCall ['u', 'n', 'q'] l loc [.str lw], .plain q .no false] := by
  obtain ⟨y, ms, rfl, hy, h5⟩ := text_expr h
  obtain ⟨q, i2, ms, rfl, hq, hi2, h6⟩ := text_chars h5
  cases text_nil h6
  obtain ⟨g, ns, loc, rfl, hg1, hg2⟩ := tree_app hy
  obtain ⟨u, rfl, hu⟩ := tree_name0 hg1
  obtain ⟨n1, ns, rfl, hn1, hg3⟩ := args_pos hg2
  cases args_nil hg3
  obtain ⟨lw, rfl, hlw⟩ := tree_str hn1
  have e2 : i2 = .no := by
    obtain ⟨c, t, rfl, hc, ht⟩ := ha
    refine indented_det hi2 (Indented.text (a := [' ']) (b := t) (c := c) (nameChar_plain (.inl hc)).2.1 ?_)
    intro x hx hl
    exact (nameChar_plain (ht x hx)).2.1 (lineEnd_gap hl)
  subst e2
  refine ⟨q, lw, u.loc, loc, hq, hlw, ?_⟩
  cases u
  cases hu
  rfl

theorem defIf_pieces {a : Str} {x : Expr} {nodes : List Node} (h : TextTrees true (defIfExpr a x) nodes) :
    ∃ (b p f b' : Src) (y : Node) (zs : List Node) (l : Option Loc), b.txt = a ∧ p.txt = ['\n'] ∧ f.txt = lit "if" ∧ b'.txt = a ∧ Tree x y ∧
      TextTrees true (defineExpr a) zs ∧
      nodes = [.set (.one b) (.cond y (.int 1) (.int 0)), .plain p (.str []) false, .apply (.var false [] f) [.var false [] b', .text zs] [] l] := by
  obtain ⟨v, k, ms, rfl, h1, h2, h3⟩ := text_set h
  obtain ⟨b, rfl, hb⟩ := target_one h1
  obtain ⟨y, n1, n0, rfl, hy, h1, h0⟩ := tree_cond h2
  cases tree_int h1
  cases tree_int h0
  obtain ⟨p, i1, ms, rfl, hp, hi1, h4⟩ := text_chars h3
  obtain ⟨z, ms, rfl, hz, h5⟩ := text_expr h4
  cases text_nil h5
  obtain ⟨g, ns, loc, rfl, hg1, hg2⟩ := tree_app hz
  obtain ⟨f, rfl, hf⟩ := tree_name0 hg1
  obtain ⟨n1, ns, rfl, hn1, hg3⟩ := args_pos hg2
  obtain ⟨b', rfl, hb'⟩ := tree_name0 hn1
  obtain ⟨n2, ns, rfl, hn2, hg4⟩ := args_pos hg3
  cases args_nil hg4
  obtain ⟨zs, rfl, hzs⟩ := tree_code hn2
  have e1 : i1 = .str [] := indented_det hi1 (Indented.line (a := []) (b := []) (c := '\n') (.inl rfl) (by intro c hc; cases hc))
  subst e1
  exact ⟨b, p, f, b', y, zs, loc, hb, hp, hf, hb', hy, hzs, rfl⟩

theorem putIn_defIf {b p : Src} {y x : Node} (hp : p.txt = ['\n']) (hx : ¬ IsPlain x) (ind : Indent) :
    ∃ p' : Src, p'.txt = '\n' :: marginOf ind ∧
      putIn ind [.set (.one b) y, .plain p (.str []) false, x] = [.set (.one b) y, .plain p' (.str (marginOf ind)) false, x] := by
  match ind with
  | .no => exact ⟨p, hp, rfl⟩
  | .none => exact ⟨p, hp, rfl⟩
  | .str [] => exact ⟨p, hp, rfl⟩
  | .str (c :: i) =>
    refine ⟨⟨afterLines (c :: i) p.txt, none⟩, ?_, ?_⟩
    · rw [hp]
      simp [afterLines, lineEnds, marginOf]
    · simp only [putIn, atIndent, List.map_cons, List.map_nil, List.append_nil, marginOf]
      cases x <;> first | rfl | exact absurd ⟨_, _, _, rfl⟩ hx

/-! ## The line -/

/-- The text `($unq "#define") NAME`. -/
theorem define_line {x : BExt} (hs : Standard e x (lit "unq")) {a : Str} (ha : IsName a) {zs : List Node} (h : TextTrees true (defineExpr a) zs)
    {s : ESt} (hu : Unbound (lit "unq") s) : ∃ w, Evaluates e (.text zs) s w s ∧ IsText w ∧ ∀ x, strOf x w = lit "#define " ++ a := by
  obtain ⟨q, lw, l, loc, hq, hlw, rfl⟩ := define_pieces ha h
  have hunq : Evaluates e (fnCall ['u', 'n', 'q'] l loc [.str lw]) s (.pstr ['#', 'd', 'e', 'f', 'i', 'n', 'e']) s := by
    have hargs : Args e [.str lw] s [.str lw] s := .one (evaluates_iff.2 (ev_value e (.str _) _)) (by simp) (by simp) (.nil _)
    have := ev_call (l := l) (loc := loc) hs hu hargs rfl (call_q x (.str lw) _).2.2
    have hval : bUnq x (.str lw) = ['#', 'd', 'e', 'f', 'i', 'n', 'e'] := by
      unfold bUnq
      simp only [Node.text?, hlw]
      rw [if_pos (by simp)]
      have := literal_quoted (q := '"') (.inl rfl) x.literal ['#', 'd', 'e', 'f', 'i', 'n', 'e'] (by decide)
      have henc : escEncode ['#', 'd', 'e', 'f', 'i', 'n', 'e'] = ['#', 'd', 'e', 'f', 'i', 'n', 'e'] := by decide
      rw [henc] at this
      simp only [List.cons_append, List.nil_append] at this ⊢
      rw [this]; rfl
    rw [hval] at this
    exact this
  have hg : Generates e (.str []) false [fnCall ['u', 'n', 'q'] l loc [.str lw], .plain q .no false] s (.text (lit "#define " ++ a) s) := by
    have h1 : Generates e .no false [.plain q .no false] s (.text (' ' :: a) s) := by
      have := Generates.plain (e := e) (ind := .no) (cut := false) (w := q) (i := .no) (c := false) (xs := []) (s := s) .nil
      rw [show fragment e.cfg q.txt (false || false) = ' ' :: a by simp [fragment, hq]] at this
      simpa [Yield.after] using this
    have h2 := Generates.item (e := e) (ind := .str []) (cut := false) ⟨(by rintro ⟨_, _, _, h⟩; cases h), by intro h; cases h⟩ hunq
      (.value (by simp) (by simp) (by simp) (by simp) (by simp) (by simp)) (.pstr _) h1
    rw [show itemText e (.str []) (fnCall ['u', 'n', 'q'] l loc [.str lw]) (.pstr ['#', 'd', 'e', 'f', 'i', 'n', 'e']) = ['#', 'd', 'e', 'f', 'i', 'n', 'e'] from
      reindent_word e.cfg [] (.inl rfl)] at h2
    exact h2
  obtain ⟨w, h1, h2, h3⟩ := (C78_text e (.str []) _ s _ s).1 hg
  refine ⟨w, ?_, h2, h3⟩
  rw [evaluates_iff] at h1 ⊢
  rw [ev_text]
  exact h1

/-- `($if NAME [..])`, the name being bound to a number. -/
theorem if_define {x : BExt} (hs : Standard e x (lit "unq")) {a : Str} (ha : IsName a) {zs : List Node} (h : TextTrees true (defineExpr a) zs)
    {d f : Node} {s0 s0' s : ESt} {g b : Src} {l : Option Loc} (hg : g.txt = lit "if") (hb : b.txt = a) {n : Int}
    (hd : Choice (lit "then") (lit "else") (lit "if") d) (hdef : Evaluates e d s0 (.env [(lit "if", f)]) s0')
    (hif : Scopes.lookup s.env (lit "if") = some f) (hu : Unbound (lit "unq") s) (hn : Scopes.lookup s.env a = some (.int n)) :
    ∃ v, Evaluates e (.apply (.var false [] g) [.var false [] b, .text zs] [] l) s v s ∧
      (n ≠ 0 → IsText v ∧ ∀ x, strOf x v = lit "#define " ++ a) ∧ (n = 0 → v.text? = some []) := by
  obtain ⟨w, hw, hwt, hws⟩ := define_line hs ha h hu
  have hwd : Data w := by cases hwt <;> constructor
  have hwn : w ≠ .none := by rintro rfl; cases hwt
  have hy : Evaluates e (.var false [] b) s (.int n) s := by
    rw [evaluates_iff]; exact var_value (by rw [hb]; exact hn) (by simp)
  have hargs : Args e [.var false [] b, .text zs] s [.int n, w] s :=
    .one hy (by simp) (by simp) (.one hw hwn (by rintro a rfl; cases hwt) (.nil s))
  obtain ⟨v, h1, h2⟩ := C76_if (loc := l) hd (by decide) hdef (lookup_if hg hif (if_closure hd hdef)) hargs (.int n)
    (by intro v hv; simp at hv; subst hv; exact .inl ⟨hwd, hwn⟩) (by simp)
  have hfalse : False' (.int n) ↔ n = 0 := by rw [← falsy_iff]; simp [truthy]
  refine ⟨v, h1, fun hc => ?_, fun hc => ?_⟩
  · rcases h2 with ⟨-, h2⟩ | ⟨h, -⟩
    · rcases h2 with h2 | ⟨h2, -⟩
      · simp at h2; subst h2; exact ⟨hwt, hws⟩
      · simp at h2
    · exact absurd (hfalse.1 h) hc
  · rcases h2 with ⟨h, -⟩ | ⟨-, h2⟩
    · exact absurd (hfalse.2 hc) h
    · rcases h2 with h2 | ⟨-, h2⟩
      · simp at h2
      · exact h2

theorem itemText_line {fn : Node} {args : List Node} {named : List (Src × Node)} {loc : Option Loc} {v : Node} (i : Str) {c : Char} {t : Str}
    (h : IsText v) (x : TextExt) (ht : strOf x v = c :: t) (hb : ∀ d ∈ c :: t, isLineBreak d = false) (hc : blankChar c = false) :
    itemText e (.str i) (.apply fn args named loc) v = c :: t := by
  have hs : shown e.cfg e.repr v = c :: t := by
    cases h with
    | pstr s => exact ht
    | result r => exact ht
  change reindent e.cfg i (shown e.cfg e.repr v) = c :: t
  rw [hs]
  exact reindent_line e.cfg i hb hc

/-! ## C92 -/

theorem defIf_unmarked {a c y z : Str} (ha : '(' ∉ a) (h1 : ¬ ['(', '$', 'c', 'o', 'n', 'd', ')'] <:+: c) (h2 : ¬ ['(', '$', 'n', 'a', 'm', 'e', ')'] <:+: c) :
    Unmarked [(['c', 'o', 'n', 'd'], y), (['n', 'a', 'm', 'e'], z)] (defIfText a c) := by
  have key : ∀ p : Str, ' ' ∉ '(' :: p → ¬ ('(' :: p) <:+: c → ('(' :: p = ['(', '$', 'c', 'o', 'n', 'd', ')'] ∨ '(' :: p = ['(', '$', 'n', 'a', 'm', 'e', ')']) →
      ¬ ('(' :: p) <:+: defIfText a c := by
    intro p hsp hc hp h
    unfold defIfText at h
    rcases infix_beside (c := ' ') (x := ['(', '$', 's', 'e', 't']) hsp h with h | h
    · rcases hp with hp | hp <;> (rw [hp] at h; revert h; decide)
    have h := infix_past ha h
    rcases infix_beside (c := ' ') (x := [' ', '1', ' ', '?']) hsp h with h | h
    · rcases hp with hp | hp <;> (rw [hp] at h; revert h; decide)
    rcases infix_beside (c := ' ') hsp h with h | h
    · exact hc h
    rcases infix_beside (c := ' ') (x := ['|', ' ', '0', ')', '\n', '(', '$', 'i', 'f']) hsp h with h | h
    · rcases hp with hp | hp <;> (rw [hp] at h; revert h; decide)
    have h := infix_past ha h
    rcases infix_beside (c := ' ') (x := [' ', '[', '(', '$', 'u', 'n', 'q', ' ', '"', '#', 'd', 'e', 'f', 'i', 'n', 'e', '"', ')']) hsp h with h | h
    · rcases hp with hp | hp <;> (rw [hp] at h; revert h; decide)
    have h := infix_past ha h
    rcases hp with hp | hp <;> (rw [hp] at h; revert h; decide)
  intro p hp b d h
  simp only [List.mem_cons, List.not_mem_nil, or_false] at hp
  rcases hp with rfl | rfl
  · exact key ['$', 'c', 'o', 'n', 'd', ')'] (by decide) h1 (.inl rfl) ⟨b, d, by rw [h]; simp⟩
  · exact key ['$', 'n', 'a', 'm', 'e', ')'] (by decide) h2 (.inr rfl) ⟨b, d, by rw [h]; simp⟩

/-- **C92**. `($def-if COND NAME)`, the condition being handed over as a text that reads as an expression; `p`: its value counts as true.
    If it does, in place of the call there is a line `#define NAME`, and what follows the call finds `NAME` bound to 1; otherwise there is
    no such line, and what follows finds `NAME` bound to 0. -/
theorem C92_def_if (e : EEnv) (b : BExt) (hs : Standard e b (lit "unq")) (fn : Node) (text decl : Src) (c0 : Option Src) (args : List Node)
    (vc vn : Node) (c a : Str) (loc : Option Loc) (s s1 s2 : ESt)
    (hf : Evaluates e fn s (.mclosure text [(lit "cond", .bound), (lit "name", .bound)] decl c0) s1) (htext : text.txt = defIfBody)
    (harg : Args e args s1 [vc, vn] s2) (hvc : Value vc) (hvn : Value vn) (hnc : vc ≠ .none) (hnn : vn ≠ .none) (htc : ArgText vc c) (htn : ArgText vn a)
    (ha : IsName a) (ha1 : a ≠ lit "unq") (ha2 : a ≠ lit "if") (ha3 : a ≠ lit "__OUTPUT_FILE__")
    {d f : Node} {s0 s0' : ESt} (hd : Choice (lit "then") (lit "else") (lit "if") d) (hdef : Evaluates e d s0 (.env [(lit "if", f)]) s0')
    (hif : Scopes.lookup s2.env (lit "if") = some f) (hu : Unbound (lit "unq") s2)
    (hk : e.pe.outputPython = true → e.pe.inputFile ≠ natStr s2.p.world.inclusion.length)
    {x : Expr} {p : Prop} (hx : Guard (modeOf e.pe) c x) (s3 : ESt)
    (h3 : s3 = (record s2 (substitute [(lit "cond", c), (lit "name", a)] defIfBody) decl.loc none).2)
    (hc : ∀ y, Tree x y → ∃ v, Evaluates e y (push s3 [(a, .bound)]) v (push s3 [(a, .bound)]) ∧ Data v ∧ (p ↔ ¬ False' v)) :
    (p → ∀ ind cut rest o, Generates e .no false rest (push s3 [(a, .int 1)]) o →
      Generates e ind cut (.apply fn args [] loc :: rest) s (o.after (lineBreak e.cfg ind ++ (lit "#define " ++ a))).leave) ∧
    (¬ p → ∀ ind cut rest o, Generates e .no false rest (push s3 [(a, .int 0)]) o →
      Generates e ind cut (.apply fn args [] loc :: rest) s (o.after (lineBreak e.cfg ind)).leave) := by
  rw [show lit "cond" = ['c', 'o', 'n', 'd'] by decide, show lit "name" = ['n', 'a', 'm', 'e'] by decide, defIf_text] at h3
  have hpar : '(' ∉ a := fun h => (nameChar_plain (isName_chars ha _ h)).2.2.2.2.2.2.1 rfl
  have hsub : substitute ([['c', 'o', 'n', 'd'], ['n', 'a', 'm', 'e']].zip [c, a]) text.txt = defIfText a c := by rw [htext]; rfl
  have hmac := C82_macro e fn text decl c0 [['c', 'o', 'n', 'd'], ['n', 'a', 'm', 'e']] args [vc, vn] [c, a] loc s s1 s2 hf harg (by simp) rfl (by decide)
    (by decide) (by intro v hv; simp at hv; rcases hv with rfl | rfl <;> assumption) (by intro v hv; simp at hv; rcases hv with rfl | rfl <;> assumption)
    (.cons htc (.cons htn .nil))
    (by
      intro p hp
      simp at hp
      rcases hp with rfl | rfl
      · exact (by decide : ('(' ∉ (['c', 'o', 'n', 'd'] : Str) ∧ ')' ∉ (['c', 'o', 'n', 'd'] : Str)))
      · exact (by decide : ('(' ∉ (['n', 'a', 'm', 'e'] : Str) ∧ ')' ∉ (['n', 'a', 'm', 'e'] : Str))))
    (by rw [hsub]; exact defIf_unmarked hpar hx.noCond hx.noName)
    (xs := defIfExpr a x) (by rw [hsub]; exact defIf_reads ha hx) (by rw [hsub]; simp [defIfText]) hk
  rw [hsub] at hmac
  obtain ⟨nodes, s3', h1, h2, h4, -, -⟩ := hmac
  have h2 : s3' = s3 := by rw [h2, h3]; rfl
  subst h2
  obtain ⟨t, w, g, t', y, zs, l, ht, hw, hg, ht', hy, hzs, rfl⟩ := defIf_pieces h1
  obtain ⟨v, hv, hdv, hp⟩ := hc y hy
  -- the two cases
  have key : ∀ n : Int, Evaluates e (.cond y (.int 1) (.int 0)) (push s3' [(a, .bound)]) (.int n) (push s3' [(a, .bound)]) →
      ∀ ind cut rest o, Generates e .no false rest (push s3' [(a, .int n)]) o →
        Generates e ind cut (.apply fn args [] loc :: rest) s
          (o.after (lineBreak e.cfg ind ++ (if n ≠ 0 then lit "#define " ++ a else []))).leave := by
    intro n hcond ind cut rest o ho
    refine (h4 ⟨_, List.mem_cons_self .., _, _, rfl⟩ ind cut rest _).2 ?_
    have hplain : ¬ IsPlain (.apply (.var false [] g) [.var false [] t', .text zs] [] l) := by rintro ⟨_, _, _, h⟩; cases h
    obtain ⟨w', hw', he⟩ := putIn_defIf (b := t) (y := .cond y (.int 1) (.int 0)) hw hplain ind
    rw [he]
    have hset : Evaluates e (.set (.one t) (.cond y (.int 1) (.int 0))) s3' (.env [(a, .int n)]) s3' := by
      have := evaluates_set (e := e) (lval := .one t) (ast := .cond y (.int 1) (.int 0)) (v := .int n) (s := s3') (s1 := push s3' [(t.txt, .bound)])
        (by simp [lvalNames]) (by simp [LVal.isOutput, ht, ha3]) (by subst ht; exact hcond)
      rw [← ht]
      exact this
    have hother : ∀ k : Str, a ≠ k → Scopes.lookup (push s3' [(a, .int n)]).env k = Scopes.lookup s3'.env k := by
      intro k hk
      have : Frame.get [(a, Node.int n)] k = none := by simp [Frame.get, hk]
      unfold push
      simp only [Scopes.lookup, this]
    obtain ⟨r, hr, r1, r2⟩ := if_define (l := l) (s := push s3' [(a, .int n)]) (n := n) hs ha hzs hg ht' hd hdef
      (by rw [hother _ ha2, h3]; exact hif) (by unfold Unbound; rw [hother _ ha1, h3]; exact hu)
      (by unfold push; simp [Scopes.lookup, Frame.get])
    have hmid : ∀ i, Generates e (.str i) false (.apply (.var false [] g) [.var false [] t', .text zs] [] l :: rest) (push s3' [(a, .int n)])
        (o.after (if n ≠ 0 then lit "#define " ++ a else [])) := by
      intro i
      by_cases hn : n = 0
      · have ho' : o.after (if n ≠ 0 then lit "#define " ++ a else []) = o := by simp only [hn]; cases o <;> rfl
        rw [ho']
        exact (generates_empty hr (r2 hn) (.str i) false rest o).2 ho
      · obtain ⟨rt, rs⟩ := r1 hn
        have := Generates.item (e := e) (ind := .str i) (cut := false) ⟨hplain, by intro h; cases h⟩ hr
          (.value (by rintro rfl; cases rt) (by rintro rfl; cases rt) (by rintro rfl; cases rt) (by rintro rfl; cases rt)
            (by rintro f rfl; cases rt) (by rintro f rfl; cases rt)) (by cases rt <;> constructor) ho
        have hline : itemText e (.str i) (.apply (.var false [] g) [.var false [] t', .text zs] [] l) r = lit "#define " ++ a := by
          refine itemText_line (c := '#') (t := ['d', 'e', 'f', 'i', 'n', 'e', ' '] ++ a) i rt (textExt e s) (rs _) ?_ (by decide)
          intro k hk
          have hk : k ∈ ['#', 'd', 'e', 'f', 'i', 'n', 'e', ' '] ++ a := hk
          rcases List.mem_append.1 hk with hk | hk
          · exact (by decide : ∀ k ∈ (['#', 'd', 'e', 'f', 'i', 'n', 'e', ' '] : Str), isLineBreak k = false) k hk
          · exact (nameChar_plain (isName_chars ha k hk)).2.2.2.2.2.2.2.2
        rw [hline] at this
        simp only [ne_eq, hn, not_false_eq_true, if_true]
        exact this
    have hfirst := Generates.plain (e := e) (ind := ind) (cut := atLineStart ind) (w := w') (c := false)
      (i := .str (marginOf ind)) (hmid (marginOf ind))
    have hfrag : fragment e.cfg w'.txt (atLineStart ind || false) = lineBreak e.cfg ind := by
      rw [hw']
      unfold fragment lineBreak
      cases ind <;> simp [atLineStart, marginOf]
      rfl
    rw [hfrag] at hfirst
    have hoo : ∀ q : Str, (o.after q).after (lineBreak e.cfg ind) = o.after (lineBreak e.cfg ind ++ q) := by
      intro q; cases o <;> simp [Yield.after]
    rw [hoo] at hfirst
    exact .definition ⟨(by rintro ⟨_, _, _, h⟩; cases h), (by intro h; cases h)⟩ hset (by simp) hfirst
  constructor
  · intro hp' ind cut rest o ho
    exact key 1 (((C25_true_leg e y (.int 1) (.int 0) v _ _ hv (data_value hdv) (hp.1 hp')).1 _ _).2 (evaluates_iff.2 (ev_value e (.int 1) _))) ind cut rest o ho
  · intro hp' ind cut rest o ho
    have hfv : False' v := Classical.not_not.1 fun h => hp' (hp.2 h)
    have := key 0 (((C25_false_leg e y (.int 1) (.int 0) v _ _ hv (data_value hdv) hfv).1 _ _).2 (evaluates_iff.2 (ev_value e (.int 0) _))) ind cut rest o ho
    simpa using this

/-! ## Conditions -/

theorem guard_name {c : Str} (hc : IsName c) : Guard m c (.name false [] c) := by
  have hp : '(' ∉ c := fun h => (nameChar_plain (isName_chars hc _ h)).2.2.2.2.2.2.1 rfl
  refine ⟨fun r => .name (.plain hc) (ended_space _), fun h => ?_, fun h => ?_⟩ <;> exact hp (h.subset (by simp))

theorem guard_int (n : Int) : Guard m (toString n).toList (.int n) := by
  have hp : '(' ∉ (toString n).toList := by
    obtain ⟨c, t, hct, hch⟩ := int_chars n
    rw [hct]
    intro h
    have := hch _ h
    revert this; decide
  refine ⟨fun r => ?_, fun h => ?_, fun h => ?_⟩
  · rw [← printInt_str]
    exact printInt_reads n (ended_space _)
  · exact hp (h.subset (by simp))
  · exact hp (h.subset (by simp))

/-- **C92**. A condition whose value is a number, as that of a name after `($def A)` or `($undef A)`: there is the line `#define NAME`
    and the value 1 if it is not zero, the value 0 and no such line if it is zero. -/
theorem C92_number (e : EEnv) (b : BExt) (hs : Standard e b (lit "unq")) (fn : Node) (text decl : Src) (c0 : Option Src) (args : List Node)
    (n : Int) (vn : Node) (a : Str) (loc : Option Loc) (s s1 s2 : ESt)
    (hf : Evaluates e fn s (.mclosure text [(lit "cond", .bound), (lit "name", .bound)] decl c0) s1) (htext : text.txt = defIfBody)
    (harg : Args e args s1 [.int n, vn] s2) (hvn : Value vn) (hnn : vn ≠ .none) (htn : ArgText vn a)
    (ha : IsName a) (ha1 : a ≠ lit "unq") (ha2 : a ≠ lit "if") (ha3 : a ≠ lit "__OUTPUT_FILE__")
    {d f : Node} {s0 s0' : ESt} (hd : Choice (lit "then") (lit "else") (lit "if") d) (hdef : Evaluates e d s0 (.env [(lit "if", f)]) s0')
    (hif : Scopes.lookup s2.env (lit "if") = some f) (hu : Unbound (lit "unq") s2)
    (hk : e.pe.outputPython = true → e.pe.inputFile ≠ natStr s2.p.world.inclusion.length) :
    ∃ s3, s3 = (record s2 (substitute [(lit "cond", (toString n).toList), (lit "name", a)] defIfBody) decl.loc none).2 ∧
    ∀ ind cut rest o, Generates e .no false rest (push s3 [(a, .int (if n ≠ 0 then 1 else 0))]) o →
      Generates e ind cut (.apply fn args [] loc :: rest) s
        (o.after (lineBreak e.cfg ind ++ if n ≠ 0 then lit "#define " ++ a else [])).leave := by
  refine ⟨_, rfl, ?_⟩
  have hfalse : False' (.int n) ↔ n = 0 := by rw [← falsy_iff]; simp [truthy]
  have := C92_def_if e b hs fn text decl c0 args (.int n) vn _ a loc s s1 s2 hf htext harg (.int n) hvn (by simp) hnn (.int n) htn ha ha1 ha2 ha3
    hd hdef hif hu hk (p := n ≠ 0) (guard_int n) _ rfl
    (fun y hy => by cases tree_int hy; exact ⟨_, evaluates_iff.2 (ev_value e (.int n) _), .int n, by rw [hfalse]⟩)
  intro ind cut rest o ho
  by_cases hn : n = 0
  · have h2 := this.2 (by simpa using hn) ind cut rest o (by simpa [hn] using ho)
    simpa [hn] using h2
  · have h1 := this.1 hn ind cut rest o (by simpa [hn] using ho)
    simpa [hn] using h1

/-- **C92**. A condition whose value is written as a name that has no value — a name never defined, `True` or `False` — counts as true. -/
theorem C92_name (e : EEnv) (b : BExt) (hs : Standard e b (lit "unq")) (fn : Node) (text decl : Src) (c0 : Option Src) (args : List Node)
    (vc vn : Node) (c a : Str) (loc : Option Loc) (s s1 s2 : ESt)
    (hf : Evaluates e fn s (.mclosure text [(lit "cond", .bound), (lit "name", .bound)] decl c0) s1) (htext : text.txt = defIfBody)
    (harg : Args e args s1 [vc, vn] s2) (hvc : Value vc) (hvn : Value vn) (hnc : vc ≠ .none) (hnn : vn ≠ .none) (htc : ArgText vc c) (htn : ArgText vn a)
    (hcn : IsName c) (hbare : Bare e s2 c) (hca : c ≠ a)
    (ha : IsName a) (ha1 : a ≠ lit "unq") (ha2 : a ≠ lit "if") (ha3 : a ≠ lit "__OUTPUT_FILE__")
    {d f : Node} {s0 s0' : ESt} (hd : Choice (lit "then") (lit "else") (lit "if") d) (hdef : Evaluates e d s0 (.env [(lit "if", f)]) s0')
    (hif : Scopes.lookup s2.env (lit "if") = some f) (hu : Unbound (lit "unq") s2)
    (hk : e.pe.outputPython = true → e.pe.inputFile ≠ natStr s2.p.world.inclusion.length) :
    ∃ s3, s3 = (record s2 (substitute [(lit "cond", c), (lit "name", a)] defIfBody) decl.loc none).2 ∧
    ∀ ind cut rest o, Generates e .no false rest (push s3 [(a, .int 1)]) o →
      Generates e ind cut (.apply fn args [] loc :: rest) s (o.after (lineBreak e.cfg ind ++ (lit "#define " ++ a))).leave := by
  refine ⟨_, rfl, ?_⟩
  refine (C92_def_if e b hs fn text decl c0 args vc vn c a loc s s1 s2 hf htext harg hvc hvn hnc hnn htc htn ha ha1 ha2 ha3
    hd hdef hif hu hk (p := True) (guard_name hcn) _ rfl (fun y hy => ?_)).1 trivial
  obtain ⟨w, rfl, hw⟩ := tree_name0 hy
  subst hw
  refine ⟨_, bare_eval ⟨?_, hbare.notBuiltin, hbare.notSpecial, hbare.noHyphen⟩, .atom w, ?_⟩
  · have : Frame.get [(a, Node.bound)] w.txt = none := by simp [Frame.get, Ne.symm hca]
    unfold push
    simp only [Scopes.lookup, this]
    exact hbare.unbound
  · rw [← falsy_iff]
    obtain ⟨c, t, hct, -⟩ := hcn
    simp [truthy, hct]

/-! ## The library -/

def isDefIf : Node → Bool
  | .macro v [p, q] t => decide (v.txt = lit "def-if") && decide (p.txt = lit "cond") && decide (q.txt = lit "name") && decide (t.txt = defIfBody)
  | _ => false

theorem isDefIf_sound {d : Node} (h : isDefIf d = true) :
    ∃ v p q t, d = .macro v [p, q] t ∧ v.txt = lit "def-if" ∧ p.txt = lit "cond" ∧ q.txt = lit "name" ∧ t.txt = defIfBody := by
  unfold isDefIf at h
  split at h
  · simp only [Bool.and_eq_true, decide_eq_true_eq] at h
    exact ⟨_, _, _, _, rfl, h.1.1.1, h.1.1.2, h.1.2, h.2⟩
  · cases h

set_option maxRecDepth 100000 in
theorem defIf_parsed : parsedAlone 100 (twoLines 72) isDefIf = true := by decide +kernel

/-- **C92**. The macro that the theorems are about is that of the library file: two lines of it, parsed, are one such definition. -/
theorem C92_library :
    ∃ (i : Nat) (l1 l2 : Str) (n : Nat) (v p q t : Src) (st : PSt), stdlibLines[i]? = some l1 ∧ stdlibLines[i + 1]? = some l2 ∧
      (P { inputFile := ['a'] } n).parse ['a'] (PSt.start { inputFile := ['a'] } none (l1 ++ '\n' :: l2)) = .ok ([.macro v [p, q] t], st) ∧
      v.txt = lit "def-if" ∧ p.txt = lit "cond" ∧ q.txt = lit "name" ∧ t.txt = defIfBody := by
  obtain ⟨d1, p1, h1, k1⟩ := parsedAlone_sound defIf_parsed
  obtain ⟨v, p, q, t, rfl, hv, hp, hq, ht⟩ := isDefIf_sound k1
  exact ⟨72, _, _, 100, v, p, q, t, p1, rfl, rfl, h1, hv, hp, hq, ht⟩

/-! An example: `($def-if A B)` at the beginning of a line, with `A` bound to 1, in front of a text. -/

example (e : EEnv) (b : BExt) (hs : Standard e b (lit "unq")) (hc : e.cfg.trimAppIndent = true) (decl m : Src) (s : ESt) {d f : Node} {s0 s0' : ESt}
    (hm : Scopes.lookup s.env m.txt = some (.mclosure ⟨defIfBody, none⟩ [(['c', 'o', 'n', 'd'], .bound), (['n', 'a', 'm', 'e'], .bound)] decl none))
    (hd : Choice (lit "then") (lit "else") (lit "if") d) (hdef : Evaluates e d s0 (.env [(lit "if", f)]) s0')
    (hif : Scopes.lookup s.env (lit "if") = some f) (hu : Unbound (lit "unq") s) (ha : Scopes.lookup s.env (lit "A") = some (.int 1))
    (hk : e.pe.outputPython = false) (w : Src) :
    ∃ s', Generates e (.str []) false [.apply (.var false [] m) [.var false [] ⟨lit "A", none⟩, .atom ⟨['B'], none⟩] [] none, .plain w .none false] s
      (.text (lit "#define B" ++ w.txt) s') := by
  have hf : Evaluates e (.var false [] m) s (.mclosure ⟨defIfBody, none⟩ [(['c', 'o', 'n', 'd'], .bound), (['n', 'a', 'm', 'e'], .bound)] decl none) s :=
    evaluates_iff.2 (var_value hm (by simp))
  obtain ⟨s3, -, h⟩ := C92_number e b hs _ _ decl none [.var false [] ⟨lit "A", none⟩, .atom ⟨['B'], none⟩] 1 (.atom ⟨['B'], none⟩) ['B'] none s s s hf rfl
    (.one (evaluates_iff.2 (var_value ha (by simp))) (by simp) (by simp) (.one (evaluates_iff.2 (ev_value e (.atom _) s)) (by simp) (by simp) (.nil s)))
    (.atom _) (by simp) (.atom _) ⟨'B', [], rfl, by unfold NameStart; decide, by simp⟩ (by decide) (by decide) (by decide) hd hdef hif hu (by simp [hk])
  have := h (.str []) false [.plain w .none false] _ (.plain (.nil ..))
  refine ⟨pop (push s3 [(['B'], .int 1)]), ?_⟩
  have hb : lineBreak e.cfg (.str []) = [] := by
    unfold lineBreak
    rw [if_pos ⟨hc, rfl⟩]; rfl
  have hfr : fragment e.cfg w.txt (false || false) = w.txt := by simp [fragment]
  rw [hb, hfr, if_pos (by decide)] at this
  simp only [Yield.after, Yield.leave, List.append_nil, List.nil_append] at this
  exact this

end Yupp
