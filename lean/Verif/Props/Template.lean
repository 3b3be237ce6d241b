import Verif.Props.StdDefine
import Verif.Spec.Template
/-!
# C94 — A macro without forms in its text is a text template
-/

namespace Yupp

open Spec

/-- A registered text without macro forms is parsed to fragments that hold it. -/
theorem recorded_free (e : EEnv) {t : Str} (hf : MacroFree t) (ha : Spec.Admissible t) (hpy : e.pe.outputPython = false)
    (hsk : e.pe.skip = .none) (s : ESt) (decl call : Option Loc) :
    ∃ xs, Parses e (record s t decl call).1 (record s t decl call).2 xs (record s t decl call).2 ∧
      (∀ x ∈ xs, Fragment x) ∧ fragTexts xs = t ∧ (t = [] → xs = []) := by
  generalize hkey : (record s t decl call).1 = key
  generalize hst : (record s t decl call).2 = st
  have hfind : ∃ d, st.p.world.find key = some (d, t) := by
    subst hst hkey
    cases decl <;> exact ⟨_, by simp [World.find, record]; rfl⟩
  obtain ⟨d, hfind⟩ := hfind
  have hget : PM.get st.p = .ok (st.p, st.p) := rfl
  cases t with
  | nil =>
    refine ⟨[], ⟨1, st.p, ?_, rfl⟩, by simp, rfl, fun _ => rfl⟩
    change psParse e.pe (P e.pe 0) key st.p = _
    unfold psParse
    rw [pm_bind_ok hget, hfind]
    rfl
  | cons c r =>
    rcases free_text e.pe (r.length + 2) { sou := { txt := c :: r, loc := some ⟨key, 0⟩ } } st.p hf ⟨by simp, by simp⟩
      (by simp) with ⟨-, h⟩ | ⟨r', xs, h1, h2, h3⟩
    · rcases h with h | h | ⟨c', hc, h⟩
      · rw [hpy] at h; cases h
      · exact absurd hsk h
      · rw [admissible_any ha c' hc] at h; cases h
    · refine ⟨xs, ⟨r.length + 2 + 1, st.p, ?_, rfl⟩, h2, by simpa [fragTexts] using h3, by simp⟩
      change psParse e.pe (P e.pe (r.length + 2)) key st.p = _
      unfold psParse
      rw [pm_bind_ok hget, hfind]
      dsimp only
      rw [if_neg (by simp [hpy])]
      unfold psRun
      rw [if_neg (by simp), pm_bind_ok h1]
      cases xs <;> rfl

theorem fragment_text {x : Node} (h : Fragment x) : x.text? = some (fragText x) := by
  cases h <;> rfl

/-- A fragment, or a text value: its text is shown as it is. -/
def AsItIs : Node → Prop
  | .plain _ _ cut => cut = false
  | _ => True

/-- A form whose outcome is that of evaluating a code without macro forms. -/
theorem stands_for_text (e : EEnv) (fn : Node) (args : List Node) (loc : Option Loc) (T : Str) (decl call : Option Src) (s s2 : ESt)
    (hexp : SameOutcome e (.apply fn args [] loc) s (.eval (.pstr T) decl call) s2)
    (hf : MacroFree T) (ha : Spec.Admissible T) (hpy : e.pe.outputPython = false) (hsk : e.pe.skip = .none) :
    ∃ v, Evaluates e (.apply fn args [] loc) s v (record s2 T (decl.bind (·.loc)) (call.bind (·.loc))).2 ∧
      (T = [] → v = .none) ∧ (T ≠ [] → v.text? = some T ∧ AsItIs v) := by
  obtain ⟨xs, hp, hx, ht, h0⟩ := recorded_free e hf ha hpy hsk s2 (decl.bind (·.loc)) (call.bind (·.loc))
  have hset : xs.any Node.isSet = false := by
    rw [List.any_eq_false]
    intro x h
    cases hx x h <;> simp [Node.isSet]
  have hval : Evaluates e (.pstr T) s2 (.pstr T) s2 := ⟨1, rfl⟩
  have hcode : SourceOf e.pe.unq (.pstr T) T := .code (.pstr _) (fun _ h => by cases h)
  cases xs with
  | nil =>
    have hev := ev_eval (decl := decl) (call := call) hval hcode hp
    exact ⟨.none, (hexp.1 _ _).2 (evaluates_iff.2 hev), fun _ => rfl, fun h => absurd ht.symm h⟩
  | cons x xs =>
    cases xs with
    | nil =>
      have hev := ev_eval (decl := decl) (call := call) hval hcode hp
      rw [hset] at hev
      have hx := hx x (by simp)
      refine ⟨x, (hexp.1 _ _).2 (evaluates_iff.2 (hev.trans (ev_value e hx.value _))), fun h => absurd (h0 h) (by simp), fun _ => ⟨?_, ?_⟩⟩
      · rw [fragment_text hx, ← ht]
        simp [fragTexts]
      · cases hx <;> simp [AsItIs]
    | cons y zs =>
      have hev := ev_eval (decl := decl) (call := call) hval hcode hp
      rw [hset] at hev
      obtain ⟨v, hv, hc⟩ := ev_fragments e (x :: y :: zs) hx (record s2 T (decl.bind (·.loc)) (call.bind (·.loc))).2
      refine ⟨v, (hexp.1 _ _).2 (evaluates_iff.2 (hev.trans ?_)), fun h => absurd (h0 h) (by simp), fun _ => ?_⟩
      · rw [evaluates_iff, ev_at] at hv
        exact hv
      · rcases hc with ⟨-, rfl⟩ | ⟨r, -, rfl, hr⟩
        · exact ⟨congrArg some ht, trivial⟩
        · exact ⟨congrArg some (hr.trans ht), trivial⟩

theorem item_text {v : Node} {t : Str} (h : v.text? = some t) : Item v v := by
  refine .value ?_ ?_ ?_ ?_ ?_ ?_ <;> (intros; rintro rfl; cases h)

theorem shown_asItIs {cfg : Config} {repr : Node → Str} {v : Node} {t : Str} (h : v.text? = some t) (ha : AsItIs v) :
    shown cfg repr v = t := by
  cases v <;> first | (cases h; done) | (simp [AsItIs] at ha; subst ha; cases h; simp [shown, fragment]; done) | (cases h; simp [shown]; done)

theorem in_place {e : EEnv} {fn : Node} {args : List Node} {loc : Option Loc} {T : Str} {s s3 : ESt} {v : Node}
    (h : Evaluates e (.apply fn args [] loc) s v s3) (h1 : T = [] → v = .none) (h2 : T ≠ [] → v.text? = some T ∧ AsItIs v) :
    TextInPlace e (.apply fn args [] loc) s T s3 := by
  intro ind cut rest o
  have hform : Form (.apply fn args [] loc) := ⟨(by rintro ⟨_, _, _, h⟩; cases h), (by intro h; cases h)⟩
  refine ⟨fun hT ho => ?_, fun hT ho => ?_⟩
  · obtain ⟨h3, h4⟩ := h2 hT
    have := Generates.item (ind := ind) (cut := cut) hform h (item_text h3) (text_final h3) ho
    have hi : itemText e ind (.apply fn args [] loc) v = blockAt e.cfg ind T := by
      cases ind <;> simp [itemText, blockAt, shown_asItIs h3 h4]
    rwa [hi] at this
  · exact .nothing hform h (.inl (h1 hT)) ho

theorem unmarked_free {ρ : List (Str × Str)} {t : Str} (h : MacroFree t) : Unmarked ρ t := by
  intro p _ a b ht
  exact (h a (p.1 ++ [')'] ++ b)).1 (by rw [ht]; simp)

/-- **C94**. A macro whose text, the arguments put in, has no macro forms: the call gives exactly this text, character for
    character, literals, comments and line ends included. -/
theorem C94_template (e : EEnv) (fn : Node) (text decl : Src) (c0 : Option Src) (ps : List Str) (args vs : List Node)
    (ts : List Str) (loc : Option Loc) (s s1 s2 : ESt)
    (hf : Evaluates e fn s (.mclosure text (ps.map (fun p => (p, Node.bound))) decl c0) s1)
    (ha : Args e args s1 vs s2) (hps : ps ≠ []) (hl : vs.length = ps.length) (hnd : ps.Nodup) (hva : vaArgs ∉ ps)
    (hv : ∀ v ∈ vs, Value v) (hn : ∀ v ∈ vs, v ≠ .none) (hts : Each2 ArgText vs ts) (hok : NamesOk (ps.zip ts))
    (hfree : MacroFree (substitute (ps.zip ts) text.txt)) (hadm : Spec.Admissible (substitute (ps.zip ts) text.txt))
    (hpy : e.pe.outputPython = false) (hsk : e.pe.skip = .none) :
    ∃ v s3, s3 = (record s2 (substitute (ps.zip ts) text.txt) decl.loc ((if ps.length = 1 then callOf fn else none).bind (·.loc))).2 ∧
      Evaluates e (.apply fn args [] loc) s v s3 ∧
      (substitute (ps.zip ts) text.txt = [] → v = .none) ∧
      (substitute (ps.zip ts) text.txt ≠ [] → v.text? = some (substitute (ps.zip ts) text.txt)) ∧
      TextInPlace e (.apply fn args [] loc) s (substitute (ps.zip ts) text.txt) s3 := by
  obtain ⟨v, h1, h2, h3⟩ := stands_for_text e fn args loc _ (some decl) _ s s2
    (C33_expansion e fn text decl c0 ps args vs ts loc s s1 s2 hf ha hps hl hnd hva hv hn hts hok (unmarked_free hfree)) hfree hadm hpy hsk
  exact ⟨v, _, rfl, h1, h2, fun h => (h3 h).1, in_place h1 h2 h3⟩

/-- **C94**. The same for a macro without parameters. -/
theorem C94_constant (e : EEnv) (fn : Node) (text decl : Src) (c0 : Option Src) (args : List Node) (loc : Option Loc) (s s1 s2 : ESt)
    (hf : Evaluates e fn s (.mclosure text [] decl c0) s1) (ha : Args e args s1 [] s2)
    (hfree : MacroFree text.txt) (hadm : Spec.Admissible text.txt) (hpy : e.pe.outputPython = false) (hsk : e.pe.skip = .none) :
    ∃ v s3, s3 = (record s2 text.txt decl.loc ((callOf fn).bind (·.loc))).2 ∧ Evaluates e (.apply fn args [] loc) s v s3 ∧
      (text.txt = [] → v = .none) ∧ (text.txt ≠ [] → v.text? = some text.txt) ∧ TextInPlace e (.apply fn args [] loc) s text.txt s3 := by
  obtain ⟨v, h1, h2, h3⟩ := stands_for_text e fn args loc _ (some decl) _ s s2
    (C33_without_parameters e fn text decl c0 args loc s s1 s2 hf ha) hfree hadm hpy hsk
  exact ⟨v, _, rfl, h1, h2, fun h => (h3 h).1, in_place h1 h2 h3⟩

/-! ## `do` and `foo` of the library -/

theorem macroFree_lines {y : Str} (hy : MacroFree y) : ∀ {x : Str}, MacroFree x → MacroFree (x ++ '\n' :: y)
  | [], _ => by
    intro a b
    cases a with
    | nil => simp
    | cons c a =>
      have := hy a b
      simp only [List.nil_append, List.cons_append, ne_eq, List.cons.injEq, not_and]
      exact ⟨fun _ => this.1, fun _ => this.2⟩
  | c :: x, hx => by
    intro a b
    have ih := macroFree_lines hy (macroFree_tail hx)
    cases a with
    | nil =>
      have h := hx []
      cases x with
      | nil => simp
      | cons c' x =>
        have h := hx [] x
        simp only [List.nil_append, List.cons_append, ne_eq, List.cons.injEq, not_and] at h ⊢
        exact ⟨fun h1 h2 => absurd trivial (h.1 h1 h2), fun h1 h2 => absurd trivial (h.2 h1 h2)⟩
    | cons c' a =>
      have := ih a b
      simp only [List.cons_append, ne_eq, List.cons.injEq, not_and]
      exact ⟨fun _ => this.1, fun _ => this.2⟩

theorem admissible_lines {x y : Str} (hx : Spec.Admissible x) (hy : Spec.Admissible y) : Spec.Admissible (x ++ '\n' :: y) := by
  intro c hc
  rcases List.mem_append.1 hc with h | h
  · exact hx c h
  · rcases List.mem_cons.1 h with rfl | h
    · exact .inr (.inl rfl)
    · exact hy c h

/-- A test for `Admissible`. -/
theorem admissible_of {t : Str} (h : t.all (fun c => c = '\t' || c = '\n' || (decide (0x20 ≤ c.toNat) && decide (c.toNat ≤ 0xff))) = true) :
    Spec.Admissible t := by
  intro c hc
  have := List.all_eq_true.1 h c hc
  simp only [Bool.or_eq_true, Bool.and_eq_true, decide_eq_true_eq] at this
  rcases this with (h | h) | h
  · exact .inl h
  · exact .inr (.inl h)
  · exact .inr (.inr h)

theorem do_text (a : Str) : substitute [(['b', 'o', 'd', 'y'], a)] doBody =
    ['d', 'o', ' ', '{'] ++ '\n' :: (a ++ '\n' :: ['}', ' ', 'w', 'h', 'i', 'l', 'e', ' ', '(', ' ', '0', ' ', ')']) := rfl

theorem foo_text (a : Str) : substitute [(['b', 'o', 'd', 'y'], a)] fooBody = ['(', '{'] ++ '\n' :: (a ++ '\n' :: ['}', ')']) := rfl

/-- **C94**. `($do body)` of the library: the text of the body between the lines `do {` and `} while ( 0 )`. -/
theorem C94_do (e : EEnv) (fn : Node) (text decl : Src) (c0 : Option Src) (args : List Node) (v : Node) (a : Str) (loc : Option Loc)
    (s s1 s2 : ESt) (hf : Evaluates e fn s (.mclosure text [(lit "body", .bound)] decl c0) s1) (htext : text.txt = doBody)
    (harg : Args e args s1 [v] s2) (hv : Value v) (hn : v ≠ .none) (ht : ArgText v a) (hfree : MacroFree a) (hadm : Spec.Admissible a)
    (hpy : e.pe.outputPython = false) (hsk : e.pe.skip = .none) :
    ∃ w s3, Evaluates e (.apply fn args [] loc) s w s3 ∧ w.text? = some (lit "do {\n" ++ a ++ lit "\n} while ( 0 )") ∧
      s3 = (record s2 (lit "do {\n" ++ a ++ lit "\n} while ( 0 )") decl.loc ((callOf fn).bind (·.loc))).2 ∧
      ∀ ind cut rest o, Generates e .no false rest s3 o →
        Generates e ind cut (.apply fn args [] loc :: rest) s (o.after (blockAt e.cfg ind (lit "do {\n" ++ a ++ lit "\n} while ( 0 )"))) := by
  have hsub : substitute ([['b', 'o', 'd', 'y']].zip [a]) text.txt = lit "do {\n" ++ a ++ lit "\n} while ( 0 )" := by
    rw [htext]; exact (do_text a).trans (by simp [lit])
  have hsub' := (congrArg (substitute ([['b', 'o', 'd', 'y']].zip [a])) htext).trans (do_text a)
  obtain ⟨w, s3, h1, h2, -, h4, h5⟩ := C94_template e fn text decl c0 [['b', 'o', 'd', 'y']] args [v] [a] loc s s1 s2 hf harg (by simp) rfl (by simp)
    (by decide) (by simpa using hv) (by simpa using hn) (.cons ht .nil)
    (by intro p hp; simp at hp; subst hp; exact (by decide : ('(' ∉ (['b', 'o', 'd', 'y'] : Str) ∧ ')' ∉ (['b', 'o', 'd', 'y'] : Str))))
    (by rw [hsub']; exact macroFree_lines (macroFree_lines (macroFree_of rfl) hfree) (macroFree_of rfl))
    (by rw [hsub']; exact admissible_lines (admissible_of rfl) (admissible_lines hadm (admissible_of rfl))) hpy hsk
  rw [hsub] at h1 h4 h5
  have hne : lit "do {\n" ++ a ++ lit "\n} while ( 0 )" ≠ [] := by simp [lit]
  exact ⟨w, s3, h2, h4 hne, h1, fun ind cut rest o ho => (h5 ind cut rest o).1 hne ho⟩

/-- **C94**. `($foo body)` of the library: the text of the body between the lines `({` and `})`. -/
theorem C94_foo (e : EEnv) (fn : Node) (text decl : Src) (c0 : Option Src) (args : List Node) (v : Node) (a : Str) (loc : Option Loc)
    (s s1 s2 : ESt) (hf : Evaluates e fn s (.mclosure text [(lit "body", .bound)] decl c0) s1) (htext : text.txt = fooBody)
    (harg : Args e args s1 [v] s2) (hv : Value v) (hn : v ≠ .none) (ht : ArgText v a) (hfree : MacroFree a) (hadm : Spec.Admissible a)
    (hpy : e.pe.outputPython = false) (hsk : e.pe.skip = .none) :
    ∃ w s3, Evaluates e (.apply fn args [] loc) s w s3 ∧ w.text? = some (lit "({\n" ++ a ++ lit "\n})") ∧
      s3 = (record s2 (lit "({\n" ++ a ++ lit "\n})") decl.loc ((callOf fn).bind (·.loc))).2 ∧
      ∀ ind cut rest o, Generates e .no false rest s3 o →
        Generates e ind cut (.apply fn args [] loc :: rest) s (o.after (blockAt e.cfg ind (lit "({\n" ++ a ++ lit "\n})"))) := by
  have hsub : substitute ([['b', 'o', 'd', 'y']].zip [a]) text.txt = lit "({\n" ++ a ++ lit "\n})" := by
    rw [htext]; exact (foo_text a).trans (by simp [lit])
  have hsub' := (congrArg (substitute ([['b', 'o', 'd', 'y']].zip [a])) htext).trans (foo_text a)
  obtain ⟨w, s3, h1, h2, -, h4, h5⟩ := C94_template e fn text decl c0 [['b', 'o', 'd', 'y']] args [v] [a] loc s s1 s2 hf harg (by simp) rfl (by simp)
    (by decide) (by simpa using hv) (by simpa using hn) (.cons ht .nil)
    (by intro p hp; simp at hp; subst hp; exact (by decide : ('(' ∉ (['b', 'o', 'd', 'y'] : Str) ∧ ')' ∉ (['b', 'o', 'd', 'y'] : Str))))
    (by rw [hsub']; exact macroFree_lines (macroFree_lines (macroFree_of rfl) hfree) (macroFree_of rfl))
    (by rw [hsub']; exact admissible_lines (admissible_of rfl) (admissible_lines hadm (admissible_of rfl))) hpy hsk
  rw [hsub] at h1 h4 h5
  have hne : lit "({\n" ++ a ++ lit "\n})" ≠ [] := by simp [lit]
  exact ⟨w, s3, h2, h4 hne, h1, fun ind cut rest o ho => (h5 ind cut rest o).1 hne ho⟩

/-! ## They are the macros of the library file -/

/-- Is the node a macro with one parameter and these texts? -/
def isMacro1 (name param body : Str) : Node → Bool
  | .macro v [p] t => decide (v.txt = name) && decide (p.txt = param) && decide (t.txt = body)
  | _ => false

theorem isMacro1_sound {name param body : Str} {d : Node} (h : isMacro1 name param body d = true) :
    ∃ v p t, d = .macro v [p] t ∧ v.txt = name ∧ p.txt = param ∧ t.txt = body := by
  unfold isMacro1 at h
  split at h
  · simp only [Bool.and_eq_true, decide_eq_true_eq] at h
    exact ⟨_, _, _, rfl, h.1.1, h.1.2, h.2⟩
  · cases h

/-- Three lines of the library. -/
def threeLines (i : Nat) : Str := (stdlibLines[i]?.getD []) ++ '\n' :: twoLines (i + 1)

set_option maxRecDepth 100000 in
theorem do_parsed : parsedAlone 100 (threeLines 41) (isMacro1 (lit "do") (lit "body") doBody) = true := by decide +kernel

set_option maxRecDepth 100000 in
theorem foo_parsed : parsedAlone 100 (threeLines 46) (isMacro1 (lit "foo") (lit "body") fooBody) = true := by decide +kernel

/-- **C94**. The macros that the theorems are about are those of the library file: three lines of it, parsed, are one such definition. -/
theorem C94_library :
    (∃ (i : Nat) (l1 l2 l3 : Str) (n : Nat) (v p t : Src) (st : PSt), stdlibLines[i]? = some l1 ∧ stdlibLines[i + 1]? = some l2 ∧ stdlibLines[i + 2]? = some l3 ∧
      (P { inputFile := ['a'] } n).parse ['a'] (PSt.start { inputFile := ['a'] } none (l1 ++ '\n' :: (l2 ++ '\n' :: l3))) = .ok ([.macro v [p] t], st) ∧
      v.txt = lit "do" ∧ p.txt = lit "body" ∧ t.txt = doBody) ∧
    (∃ (i : Nat) (l1 l2 l3 : Str) (n : Nat) (v p t : Src) (st : PSt), stdlibLines[i]? = some l1 ∧ stdlibLines[i + 1]? = some l2 ∧ stdlibLines[i + 2]? = some l3 ∧
      (P { inputFile := ['a'] } n).parse ['a'] (PSt.start { inputFile := ['a'] } none (l1 ++ '\n' :: (l2 ++ '\n' :: l3))) = .ok ([.macro v [p] t], st) ∧
      v.txt = lit "foo" ∧ p.txt = lit "body" ∧ t.txt = fooBody) := by
  obtain ⟨d1, p1, h1, k1⟩ := parsedAlone_sound do_parsed
  obtain ⟨d2, p2, h2, k2⟩ := parsedAlone_sound foo_parsed
  obtain ⟨v, p, t, rfl, hv, hp, ht⟩ := isMacro1_sound k1
  obtain ⟨v', p', t', rfl, hv', hp', ht'⟩ := isMacro1_sound k2
  exact ⟨⟨41, _, _, _, 100, v, p, t, p1, rfl, rfl, rfl, h1, hv, hp, ht⟩, ⟨46, _, _, _, 100, v', p', t', p2, rfl, rfl, rfl, h2, hv', hp', ht'⟩⟩

/-! An example: `($do,,f(); )` in a line indented by two blanks, in front of a text, in the mode without browsing. The lines of
the block begin with the indent of the call. -/

example (e : EEnv) (hc : e.cfg.trimAppIndent = true) (hb : e.cfg.browse = false) (decl m : Src) (s : ESt)
    (hm : Scopes.lookup s.env m.txt = some (.mclosure ⟨doBody, none⟩ [(['b', 'o', 'd', 'y'], .bound)] decl none))
    (hk : e.pe.outputPython = false) (hsk : e.pe.skip = .none) (w : Src) :
    ∃ s', Generates e (.str [' ', ' ']) false [.apply (.var false [] m) [.pstr ['f', '(', ')', ';']] [] none, .plain w .none false] s
      (.text (lit "do {\n  f();\n  } while ( 0 )" ++ w.txt) s') := by
  have hf : Evaluates e (.var false [] m) s (.mclosure ⟨doBody, none⟩ [(['b', 'o', 'd', 'y'], .bound)] decl none) s :=
    evaluates_iff.2 (var_value hm (by simp))
  obtain ⟨v, s3, -, -, -, h⟩ := C94_do e _ _ decl none [.pstr ['f', '(', ')', ';']] (.pstr ['f', '(', ')', ';']) ['f', '(', ')', ';'] none s s s hf rfl
    (.one (evaluates_iff.2 (ev_value e (.pstr _) s)) (by simp) (by simp) (.nil s)) (.pstr _) (by simp) (.pstr _)
    (macroFree_of rfl) (admissible_of rfl) hk hsk
  have := h (.str [' ', ' ']) false [.plain w .none false] _ (.plain (.nil ..))
  refine ⟨s3, ?_⟩
  have hfr : fragment e.cfg w.txt (false || false) = w.txt := by simp [fragment]
  have hbl : blockAt e.cfg (.str [' ', ' ']) (lit "do {\n" ++ ['f', '(', ')', ';'] ++ lit "\n} while ( 0 )") = lit "do {\n  f();\n  } while ( 0 )" := by
    simp only [blockAt, reindent, hb, Bool.false_eq_true, if_false]
    unfold trim
    rw [hc]
    decide +kernel
  rw [hfr, hbl] at this
  simpa [Yield.after] using this

end Yupp
