import Verif.Props.CoroPlain
import Verif.Props.HBegin
/-!
# C106 — A macro that calls another one: `coro-init` of `lib/coroutine-py.yu`
-/

namespace Yupp
open Spec

/-- As `filled_call`, what is evaluated changing the state. -/
theorem made_call {e : EEnv} {fn : Node} {args : List Node} {loc : Option Loc} {s s3 s4 : ESt} {nodes : List Node} {t : Str}
    (hsame : SameOutcome e (.apply fn args [] loc) s (.text nodes) s3) (hg : Generates e (.str []) false nodes s3 (.text t s4)) :
    (∃ v, Evaluates e (.apply fn args [] loc) s v s4 ∧ v.text? = some t) ∧
    ∀ ind cut rest o, Generates e .no false rest s4 o →
      Generates e ind cut (.apply fn args [] loc :: rest) s (o.after (blockAt e.cfg ind t)) := by
  obtain ⟨w, hw, h1, h2⟩ := (C78_text e _ _ _ _ _).1 hg
  have hw' : Evaluates e (.text nodes) s3 w s4 := by
    rw [evaluates_iff] at hw ⊢
    rw [ev_text]; exact hw
  have hv := (hsame.1 _ _).2 hw'
  obtain ⟨h3, h4⟩ := text_value (textExt e s) h1 h2
  refine ⟨⟨w, hv, h3⟩, fun ind cut rest o ho => ?_⟩
  have hform : Form (.apply fn args [] loc) := ⟨(by rintro ⟨_, _, _, h⟩; cases h), (by intro h; cases h)⟩
  have := Generates.item (ind := ind) (cut := cut) hform hv (item_text h3) (text_final h3) ho
  have hi : itemText e ind (.apply fn args [] loc) w = blockAt e.cfg ind t := by
    cases ind <;> simp [itemText, blockAt, shown_asItIs h3 h4]
  rwa [hi] at this

/-- The text of the macro with the argument. -/
def coroInitWith (n : Str) : Str :=
  (lit " " ++ (n ++ lit " = ")) ++ '(' :: '$' :: 'c' :: 'o' :: 'r' :: 'o' :: ' ' :: (n ++ [')'])

/-- What it is read as. -/
def coroInitExpr (n : Str) : ExprText :=
  .chars (lit " " ++ (n ++ lit " = ")) (.expr (.app (.name false [] ['c', 'o', 'r', 'o']) (.pos (.name false [] n) .nil) .nil) .nil)

theorem coroInit_substituted (n : Str) : substitute [(hParam, n)] (lit " ($name) = ($coro ($name))") = coroInitWith n := by
  have : substitute [(hParam, n)] (lit " ($name) = ($coro ($name))") =
      ' ' :: (n ++ (lit " = " ++ '(' :: '$' :: 'c' :: 'o' :: 'r' :: 'o' :: ' ' :: (n ++ [')']))) := by kernel_rfl
  rw [this]
  simp [coroInitWith, lit]

theorem coro_reads {m : Mode} {n : Str} (hn : Yupp.IsName n) (r : Str) :
    Reads m (.body (.app (.name false [] ['c', 'o', 'r', 'o']) (.pos (.name false [] n) .nil) .nil))
      ('(' :: '$' :: 'c' :: 'o' :: 'r' :: 'o' :: ' ' :: (n ++ ')' :: r)) r := by
  have hname := hn
  obtain ⟨k, t, hkt, hk1, -⟩ := hn
  have hk : ¬ GapChar k ∧ k ≠ '?' ∧ k ≠ '\\' := by
    refine ⟨(nameChar_plain (.inl hk1)).2.1, ?_, ?_⟩ <;> (rintro rfl; revert hk1; unfold NameStart; decide)
  have h0 : Reads m (.form (.name false [] ['c', 'o', 'r', 'o'])) ('c' :: 'o' :: 'r' :: 'o' :: ' ' :: (n ++ ')' :: r)) (n ++ ')' :: r) := by
    rw [hkt]
    exact form_space (.name (t := ['c', 'o', 'r', 'o']) (.plain free_coro.name) (ended_space _)) hk.1 hk.2.1
  exact .app (g := []) isGap_nil (.inr (by simp [NoKeyword])) h0
    (.arg (notNamed_of (by rw [hkt]; simp [hk.2.2])) (form_shut (.name (.plain hname) (ended_close r))) .argsEnd)

theorem coroInit_plain {m : Mode} {n : Str} (hc : CIdent n) : PlainOk m (lit " " ++ (n ++ lit " = ")) :=
  plainOk_of_check m (by simp [lit]) (plainCheck_before hc (by decide) (by decide))

theorem coroInit_reads {m : Mode} {n : Str} (hn : Yupp.IsName n) (hc : CIdent n) :
    Reads m (.text .file 0 0 (coroInitExpr n)) (coroInitWith n) [] := by
  refine ahead_chars (coroInit_plain hc) rfl ?_ (fun sq d => ?_)
  · intro c hc
    obtain rfl : '(' = c := by injection hc
    exact .inl rfl
  · exact .textExpr (coro_reads hn []) ⟨_, rfl⟩ (by simp [NoDirective]) (.textEnd .file)

theorem coroInit_unmarked {n : Str} (hn : Yupp.IsName n) : Unmarked [(hParam, n)] (coroInitWith n) := by
  intro p hp a b hab
  simp only [List.mem_singleton] at hp
  subst hp
  have hin : ('(' :: '$' :: (hParam ++ [')'])) <:+: coroInitWith n := ⟨a, b, by rw [hab]; simp⟩
  have h5 := infix_past (a := lit " " ++ (n ++ lit " = ")) (by simp [lit, (name_noParens hn).1]) hin
  rw [List.infix_cons_iff] at h5
  rcases h5 with h5 | h5
  · obtain ⟨_, h5⟩ := h5
    simp [hParam] at h5
  have h6 : ('(' :: '$' :: (hParam ++ [')'])) <:+: [] := by
    refine infix_past (a := '$' :: 'c' :: 'o' :: 'r' :: 'o' :: ' ' :: (n ++ [')'])) ?_ (by simpa using h5)
    simp [(name_noParens hn).1]
  simp [List.infix_nil] at h6

/-- **C106.** `($coro-init n)` of `lib/coroutine-py.yu` for a free identifier `n`, where `coro` is the macro of this library: the
    variable `n` is given the coroutine `coro_n`, the one that `($coro n)` gives. -/
theorem C106_coro_init (e : EEnv) (fn : Node) (text decl : Src) (c0 : Option Src) (args : List Node) (v : Node) (n : Str)
    (loc : Option Loc) (s s1 s2 : ESt) (hf : Evaluates e fn s (.mclosure text [(lit "name", .bound)] decl c0) s1)
    (htext : text.txt = lit " ($name) = ($coro ($name))") (ha : Args e args s1 [v] s2) (hv : Value v) (hvn : v ≠ .none) (hvt : ArgText v n)
    (hn : Yupp.IsName n) (hc : CIdent n) (hb : Bare e s2 n)
    (ctext cdecl : Src) (cc : Option Src) (hcoro : Scopes.lookup s2.env (lit "coro") = some (.mclosure ctext [(lit "name", .bound)] cdecl cc))
    (hct : ctext.txt = lit " coro_($name)()") (hk : e.pe.outputPython = true → ∀ k, e.pe.inputFile ≠ natStr k) :
    ∃ s4, s4.env = s2.env ∧
      (∃ y, Evaluates e (.apply fn args [] loc) s y s4 ∧ y.text? = some (lit " " ++ n ++ lit " = " ++ blockAt e.cfg .no (pyCoroText n))) ∧
      ∀ ind cut rest o, Generates e .no false rest s4 o →
        Generates e ind cut (.apply fn args [] loc :: rest) s
          (o.after (blockAt e.cfg ind (lit " " ++ n ++ lit " = " ++ blockAt e.cfg .no (pyCoroText n)))) := by
  have hsub : substitute ([hParam].zip [n]) text.txt = coroInitWith n := by rw [htext]; exact coroInit_substituted n
  obtain ⟨nodes, s3, hx, hs3, -, -, hd⟩ := C82_macro e fn text decl c0 [hParam] args [v] [n] loc s s1 s2 hf ha (by simp) rfl (by simp) (by decide)
    (by simpa using hv) (by simpa using hvn) (.cons hvt .nil) (hParam_ok n) (by rw [hsub]; exact coroInit_unmarked hn)
    (by rw [hsub]; exact coroInit_reads hn hc) (by rw [hsub]; simp [coroInitWith]) (fun h => hk h _)
  have henv : s3.env = s2.env := by rw [hs3]; rfl
  have hscr : s3.p.scripts = s2.p.scripts := by rw [hs3]; rfl
  obtain ⟨w, i, ms, rfl, hw, hi, hx1⟩ := text_chars hx
  obtain ⟨y, ks, rfl, hy, hx2⟩ := text_expr hx1
  obtain rfl := text_nil hx2
  obtain ⟨g, ns, l, rfl, hg, hns⟩ := tree_app hy
  obtain ⟨f, rfl, hft⟩ := tree_name0 hg
  obtain ⟨a, ns', rfl, hta, hns⟩ := args_pos hns
  obtain rfl := args_nil hns
  obtain ⟨z, rfl, hzt⟩ := tree_name0 hta
  have hz : Bare e s3 z.txt := by
    rw [hzt]
    exact ⟨by rw [henv]; exact hb.unbound, by rw [hscr]; exact hb.notBuiltin, hb.notSpecial, hb.noHyphen⟩
  have hi' : i = .no := indented_det hi (by
    have : lit " " ++ (n ++ lit " = ") = (lit " " ++ (n ++ lit " ")) ++ '=' :: lit " " := by simp [lit]
    rw [this]
    exact .text (by unfold GapChar; decide) (by unfold LineEnd; decide))
  subst hi'
  have hlook : Scopes.lookup s3.env f.txt = some (.mclosure ctext [(lit "name", .bound)] cdecl cc) := by rw [henv, hft]; exact hcoro
  obtain ⟨q, s4, henv4, -, -, hplace⟩ := (C106_coroutine hc).2.2.2.2.1 e (.var false [] f) ctext cdecl cc [.var false [] z] (.atom z) l s3 s3 s3
    (evaluates_iff.2 (var_value hlook (by simp))) hct (.one (bare_eval hz) (by simp) (by simp) (.nil _)) (.atom z) (by simp)
    (by rw [← hzt]; exact .atom z) (fun h => hk h _)
  have hsame := hd (by
    intro q hq
    simp only [List.mem_cons, List.not_mem_nil, or_false] at hq
    rcases hq with rfl | rfl <;> (rintro ⟨_, _, h⟩; cases h)) (by simp)
  refine ⟨s4, henv4.trans henv, made_call hsame ?_⟩
  have h2 := (hplace .no false [] (.text [] s4)).1 (by simp [pyCoroText, lit]) .nil
  have h4 := Generates.plain (e := e) (ind := .str []) (cut := false) (w := w) (i := .no) (c := false) h2
  rw [hw, after_after] at h4
  simpa [Yield.after, fragment] using h4

set_option maxRecDepth 100000 in
/-- **C106.** The line of the file. -/
theorem C106_coro_init_library :
    DefinesMacro (lit "($macro coro-init (name) ($name) = ($coro ($name)))") (lit "coro-init") [lit "name"] (lit " ($name) = ($coro ($name))") :=
  definesMacro_of (by decide +kernel)

/-! An example: without browsing and with trimming, `($coro-init tick)` is the assignment of `coro_tick()`. -/

example : lit " " ++ lit "tick" ++ lit " = " ++ blockAt {} .no (pyCoroText (lit "tick")) = lit " tick = coro_tick()" := by decide +kernel

/-- The scope with the macros `coro` and `coro-init`. -/
def coroScope : Scopes := [[(lit "coro", .mclosure ⟨lit " coro_($name)()", none⟩ [(lit "name", .bound)] ⟨[], none⟩ none),
  (lit "coro-init", .mclosure ⟨lit " ($name) = ($coro ($name))", none⟩ [(lit "name", .bound)] ⟨[], none⟩ none)]]

example (x : BExt) (p : PSt) (out : Option Str) (rept : Bool) (seen : List Node) :
    ∃ y s', Evaluates (upperEnv x) (.apply (.var false [] ⟨lit "coro-init", none⟩) [.var false [] ⟨lit "foo", none⟩] [] none)
      ⟨coroScope, p, out, rept, seen⟩ y s' ∧ y.text? = some (lit " foo = coro_foo()") := by
  have hbare : Bare (upperEnv x) ⟨coroScope, p, out, rept, seen⟩ (lit "foo") := ⟨by rfl, by rfl, by decide, by decide⟩
  obtain ⟨s4, -, ⟨y, h1, h2⟩, -⟩ := C106_coro_init (upperEnv x) (.var false [] ⟨lit "coro-init", none⟩) ⟨lit " ($name) = ($coro ($name))", none⟩
    ⟨[], none⟩ none [.var false [] ⟨lit "foo", none⟩] (.atom ⟨lit "foo", none⟩) (lit "foo") none ⟨coroScope, p, out, rept, seen⟩
    ⟨coroScope, p, out, rept, seen⟩ ⟨coroScope, p, out, rept, seen⟩ (evaluates_iff.2 (var_value (by rfl) (by simp))) rfl
    (.one (bare_eval hbare) (by simp) (by simp) (.nil _)) (.atom _) (by simp) (.atom _) name_foo ⟨by decide, by decide⟩ hbare
    ⟨lit " coro_($name)()", none⟩ ⟨[], none⟩ none rfl rfl (by simp [upperEnv, stdEnv])
  refine ⟨y, s4, h1, h2.trans (congrArg some ?_)⟩
  have : (upperEnv x).cfg = {} := rfl
  rw [this]
  decide +kernel

/-- `($coro-h)` of `lib/coroutine-h.yu` in C. -/
example (x : BExt) (decl m : Src) (s : ESt) (hm : Scopes.lookup s.env m.txt = some (.mclosure ⟨lit "#include \"coroutine.h\"", none⟩ [] decl none)) :
    ∃ s', Generates (upperEnv x) (.str []) false [.apply (.var false [] m) [] [] none] s (.text (lit "#include \"coroutine.h\"") s') := by
  obtain ⟨s3, -, -, h⟩ := C106_include (upperEnv x) (.var false [] m) ⟨lit "#include \"coroutine.h\"", none⟩ decl none [] none s s s
    (evaluates_iff.2 (var_value hm (by simp))) rfl (.nil s) (by simp [upperEnv, stdEnv, modeOf]) rfl
  have h1 := h (.str []) false [] _ .nil
  have h2 : blockAt (upperEnv x).cfg (.str []) (lit "#include \"coroutine.h\"") = lit "#include \"coroutine.h\"" :=
    block_line _ _ ⟨by decide, fun c hc => by obtain rfl : '#' = c := (by simpa [lit] using hc); decide⟩
  rw [h2] at h1
  exact ⟨s3, by simpa [Yield.after] using h1⟩

end Yupp
