import Verif.Spec.HNamed
import Verif.Props.HBegin
import Verif.Props.Start
/-!
# C104 — The header with the name of the module
-/

namespace Yupp
open Spec

/-- `__MODULE_NAME__` -/
def moduleVar : Str := ['_', '_', 'M', 'O', 'D', 'U', 'L', 'E', '_', 'N', 'A', 'M', 'E', '_', '_']

/-- `h-begin` -/
def hBeginVar : Str := ['h', '-', 'b', 'e', 'g', 'i', 'n']

/-- `implement` -/
def implementVar : Str := ['i', 'm', 'p', 'l', 'e', 'm', 'e', 'n', 't']

theorem name_module : Yupp.IsName moduleVar :=
  ⟨'_', moduleVar.tail, rfl, .inr (.inr rfl), by intro x hx; unfold NameChar NameStart; revert x hx; decide⟩

theorem name_hBegin : Yupp.IsName hBeginVar :=
  ⟨'h', hBeginVar.tail, rfl, .inl (by decide), by intro x hx; unfold NameChar NameStart; revert x hx; decide⟩

theorem name_implement : Yupp.IsName implementVar :=
  ⟨'i', implementVar.tail, rfl, .inl (by decide), by intro x hx; unfold NameChar NameStart; revert x hx; decide⟩

/-- `($__MODULE_NAME__)` -/
def moduleExpr : Expr := .app (.name false [] moduleVar) .nil .nil

theorem module_reads {m : Mode} (r : Str) : Reads m (.body moduleExpr) ('(' :: '$' :: (moduleVar ++ ')' :: r)) r :=
  .app (g := []) isGap_nil (.inr (by simp [NoKeyword, moduleVar])) (form_shut (.name (.plain name_module) (ended_close r))) .argsEnd

/-- `($f ($__MODULE_NAME__))` -/
theorem call_reads {m : Mode} {f : Str} (hf : Yupp.IsName f) (hk : ∀ r, NoKeyword (f ++ r)) (r : Str) :
    Reads m (.body (.app (.name false [] f) (.pos moduleExpr .nil) .nil))
      ('(' :: '$' :: (f ++ ' ' :: '(' :: '$' :: (moduleVar ++ ')' :: ')' :: r))) r :=
  .app (g := []) isGap_nil (.inr (hk _)) (form_space (.name (.plain hf) (ended_space _)) (by unfold GapChar; decide) (by decide))
    (.arg (notNamed_of (by simp)) (form_shut (.former (module_reads (')' :: r)))) .argsEnd)

/-- What `h-begin-named` is read as. -/
def hNamedExpr : ExprText :=
  .chars ['\n'] (.set (.one hName) moduleExpr (.chars ['\n'] (.expr (.app (.name false [] hBeginVar) (.pos moduleExpr .nil) .nil) (.chars ['\n'] .nil))))

theorem ahead_paren {m : Mode} (r : Str) : Ahead m ('(' :: r) := by
  intro c hc
  obtain rfl : '(' = c := by injection hc
  exact .inl rfl

theorem hNamed_reads {m : Mode} : Reads m (.text .file 0 0 hNamedExpr) hNamedText [] := by
  have e0 : hNamedText = ['\n'] ++ ('(' :: '$' :: 's' :: 'e' :: 't' :: ([' '] ++ (hName ++ ([' '] ++ ('(' :: '$' :: (moduleVar ++ ')' :: ')' ::
      (['\n'] ++ ('(' :: '$' :: (hBeginVar ++ ' ' :: '(' :: '$' :: (moduleVar ++ ')' :: ')' :: (['\n'] ++ [])))))))))))  := by decide +kernel
  have hnl : PlainOk m ['\n'] := plainOk_of_check m (by simp) (by decide)
  rw [e0]
  refine ahead_chars hnl rfl (ahead_paren _) (fun sq d => ?_)
  refine Reads.textSet isGap_space (.one free_hName.name) isGap_space (form_shut (.former (module_reads _))) .plain
    (.inl (noName_cons (by unfold NameChar NameStart; decide) _)) ?_
  refine ahead_chars hnl rfl (ahead_paren _) (fun sq d => ?_)
  refine .textExpr (call_reads name_hBegin (by intro r; simp [NoKeyword, hBeginVar]) _) ⟨_, rfl⟩ (by simp [NoDirective, hBeginVar]) ?_
  exact ahead_chars hnl rfl (by intro c hc; cases hc) (fun _ _ => .textEnd .file)

/-- No small letters are left in a module name. -/
theorem module_capitals {i : Option Str} {n u : Str} (hm : ModuleName i n) (h : EachChar Capital n u) : u = n := by
  have hn : ∀ c ∈ n, c ∉ smallLetters := by
    cases hm with
    | @file p b t _ _ _ ht =>
      intro c hc
      obtain ⟨d, hd, rfl⟩ := List.mem_map.1 hc
      have key : ∀ k : Fin 128, moduleChar (Char.ofNat k.val) ∉ smallLetters := by decide +kernel
      have := key ⟨d.toNat, ht d hd⟩
      simpa only [Char.ofNat_toNat] using this
    | empty => decide +kernel
    | stream => decide +kernel
  clear hm
  induction h with
  | nil => rfl
  | @cons c d t v hcd _ ih =>
    rw [ih fun c hc => hn c (List.mem_cons_of_mem _ hc)]
    rcases hcd with ⟨k, h1, -⟩ | ⟨-, rfl⟩
    · exact absurd (List.mem_of_getElem? h1) (hn _ (List.mem_cons_self ..))
    · rfl

variable {e : EEnv} {x : BExt} {upper : Str → Str} {k : SkipOption} {inp outp : Option Str} {now : Str}

/-- **C104.** `($h-begin-named)`, not in an indented line, in a program translated from the file `inp`: the header begins, and
    its name, in all places, is the module name of the file, which stays the name of the header for what follows. -/
theorem C104_h_begin_named (fn : Node) (text decl text' decl' : Src) (c0 c0' : Option Src) (args : List Node) (n : Str) (loc : Option Loc)
    (s s1 s2 : ESt) (hf : Evaluates e fn s (.mclosure text [] decl c0) s1) (htext : text.txt = hNamedText)
    (ha : Args e args s1 [] s2)
    (hbeg : Scopes.lookup s2.env (lit "h-begin") = some (.mclosure text' [(hParam, .bound)] decl' c0')) (htext' : text'.txt = hBeginText)
    (ht : Tells e x (start upper k inp outp) now) (hup : ∀ t : Str, (∀ c ∈ t, c.toNat < 128) → upper t = t.map Char.toUpper)
    (hu : Unbound (lit "__MODULE_NAME__") s2) (hm : ModuleName inp n) (hn : Yupp.IsName n) (hb : Bare e s2 n)
    (hst : Standard e x (lit "upper")) (hub : Unbound (lit "upper") s2)
    (hsk : (modeOf e.pe).remarks = .none) (hpy : e.pe.outputPython = false) :
    ∃ s4, s4.env = [(hName, .pstr n)] :: [(hName, .pstr n)] :: s2.env ∧
      ∀ ind cut rest o, (∀ c i, ind ≠ .str (c :: i)) → Generates e (.str []) false rest s4 o →
        Generates e ind cut (.apply fn args [] loc :: rest) s
          ((o.after ('\n' :: (fragment e.cfg ['\n'] true ++ '\n' :: (fragment e.cfg (headerBegin n) true ++ ['\n'])))).leave.leave) := by
  obtain ⟨nodes, s3, hx, hs3, hd, -, -⟩ := C82_without_parameters e fn text decl c0 args loc s s1 s2 hf ha (xs := hNamedExpr)
    (by rw [htext]; exact hNamed_reads) (by rw [htext]; decide +kernel) (by simp [hpy])
  have henv : s3.env = s2.env := by rw [hs3]; rfl
  have hscr : s3.p.scripts = s2.p.scripts := by rw [hs3]; rfl
  obtain ⟨w, i, ms, rfl, hw, hi, hx1⟩ := text_chars hx
  obtain ⟨lv, y, ks, rfl, hlv, hy, hx2⟩ := text_set hx1
  obtain ⟨b, rfl, hbt⟩ := target_one hlv
  obtain ⟨g, ns, l, rfl, hg, hns⟩ := tree_app hy
  obtain ⟨f, rfl, hft⟩ := tree_name0 hg
  obtain rfl := args_nil hns
  obtain ⟨w', i', ms, rfl, hw', hi', hx3⟩ := text_chars hx2
  obtain ⟨y, ks, rfl, hy, hx4⟩ := text_expr hx3
  obtain ⟨g, ns, l', rfl, hg, hns⟩ := tree_app hy
  obtain ⟨f', rfl, hft'⟩ := tree_name0 hg
  obtain ⟨a, ns', rfl, hta, hns⟩ := args_pos hns
  obtain rfl := args_nil hns
  obtain ⟨g, ns, l'', rfl, hg, hns2⟩ := tree_app hta
  obtain ⟨f'', rfl, hft''⟩ := tree_name0 hg
  obtain rfl := args_nil hns2
  obtain ⟨w'', i'', ms, rfl, hw'', hi'', hx5⟩ := text_chars hx4
  obtain rfl := text_nil hx5
  have hmod : ∀ (st : ESt) (f : Src) (l : Option Loc), f.txt = moduleVar → Scopes.lookup st.env (lit "__MODULE_NAME__") = none →
      Evaluates e (.apply (.var false [] f) [] [] l) st (.pstr n) st := by
    intro st f l hf hl
    have := C81_module (l := f.loc) (loc := l) ht hup (s := st) hl hm
    unfold fnCall at this
    rw [show lit "__MODULE_NAME__" = f.txt from hf ▸ (by decide +kernel)] at this
    exact this
  have hpush : ∀ (v : Node) (a : Str), hName ≠ a → Scopes.lookup (push s3 [(hName, v)]).env a = Scopes.lookup s2.env a := by
    intro v a h
    rw [lookup_push_none (by simpa using h), henv]
  have hne : hName ≠ n := by rintro rfl; exact hb.noHyphen (by decide)
  have hset : Evaluates e (.set (.one b) (.apply (.var false [] f) [] [] l)) s3 (.env [(hName, .pstr n)]) s3 := by
    have := evaluates_set (e := e) (lval := .one b) (s := s3) (v := .pstr n) (s1 := push s3 [(hName, .bound)])
      (ast := .apply (.var false [] f) [] [] l) (by simp [lvalNames]) (by
        simp [LVal.isOutput, hbt, hName, lit]) (by
        simp only [lvalNames, List.map_cons, List.map_nil, hbt]
        exact hmod _ _ _ hft (by
          have : Scopes.lookup (push s3 [(hName, .bound)]).env (lit "__MODULE_NAME__") = none := (hpush .bound _ (by decide +kernel)).trans hu
          exact this))
    simpa [bindings, hbt, pop, push] using this
  have hfn : Evaluates e (.var false [] f') (push s3 [(hName, .pstr n)]) (.mclosure text' [(hParam, .bound)] decl' c0') (push s3 [(hName, .pstr n)]) :=
    evaluates_iff.2 (var_value (by
      rw [hft', hpush _ _ (by decide), show hBeginVar = lit "h-begin" by decide +kernel]
      exact hbeg) (by simp))
  have hbare : Bare e (push s3 [(hName, .pstr n)]) n :=
    ⟨by rw [hpush _ _ hne]; exact hb.unbound, by change e.builtin s3.p.scripts n = none; rw [hscr]; exact hb.notBuiltin, hb.notSpecial, hb.noHyphen⟩
  obtain ⟨s4, u, henv4, hcap, h4⟩ := C104_h_begin e x (.var false [] f') text' decl' c0' [.apply (.var false [] f'') [] [] l''] (.pstr n) n l'
    (push s3 [(hName, .pstr n)]) _ _ hfn htext'
    (.one (hmod _ _ _ hft'' ((hpush _ _ (by decide +kernel)).trans hu)) (by simp) (by simp) (.nil _)) (.pstr n) (by simp) (.pstr n) hn hbare hst
    (by unfold Unbound; exact (hpush _ _ (by decide +kernel)).trans hub) hsk hpy
  obtain rfl := module_capitals hm hcap
  refine ⟨push s4 [(hName, .pstr u)], by simp [push, henv4, henv], fun ind cut rest o hind ho => ?_⟩
  refine (hd ⟨_, List.mem_cons_of_mem _ (List.mem_cons_self ..), _, _, rfl⟩ ind cut rest _).2 ?_
  have hput : ∀ xs, putIn ind xs = xs := by
    intro xs
    unfold putIn
    split
    · next c i => exact absurd rfl (hind c i)
    · rfl
  rw [hput]
  have hline : ∀ b j, Indented b ['\n'] j → j = .str [] :=
    fun b j h => indented_det h (.line (a := []) (b := []) (c := '\n') (.inl rfl) (by intro c hc; cases hc))
  obtain rfl := hline _ _ hi
  obtain rfl := hline _ _ hi'
  obtain rfl := hline _ _ hi''
  have g1 := Generates.plain (e := e) (ind := .str []) (cut := false) (w := w'') (i := .str []) (c := false) ho
  have g2 := h4 (.str []) false _ _ (by simp) g1
  have g3 := Generates.plain (e := e) (ind := .str []) (cut := true) (w := w') (i := .str []) (c := false) g2
  have g4 := Generates.definition (ind := .str []) (cut := false) ⟨(by rintro ⟨_, _, _, h⟩; cases h), by simp⟩ hset (by simp) g3
  have g5 := Generates.plain (e := e) (ind := ind) (cut := false) (w := w) (i := .str []) (c := false) g4
  have hleave : ∀ (p : Yield) (t : Str), p.leave.after t = (p.after t).leave := by intro p t; cases p <;> rfl
  rw [hw, hw', hw'', hleave, hleave, hleave, after_after, after_after, after_after] at g5
  simpa [fragment] using g5

/-- What `implement-named` is read as. -/
theorem implementNamed_reads {m : Mode} :
    Reads m (.text .file 0 0 (.expr (.app (.name false [] implementVar) (.pos moduleExpr .nil) .nil) .nil)) implementNamedText [] := by
  have e0 : implementNamedText = '(' :: '$' :: (implementVar ++ ' ' :: '(' :: '$' :: (moduleVar ++ ')' :: ')' :: [])) := by decide +kernel
  rw [e0]
  exact .textExpr (call_reads name_implement (by intro r; simp [NoKeyword, implementVar]) _) ⟨_, rfl⟩ (by simp [NoDirective, implementVar])
    (.textEnd .file)

/-- **C104.** `($implement-named)`: the macro that tells the header of the module to define its variables. -/
theorem C104_implement_named (fn : Node) (text decl text' decl' : Src) (c0 c0' : Option Src) (args : List Node) (n : Str) (loc : Option Loc)
    (s s1 s2 : ESt) (hf : Evaluates e fn s (.mclosure text [] decl c0) s1) (htext : text.txt = implementNamedText)
    (ha : Args e args s1 [] s2)
    (himp : Scopes.lookup s2.env (lit "implement") = some (.mclosure text' [(hParam, .bound)] decl' c0')) (htext' : text'.txt = implementText)
    (ht : Tells e x (start upper k inp outp) now) (hup : ∀ t : Str, (∀ c ∈ t, c.toNat < 128) → upper t = t.map Char.toUpper)
    (hu : Unbound (lit "__MODULE_NAME__") s2) (hm : ModuleName inp n) (hn : Yupp.IsName n) (hb : Bare e s2 n)
    (hst : Standard e x (lit "upper")) (hub : Unbound (lit "upper") s2)
    (hsk : (modeOf e.pe).remarks ≠ .python) (hpy : e.pe.outputPython = false) :
    ∃ s4 y, s4.env = s2.env ∧ Evaluates e (.apply fn args [] loc) s y s4 ∧ y.text? = some (lit "\n#define " ++ n ++ lit "_IMPLEMENT\n") := by
  obtain ⟨nodes, s3, hx, hs3, -, hd, -⟩ := C82_without_parameters e fn text decl c0 args loc s s1 s2 hf ha
    (by rw [htext]; exact implementNamed_reads) (by rw [htext]; decide +kernel) (by simp [hpy])
  have henv : s3.env = s2.env := by rw [hs3]; rfl
  have hscr : s3.p.scripts = s2.p.scripts := by rw [hs3]; rfl
  obtain ⟨y, ks, rfl, hy, hx4⟩ := text_expr hx
  obtain rfl := text_nil hx4
  obtain ⟨g, ns, l', rfl, hg, hns⟩ := tree_app hy
  obtain ⟨f', rfl, hft'⟩ := tree_name0 hg
  obtain ⟨a, ns', rfl, hta, hns⟩ := args_pos hns
  obtain rfl := args_nil hns
  obtain ⟨g, ns, l'', rfl, hg, hns2⟩ := tree_app hta
  obtain ⟨f'', rfl, hft''⟩ := tree_name0 hg
  obtain rfl := args_nil hns2
  have hmod : Evaluates e (.apply (.var false [] f'') [] [] l'') s3 (.pstr n) s3 := by
    have := C81_module (l := f''.loc) (loc := l'') ht hup (s := s3) (by unfold Unbound; rw [henv]; exact hu) hm
    unfold fnCall at this
    rw [show lit "__MODULE_NAME__" = f''.txt from hft'' ▸ (by decide +kernel)] at this
    exact this
  have hfn : Evaluates e (.var false [] f') s3 (.mclosure text' [(hParam, .bound)] decl' c0') s3 :=
    evaluates_iff.2 (var_value (by
      rw [hft', henv, show implementVar = lit "implement" by decide +kernel]
      exact himp) (by simp))
  have hbare : Bare e s3 n := ⟨by rw [henv]; exact hb.unbound, by rw [hscr]; exact hb.notBuiltin, hb.notSpecial, hb.noHyphen⟩
  obtain ⟨s4, u, henv4, hcap, ⟨y, h4, h5⟩, -⟩ := C104_implement e x (.var false [] f') text' decl' c0' [.apply (.var false [] f'') [] [] l''] (.pstr n) n l'
    s3 s3 s3 hfn htext' (.one hmod (by simp) (by simp) (.nil _)) (.pstr n) (by simp) (.pstr n) hn hbare hst
    (by unfold Unbound; rw [henv]; exact hub) hsk (by simp [hpy])
  obtain rfl := module_capitals hm hcap
  exact ⟨s4, y, henv4.trans henv, ((hd _ rfl (by rintro ⟨_, _, h⟩; cases h)).1 _ _).2 h4, h5⟩

/-- **C104.** The macros are those of the file `lib/h.yu`. -/
theorem C104_library_named : DefinesMacro hNamedLines (lit "h-begin-named") [] hNamedText ∧
    DefinesMacro implementNamedLine (lit "implement-named") [] implementNamedText :=
  ⟨definesMacro_of (by decide +kernel), definesMacro_of (by decide +kernel)⟩

/-! Examples. -/

/-- The settings for the file `src/my-mod.yu-c`, no comments skipped. -/
def namedStart : Start := start (List.map Char.toUpper) .none (some (lit "src/my-mod.yu-c")) (some (lit "src/my-mod.c"))

def namedEnv : EEnv where
  pe := { inputFile := ['a'] }
  builtin := fun _ f => if f ∈ [lit "__FILE__", lit "__OUTPUT_FILE__", lit "__MODULE_NAME__", lit "__TITLE__", lit "upper"] then some .fn else none
  call := fun py f args seen => tellCall {} namedStart [] py f args seen

/-- The scope with the macros. -/
def namedScope : Scopes := [[(lit "h-begin", .mclosure ⟨hBeginText, none⟩ [(hParam, .bound)] ⟨[], none⟩ none),
  (lit "h-begin-named", .mclosure ⟨hNamedText, none⟩ [] ⟨[], none⟩ none),
  (lit "implement", .mclosure ⟨implementText, none⟩ [(hParam, .bound)] ⟨[], none⟩ none),
  (lit "implement-named", .mclosure ⟨implementNamedText, none⟩ [] ⟨[], none⟩ none)]]

theorem namedEnv_tells : Tells namedEnv {} namedStart [] := by
  refine ⟨fun _ f hf => ?_, fun _ _ _ _ => rfl⟩
  simp only [namedEnv]
  rw [if_pos (by simp only [List.mem_cons, List.not_mem_nil, or_false] at hf ⊢; rcases hf with h | h | h | h <;> simp [h])]

theorem namedEnv_upper : Standard namedEnv {} (lit "upper") :=
  ⟨fun _ => by simp only [namedEnv]; rw [if_pos (by decide +kernel)], fun py args seen => by
    change tellCall {} namedStart [] py (lit "upper") args seen = _
    unfold tellCall
    rw [if_neg (by decide +kernel), if_neg (by decide +kernel), if_neg (by decide +kernel), if_neg (by decide +kernel)]⟩

theorem my_mod : ModuleName (some (lit "src/my-mod.yu-c")) (lit "MY_MOD") := by
  have h : ModuleName (some (lit "src/my-mod.yu-c")) ((lit "my-mod").map moduleChar) :=
    .file (by decide +kernel) (b := lit "my-mod.yu-c") ⟨by decide +kernel, .inr ⟨lit "src", by decide +kernel⟩⟩
      (.ext (s := lit "my-mod") (x := lit "yu-c") ⟨'m', by decide +kernel, by decide⟩ (by decide +kernel)) (by decide +kernel)
  rwa [show (lit "my-mod").map moduleChar = lit "MY_MOD" by decide +kernel] at h

theorem name_my_mod : Yupp.IsName (lit "MY_MOD") :=
  ⟨'M', lit "Y_MOD", by decide +kernel, .inr (.inl (by decide)), by
    intro x hx
    rw [show lit "Y_MOD" = ['Y', '_', 'M', 'O', 'D'] by decide +kernel] at hx
    unfold NameChar NameStart
    revert x hx
    decide⟩

attribute [local irreducible] hBeginText

/-- `($h-begin-named)` in `src/my-mod.yu-c`: the header `MY_MOD`. -/
example (p : PSt) (out : Option Str) (rept : Bool) (seen : List Node) :
    ∃ s', Generates namedEnv .none false [.apply (.var false [] ⟨lit "h-begin-named", none⟩) [] [] none] ⟨namedScope, p, out, rept, seen⟩
      (.text ('\n' :: (fragment namedEnv.cfg ['\n'] true ++ '\n' :: (fragment namedEnv.cfg (headerBegin (lit "MY_MOD")) true ++ ['\n']))) s') := by
  obtain ⟨s4, -, h⟩ := C104_h_begin_named (e := namedEnv) (x := {}) (upper := List.map Char.toUpper) (k := .none)
    (inp := some (lit "src/my-mod.yu-c")) (outp := some (lit "src/my-mod.c")) (now := [])
    (.var false [] ⟨lit "h-begin-named", none⟩) ⟨hNamedText, none⟩ ⟨[], none⟩ ⟨hBeginText, none⟩ ⟨[], none⟩ none none [] (lit "MY_MOD") none
    ⟨namedScope, p, out, rept, seen⟩ ⟨namedScope, p, out, rept, seen⟩ ⟨namedScope, p, out, rept, seen⟩
    (evaluates_iff.2 (var_value (by rfl) (by simp))) rfl (.nil _) (by rfl) rfl namedEnv_tells (fun _ _ => rfl) (by rfl) my_mod name_my_mod
    ⟨by rfl, by simp only [namedEnv]; rw [if_neg (by decide +kernel)], by decide +kernel, by decide +kernel⟩ namedEnv_upper (by rfl) rfl rfl
  have h5 := h .none false [] _ (by simp) .nil
  exact ⟨_, by simpa [Yield.after, Yield.leave] using h5⟩

/-- `($implement-named)` in `src/my-mod.yu-c`. -/
example (p : PSt) (out : Option Str) (rept : Bool) (seen : List Node) :
    ∃ s4 y, Evaluates namedEnv (.apply (.var false [] ⟨lit "implement-named", none⟩) [] [] none) ⟨namedScope, p, out, rept, seen⟩ y s4 ∧
      y.text? = some (lit "\n#define MY_MOD_IMPLEMENT\n") := by
  obtain ⟨s4, y, -, h, h'⟩ := C104_implement_named (e := namedEnv) (x := {}) (upper := List.map Char.toUpper) (k := .none)
    (inp := some (lit "src/my-mod.yu-c")) (outp := some (lit "src/my-mod.c")) (now := [])
    (.var false [] ⟨lit "implement-named", none⟩) ⟨implementNamedText, none⟩ ⟨[], none⟩ ⟨implementText, none⟩ ⟨[], none⟩ none none [] (lit "MY_MOD") none
    ⟨namedScope, p, out, rept, seen⟩ ⟨namedScope, p, out, rept, seen⟩ ⟨namedScope, p, out, rept, seen⟩
    (evaluates_iff.2 (var_value (by rfl) (by simp))) rfl (.nil _) (by rfl) rfl namedEnv_tells (fun _ _ => rfl) (by rfl) my_mod name_my_mod
    ⟨by rfl, by simp only [namedEnv]; rw [if_neg (by decide +kernel)], by decide +kernel, by decide +kernel⟩ namedEnv_upper (by rfl) (by intro h; cases h) rfl
  exact ⟨s4, y, h, h'.trans (by decide +kernel)⟩

end Yupp
