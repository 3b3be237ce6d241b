import Verif.Spec.CoroPlain
import Verif.Props.CoroInit
/-!
# C106 — Macros without parameters whose text is plain
-/

namespace Yupp
open Spec

/-- **C106.** A macro without parameters whose text is plain: a call gives this text, in any mode, and changes no variable. -/
theorem C106_constant (e : EEnv) (fn : Node) (text decl : Src) (c0 : Option Src) (args : List Node) (loc : Option Loc) (s s1 s2 : ESt)
    (hf : Evaluates e fn s (.mclosure text [] decl c0) s1) (ha : Args e args s1 [] s2) (hplain : PlainOk (modeOf e.pe) text.txt)
    (hk : e.pe.outputPython = true → e.pe.inputFile ≠ natStr s2.p.world.inclusion.length) :
    ∃ w s3, s3.env = s2.env ∧ Evaluates e (.apply fn args [] loc) s w s3 ∧ w.text? = some text.txt ∧
      TextInPlace e (.apply fn args [] loc) s text.txt s3 := by
  have hs1 : SlotsOk (modeOf e.pe) [.plain text.txt] := ⟨hplain, by simp, trivial⟩
  have hw : written [.plain text.txt] = text.txt := by simp [written]
  obtain ⟨nodes, s3, hx, hs3, -, h3, -⟩ := C82_without_parameters e fn text decl c0 args loc s s1 s2 hf ha
    (hw ▸ pieces_reads hs1 0 0) hplain.1 hk
  have hx' : ∃ (x : Src) (i : Indent), nodes = [.plain x i false] ∧ x.txt = text.txt := by
    change TextTrees true (.chars text.txt .nil) nodes at hx
    generalize text.txt = T at hx ⊢
    cases hx with
    | chars _ hx =>
      cases hx
      exact ⟨_, _, rfl, rfl⟩
  obtain ⟨x, i, rfl, hxt⟩ := hx'
  have hsame := h3 (.plain x i false) rfl (by rintro ⟨_, _, h⟩; cases h)
  have hval := (hsame.1 _ _).2 (evaluates_iff.2 (ev_value e (.plain x i false) s3))
  have htxt : (Node.plain x i false).text? = some text.txt := congrArg some hxt
  refine ⟨_, s3, by rw [hs3]; rfl, hval, htxt, ?_⟩
  exact in_place hval (fun h => absurd h hplain.1) (fun _ => ⟨htxt, rfl⟩)

/-- A call of the macro without parameters, in any mode and any state, gives the text `t`. -/
def GivesText (t : Str) : Prop :=
  ∀ (e : EEnv) (fn : Node) (text decl : Src) (c0 : Option Src) (args : List Node) (loc : Option Loc) (s s1 s2 : ESt),
    Evaluates e fn s (.mclosure text [] decl c0) s1 → text.txt = t → Args e args s1 [] s2 →
    (e.pe.outputPython = true → e.pe.inputFile ≠ natStr s2.p.world.inclusion.length) →
    ∃ w s3, s3.env = s2.env ∧ Evaluates e (.apply fn args [] loc) s w s3 ∧ w.text? = some t ∧ TextInPlace e (.apply fn args [] loc) s t s3

theorem givesText_of {t : Str} (hne : t ≠ []) (hc : plainCheck t = true) : GivesText t := by
  rintro e fn text decl c0 args loc s s1 s2 hf rfl ha hk
  exact C106_constant e fn text decl c0 args loc s s1 s2 hf ha (plainOk_of_check _ hne hc) hk

set_option maxRecDepth 100000 in
/-- **C106.** The macros of the libraries without parameters and without names in their texts, and their lines in the files. -/
theorem C106_constants :
    (GivesText (lit " yield CO_YIELD") ∧ DefinesMacro pyYieldLine (lit "coro-yield") [] (lit " yield CO_YIELD")) ∧
    (GivesText (lit " while True: yield CO_END") ∧ DefinesMacro pyQuitLine (lit "coro-quit") [] (lit " while True: yield CO_END")) ∧
    (GivesText (lit " CORO_LOCAL") ∧ DefinesMacro hLocalLine (lit "coro-local") [] (lit " CORO_LOCAL")) :=
  ⟨⟨givesText_of (by decide) (by decide), definesMacro_of (by decide +kernel)⟩,
    ⟨givesText_of (by decide) (by decide), definesMacro_of (by decide +kernel)⟩,
    ⟨givesText_of (by decide) (by decide), definesMacro_of (by decide +kernel)⟩⟩

set_option maxRecDepth 100000 in
/-- **C106.** `coro-h`, `coro-local` and `coro-alive` of `lib/coroutine.yu`, and their lines in the file. -/
theorem C106_declarations :
    (GivesText coroHText ∧ DefinesMacro coroHLine (lit "coro-h") [] coroHText) ∧
    (GivesText (lit "static") ∧ DefinesMacro localLine (lit "coro-local") [] (lit "static")) ∧
    ((∀ n, CIdent n → GivesArg (lit "coro") (lit " (( ($coro) ) < CO_END )") n (pyAliveText n)) ∧
      DefinesMacro aliveLine (lit "coro-alive") [lit "coro"] (lit " (( ($coro) ) < CO_END )")) :=
  ⟨⟨givesText_of (by decide) (by decide), definesMacro_of (by decide +kernel)⟩,
    ⟨givesText_of (by decide) (by decide), definesMacro_of (by decide +kernel)⟩,
    ⟨fun n hn => givesArg_one free_coro (by decide) (by decide) hn (lit " (( ") (lit " ) < CO_END )") (by decide) (by decide) (by decide),
      definesMacro_of (by decide +kernel)⟩⟩

/-- **C106.** `($coro-h)` of `lib/coroutine-h.yu` includes `coroutine.h`, in C. -/
theorem C106_include (e : EEnv) (fn : Node) (text decl : Src) (c0 : Option Src) (args : List Node) (loc : Option Loc) (s s1 s2 : ESt)
    (hf : Evaluates e fn s (.mclosure text [] decl c0) s1) (htext : text.txt = lit "#include \"coroutine.h\"") (ha : Args e args s1 [] s2)
    (hsk : (modeOf e.pe).remarks ≠ .python) (hpy : e.pe.outputPython = false) :
    ∃ s3, s3.env = s2.env ∧ (∃ v, Evaluates e (.apply fn args [] loc) s v s3 ∧ v.text? = some (lit "#include \"coroutine.h\"")) ∧
      ∀ ind cut rest o, Generates e .no false rest s3 o →
        Generates e ind cut (.apply fn args [] loc :: rest) s (o.after (blockAt e.cfg ind (lit "#include \"coroutine.h\""))) := by
  have hw : written [.plain (lit "#include "), .quoted (lit "coroutine.h")] = lit "#include \"coroutine.h\"" := by decide +kernel
  have hc : completed (fun a => a) [.plain (lit "#include "), .quoted (lit "coroutine.h")] = lit "#include \"coroutine.h\"" := by decide +kernel
  have h := C103_template e fn text decl c0 args loc s s1 s2 hf ha [.plain (lit "#include "), .quoted (lit "coroutine.h")] (htext.trans hw.symm)
    ⟨plainOk_hash hsk (by decide) (by decide), by simp, by simpa [modeOf] using hpy, by decide, trivial⟩ (by simp)
    (by rw [htext]; decide) (by simp [hpy]) (fun a => a) (by simp)
  rw [hc] at h
  exact h

set_option maxRecDepth 100000 in
/-- **C106.** Its line in the file. -/
theorem C106_include_library : DefinesMacro hCoroHLine (lit "coro-h") [] (lit "#include \"coroutine.h\"") :=
  definesMacro_of (by decide +kernel)

/-! An example: `($coro-yield)` in Python. -/

example (e : EEnv) (decl m : Src) (s : ESt) (hm : Scopes.lookup s.env m.txt = some (.mclosure ⟨lit " yield CO_YIELD", none⟩ [] decl none))
    (hk : e.pe.outputPython = false) :
    ∃ w s3, Evaluates e (.apply (.var false [] m) [] [] none) s w s3 ∧ w.text? = some (lit " yield CO_YIELD") := by
  obtain ⟨w, s3, -, h1, h2, -⟩ := C106_constants.1.1 e (.var false [] m) _ decl none [] none s s s
    (evaluates_iff.2 (var_value hm (by simp))) rfl (.nil s) (by simp [hk])
  exact ⟨w, s3, h1, h2⟩

end Yupp
