import Verif.Spec.CoroH
import Verif.Props.Coro
/-!
# C106 — The other coroutine libraries
-/

namespace Yupp
open Spec

/-- The macro with the parameter `p`, given the identifier `n` in any form, in any mode and any state, gives the text `t`. -/
def GivesArg (p body n t : Str) : Prop :=
  ∀ (e : EEnv) (fn : Node) (text decl : Src) (c0 : Option Src) (args : List Node) (v : Node) (loc : Option Loc) (s s1 s2 : ESt),
    Evaluates e fn s (.mclosure text [(p, .bound)] decl c0) s1 → text.txt = body → Args e args s1 [v] s2 → Value v → v ≠ .none → ArgText v n →
    (e.pe.outputPython = true → e.pe.inputFile ≠ natStr s2.p.world.inclusion.length) →
    ∃ w s3, s3.env = s2.env ∧ Evaluates e (.apply fn args [] loc) s w s3 ∧ w.text? = some t ∧ TextInPlace e (.apply fn args [] loc) s t s3

theorem givesArg_one {p n : Str} (hp : FreeName p) (hpv : p ≠ vaArgs) (hpn : '(' ∉ p ∧ ')' ∉ p) (hn : CIdent n) (w1 w2 : Str) (h1 : w1 ≠ [])
    (c1 : plainCheck w1 = true) (c2 : plainCheck w2 = true) : GivesArg p (w1 ++ lit "($" ++ p ++ lit ")" ++ w2) n (w1 ++ n ++ w2) := by
  intro e fn text decl c0 args v loc s s1 s2 hf ht ha hv hvn hat hk
  exact C106_ident e fn text decl c0 p args v n loc s s1 s2 hf ha hv hvn hat hpv hp hpn w1 w2 ht h1 c1 c2 hn hk

theorem free_coro : FreeName (lit "coro") where
  name := ⟨'c', ['o', 'r', 'o'], rfl, .inl (by decide), by intro x hx; unfold NameChar NameStart; revert x hx; decide⟩
  keyword := by intro r; simp [NoKeyword, lit]
  directive := by intro r; simp [NoDirective, lit]

theorem free_cond : FreeName (lit "cond") where
  name := ⟨'c', ['o', 'n', 'd'], rfl, .inl (by decide), by intro x hx; unfold NameChar NameStart; revert x hx; decide⟩
  keyword := by intro r; simp [NoKeyword, lit]
  directive := by intro r; simp [NoDirective, lit]

theorem free_status : FreeName (lit "status") where
  name := ⟨'s', ['t', 'a', 't', 'u', 's'], rfl, .inl (by decide), by intro x hx; unfold NameChar NameStart; revert x hx; decide⟩
  keyword := by intro r; simp [NoKeyword, lit]
  directive := by intro r; simp [NoDirective, lit]

/-- **C106.** The macros of `lib/coroutine-h.yu`, called with an identifier, are calls of the macros of `lib/coroutine.h` with just
    this identifier, so that all of them are about the same coroutine. -/
theorem C106_wrapper {n : Str} (hn : CIdent n) :
    GivesArg (lit "name") (lit " CORO_CONTEXT( ($name) )") n (wrapped (lit "CORO_CONTEXT") n) ∧
    GivesArg (lit "name") (lit " CORO_CONTEXT_INIT( ($name) )") n (wrapped (lit "CORO_CONTEXT_INIT") n) ∧
    GivesArg (lit "name") (lit " CORO_DEFINE( ($name) )") n (wrapped (lit "CORO_DEFINE") n) ∧
    GivesArg (lit "name") (lit " CORO_CALL( ($name) )") n (wrapped (lit "CORO_CALL") n) ∧
    GivesArg (lit "coro") (lit " CORO_ALIVE( ($coro) )") n (wrapped (lit "CORO_ALIVE") n) ∧
    GivesArg (lit "name") (lit " SEMAPHORE_RELEASE( ($name) )") n (wrapped (lit "SEMAPHORE_RELEASE") n) := by
  refine ⟨?_, ?_, ?_, ?_, ?_, ?_⟩
  · exact givesArg_one free_name (by decide) (by decide) hn (lit " CORO_CONTEXT( ") (lit " )") (by decide) (by decide) (by decide)
  · exact givesArg_one free_name (by decide) (by decide) hn (lit " CORO_CONTEXT_INIT( ") (lit " )") (by decide) (by decide) (by decide)
  · exact givesArg_one free_name (by decide) (by decide) hn (lit " CORO_DEFINE( ") (lit " )") (by decide) (by decide) (by decide)
  · exact givesArg_one free_name (by decide) (by decide) hn (lit " CORO_CALL( ") (lit " )") (by decide) (by decide) (by decide)
  · exact givesArg_one free_coro (by decide) (by decide) hn (lit " CORO_ALIVE( ") (lit " )") (by decide) (by decide) (by decide)
  · exact givesArg_one free_name (by decide) (by decide) hn (lit " SEMAPHORE_RELEASE( ") (lit " )") (by decide) (by decide) (by decide)

/-- **C106.** The macros of `lib/coroutine-py.yu` that wait for a condition or test a status, called with an identifier. -/
theorem C106_python {n : Str} (hn : CIdent n) :
    GivesArg (lit "cond") (lit " while not ( ($cond) ): yield CO_WAIT") n (pyWaitText n) ∧
    GivesArg (lit "cond") (lit " while ($cond): yield CO_WAIT") n (pyWaitNotText n) ∧
    GivesArg (lit "status") (lit " (( ($status) ) < CO_END )") n (pyAliveText n) := by
  refine ⟨?_, ?_, ?_⟩
  · exact givesArg_one free_cond (by decide) (by decide) hn (lit " while not ( ") (lit " ): yield CO_WAIT") (by decide) (by decide) (by decide)
  · exact givesArg_one free_cond (by decide) (by decide) hn (lit " while ") (lit ": yield CO_WAIT") (by decide) (by decide) (by decide)
  · exact givesArg_one free_status (by decide) (by decide) hn (lit " (( ") (lit " ) < CO_END )") (by decide) (by decide) (by decide)

set_option maxRecDepth 100000 in
/-- **C106.** The macros that the theorems are about are those of the files. -/
theorem C106_other_libraries :
    DefinesMacro hContextLine (lit "coro-context") [lit "name"] (lit " CORO_CONTEXT( ($name) )") ∧
    DefinesMacro hContextInitLine (lit "coro-context-init") [lit "name"] (lit " CORO_CONTEXT_INIT( ($name) )") ∧
    DefinesMacro hDeclareLine (lit "coro-declare") [lit "name"] (lit " CORO_DEFINE( ($name) )") ∧
    DefinesMacro hCallLine (lit "coro-call") [lit "name"] (lit " CORO_CALL( ($name) )") ∧
    DefinesMacro hAliveLine (lit "coro-alive") [lit "coro"] (lit " CORO_ALIVE( ($coro) )") ∧
    DefinesMacro hReleaseLine (lit "semaphore-release") [lit "name"] (lit " SEMAPHORE_RELEASE( ($name) )") ∧
    DefinesMacro pyWaitLine (lit "coro-wait") [lit "cond"] (lit " while not ( ($cond) ): yield CO_WAIT") ∧
    DefinesMacro pyWaitNotLine (lit "coro-wait-not") [lit "cond"] (lit " while ($cond): yield CO_WAIT") ∧
    DefinesMacro pyAliveLine (lit "coro-alive") [lit "status"] (lit " (( ($status) ) < CO_END )") :=
  ⟨definesMacro_of (by decide +kernel), definesMacro_of (by decide +kernel), definesMacro_of (by decide +kernel), definesMacro_of (by decide +kernel),
    definesMacro_of (by decide +kernel), definesMacro_of (by decide +kernel), definesMacro_of (by decide +kernel), definesMacro_of (by decide +kernel),
    definesMacro_of (by decide +kernel)⟩

/-! An example: `($coro-wait ready)` in Python. -/

example (e : EEnv) (decl m : Src) (s : ESt) (hm : Scopes.lookup s.env m.txt =
      some (.mclosure ⟨lit " while not ( ($cond) ): yield CO_WAIT", none⟩ [(lit "cond", .bound)] decl none)) (hk : e.pe.outputPython = false) :
    ∃ w s3, Evaluates e (.apply (.var false [] m) [.pstr (lit "ready")] [] none) s w s3 ∧
      w.text? = some (lit " while not ( ready ): yield CO_WAIT") := by
  have hn : CIdent (lit "ready") := ⟨by decide, by decide⟩
  obtain ⟨w, s3, -, h1, h2, -⟩ := (C106_python hn).1 e (.var false [] m) _ decl none [.pstr (lit "ready")] (.pstr (lit "ready")) none s s s
    (evaluates_iff.2 (var_value hm (by simp))) rfl (.one (evaluates_iff.2 (ev_value e (.pstr _) s)) (by simp) (by simp) (.nil s)) (.pstr _) (by simp)
    (.pstr _) (by simp [hk])
  exact ⟨w, s3, h1, h2⟩

end Yupp
