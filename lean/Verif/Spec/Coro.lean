import Verif.Spec.HLib
import Verif.Spec.Template
/-!
# The macros of `lib/coroutine.yu` with one parameter, for C106
-/

namespace Yupp.Spec

/-- An identifier of C: Latin letters, digits and `_`, not empty. -/
def CIdent (n : Str) : Prop := n ≠ [] ∧ ∀ c ∈ n, ('a' ≤ c ∧ c ≤ 'z') ∨ ('A' ≤ c ∧ c ≤ 'Z') ∨ ('0' ≤ c ∧ c ≤ '9') ∨ c = '_'

/-- The names in a template are all `p`, and there are no literals in it. -/
def OnlyName (p : Str) (ps : List Slot) : Prop := ∀ x ∈ ps, (∃ w, x = .plain w) ∨ x = .name p

/-- `lib/coroutine.yu:50-54`, `:112`, `lib/coroutine-py.yu:35-39`, `:49`. -/
def contextLine : Str := lit "($macro coro-context (name) co_t co_($name))"
def contextInitLine : Str := lit "($macro coro-context-init (name) co_($name) = NULL)"
def declareLine : Str := lit "($macro coro-declare (name) int coro_($name)( co_t *co_p ))"
def callLine : Str := lit "($macro coro-call (name) coro_($name)( &co_($name) ))"
def pyCoroLine : Str := lit "($macro coro (name) coro_($name)())"
def pyCloseLine : Str := lit "($macro coro-uninit (name) ($name).close())"
def pyCallLine : Str := lit "($macro coro-call (name) next( ($name) ))"

/-- What the macros give for the coroutine `n`. -/
def contextText (n : Str) : Str := lit " co_t co_" ++ n
def contextInitText (n : Str) : Str := lit " co_" ++ n ++ lit " = NULL"
def declareText (n : Str) : Str := lit " int coro_" ++ n ++ lit "( co_t *co_p )"
def callText (n : Str) : Str := lit " coro_" ++ n ++ lit "( &co_" ++ n ++ lit " )"
def pyCoroText (n : Str) : Str := lit " coro_" ++ n ++ lit "()"
def pyCloseText (n : Str) : Str := lit " " ++ n ++ lit ".close()"
def pyCallText (n : Str) : Str := lit " next( " ++ n ++ lit " )"

end Yupp.Spec
