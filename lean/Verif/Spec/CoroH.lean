import Verif.Spec.Coro
/-!
# The macros of `lib/coroutine-h.yu` and `lib/coroutine-py.yu` with one parameter, for C106
-/

namespace Yupp.Spec

/-- `lib/coroutine-h.yu:35-39`, `:64-66`, `:74`. -/
def hContextLine : Str := lit "($macro coro-context (name) CORO_CONTEXT( ($name) ))"
def hContextInitLine : Str := lit "($macro coro-context-init (name) CORO_CONTEXT_INIT( ($name) ))"
def hDeclareLine : Str := lit "($macro coro-declare (name) CORO_DEFINE( ($name) ))"
def hCallLine : Str := lit "($macro coro-call (name) CORO_CALL( ($name) ))"
def hAliveLine : Str := lit "($macro coro-alive (coro) CORO_ALIVE( ($coro) ))"
def hReleaseLine : Str := lit "($macro semaphore-release (name) SEMAPHORE_RELEASE( ($name) ))"

/-- `lib/coroutine-py.yu:43-45`, `:51`. -/
def pyWaitLine : Str := lit "($macro coro-wait (cond) while not ( ($cond) ): yield CO_WAIT)"
def pyWaitNotLine : Str := lit "($macro coro-wait-not (cond) while ($cond): yield CO_WAIT)"
def pyAliveLine : Str := lit "($macro coro-alive (status) (( ($status) ) < CO_END ))"

/-- A macro of `lib/coroutine-h.yu`: the macro `m` of `lib/coroutine.h` with the argument `n`. -/
def wrapped (m n : Str) : Str := ' ' :: m ++ lit "( " ++ n ++ lit " )"

/-- What the macros of `lib/coroutine-py.yu` give for `n`. -/
def pyWaitText (n : Str) : Str := lit " while not ( " ++ n ++ lit " ): yield CO_WAIT"
def pyWaitNotText (n : Str) : Str := lit " while " ++ n ++ lit ": yield CO_WAIT"
def pyAliveText (n : Str) : Str := lit " (( " ++ n ++ lit " ) < CO_END )"

end Yupp.Spec
