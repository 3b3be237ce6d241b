import Verif.Spec.CoroInit
/-!
# The macros of the coroutine libraries without parameters and names, for C106
-/

namespace Yupp.Spec

/-- `lib/coroutine-py.yu:41`, `:47`, `lib/coroutine-h.yu:54`. -/
def pyYieldLine : Str := lit "($macro coro-yield () yield CO_YIELD)"
def pyQuitLine : Str := lit "($macro coro-quit () while True: yield CO_END)"
def hLocalLine : Str := lit "($macro coro-local () CORO_LOCAL)"

/-- `lib/coroutine.yu:37-48`, `:72`, `:114`. -/
def coroHText : Str :=
  lit "\ntypedef void * co_t;\ntypedef unsigned int semaphore_t;\n\nenum {\n\tCO_READY,\n\tCO_WAIT,\n\tCO_YIELD,\n\tCO_END,\n\tCO_SKIP,\n};\n"
def coroHLine : Str := lit "($macro coro-h ()" ++ coroHText ++ lit ")"
def localLine : Str := lit "($macro coro-local ()static)"
def aliveLine : Str := lit "($macro coro-alive (coro) (( ($coro) ) < CO_END ))"

/-- `lib/coroutine-h.yu:33`. -/
def hCoroHLine : Str := lit "($macro coro-h ()#include \"coroutine.h\")"

end Yupp.Spec
