import Verif.Spec.CoroH
/-!
# The macros of the coroutine libraries with two parameters, for C106
-/

namespace Yupp.Spec

/-- Every name in a template is one of the parameters. -/
def NamesAmong (ps : List Str) (ts : List Slot) : Prop := ∀ a, Slot.name a ∈ ts → a ∈ ps

/-- The text given to a parameter: the parameters and the texts are in the same order. -/
def givenTo : List Str → List Str → Str → Str
  | p :: ps, t :: ts, a => if a = p then t else givenTo ps ts a
  | _, _, _ => []

/-- `lib/coroutine.yu:118`, `lib/coroutine-h.yu:70`. -/
def semInitLine : Str := lit "($macro semaphore-init (name val) ($name) = ($val))"
def hSemInitLine : Str := lit "($macro semaphore-init (name val) SEMAPHORE_INIT( ($name), ($val) ))"

/-- What the macros give for the semaphore `n` and the value `k`. -/
def semInitText (n k : Str) : Str := lit " " ++ n ++ lit " = " ++ k
def hSemInitText (n k : Str) : Str := lit " SEMAPHORE_INIT( " ++ n ++ lit ", " ++ k ++ lit " )"

end Yupp.Spec
