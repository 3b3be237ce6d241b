import Verif.Spec.Modules
import Verif.Spec.Generate
/-!
# The variants of a library, for C107
-/

namespace Yupp.Spec

/-- The text of `lib/hlib.yu`: a comment, the first library, the line that decides, the second library. -/
def hlibText : Str := lit "($!\n\t($set hlib-light 0) to use full version of storage classes macros,\n\t($set hlib-light 1) to use light version of storage classes macros.\n)\n\n($import h-light)\n\n($skip ? ($0 ? ($isatom hlib-light) | hlib-light))\n\n($import h)\n"

/-- The text of `lib/corolib.yu`. -/
def corolibText : Str := lit "($!\n\t($set corolib-use-c-macro 0) to generate direct C source code for coroutines,\n\t($set corolib-use-c-macro 1) to generate source code based on macro definitions from \"coroutine.h\".\n)\n\n($import coroutine)\n\n($skip ? ($not ($0 ? ($isatom corolib-use-c-macro) | corolib-use-c-macro)))\n\n($import coroutine-h)\n"

/-- The switch `a` is on: its value is a number other than 0. -/
def SwitchedOn (s : ESt) (a : Str) : Prop := ∃ n : Int, n ≠ 0 ∧ Scopes.lookup s.env a = some (.int n)

/-- The switch `a` is off: it has no value, or the value 0. -/
def SwitchedOff (s : ESt) (a : Str) : Prop := Scopes.lookup s.env a = none ∨ Scopes.lookup s.env a = some (.int 0)

/-- `($0 ? ($isatom a) | a)` -/
def variantExpr (a : Str) : Expr :=
  .app (.cond (.app (.name false [] (lit "isatom")) (.pos (.name false [] a) .nil) .nil) (.int 0) (.name false [] a)) .nil .nil

/-- `($skip ? ($0 ? ($isatom a) | a))` -/
def skipOn (a : Str) : Expr := .app (.when (variantExpr a) (.name false [] (lit "skip"))) .nil .nil

/-- `($skip ? ($not ($0 ? ($isatom a) | a)))` -/
def skipOff (a : Str) : Expr :=
  .app (.when (.app (.name false [] (lit "not")) (.pos (variantExpr a) .nil) .nil) (.name false [] (lit "skip"))) .nil .nil

end Yupp.Spec
