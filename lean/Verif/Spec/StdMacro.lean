import Verif.Spec.Generate
import Verif.Spec.Syntax
/-!
# `$def` and `$undef` of the library, for C83
-/

namespace Yupp.Spec

/-- The text of the macro `def`, `lib/stdlib.yu:61-62`: `($set ($name) 1)`, line end, `($unq "#define") ($name)`. -/
def defBody : Str :=
  ['(', '$', 's', 'e', 't', ' ', '(', '$', 'n', 'a', 'm', 'e', ')', ' ', '1', ')', '\n',
   '(', '$', 'u', 'n', 'q', ' ', '"', '#', 'd', 'e', 'f', 'i', 'n', 'e', '"', ')', ' ', '(', '$', 'n', 'a', 'm', 'e', ')']

/-- The text of the macro `undef`, `lib/stdlib.yu:67-68`. -/
def undefBody : Str :=
  ['(', '$', 's', 'e', 't', ' ', '(', '$', 'n', 'a', 'm', 'e', ')', ' ', '0', ')', '\n',
   '(', '$', 'u', 'n', 'q', ' ', '"', '#', 'u', 'n', 'd', 'e', 'f', '"', ')', ' ', ' ', '(', '$', 'n', 'a', 'm', 'e', ')']

/-- The text of the macro `skip-if`, `lib/stdlib.yu:79`: `($if ($cond) ($skip))`. -/
def skipIfBody : Str :=
  ['(', '$', 'i', 'f', ' ', '(', '$', 'c', 'o', 'n', 'd', ')', ' ', '(', '$', 's', 'k', 'i', 'p', ')', ')']

/-- The text of the macro `skip-if-not`, `lib/stdlib.yu:80`: `($if ($not ($cond)) ($skip))`. -/
def skipIfNotBody : Str :=
  ['(', '$', 'i', 'f', ' ', '(', '$', 'n', 'o', 't', ' ', '(', '$', 'c', 'o', 'n', 'd', ')', ')', ' ', '(', '$', 's', 'k', 'i', 'p', ')', ')']

/-- The text `a` is a way to write the expression `x`, wherever a blank and a parenthesis or a closing parenthesis follow, and
    does not hold the mark `($cond)` or `($cond`. -/
structure Condition (m : Mode) (a : Str) (x : Expr) : Prop where
  beforeBlank : ∀ r, Reads m (.form x) (a ++ ' ' :: '(' :: r) ('(' :: r)
  beforeClose : ∀ r, Reads m (.form x) (a ++ ')' :: r) (')' :: r)
  begins : ∃ c t, a = c :: t ∧ ¬ GapChar c ∧ c ≠ '?' ∧ c ≠ '\\'
  unmarked : ¬ ['(', '$', 'c', 'o', 'n', 'd', ')'] <:+: a ++ [')']

/-- The text of the macro `def-if`, `lib/stdlib.yu:73-74`: `($set ($name) 1 ? ($cond) | 0)`, line end, `($if ($name) [($unq "#define") ($name)])`. -/
def defIfBody : Str :=
  ['(', '$', 's', 'e', 't', ' ', '(', '$', 'n', 'a', 'm', 'e', ')', ' ', '1', ' ', '?', ' ', '(', '$', 'c', 'o', 'n', 'd', ')', ' ', '|', ' ', '0', ')', '\n',
   '(', '$', 'i', 'f', ' ', '(', '$', 'n', 'a', 'm', 'e', ')', ' ', '[', '(', '$', 'u', 'n', 'q', ' ', '"', '#', 'd', 'e', 'f', 'i', 'n', 'e', '"', ')', ' ',
   '(', '$', 'n', 'a', 'm', 'e', ')', ']', ')']

/-- The text `a` is a way to write the expression `x` between `?` and `|`, and does not hold the marks `($cond)` and `($name)`. -/
structure Guard (m : Mode) (a : Str) (x : Expr) : Prop where
  before : ∀ r, Reads m (.former x) (a ++ ' ' :: '|' :: r) (' ' :: '|' :: r)
  noCond : ¬ ['(', '$', 'c', 'o', 'n', 'd', ')'] <:+: a
  noName : ¬ ['(', '$', 'n', 'a', 'm', 'e', ')'] <:+: a

/-- The indent of a line. -/
def marginOf : Indent → Str
  | .str i => i
  | _ => []

/-- What is written in front of the line: if the call stands at the beginning of a line and white space behind
    definitions is removed, nothing (an indent is blank); otherwise a line end and the indent of the line. -/
def lineBreak (cfg : Config) (ind : Indent) : Str :=
  if cfg.trimAppIndent ∧ atLineStart ind then lstrip (marginOf ind) else '\n' :: marginOf ind

end Yupp.Spec
