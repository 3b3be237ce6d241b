import Verif.Base.PyStr
/-!
# Balanced parentheses

Specification for C21. Nothing of the model is used.
-/

namespace Yupp

/-- In the text every opening parenthesis has its closing one. -/
inductive Balanced : Str → Prop where
  | nil : Balanced []
  | char {c : Char} {s : Str} : c ≠ '(' → c ≠ ')' → Balanced s → Balanced (c :: s)
  | paren {a b : Str} : Balanced a → Balanced b → Balanced ('(' :: (a ++ ')' :: b))

/-- The admissible characters: TAB, LF, CR and U+0020..U+00FF. -/
def Admissible (c : Char) : Prop := c = '\t' ∨ c = '\n' ∨ c = '\r' ∨ (' ' ≤ c ∧ c ≤ 'ÿ')

/-- `body` is what precedes the first closing parenthesis of `t` that is not matched by an opening
    one, `rest` what follows it. -/
def Closed (t body rest : Str) : Prop := t = body ++ ')' :: rest ∧ Balanced body

end Yupp
