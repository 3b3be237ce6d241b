import Verif.Spec.Syntax
/-!
# Specification of C77: string literals of Python

`LiteralPrefix`, `QuoteMark`, `Inside`, `InsideLines`, `InsideLong` are those of `Spec/Syntax`.
-/

namespace Yupp

/-- A string literal `l` of the language Python (without the bytes and format literals of Python 3); the text `s` follows
    it. A short literal may be continued over lines with a backslash; a long one is in triple quotes. -/
inductive PyLiteral : Str → Str → Prop where
  | short {p : Str} {q : Char} {b s : Str} : LiteralPrefix p → QuoteMark q → InsideLines q b →
      b ≠ [] ∨ s.head? ≠ some q → PyLiteral (p ++ q :: (b ++ [q])) s
  | long {p : Str} {q : Char} {b s : Str} : LiteralPrefix p → QuoteMark q → InsideLong q b →
      PyLiteral (p ++ q :: q :: q :: (b ++ [q, q, q])) s

/-- A literal in double quotes that is continued on the next line and has an apostrophe in its first line `a`. -/
def ApostropheContinued (l : Str) : Prop :=
  ∃ p a t, LiteralPrefix p ∧ Inside '"' a ∧ '\'' ∈ a ∧ l = p ++ '"' :: (a ++ '\\' :: '\n' :: t)

end Yupp
