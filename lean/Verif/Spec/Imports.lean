import Verif.Model.Lex
/-!
# Which libraries a text imports

Specification for C17, C22: a look at the text only, not at the parser.
-/

namespace Yupp

/-- Wherever `($import` stands in the text, blanks and line ends and then a name follow, and the file
    name made of it is in `libs`. -/
def ImportsOnly (libs : List Str) (txt : Str) : Prop :=
  ∀ k, ['(', '$', 'i', 'm', 'p', 'o', 'r', 't'] <+: txt.drop k →
    let rest := (txt.drop (k + 8)).dropWhile isGap
    0 < atomLen rest ∧ rest.take (atomLen rest) ++ lit ".yu" ∈ libs

end Yupp
