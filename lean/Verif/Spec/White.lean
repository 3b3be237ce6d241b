import Verif.Model.Plain
/-!
# Texts up to white space

Specification for C11.
-/

namespace Yupp.Spec

/-- What is left of a text when its white space (as `str.isspace` has it, line breaks included) is taken out. -/
def ink (s : Str) : Str := s.filter (fun c => !isSpace c)

mutual
/-- The indents of the applications in a tree are blanks (the parser finds no others). -/
def BlankIndents : Node → Prop
  | .trim a indent => (∀ c ∈ indent, isSpace c = true) ∧ BlankIndents a
  | .list xs => BlankIndentss xs
  | .t xs _ => BlankIndentss xs
  | .lazy a => BlankIndents a
  | _ => True
/-- … in a list of trees. -/
def BlankIndentss : List Node → Prop
  | [] => True
  | n :: ns => BlankIndents n ∧ BlankIndentss ns
end

end Yupp.Spec
