import Verif.Spec.HLight
/-!
# The directives of a C text, for C108
-/

namespace Yupp.Spec

/-- A character of a C identifier. -/
def CChar (c : Char) : Prop := ('a' ≤ c ∧ c ≤ 'z') ∨ ('A' ≤ c ∧ c ≤ 'Z') ∨ ('0' ≤ c ∧ c ≤ '9') ∨ c = '_'

instance (c : Char) : Decidable (CChar c) := inferInstanceAs (Decidable (_ ∨ _))

/-- The beginning of a line is behind the text `a`. -/
def LineBegin (a : Str) : Prop := a = [] ∨ ∃ b, a = b ++ ['\n']

/-- A line of the text `t` begins with the directive `d`, and the identifier `x` follows. -/
def Directive (d t x : Str) : Prop :=
  (∀ c ∈ x, CChar c) ∧ ∃ a b, t = a ++ (d ++ (x ++ b)) ∧ LineBegin a ∧ ∀ c, b.head? = some c → ¬ CChar c

/-- The text `t` defines the macro `x`. -/
def MacroDefined (t x : Str) : Prop := Directive (lit "#define ") t x

/-- The text `t` undefines the macro `x`. -/
def MacroUndefined (t x : Str) : Prop := Directive (lit "#undef ") t x

end Yupp.Spec
