import Verif.Base.PyStr
/-!
# Names and gaps

Specification of the lexical units. Nothing of the model is used.
-/

namespace Yupp

/-- A character a name may start with. -/
def NameStart (c : Char) : Prop := ('a' ≤ c ∧ c ≤ 'z') ∨ ('A' ≤ c ∧ c ≤ 'Z') ∨ c = '_'

/-- A character of a name. -/
def NameChar (c : Char) : Prop := NameStart c ∨ ('0' ≤ c ∧ c ≤ '9') ∨ c = '-'

/-- A name: a letter or `_`, then letters, `_`, digits and `-`. -/
def IsName (a : Str) : Prop := ∃ c t, a = c :: t ∧ NameStart c ∧ ∀ x ∈ t, NameChar x

/-- A character of a gap. -/
def GapChar (c : Char) : Prop := c = ' ' ∨ c = '\t' ∨ c = '\n' ∨ c = '\r'

/-- White space between the parts of a form, possibly none. -/
def IsGap (g : Str) : Prop := ∀ x ∈ g, GapChar x

/-- The text does not start with white space. -/
def NoGap (r : Str) : Prop := ∀ c, r.head? = some c → ¬ GapChar c

/-- The text does not continue a name. -/
def NoName (r : Str) : Prop := ∀ c, r.head? = some c → ¬ NameChar c

/-- Names separated by gaps. -/
inductive Names : List Str → Str → Prop where
  | nil : Names [] []
  | cons {a g t : Str} {as : List Str} : IsName a → IsGap g → Names as t → (t = [] ∨ g ≠ []) →
      Names (a :: as) (a ++ (g ++ t))

end Yupp
