import Verif.Spec.Fill
import Verif.Spec.Print
/-!
# The macros of `lib/h.yu`, for C103
-/

namespace Yupp.Spec

/-- The pieces of a template: plain text, literals and names, written `($name)`. -/
inductive Slot where
  | plain (w : Str)
  | quoted (w : Str)
  | name (a : Str)

/-- The template, as it is written. -/
def written : List Slot → Str
  | [] => []
  | .plain w :: ps => w ++ written ps
  | .quoted w :: ps => '"' :: (w ++ '"' :: written ps)
  | .name a :: ps => '(' :: '$' :: (a ++ ')' :: written ps)

/-- The template with `val` in place of the names. -/
def completed (val : Str → Str) : List Slot → Str
  | [] => []
  | .plain w :: ps => w ++ completed val ps
  | .quoted w :: ps => '"' :: (w ++ '"' :: completed val ps)
  | .name a :: ps => val a ++ completed val ps

/-- The template with the texts of the table `ρ` in place of its names; the other names stay. -/
def putArgs (ρ : List (Str × Str)) : List Slot → Str
  | [] => []
  | .plain w :: ps => w ++ putArgs ρ ps
  | .quoted w :: ps => '"' :: (w ++ '"' :: putArgs ρ ps)
  | .name a :: ps =>
    match ρ.find? (fun p => decide (p.1 = a)) with
    | some p => p.2 ++ putArgs ρ ps
    | none => '(' :: '$' :: (a ++ ')' :: putArgs ρ ps)

/-- A name that may be written directly behind `($`: it does not begin with a keyword. -/
structure FreeName (a : Str) : Prop where
  name : Yupp.IsName a
  keyword : ∀ r, NoKeyword (a ++ r)
  directive : ∀ r, NoDirective ('(' :: '$' :: (a ++ r))

/-- A template: the plain texts are plain, the names may be written, and the literals are those of C, without backslashes and
    parentheses. -/
def SlotsOk (m : Mode) : List Slot → Prop
  | [] => True
  | .plain w :: ps => PlainOk m w ∧ (∀ u qs, ps ≠ .plain u :: qs) ∧ SlotsOk m ps
  | .quoted w :: ps => m.python = false ∧ (∀ c ∈ w, c ≠ '"' ∧ c ≠ '\\' ∧ c ≠ '(') ∧ SlotsOk m ps
  | .name a :: ps => FreeName a ∧ SlotsOk m ps

/-- The name of the header. -/
def hName : Str := ['h', '-', 'n', 'a', 'm', 'e']

/-- The text of the macro `h-end`, `lib/h.yu:103-113`. -/
def hEndText : Str :=
  lit "\n#undef ($h-name)_EXT\n#undef ($h-name)_INIT\n#undef ($h-name)_EXT_C\n#undef ($h-name)_VAR\n#undef ($h-name)_VAR_INIT\n" ++
  lit "#undef ($h-name)_VAR_C\n#undef ($h-name)_VAR_C_INIT\n#undef ($h-name)_INL\n#endif\n"

/-- The macros of the header with the name `n`. -/
def hMacros : List Str :=
  [lit "_EXT", lit "_INIT", lit "_EXT_C", lit "_VAR", lit "_VAR_INIT", lit "_VAR_C", lit "_VAR_C_INIT", lit "_INL"]

/-- The end of the header with the name `n`. -/
def headerEnd (n : Str) : Str := lit "\n" ++ hMacros.flatMap (fun x => lit "#undef " ++ n ++ x ++ lit "\n") ++ lit "#endif\n"

/-- `lib/h.yu:103-113`. -/
def hEndLines : Str := lit "($macro h-end ()" ++ hEndText ++ lit ")"

/-- `lib/h.yu:139-147`. -/
def externLine : Str := lit "($macro extern ()($h-name)_EXT)"
def externCLine : Str := lit "($macro extern-c ()($h-name)_EXT_C)"
def inlineLine : Str := lit "($macro inline ()($h-name)_INL)"
def varLine : Str := lit "($macro var ( dec )($h-name)_VAR( ($dec) );)"
def varCLine : Str := lit "($macro var-c ( dec )($h-name)_VAR_C( ($dec) );)"

end Yupp.Spec
