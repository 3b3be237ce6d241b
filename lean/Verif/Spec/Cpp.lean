import Verif.Spec.Undef
/-!
# The C preprocessor, for C109

As far as a header of the library needs it: conditionals, definitions, the end of definitions. A text is a sequence of lines, a
directive is a line that begins with its name. There is no `#elif` and no `#include`, comments and continued lines are lines like
others.
-/

namespace Yupp.Spec

/-- The lines of a text. -/
def cLines : Str → List Str
  | [] => [[]]
  | c :: t => if c = '\n' then [] :: cLines t else match cLines t with
    | [] => [[c]]
    | l :: ls => (c :: l) :: ls

/-- The name of the directive: up to the first space. -/
def dirName (l : Str) : Str := l.takeWhile (· ≠ ' ')

/-- The identifier behind the name of the directive. -/
def dirWord (l : Str) : Str := ((l.dropWhile (· ≠ ' ')).dropWhile (· = ' ')).takeWhile (fun c => decide (CChar c))

/-- The state: the macros that are defined, and for each open conditional, the innermost first, whether its present branch is taken. -/
structure Cpp where
  defs : List Str
  taken : List Bool

/-- All open conditionals are in a branch that is taken. -/
def Cpp.active (s : Cpp) : Bool := s.taken.all id

/-- One line. `cond`: whether the condition of a line `#if ..` holds. -/
def cppLine (cond : Str → Bool) (s : Cpp) (l : Str) : Cpp :=
  if dirName l = lit "#ifdef" then { s with taken := decide (dirWord l ∈ s.defs) :: s.taken }
  else if dirName l = lit "#ifndef" then { s with taken := decide (dirWord l ∉ s.defs) :: s.taken }
  else if dirName l = lit "#if" then { s with taken := cond l :: s.taken }
  else if dirName l = lit "#else" then
    match s.taken with
    | [] => s
    | b :: bs => { s with taken := (!b) :: bs }
  else if dirName l = lit "#endif" then { s with taken := s.taken.tail }
  else if dirName l = lit "#define" then if s.active then { s with defs := dirWord l :: s.defs } else s
  else if dirName l = lit "#undef" then if s.active then { s with defs := s.defs.filter (· ≠ dirWord l) } else s
  else s

/-- The state behind a text. -/
def cpp (cond : Str → Bool) (s : Cpp) (t : Str) : Cpp := (cLines t).foldl (cppLine cond) s

/-- What stands in a header: whole lines; where it is skipped nothing of it has an effect, and where it is not its conditionals are
    closed at its end and the macro `g` stays defined. -/
structure HeaderBody (cond : Str → Bool) (g b : Str) : Prop where
  lines : b = [] ∨ ∃ a, b = a ++ ['\n']
  skipped : ∀ s : Cpp, s.active = false → cpp cond s b = s
  closed : ∀ s : Cpp, s.active = true → (cpp cond s b).taken = s.taken
  guard : ∀ s : Cpp, s.active = true → g ∈ s.defs → g ∈ (cpp cond s b).defs

/-- The same to the preprocessor, whatever its state and whatever follows. -/
def SameToCpp (t t' : Str) : Prop := ∀ cond s r, cpp cond s (t ++ r) = cpp cond s (t' ++ r)

/-- A header of `lib/h.yu` with the name `n`, as `($h-begin)` and `($h-end)` write it. -/
def wholeHeader (n b : Str) : Str := headerBegin n ++ (b ++ headerEnd n)

/-- A header of `lib/h-light.yu`. -/
def wholeLight (n b : Str) : Str := lightBegin n ++ (b ++ lightEnd n)

end Yupp.Spec
