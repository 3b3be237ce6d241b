import Verif.Base.PyStr
/-!
# Path names (`posixpath`)

Model of the functions of `os.path` the code uses, for POSIX. Part of the trusted base.
-/

namespace Yupp

/-- Splits at the last occurrence of `c`: the part before it and the part after it. -/
def splitLast (c : Char) : Str → Option (Str × Str)
  | [] => none
  | x :: t =>
    match splitLast c t with
    | some (a, b) => some (x :: a, b)
    | none => if x = c then some ([], t) else none

/-- `os.path.basename(p)`: what follows the last slash. -/
def basename (p : Str) : Str :=
  match splitLast '/' p with
  | some (_, b) => b
  | none => p

/-- The rest of the path: up to the last slash, inclusive. -/
def dirPart (p : Str) : Str :=
  match splitLast '/' p with
  | some (a, _) => a ++ ['/']
  | none => []

/-- `os.path.splitext` of a name without slashes: split at the last dot, unless only dots precede it. -/
def splitextBase (b : Str) : Str × Str :=
  match splitLast '.' b with
  | some (s, e) => if s.all (· == '.') then (b, []) else (s, '.' :: e)
  | none => (b, [])

/-- `os.path.splitext(p)`. -/
def splitext (p : Str) : Str × Str :=
  (dirPart p ++ (splitextBase (basename p)).1, (splitextBase (basename p)).2)

/-- `os.path.join(a, b)`. -/
def pathJoin (a b : Str) : Str :=
  if startsWith b ['/'] then b
  else if a.isEmpty || a.getLast? == some '/' then a ++ b
  else a ++ ['/'] ++ b

end Yupp
