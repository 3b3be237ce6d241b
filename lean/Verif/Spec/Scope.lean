import Verif.Spec.Eval
/-!
# Scopes and modules, for C28 and C30
-/

namespace Yupp

namespace Spec

/-- The names a chain of scopes holds. -/
def names (env : Scopes) : List (List Str) := env.map (fun f => f.map (·.1))

/-- The state with a new innermost scope. -/
def push (s : ESt) (f : Frame) : ESt := { s with env := f :: s.env }

/-- The state without its innermost scope. -/
def pop (s : ESt) : ESt := { s with env := s.env.tail }

/-- The state whose innermost scope is replaced. -/
def rebind (s : ESt) (f : Frame) : ESt := { s with env := f :: s.env.tail }

/-- The names on the left side of an assignment. -/
def lvalNames : LVal → List Str
  | .one a => [a.txt]
  | .many as => as.map (·.txt)

/-- The items of a list for several names; nothing for the names past the end. -/
def distribute : List Str → List Node → List (Str × Node)
  | [], _ => []
  | a :: as, [] => (a, .none) :: distribute as []
  | a :: as, v :: vs => (a, v) :: distribute as vs

/-- What the names on the left side stand for after an assignment of `v`. -/
def bindings : LVal → Node → List (Str × Node)
  | .one a, v => [(a.txt, v)]
  | .many as, .list vs => distribute (as.map (·.txt)) vs
  | .many as, .t vs _ => distribute (as.map (·.txt)) vs
  | .many as, v => as.map (fun a => (a.txt, v))

/-- A text, the final form of a text block. -/
inductive IsText : Node → Prop
  | pstr (s) : IsText (.pstr s)
  | result (r) : IsText (.result r)

/-- Marks of the beginning and the end of an imported module are paired. -/
inductive Paired : List Node → Prop
  | nil : Paired []
  | node {x xs} : x ≠ .importBegin → x ≠ .importEnd → Paired xs → Paired (x :: xs)
  | module {xs ys} : Paired xs → Paired ys → Paired (.importBegin :: (xs ++ .importEnd :: ys))

/-- A plain fragment of text. -/
def IsPlain (x : Node) : Prop := ∃ s i t, x = .plain s i t

end Spec

end Yupp
