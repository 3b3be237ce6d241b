import Verif.Spec.StdMacro
import Verif.Spec.Lexeme
import Verif.Spec.Syntax
/-!
# `$dict` of the library, for C87
-/

namespace Yupp.Spec

/-- The text of the macro `dict`, `lib/stdlib.yu:13-19`. -/
def dictBody : Str :=
  ['\n', '\t', '(', '$', 's', 'e', 't', ' ', 'c', 'o', 'l', 's', '-', '(', '$', 'i', 'd', ')', ' ', '(', '$', 'r', 'a', 'n', 'g', 'e', ' ',
   '(', '$', 'l', 'e', 'n', ' ', '(', '(', '$', 'c', 'o', 'l', 's', ')', ')', ' ', ')', ')', ')',
   '\n', '\t', '(', '$', 's', 'e', 't', ' ', 'e', 'a', 'c', 'h', '-', '(', '$', 'i', 'd', ')', ' ', '(', '$', 'r', 'a', 'n', 'g', 'e', ' ',
   '(', '$', 'l', 'e', 'n', ' ', '(', '(', '$', 'b', 'o', 'd', 'y', ')', ')', ' ', ')', ')', ')',
   '\n', '\t', '(', '$', 's', 'e', 't', ' ', '(', '(', '$', 'c', 'o', 'l', 's', ')', ')',
   '\n', '\t', '\t', '(', '$', 'c', 'o', 'l', 's', '-', '(', '$', 'i', 'd', ')', ' ', '\\', '_', '_', 'i', '.', '(', '$', ' ',
   '(', '(', '$', 'b', 'o', 'd', 'y', ')', ')', ' ', '\\', '_', '_', 'v', 'a', 'r', '.', '(', '$', '_', '_', 'i', ' ', '_', '_', 'v', 'a', 'r', ')', ')', ')',
   '\n', '\t', ')', '\n']

/-- A name that stands for itself: nothing is bound to it, it is not built in and holds no hyphen. -/
structure Bare (e : EEnv) (s : ESt) (a : Str) : Prop where
  unbound : Scopes.lookup s.env a = none
  notBuiltin : e.builtin s.p.scripts a = none
  notSpecial : a ∉ [lit "__PASSAGE__", lit "isatom", lit "lazy", lit "skip", lit "reduce", lit "repr"]
  noHyphen : '-' ∉ a

/-- A name that stands for itself or has a value. -/
def Settled (e : EEnv) (s : ESt) (a : Str) : Prop := Bare e s a ∨ ∃ v, Scopes.lookup s.env a = some v ∧ Value v ∧ v ≠ .none

mutual
/-- What a cell of a table stands for, its names standing for themselves: a name, a number, a text, a list of such cells. -/
inductive TableCell : Expr → Node → Prop where
  | name (a : Src) : TableCell (.name false [] a.txt) (.atom a)
  | int (n : Int) : TableCell (.int n) (.int n)
  | str (t : Src) : TableCell (.str t.txt) (.str t)
  | list {xs : ExprArgs} {vs : List Node} : TableCells xs vs → TableCell (.list xs) (.list vs)
/-- TableCells side by side. -/
inductive TableCells : ExprArgs → List Node → Prop where
  | nil : TableCells .nil []
  | cons {x : Expr} {xs : ExprArgs} {v : Node} {vs : List Node} : TableCell x v → TableCells xs vs → TableCells (.pos x xs) (v :: vs)
end

mutual
/-- The names in a cell. -/
def cellNames : Expr → List Str
  | .name _ _ a => [a]
  | .list xs => cellsNames xs
  | _ => []
/-- The names in cells. -/
def cellsNames : ExprArgs → List Str
  | .nil => []
  | .pos x xs => cellNames x ++ cellsNames xs
  | .embed x xs => cellNames x ++ cellsNames xs
end

/-- Lists below each other. -/
inductive Rows : ExprArgs → List (List Node) → Prop where
  | nil : Rows .nil []
  | cons {xs ys : ExprArgs} {row : List Node} {rows : List (List Node)} : TableCells xs row → Rows ys rows →
      Rows (.pos (.list xs) ys) (row :: rows)

/-- The numbers 0, 1, .. below `n`. -/
def numbersBelow (n : Nat) : Node := .list ((List.range n).map fun k : Nat => .int k)

/-- The tableColumn `j` of a table: of each row its cell `j`. A row that is too short adds nothing. -/
def tableColumn (rows : List (List Node)) (j : Nat) : Node := .list (rows.filterMap (·[j]?))

/-- The tableColumns under their names. -/
def tableColumns (as : List Str) (rows : List (List Node)) : List (Str × Node) :=
  as.zipIdx.map fun (a, j) => (a, tableColumn rows j)

/-- What a call leaves in the text: the line ends and tabs between its definitions. With `trimAppIndent`, white space that
    follows a definition is removed. -/
def dictSpace (cfg : Config) (ind : Indent) : Str :=
  let line := '\n' :: (marginOf ind ++ ['\t'])
  line ++ (fragment cfg line true ++ (fragment cfg line true ++ fragment cfg ('\n' :: marginOf ind) true))

end Yupp.Spec
