import Verif.Model.Engine
/-!
# What is shown of a program that is not reduced to text (`pp/yugen.py:155-190, 3790-3819`)
-/

namespace Yupp

/-- The brackets that have a partner: position, for an opening one the position of its partner, and the depth. First loop of
    `_ast_pretty`, `pp/yugen.py:163-176`; the dictionary `p` is the stack `opened` of the positions of open brackets, innermost
    first (`p[ d ]` for `d < depth`). -/
def scanBrackets (i : Nat) (opened : List Nat) : Str → List (Nat × Option Nat × Nat)
  | [] => []
  | c :: t =>
    if c = ')' || c = ']' || c = '}' then
      match opened with
      | [] => scanBrackets (i + 1) [] t
      | b :: rest => (b, some i, rest.length) :: (i, none, rest.length) :: scanBrackets (i + 1) rest t
    else if c = '(' || c = '[' || c = '{' then scanBrackets (i + 1) (i :: opened) t
    else scanBrackets (i + 1) opened t

/-- Inserting into a sorted table. `sorted( parenth )`, `pp/yugen.py:179`. -/
def insertKey (x : Nat × α) : List (Nat × α) → List (Nat × α)
  | [] => [x]
  | y :: ys => if x.1 ≤ y.1 then x :: y :: ys else y :: insertKey x ys

/-- `sorted( parenth )`, `pp/yugen.py:179`. -/
def sortKeys (xs : List (Nat × α)) : List (Nat × α) := xs.foldr insertKey []

/-- `INDENT * depth`, `pp/yugen.py:160`. -/
def prettyIndent (depth : Nat) : Str := List.replicate (2 * depth) ' '

/-- `st[ i : j ]`. -/
def sliceStr (st : Str) (i j : Nat) : Str := (st.take j).drop i

/-- Second loop of `_ast_pretty`, `pp/yugen.py:177-190`. `st[ b ]` is the slice of length one (`b` is a position of the text). -/
def prettyLoop (st : Str) : List (Nat × Option Nat × Nat) → Nat → Str
  | [], i => st.drop i
  | (b, e, depth) :: r, i =>
    if i ≤ b then
      match e with
      | none =>
        if i = b then prettyIndent depth ++ sliceStr st i (b + 1) ++ ['\n'] ++ prettyLoop st r (b + 1)
        else prettyIndent (depth + 1) ++ sliceStr st i b ++ ['\n'] ++ prettyIndent depth ++ sliceStr st b (b + 1) ++ ['\n'] ++
          prettyLoop st r (b + 1)
      | some e =>
        let b := if e - b + 2 * depth < 100 then e else b
        prettyIndent depth ++ sliceStr st i (b + 1) ++ ['\n'] ++ prettyLoop st r (b + 1)
    else prettyLoop st r i

/-- `_ast_pretty`, `pp/yugen.py:155-190`. -/
def astPretty (st : Str) : Str := prettyLoop st (sortKeys (scanBrackets 0 [] st)) 0

mutual
/-- `make_ast_readable`, `pp/yugen.py:3790-3819`. -/
def readable (cfg : Config) (x : TextExt) : Node → Str
  | .setClosure form _ => readable cfg x form
  | .trim a indent => trim cfg indent (readable cfg x a)
  | .list xs => readables cfg x xs
  | .t xs _ => readables cfg x xs
  | .lazy a => readable cfg x a
  | .plain s _ tr => getTrimmed cfg s tr
  | .atom s => s.txt
  | .remark s => s.txt
  | .str s => s.txt
  | .pstr s => s
  | .result r => r.txt
  | .int n => strOf x (.int n)
  | .bool b => strOf x (.bool b)
  | .float f => strOf x (.float f)
  | n => astPretty (x.repr n)
/-- `''.join( map( make_ast_readable, node ))`, `pp/yugen.py:3805`. -/
def readables (cfg : Config) (x : TextExt) : List Node → Str
  | [] => []
  | n :: ns => readable cfg x n ++ readables cfg x ns
end

/-- The translation with `make_ast_readable` as it is, `pp/yup.py:335-339`. -/
def runShown (e : EEnv) (n : Nat) (input : Option Str) (seen : List Node) (text : Str) : PRes Run :=
  runAt e (readable e.cfg { repr := e.repr, locs := fun _ => [] }) n input seen text

end Yupp
