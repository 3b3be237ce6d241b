import Verif.Model.Stdlib
import Verif.Model.Engine
import Verif.Model.Builtin
import Verif.Model.Final
/-!
# The project's own test records (`test_yup.py`)

A check of the model, not of the properties: the records of `/repo/test_yup.py` (source, expected tree, expected
text) are run through the model. Generated by `tools/testkit/gen.py`.
-/

namespace Yupp.Testkit

/-- Two lists with elements alike. -/
def alike (f : α → α → Bool) : List α → List α → Bool
  | [], [] => true
  | x :: xs, y :: ys => f x y && alike f xs ys
  | _, _ => false

/-- Names alike, wherever they are. -/
def txts (a b : Src) : Bool := a.txt == b.txt

/-- Left values alike. -/
def lvals : LVal → LVal → Bool
  | .one a, .one b => txts a b
  | .many a, .many b => alike txts a b
  | _, _ => false

/-- Trees alike as `==` of the project compares them: places, indents and the mark of a text to trim do not matter. -/
def same : Nat → Node → Node → Bool
  | 0, _, _ => false
  | n + 1, x, y =>
    match x, y with
    | .none, .none => true
    | .int a, .int b => a == b
    | .float a, .float b => a.str == b.str
    | .list a, .list b => alike (same n) a b
    | .text a, .text b => alike (same n) a b
    | .var l r a, .var l' r' a' => l == l' && alike txts r r' && txts a a'
    | .apply f as ns _, .apply f' as' ns' _ =>
      same n f f' && alike (same n) as as' && alike (fun p q => txts p.1 q.1 && same n p.2 q.2) ns ns'
    | .set l a, .set l' a' => lvals l l' && same n a a'
    | .letn l a f, .letn l' a' f' => lvals l l' && same n a a' && same n f f'
    | .macro a ps t, .macro a' ps' t' => txts a a' && alike txts ps ps' && txts t t'
    | .emit l r a x, .emit l' r' a' x' => l == l' && alike txts r r' && txts a a' && same n x x'
    | .lambda bs f, .lambda bs' f' =>
      alike (fun p q => alike txts p.1 q.1 && txts p.2.1 q.2.1 && (match p.2.2, q.2.2 with
        | none, none => true
        | some d, some d' => same n d d'
        | _, _ => false)) bs bs' && same n f f'
    | .lambdaVar l r a f, .lambdaVar l' r' a' f' => l == l' && alike txts r r' && txts a a' && same n f f'
    | .cond a b c, .cond a' b' c' => same n a a' && same n b b' && same n c c'
    | .infix a _, .infix b _ => same n a b
    | .eval a _ _, .eval b _ _ => same n a b
    | .embed a, .embed b => same n a b
    | .comment, .comment => true
    | .importBegin, .importBegin => true
    | .importEnd, .importEnd => true
    | x, y => match x.text?, y.text? with
      | some a, some b => a == b
      | _, _ => false

/-- The text of `lib/stdlib.yu`. -/
def stdlibText : Str := joinStr ['\n'] (stdlibLines ++ [[]])

/-- The surroundings of the tests: the library can be found; the script `eg/lib.py` (not in the repository) as record 8
    of the second list has it. `test_yup.py:740-830`. -/
def pe : PEnv where
  inputFile := lit "<null>"
  unq := fun s => (s.drop 1).dropLast
  readLib := fun f => if f = lit "stdlib.yu" then some (f, stdlibText) else none
  loadScript := fun _ => true
  evalImport := fun _ _ => some (lit "($set uprevst \\a.($upper ($reversed_string a)))")

/-- The source parses to the tree. `test_yup.py:772-783`. -/
def parses (src : Str) (tree : Node) : Bool :=
  match (P pe 400).parse pe.inputFile (PSt.start pe none src) with
  | .ok (ds, _) => same 400 (.text ds) tree
  | _ => false

/-- The surroundings of the evaluator, with the built-ins these records use. `pp/yugen.py:2701-2785`. -/
def env : EEnv where
  pe := pe
  builtin := fun _ f => if f ∈ [lit "add", lit "sub", lit "mul", lit "eq", lit "range", lit "len", lit "list", lit "lower", lit "q"] then some .fn else none
  call := fun _ f as seen => builtinCall {} f as seen

/-- The text that the source comes to, as the project's test takes it. `test_yup.py:808-826`. -/
def output (n : Nat) (src : Str) : Option Str :=
  match runAt env (fun _ => []) n none [] src with
  | .ok r => match r.raw with
    | .str t => some (replaceSteady (reduceEmptiness {} t))
    | _ => none
  | _ => none

end Yupp.Testkit
