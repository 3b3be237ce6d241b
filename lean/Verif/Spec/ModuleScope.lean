import Verif.Spec.Generate
import Verif.Spec.Modules
import Verif.Spec.Effects
import Verif.Spec.StdDefine
import Verif.Spec.Stdlib
import Verif.Spec.StdMacro
import Verif.Spec.Template
import Verif.Spec.Dict
import Verif.Model.Stdlib
/-!
# What a module of definitions brings, for C100

Such a module is plain text, comments and definitions. They are dealt with from left to right; each definition opens a
scope for its names, which ends with the text the module was imported into.
-/

namespace Yupp
open Spec (fragment indentBehind atLineStart push pop Yield Avoids emits lvalNames Choice Binary DefineFn EndOfLine)

/-- `Enters R cfg ind cut ys s ind' cut' t n s'`: the definitions `ys` leave the text `t`, `n` new scopes and the state
    `s'`. `R x s v s'` tells what a definition is worth; `ind` and `cut` are those of `Generates`. -/
inductive Enters (R : Node → ESt → Node → ESt → Prop) (cfg : Config) :
    Indent → Bool → List Node → ESt → Indent → Bool → Str → Nat → ESt → Prop where
  | nil {ind cut s} : Enters R cfg ind cut [] s ind cut [] 0 s
  | plain {ind cut w i c ys s ind' cut' t n s'} : Enters R cfg (indentBehind ind i) false ys s ind' cut' t n s' →
      Enters R cfg ind cut (.plain w i c :: ys) s ind' cut' (fragment cfg w.txt (cut || c) ++ t) n s'
  | comment {ind cut ys s ind' cut' t n s'} : Enters R cfg ind (atLineStart ind) ys s ind' cut' t n s' →
      Enters R cfg ind cut (.comment :: ys) s ind' cut' t n s'
  | mark {ind cut y ys s ind' cut' t n s'} : y = .importBegin ∨ y = .importEnd → Enters R cfg ind false ys s ind' cut' t n s' →
      Enters R cfg ind cut (y :: ys) s ind' cut' t n s'
  | names {ind cut y f ys s s1 ind' cut' t n s'} : DefPiece y → R y s (.env f) s1 →
      Enters R cfg ind (atLineStart ind) ys (push s1 f) ind' cut' t n s' → Enters R cfg ind cut (y :: ys) s ind' cut' t (n + 1) s'
  | output {ind cut y ys s s1 ind' cut' t n s'} : DefPiece y → R y s .none s1 → Enters R cfg ind false ys s1 ind' cut' t n s' →
      Enters R cfg ind cut (y :: ys) s ind' cut' t n s'

/-- The outcome when `n` scopes are left. -/
def leaveAll : Nat → Yield → Yield
  | 0, o => o
  | n + 1, o => (leaveAll n o).leave

/-- The piece defines the name. -/
inductive Binds : Node → Str → Prop where
  | set {l x a} : (∀ b, l = .one b → b.txt ≠ lit "__OUTPUT_FILE__") → a ∈ lvalNames l → Binds (.set l x) a
  | macro_ {m ps b} : Binds (.macro m ps b) m.txt

/-- The text of `lib/stdlib.yu`: its lines, each with its end. -/
def stdText : Str := (stdlibLines.map (· ++ ['\n'])).flatten

/-- The key of its file. -/
def stdKey : Str := ['s', 't', 'd', 'l', 'i', 'b', '.', 'y', 'u']

/-- The names defined in the library, in their order. -/
def stdNames : List Str :=
  [lit "dict", lit "if", lit "unless", lit "unfold", lit "do", lit "foo", lit "__EOL__", lit "define", lit "def", lit "undef",
   lit "def-if", lit "skip-if", lit "skip-if-not", lit "BIN", lit "BB", lit "def-fn-argv", lit "INT_MAX", lit "INT_MIN"]

/-- The name a piece defines, if it is plain text, a comment or the definition of one name. -/
def ownNames : Node → Option (List Str)
  | .set (.one a) _ => some [a.txt]
  | .macro a _ _ => some [a.txt]
  | .plain .. | .comment => some []
  | _ => none

/-- The names the pieces define, in their order. -/
def singleNames : List Node → Option (List Str)
  | [] => some []
  | y :: ys => match ownNames y, singleNames ys with
    | some a, some b => some (a ++ b)
    | _, _ => none

/-- A macro by its name, its parameters and its text. -/
inductive MacroOf (a : Str) (ps : List Str) (b : Str) : Node → Prop where
  | mk {m : Src} {qs : List Src} {t : Src} : m.txt = a → qs.map (·.txt) = ps → t.txt = b → MacroOf a ps b (.macro m qs t)

/-- The macros of the library, with their parameters and their texts. -/
def stdMacros : List (Str × List Str × Str) :=
  [(lit "dict", [lit "id", lit "cols", lit "body"], Spec.dictBody), (lit "do", [lit "body"], Spec.doBody), (lit "foo", [lit "body"], Spec.fooBody),
   (lit "def", [lit "name"], Spec.defBody), (lit "undef", [lit "name"], Spec.undefBody), (lit "def-if", [lit "cond", lit "name"], Spec.defIfBody),
   (lit "skip-if", [lit "cond"], Spec.skipIfBody), (lit "skip-if-not", [lit "cond"], Spec.skipIfNotBody)]

/-- The pieces of the library: nothing but plain text, comments and the definitions of these names, among them those the
    theorems about the library speak of. -/
structure StdPieces (ys : List Node) : Prop where
  defs : ∀ y ∈ ys, DefPiece y
  names : singleNames ys = some stdNames
  choice : ∃ d ∈ ys, Choice (lit "then") (lit "else") (lit "if") d
  unless' : ∃ d ∈ ys, Choice (lit "else") (lit "then") (lit "unless") d
  binary : ∃ d ∈ ys, Binary d
  define : ∃ d ∈ ys, DefineFn d
  endOfLine : ∃ d ∈ ys, EndOfLine d
  macros : ∀ m ∈ stdMacros, ∃ d ∈ ys, MacroOf m.1 m.2.1 m.2.2 d

/-- The built-in functions that the definitions of the library name. -/
def stdUsed : List Str :=
  [['n', 'o', 't'], ['j', 'o', 'i', 'n'], ['s', 'p', 'l', 'i', 't'], ['u', 'n', 'q'], ['s', 'u', 'm'], ['r', 'a', 'n', 'g', 'e'], ['l', 'e', 'n'],
   ['r', 'e', 'v', 'e', 'r', 's', 'e', 'd'], ['s', 'u', 'b'], ['a', 't', 'o', 'i']]

/-- The other names they look up and that no scope of the library binds: two forms of the language, and two names that are
    not to be found. -/
def stdFree : List Str := [['i', 's', 'a', 't', 'o', 'm'], ['E', 'O', 'L'], ['l', 'a', 'z', 'y'], ['_', '_', 'l', 'a', 's', 't']]

/-- The three Python expressions in the library: `sys.maxsize`, `-sys.maxsize - 1` and `__i < __last`. -/
def stdMax : PyCode := ⟨['s', 'y', 's', '.', 'm', 'a', 'x', 's', 'i', 'z', 'e', ' '], [['s', 'y', 's']]⟩
def stdMin : PyCode := ⟨['-', 's', 'y', 's', '.', 'm', 'a', 'x', 's', 'i', 'z', 'e', ' ', '-', ' ', '1', ' '], [['s', 'y', 's']]⟩
def stdLess (names : List Str) : PyCode := ⟨['_', '_', 'i', ' ', '<', ' ', '_', '_', 'l', 'a', 's', 't', ' '], names⟩

/-- What the library takes for granted: the built-in functions are there and mean what they mean, Python accepts the three
    expressions, and the two it evaluates are integers. (The names in the third are a set; they come in either order.) -/
structure StdEnv (e : EEnv) (x : BExt) : Prop where
  used : ∀ f ∈ stdUsed, Spec.Standard e x f
  free : ∀ f ∈ stdFree, ∀ scripts, e.builtin scripts f = none
  less : e.pyParse (stdLess []).text = some (stdLess [['_', '_', 'i'], ['_', '_', 'l', 'a', 's', 't']]) ∨
    e.pyParse (stdLess []).text = some (stdLess [['_', '_', 'l', 'a', 's', 't'], ['_', '_', 'i']])
  max : e.pyParse stdMax.text = some stdMax ∧ ∀ st, ∃ k, e.pyEval st stdMax [] = some (.int k)
  min : e.pyParse stdMin.text = some stdMin ∧ ∀ st, ∃ k, e.pyEval st stdMin [] = some (.int k)

end Yupp
