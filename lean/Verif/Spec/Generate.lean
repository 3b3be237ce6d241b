import Verif.Spec.Feature
import Verif.Spec.Free
/-!
# The text a program generates, for C78

A program is a sequence of pieces: fragments of plain text, comments, definitions, embedded expressions. They are
dealt with from left to right. What each of them adds to the generated text depends on its value alone, on the place
where it stands in the line, and on whether the white space before it is to be removed.
-/

namespace Yupp.Spec

/-- A block of text put at the indent `i`: its shared indent is removed and its lines but the first begin with `i`.
    (The two modes differ in what they do to blank lines and mixed indents, see C11.) -/
def reindent (cfg : Config) (i t : Str) : Str :=
  if cfg.browse then (trimWithBrowse cfg i { txt := t }).txt else trim cfg i t

/-- A fragment of plain text; if it is `cut`, without its white space at the beginning. -/
def fragment (cfg : Config) (t : Str) (cut : Bool) : Str := if cfg.trimAppIndent ∧ cut then lstrip t else t

mutual
/-- The text of a value. `repr` is for what is deferred and is not a value. -/
def shown (cfg : Config) (repr : Node → Str) : Node → Str
  | .none => []
  | .atom s | .remark s | .str s => s.txt
  | .pstr s => s
  | .result r => r.txt
  | .plain s _ cut => fragment cfg s.txt cut
  | .int n => (toString n).toList
  | .bool true => ['T', 'r', 'u', 'e']
  | .bool false => ['F', 'a', 'l', 's', 'e']
  | .float f => f.str
  | .list xs | .t xs _ => showns cfg repr xs
  | .trim a i => reindent cfg i (shown cfg repr a)
  | .lazy a => shown cfg repr a
  | n => repr n
/-- The texts of several values one after another. -/
def showns (cfg : Config) (repr : Node → Str) : List Node → Str
  | [] => []
  | x :: xs => shown cfg repr x ++ showns cfg repr xs
end

/-- Values that can be written: texts, numbers, nothing, deferred expressions, and lists and blocks of such values. -/
inductive Final : Node → Prop where
  | none : Final .none
  | atom (s) : Final (.atom s)
  | remark (s) : Final (.remark s)
  | str (s) : Final (.str s)
  | plain (s i c) : Final (.plain s i c)
  | pstr (s) : Final (.pstr s)
  | result (r) : Final (.result r)
  | int (n) : Final (.int n)
  | bool (b) : Final (.bool b)
  | float (f) : Final (.float f)
  | lazy (a) : Final (.lazy a)
  | list {xs} : (∀ x ∈ xs, Final x) → Final (.list xs)
  | t {xs i} : (∀ x ∈ xs, Final x) → Final (.t xs i)
  | trim {a i} : Final a → Final (.trim a i)

/-- What comes of a sequence of pieces: a text, something that is not reduced to text, or an exception. -/
inductive Yield where
  | text (t : Str) (s : ESt)
  | unfinished (s : ESt)
  | fails

/-- The outcome with `t` before the text. -/
def Yield.after (t : Str) : Yield → Yield
  | .text u s => .text (t ++ u) s
  | o => o

/-- The outcome if a piece before is not reduced to text. -/
def Yield.open : Yield → Yield
  | .text _ s => .unfinished s
  | o => o

/-- The outcome when the innermost scope is left. -/
def Yield.leave : Yield → Yield
  | .text t s => .text t (pop s)
  | .unfinished s => .unfinished (pop s)
  | .fails => .fails

/-- The value of a piece as an item of the text: an embedded value other than a text counts as itself. -/
inductive Item : Node → Node → Prop where
  | embed {a} : (∀ xs i, a ≠ .t xs i) → Item (.embed a) a
  | value {a} : a ≠ .none → a ≠ .skip → a ≠ .importBegin → a ≠ .importEnd → (∀ f, a ≠ .env f) → (∀ b, a ≠ .embed b) → Item a a

/-- The rest of the text behind the end of the module, when `n` modules are open. -/
def behindModule : Nat → List Node → List Node
  | 0, xs => xs
  | _, [] => []
  | n + 1, .importBegin :: xs => behindModule (n + 2) xs
  | n + 1, .importEnd :: xs => behindModule n xs
  | n + 1, _ :: xs => behindModule (n + 1) xs

/-- The pieces of a text that is put in at the indent `ind`: with a real indent its lines are moved to the right. -/
def putIn (ind : Indent) (xs : List Node) : List Node :=
  match ind with
  | .str (c :: i) => atIndent (c :: i) xs
  | _ => xs

/-- The indent behind a fragment of plain text: its own, or the one before if it has no line end. -/
def indentBehind (ind i : Indent) : Indent := if i = .none then ind else i

/-- Is there only white space in the line so far? -/
def atLineStart : Indent → Bool
  | .str _ => true
  | _ => false

/-- The text of an item: what an application gives is a block at the indent where it stands. -/
def itemText (e : EEnv) (ind : Indent) (x a : Node) : Str :=
  match x, ind with
  | .apply .., .str i => reindent e.cfg i (shown e.cfg e.repr a)
  | .apply .., _ => reindent e.cfg [] (shown e.cfg e.repr a)
  | _, _ => shown e.cfg e.repr a

/-- A piece that is evaluated: neither plain text nor a comment. -/
def Form (x : Node) : Prop := ¬ IsPlain x ∧ x ≠ .comment

/-- `Generates e ind cut xs s o`: what the pieces `xs` come to in the state `s`. `ind` is the indent at the place they
    stand at (`.str i` if the line has only the white space `i` so far); `cut`: white space at the beginning of a plain
    fragment is to be removed, as it follows a definition or a comment that stands at the beginning of a line. -/
inductive Generates (e : EEnv) : Indent → Bool → List Node → ESt → Yield → Prop where
  | nil {ind cut s} : Generates e ind cut [] s (.text [] s)
  | plain {ind cut w i c xs s o} : Generates e (indentBehind ind i) false xs s o →
      Generates e ind cut (.plain w i c :: xs) s (o.after (fragment e.cfg w.txt (cut || c)))
  | comment {ind cut xs s o} : Generates e ind (atLineStart ind) xs s o → Generates e ind cut (.comment :: xs) s o
  | nothing {ind cut x v xs s s1 o} : Form x → Evaluates e x s v s1 → v = .none ∨ v = .importBegin ∨ v = .importEnd →
      Generates e ind false xs s1 o → Generates e ind cut (x :: xs) s o
  | item {ind cut x v a xs s s1 o} : Form x → Evaluates e x s v s1 → Item v a → Final a →
      Generates e .no false xs s1 o → Generates e ind cut (x :: xs) s (o.after (itemText e ind x a))
  | waits {ind cut x v a xs s s1 o} : Form x → Evaluates e x s v s1 → Item v a → ¬ Final a →
      Generates e .no false xs s1 o → Generates e ind cut (x :: xs) s o.open
  | definition {ind cut x f xs s s1 o} : Form x → Evaluates e x s (.env f) s1 → xs ≠ [] →
      Generates e ind (atLineStart ind) xs (push s1 f) o → Generates e ind cut (x :: xs) s o.leave
  | lastDefinition {ind cut x f s s1} : Form x → Evaluates e x s (.env f) s1 → Generates e ind cut [x] s (.text [] s1)
  | block {ind cut x xs ys i s s1 o} : Form x → Evaluates e x s (.embed (.t ys i)) s1 →
      Generates e ind false (putIn ind ys ++ xs) s1 o → Generates e ind cut (x :: xs) s o
  | skip {ind cut x xs s s1 o} : Form x → Evaluates e x s .skip s1 → Generates e ind false (behindModule 1 xs) s1 o →
      Generates e ind cut (x :: xs) s o
  | fails {ind cut x xs s} : Form x → Raises e x s → Generates e ind cut (x :: xs) s .fails

/-- The result of a translation the pieces of which come to `o`: the text and the names and requests it leaves; the
    remark that it is not a text; an exception. -/
def Reports : Yield → Run → Prop
  | .text t s, run => (run.raw = .str t ∨ ∃ r, run.raw = .res r ∧ r.txt = t) ∧ run.outputFile = s.outputFile ∧
      run.rept = s.rept ∧ run.shrink = s.p.shrink
  | .unfinished s, run => (∃ t, run.raw = .tree t) ∧ run.outputFile = s.outputFile ∧ run.rept = s.rept ∧ run.shrink = s.p.shrink
  | .fails, run => run.raw = .raised

end Yupp.Spec
