import Verif.Spec.Free
import Verif.Spec.Lines
import Verif.Base.Path
/-!
# What the command does with its source files, for C80

`Run` is the outcome of one translation (its value, the file it names, its request for another pass); how it comes
about is the subject of C78 and C79.
-/

namespace Yupp

/-- Specification: the name of the output file, from the name the program has set (if it has) and the derived one. An empty name
    counts as none. -/
inductive Chosen : Option Str → Str → Str → Prop
  | derived (d) : Chosen none d d
  | empty (d) : Chosen (some []) d d
  | named {f} (d) : f ≠ [] → Chosen (some f) d f

namespace Spec

/-- What is written for the value of a translation. With the reduction of empty lines white lines following a white line are
    left out; in plain mode lines lose the white space at their ends as well. -/
inductive FinalText (reduce : Bool) : Raw → Str → Prop where
  | plain {t} : reduce = false → FinalText reduce (.str t) (t.map steady)
  | browse {r} : reduce = false → FinalText reduce (.res r) (r.txt.map steady)
  | plainReduced {t ls} : reduce = true → All2 StripEnd (dropSuccessive whiteLine (splitLines t)) ls →
      FinalText reduce (.str t) ((joinStr ['\n'] ls ++ ['\n']).map steady)
  | browseReduced {r} : reduce = true → FinalText reduce (.res r) ((dropSuccessive blankNLLine (splitKeep r.txt)).flatten.map steady)

/-- `Job reduce tr d p outs ok`: what translating one source comes to from pass `p` on. `tr p run`: pass `p` comes to `run`.
    `d` is the name derived from that of the source. `outs` are the files written and their texts, in order; `ok`: no pass
    fails. A pass that fails is the last one. -/
inductive Job (reduce : Bool) (tr : Nat → Run → Prop) (d : Str) : Nat → List (Str × Str) → Bool → Prop where
  | last {p run out u} : tr p run → FinalText reduce run.raw u → Chosen run.outputFile d out → run.rept = false →
      Job reduce tr d p [(out, u)] true
  | more {p run out u outs ok} : tr p run → FinalText reduce run.raw u → Chosen run.outputFile d out → run.rept = true →
      Job reduce tr d (p + 1) outs ok → Job reduce tr d p ((out, u) :: outs) ok
  | fails {p run} : tr p run → run.raw = .raised ∨ (∃ t, run.raw = .tree t) → Job reduce tr d p [] false

/-- A file that is written, its backup or its table file. -/
def OwnFile (out x : Str) : Prop := x = out ∨ x = out ++ lit ".bak" ∨ x = out ++ lit ".json"

/-- The file for the tree of a program that is not reduced to text. -/
def treeFile (d : Str) : Str := (splitext d).1 ++ lit ".ast"

/-- No file is written over by one that is written later. -/
def KeptApart (outs : List (Str × Str)) : Prop := outs.Pairwise fun a b => ¬ OwnFile b.1 a.1

/-- A source given to the command, what it contains (`none`: there is no such file), the files that are written for it and
    whether its translation succeeds. -/
structure Task where
  fn : Str
  content : Option Str
  outs : List (Str × Str)
  ok : Bool

/-- What is to be done with a source. `tr fn src p run`: pass `p` over the text `src` of the file `fn` comes to `run`;
    `derive`: the name derived from that of a source. Translating a file that is not there fails. -/
inductive Task.Due (reduce : Bool) (tr : Str → Str → Nat → Run → Prop) (derive : Str → Str) : Task → Prop where
  | source {fn c outs ok} : Job reduce (tr fn (oneEol c)) (derive fn) 0 outs ok → Due reduce tr derive ⟨fn, some c, outs, ok⟩
  | missing {fn} : Due reduce tr derive ⟨fn, none, [], false⟩

/-- The source is as the task expects it. -/
def Task.Ready (t : Task) (fs : Fs) : Prop :=
  match t.content with
  | some c => ∃ f, fs t.fn = some f ∧ f.content = c
  | none => fs t.fn = none

/-- The file `x` may be changed by the task. -/
def Task.Touches (derive : Str → Str) (t : Task) (x : Str) : Prop :=
  (∃ a ∈ t.outs, OwnFile a.1 x) ∨ x = treeFile (derive t.fn)

/-- The tasks do not get in each other's way: no source is written over, no output is written over later. -/
structure NoClash (derive : Str → Str) (ts : List Task) : Prop where
  sources : ∀ t ∈ ts, ∀ u ∈ ts, ¬ Task.Touches derive u t.fn
  within : ∀ t ∈ ts, KeptApart t.outs ∧ ∀ a ∈ t.outs, a.1 ≠ treeFile (derive t.fn)
  between : ts.Pairwise fun t u => ∀ a ∈ t.outs, ¬ Task.Touches derive u a.1

end Spec

end Yupp
