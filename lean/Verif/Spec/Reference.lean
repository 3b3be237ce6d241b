import Verif.Spec.Provenance
import Verif.Spec.Fragments
/-!
# Which places a fragment refers to

Specification for C62 and C63. A fragment of a file refers to its place in the file. A fragment of an evaluated text
(the expansion of a macro, a text given to `($$ … )` or to `($import { … })`) has no place of its own: it refers to
where the text was called from, if that is known, and to where it was declared; so it refers to at least one place. The
last reference is the innermost.
-/

namespace Yupp.Spec

/-- There is a text of this name. -/
def Registered (w : World) (f : Str) : Prop := ∃ d t, (f, d, t) ∈ w.source

/-- The name of a file as it is shown: its path, if it has one. -/
def shownName (name : Str) : Decl → Str
  | .path (some p) => if p.isEmpty then name else p
  | _ => name

/-- The references of a place, outermost first. A place in the text number `m` is that of its call and that of its
    declaration; the position of a declaration is negated, "not to do relative shift". -/
inductive Refs (w : World) : Loc → List (Str × Int) → Prop
  | file {l d t} : (l.file, d, t) ∈ w.source → isDigits l.file = false → Refs w l [(shownName l.file d, l.pos)]
  | both {l dl t c rs rs'} : (l.file, .at dl, t) ∈ w.source → isDigits l.file = true →
      w.inclusion[digitsVal l.file]? = some (some c) → Refs w c rs → Refs w { dl with pos := -dl.pos } rs' →
      Refs w l (rs ++ rs')
  | declared {l dl t rs} : (l.file, .at dl, t) ∈ w.source → isDigits l.file = true →
      w.inclusion[digitsVal l.file]? = some none → Refs w { dl with pos := -dl.pos } rs → Refs w l rs

/-- The name `f` was there before the text number `m`. -/
def Older (w : World) (m : Nat) (f : Str) : Prop := Registered w f ∧ (isDigits f = true → digitsVal f < m)

/-- The tables are in order: texts whose names are digits are numbered, and calls and declarations lie in texts that
    were there before. -/
structure Sound (w : World) : Prop where
  text : ∀ key d t, (key, d, t) ∈ w.source → isDigits key = true →
    ∃ m, key = natStr m ∧ m < w.inclusion.length ∧ ∃ dl, d = .at dl ∧ Older w m dl.file
  call : ∀ m c, w.inclusion[m]? = some (some c) → Older w m c.file

/-- The origin of a character is right: it stands in some text at a place whose references are those given, at the
    given distance. -/
def Right (w : World) (o : Origin) (ch : Char) : Prop :=
  ∃ (name : Str) (k : Nat) (d : Decl) (txt : Str), (name, d, txt) ∈ w.source ∧
    txt[k + o.idx]? = some ch ∧ Refs w ⟨name, k⟩ (o.outer ++ [(o.file, o.pos)])

/-- The places in some parts: where the fragments lie and where declarations and calls are. -/
def Place (ls : List Leaf) (l : Loc) : Prop := Leaf.at l ∈ ls ∨ ∃ y, Leaf.src y ∈ ls ∧ y.loc = some l

/-- `RESULT.loc` works at the place: every name and number looked up on the way is there, and it ends (more rounds
    change nothing). -/
def Located (w : World) (l : Loc) : Prop :=
  ∃ rs, Refs w l rs ∧ ∀ m, (w.loc (w.inclusion.length + 1 + m) l).map (·.2) = rs

/-- The names of texts that are read are no numbers. -/
structure Names (e : PEnv) : Prop where
  input : isDigits e.inputFile = false
  lib : ∀ k, isDigits k = true → e.readLib k = none

/-- The texts that are made while the tables grow up to `w`, with the origin of each of their characters; as
    `Generated`, but each tree is rendered with the tables of its time. -/
inductive Made (cfg : Config) (repr : Node → Str) (w : World) : Res → List Cell → Prop
  | tree (w0 : World) (n : Node) (σ : Res → List Cell) : w0.Le w →
      (∀ r ∈ results n, Made cfg repr w r (σ r)) →
      Made cfg repr w (plainBrowse cfg { repr := repr, locs := w0.loc (w0.inclusion.length + 1) } n)
        (treeCells cfg { repr := repr, locs := w0.loc (w0.inclusion.length + 1) } σ n)
  | reduce (r cs) : Made cfg repr w r cs → Made cfg repr w (r.reduceEmptiness cfg) (reduceCells cfg cs)
  | steady (r cs) : Made cfg repr w r cs → Made cfg repr w r.replaceSteady (steadyCells cs)

end Yupp.Spec
