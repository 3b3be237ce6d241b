import Verif.Model.Message
import Verif.Spec.Reference
import Verif.Spec.Feature
/-!
# Places in a text, for C73
-/

namespace Yupp.Spec

/-- The position `pos` is in column `col` (from 0) of line number `n` (from 1), which is `line`. Lines are what stands between the
    line ends. -/
structure AtLine (text : Str) (pos n : Nat) (line : Str) (col : Nat) : Prop where
  split : ∃ before after, text = before ++ line ++ after ∧ (before = [] ∨ before.getLast? = some '\n') ∧
    (after = [] ∨ after.head? = some '\n') ∧ pos = before.length + col ∧ n = before.count '\n' + 1
  one : '\n' ∉ line
  col : col ≤ line.length

/-- The only character that ends a line is the line feed: no form feeds, separators and the like. -/
def OnlyLf (text : Str) : Prop := ∀ c ∈ text, c ∈ lineEnds → c = '\n'

/-- The chain of a place: that of the call, if known, then that of the declaration, then the place itself. `here` says whether the
    place is the one the pointer is shown for. -/
inductive PlaceChain (w : World) : Loc → Bool → List (Loc × Bool) → Prop
  | file {l b d t} : w.find l.file = some (d, t) → isDigits l.file = false → PlaceChain w l b [(l, b)]
  | called {l b dl t c cs ds} : w.find l.file = some (.at dl, t) → isDigits l.file = true →
      w.inclusion[digitsVal l.file]? = some (some c) → PlaceChain w c false cs → PlaceChain w dl false ds →
      PlaceChain w l b (cs ++ ds ++ [(l, b)])
  | uncalled {l b dl t ds} : w.find l.file = some (.at dl, t) → isDigits l.file = true →
      w.inclusion[digitsVal l.file]? = some none → PlaceChain w dl false ds → PlaceChain w l b (ds ++ [(l, b)])

/-- A place is told right: the name of the file or of the macro, the number of the line, the line without its indent, and the
    pointer (if shown) below the character, or at the beginning of the line if it is in the indent. -/
def ToldRight (w : World) (texts : Nat → Str) (l : Loc) (b : Bool) (t : Told) : Prop :=
  ∃ d text n line col, w.find l.file = some (d, text) ∧ AtLine text l.pos.toNat n line col ∧
    t.inMacro = isDigits l.file ∧ t.name = (if isDigits l.file then texts (digitsVal l.file) else shownName l.file d) ∧
    t.line = n ∧ t.shown = lstrip line ∧
    t.caret = if b then some (col - (line.length - (lstrip line).length)) else none

end Yupp.Spec
