import Verif.Spec.Template
import Verif.Spec.Dict
import Verif.Spec.Syntax
import Verif.Spec.Beta
import Verif.Spec.Lines
/-!
# Templates, for C103

A template is a text with names inserted in it: `#define ($name)_H`. The texts of the names take their places.
-/

namespace Yupp.Spec

/-- Inserted, the name gives the text `t`: it has a value with this text, or it has none and stands for itself. -/
inductive Stands (e : EEnv) (s : ESt) (a : Str) : Str → Prop where
  | value {v : Node} : Scopes.lookup s.env a = some v → Data v → v ≠ .none → Stands e s a (shown e.cfg e.repr v)
  | itself : Bare e s a → Stands e s a a

/-- `Filled cfg val first ind cut xs t`: the text `xs`, that stands behind `ind`, with the texts `val` in place of the names is
    `t`. A text of several lines is a block at the indent of its place. `cut`: white space at the beginning is removed, as it
    follows a comment at the beginning of a line. -/
inductive Filled (cfg : Config) (val : Str → Option Str) : Bool → Indent → Bool → ExprText → Str → Prop where
  | nil {f ind cut} : Filled cfg val f ind cut .nil []
  | chars {f ind cut w i xs t} : Indented f w i → Filled cfg val false (indentBehind ind i) false xs t →
      Filled cfg val f ind cut (.chars w xs) (fragment cfg w cut ++ t)
  | str {f ind cut w xs t} : Filled cfg val false .no false xs t → Filled cfg val f ind cut (.str w xs) (w ++ t)
  | remark {f ind cut w xs t} : Filled cfg val false .no false xs t → Filled cfg val f ind cut (.remark w xs) (w ++ t)
  | comment {f ind cut xs t} : Filled cfg val false ind (atLineStart ind) xs t → Filled cfg val f ind cut (.comment xs) t
  | name {f ind cut a xs t u} : val a = some u → Filled cfg val false .no false xs t →
      Filled cfg val f ind cut (.expr (.app (.name false [] a) .nil .nil) xs) (blockAt cfg ind u ++ t)

/-- A text of one line that does not begin with white space. -/
def OneLine (t : Str) : Prop := (∀ c ∈ t, c ∉ lineEnds) ∧ ∀ c, t.head? = some c → blankChar c = false

/-- The number of parts of a text. -/
def partCount : ExprText → Nat
  | .nil => 0
  | .chars _ xs | .expr _ xs | .set _ _ xs | .macro _ _ _ xs | .comment xs | .str _ xs | .remark _ xs => partCount xs + 1

/-- Plain text, literals and names: what is written, the names replaced. -/
def replaced (val : Str → Option Str) : ExprText → Option Str
  | .nil => some []
  | .chars w xs | .str w xs | .remark w xs => (replaced val xs).map (w ++ ·)
  | .expr (.app (.name false [] a) .nil .nil) xs => (val a).bind fun u => (replaced val xs).map (u ++ ·)
  | _ => none

end Yupp.Spec
