import Verif.Spec.Generate
/-!
# Macros as text templates, for C94
-/

namespace Yupp.Spec

/-- A text that is given in place of a call: a block at the indent of the call. -/
def blockAt (cfg : Config) (ind : Indent) (t : Str) : Str :=
  match ind with
  | .str i => reindent cfg i t
  | _ => reindent cfg [] t

/-- The place of the piece `x` is taken by the text `T`: this text comes before that of the pieces behind it. (An empty text
    does not count as an item of its line.) -/
def TextInPlace (e : EEnv) (x : Node) (s : ESt) (T : Str) (s3 : ESt) : Prop :=
  ∀ ind cut rest o,
    (T ≠ [] → Generates e .no false rest s3 o → Generates e ind cut (x :: rest) s (o.after (blockAt e.cfg ind T))) ∧
    (T = [] → Generates e ind false rest s3 o → Generates e ind cut (x :: rest) s o)

/-- The text of the macro `do`, `lib/stdlib.yu:42-44`. -/
def doBody : Str :=
  ['d', 'o', ' ', '{', '\n', '(', '$', 'b', 'o', 'd', 'y', ')', '\n', '}', ' ', 'w', 'h', 'i', 'l', 'e', ' ', '(', ' ', '0', ' ', ')']

/-- The text of the macro `foo`, `lib/stdlib.yu:47-49`. -/
def fooBody : Str := ['(', '{', '\n', '(', '$', 'b', 'o', 'd', 'y', ')', '\n', '}', ')']

end Yupp.Spec
