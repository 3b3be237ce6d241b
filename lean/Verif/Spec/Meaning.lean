import Verif.Spec.Counter
import Verif.Spec.Generate
/-!
# What evaluation looks at, for C102
-/

namespace Yupp.Spec

/-- Every name but those of `W` has the same value, and everything but the scopes is the same. -/
structure SameMeaning (W : Str → Bool) (s t : ESt) : Prop where
  names : ∀ k, W k = false → Scopes.lookup s.env k = Scopes.lookup t.env k
  rest : t = { s with env := t.env }

/-- `k` is one of `W`, and the scopes opened since there were `d` of them do not define it. -/
def outerName (W : Str → Bool) (d : Nat) (s : ESt) (k : Str) : Bool :=
  W k && (Scopes.lookup (s.env.take (s.env.length - d)) k).isNone

/-- A form that looks at the value of such a name: the name itself, as an expression, as the parameters of a function or in
    `$emit`, or a Python expression in which it occurs. -/
def looksOut (W : Str → Bool) (d : Nat) : Node → ESt → Bool
  | .var _ _ a, s => outerName W d s a.txt
  | .lambdaVar _ _ a _, s => outerName W d s a.txt
  | .emit _ _ a _, s => outerName W d s a.txt
  | .infixClosure c _ _, s => c.names.any (outerName W d s)
  | _, _ => false

/-- No name. -/
def noName (_ : Str) : Bool := false

/-- A scope defines the name. -/
def definesName (f : Frame) (k : Str) : Bool := (Frame.get f k).isSome

/-- The same outcome of a program, but for the values of the names `W` that are left. -/
def SameYield (W : Str → Bool) : Yield → Yield → Prop
  | .text t s, .text u s' => t = u ∧ SameMeaning W s s'
  | .unfinished s, .unfinished s' => SameMeaning W s s'
  | .fails, .fails => True
  | _, _ => False

end Yupp.Spec
