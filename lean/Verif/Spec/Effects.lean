import Verif.Spec.Subst
import Verif.Spec.Scope
/-!
# What evaluation changes, for C95
-/

namespace Yupp.Spec

/-- The evaluator that gives up where it meets one of the forms `stop`. -/
def until' (e : EEnv) (stop : Node → Bool) : Nat → Node → EM Node
  | 0 => fun _ => EM.timeout
  | n + 1 => fun x => if stop x then EM.timeout else evalStep e (P e.pe n) (until' e stop n) x

/-- `x` is reduced to `v`, and none of the forms `stop` is met on the way. -/
def Avoids (e : EEnv) (stop : Node → Bool) (x : Node) (s : ESt) (v : Node) (s' : ESt) : Prop :=
  ∃ n, until' e stop n x s = .ok (v, s')

/-- One of the forms `stop` is met when `x` is evaluated, however deep the nesting may be. -/
def Meets (e : EEnv) (stop : Node → Bool) (x : Node) (s : ESt) : Prop := ∀ n, until' e stop n x s = .timeout

/-- `($emit a ..)`. -/
def emitsOf (a : Str) : Node → Bool
  | .emit _ _ b _ => b.txt == a
  | _ => false

/-- `($emit ..)` of any variable. -/
def emits : Node → Bool
  | .emit _ _ _ _ => true
  | _ => false

/-- `($set __OUTPUT_FILE__ ..)`. -/
def setsOutput : Node → Bool
  | .set (.one a) _ => a.txt == lit "__OUTPUT_FILE__"
  | _ => false

/-- A text is evaluated, `` ($$ ..) `` or the text of a macro. -/
def evals : Node → Bool
  | .eval _ _ _ => true
  | _ => false

/-- Two scopes bind the same names in the same order, those not in `W` to the same values; names that wait for a value still do. -/
structure SameScope (W : Str → Bool) (f g : Frame) : Prop where
  names : g.map (·.1) = f.map (·.1)
  others : g.filter (fun p => !W p.1) = f.filter (fun p => !W p.1)
  waiting : ∀ k, f.lookup k = some .bound → g.lookup k = some .bound

/-- The same for the chain of scopes. -/
def SameScopes (W : Str → Bool) : Scopes → Scopes → Prop := Each2 (SameScope W)

end Yupp.Spec
