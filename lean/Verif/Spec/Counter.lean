import Verif.Spec.Effects
import Verif.Spec.Builtin
/-!
# Counters, for C101

A counter is a variable that holds a whole number and is used by `($emit a inc)` alone. Scopes are told apart by the number of
scopes outside them, as inner ones come and go.
-/

namespace Yupp.Spec

/-- The evaluator that gives up where it meets one of the forms `stop`, in a state where they count. -/
def untilIn (e : EEnv) (stop : Node → ESt → Bool) : Nat → Node → EM Node
  | 0 => fun _ => EM.timeout
  | n + 1 => fun x s => if stop x s then .timeout else evalStep e (P e.pe n) (untilIn e stop n) x s

/-- `x` is reduced to `v`, and none of the forms `stop` is met on the way. -/
def AvoidsIn (e : EEnv) (stop : Node → ESt → Bool) (x : Node) (s : ESt) (v : Node) (s' : ESt) : Prop :=
  ∃ n, untilIn e stop n x s = .ok (v, s')

/-- One of the forms `stop` is met when `x` is evaluated, however deep the nesting may be. -/
def MeetsIn (e : EEnv) (stop : Node → ESt → Bool) (x : Node) (s : ESt) : Prop := ∀ n, untilIn e stop n x s = .timeout

/-- The value of `a` in the scope that has `d` scopes outside it. -/
def valueAt (a : Str) (d : Nat) : Scopes → Option Node
  | [] => none
  | f :: fs => if fs.length = d then Frame.get f a else valueAt a d fs

/-- `a` means the variable of that scope. -/
def reaches (a : Str) (d : Nat) : Scopes → Bool
  | [] => false
  | f :: fs => if (Frame.get f a).isSome then fs.length == d else reaches a d fs

/-- The name `inc`. -/
def isInc : Node → Bool
  | .var false [] i => i.txt == lit "inc"
  | _ => false

/-- An `$emit` of the counter other than `($emit a inc)`, or where `inc` has another meaning. -/
def misuses (a : Str) (d : Nat) : Node → ESt → Bool
  | .emit _ _ b f, s => b.txt == a && reaches a d s.env && !(isInc f && (Scopes.lookup s.env (lit "inc")).isNone)
  | _, _ => false

/-- An `$emit` of the counter when it holds one of the numbers `J`. -/
def draws (a : Str) (d : Nat) (J : Int → Bool) : Node → ESt → Bool
  | .emit _ _ b _, s => b.txt == a && reaches a d s.env && (match valueAt a d s.env with | some (.int k) => J k | _ => false)
  | _, _ => false

/-- One or the other. -/
def either (p q : Node → ESt → Bool) (x : Node) (s : ESt) : Bool := p x s || q x s

/-- The counter holds the number `k`. -/
def CounterIs (a : Str) (d : Nat) (k : Int) (s : ESt) : Prop := valueAt a d s.env = some (.int k)

end Yupp.Spec
