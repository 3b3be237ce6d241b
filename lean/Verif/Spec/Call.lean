import Verif.Spec.Builtin
import Verif.Spec.Feature
/-!
# Calls of built-in functions, for C68 and C69
-/

namespace Yupp.Spec

/-- What needs no further evaluation: texts, numbers, nothing, deferred expressions, and lists and texts of such things. -/
inductive Known : Node → Prop
  | none : Known .none
  | atom (s) : Known (.atom s)
  | remark (s) : Known (.remark s)
  | str (s) : Known (.str s)
  | plain (s i t) : Known (.plain s i t)
  | pstr (s) : Known (.pstr s)
  | result (r) : Known (.result r)
  | int (n) : Known (.int n)
  | bool (b) : Known (.bool b)
  | float (f) : Known (.float f)
  | lazy (a) : Known (.lazy a)
  | trim (a i) : Known a → Known (.trim a i)
  | list (xs) : (∀ x ∈ xs, Known x) → Known (.list xs)
  | t (xs i) : (∀ x ∈ xs, Known x) → Known (.t xs i)

/-- A built-in function is handed over, itself or within lists. -/
inductive HoldsFunction : Node → Prop
  | fn (a special) : HoldsFunction (.builtin a special)
  | trim (a i) : HoldsFunction a → HoldsFunction (.trim a i)
  | list (xs x) : x ∈ xs → HoldsFunction x → HoldsFunction (.list xs)
  | t (xs i x) : x ∈ xs → HoldsFunction x → HoldsFunction (.t xs i)

/-- What Python hands back: a truth value counts as 1 or 0, every kind of text as a plain text. -/
inductive Returned : Node → Node → Prop
  | yes : Returned (.bool true) (.int 1)
  | no : Returned (.bool false) (.int 0)
  | text {v t} : Template v t → Returned v (.pstr t)
  | atom {s} : Returned (.atom s) (.pstr s.txt)
  | other {v} : (∀ b, v ≠ .bool b) → (∀ t, ¬ Template v t) → (∀ s, v ≠ .atom s) → Returned v v

/-- The name stands for what the table of built-in functions holds: no scope redefines it. -/
structure InTable (e : EEnv) (s : ESt) (f : Str) (v : BVal) : Prop where
  scope : Unbound f s
  table : e.builtin s.p.scripts f = some v

/-- `$reduce` calls the function that the table holds, as it is there. (Given two arguments, `unique` does not use its
    memory.) -/
structure Reduces (e : EEnv) (x : BExt) (f : Str) : Prop where
  reduce : ∀ scripts l xs, e.reduce scripts (.builtin ⟨f, l⟩ false) xs =
    pyReduce (fun args => (builtinCall x f args []).map (·.1)) xs

/-- `f` combines the items from the left. -/
inductive FoldsTo (step : Node → Node → Node → Prop) : Node → List Node → Node → Prop
  | done (a) : FoldsTo step a [] a
  | step {a b c x xs} : step a x b → FoldsTo step b xs c → FoldsTo step a (x :: xs) c

/-- The function `f` of the table, called on two arguments as Python calls it, returns `c`. -/
def Calls (x : BExt) (f : Str) (a b c : Node) : Prop := ∃ seen, builtinCall x f [a, b] [] = some (c, seen)

/-- The sum of whole numbers. -/
def total : List Int → Int
  | [] => 0
  | n :: ns => n + total ns

/-- The state after a call: nothing changes, but what `unique` remembers. -/
def remember (s : ESt) (seen : List Node) : ESt := { s with seen := seen }

end Yupp.Spec
