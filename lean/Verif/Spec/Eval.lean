import Verif.Model.Eval
/-!
# What evaluation does, without nesting limits

`Evaluates e x s v s'`: evaluation of `x` in the state `s` ends with the value `v` in the state `s'`.
`Raises e x s`: it ends with an exception.
-/

namespace Yupp

def Evaluates (e : EEnv) (x : Node) (s : ESt) (v : Node) (s' : ESt) : Prop := ∃ n, E e n x s = .ok (v, s')

def Raises (e : EEnv) (x : Node) (s : ESt) : Prop := ∃ n, E e n x s = .err

/-- The same outcome, whatever it is: same value and effects, or an exception, or no end. -/
def SameOutcome (e : EEnv) (x : Node) (s : ESt) (y : Node) (t : ESt) : Prop :=
  (∀ v s', Evaluates e x s v s' ↔ Evaluates e y t v s') ∧ (Raises e x s ↔ Raises e y t)

namespace Spec

/-- Fully evaluated values: texts, numbers, atoms, nothing, deferred expressions, and lists of such values
    (nothing is never an item of a list). -/
inductive Value : Node → Prop
  | none : Value .none
  | atom (s) : Value (.atom s)
  | remark (s) : Value (.remark s)
  | str (s) : Value (.str s)
  | plain (s i t) : Value (.plain s i t)
  | pstr (s) : Value (.pstr s)
  | result (r) : Value (.result r)
  | int (n) : Value (.int n)
  | bool (b) : Value (.bool b)
  | float (f) : Value (.float f)
  | lazy (a) : Value (.lazy a)
  | list (xs) : (∀ x ∈ xs, Value x) → (∀ x ∈ xs, x ≠ .none) → Value (.list xs)

/-- A number that can serve as the index `i`. -/
inductive Index : Node → Int → Prop
  | int (i) : Index (.int i) i
  | no : Index (.bool false) 0
  | yes : Index (.bool true) 1
  | float (f i) : f.trunc = some i → Index (.float f) i

/-- The sequence a number is applied to: the arguments, or the items of a single argument that is a list. -/
inductive Sequence : List Node → List Node → Prop
  | items (xs) : Sequence [.list xs] xs
  | args (vs) : (∀ xs, vs ≠ [.list xs]) → Sequence vs vs

/-- What counts as false: nothing, an empty text, zero, an empty list. -/
inductive False' : Node → Prop
  | none : False' .none
  | atom (s) : s.txt = [] → False' (.atom s)
  | remark (s) : s.txt = [] → False' (.remark s)
  | str (s) : s.txt = [] → False' (.str s)
  | plain (s i t) : s.txt = [] → False' (.plain s i t)
  | pstr : False' (.pstr [])
  | result (r) : r.txt = [] → False' (.result r)
  | int : False' (.int 0)
  | bool : False' (.bool false)
  | float (f) : f.isZero = true → False' (.float f)
  | list : False' (.list [])
  | t (i) : False' (.t [] i)
  | env : False' (.env [])

/-- The functions `fs` one after another, applied to `x`. -/
inductive Chain (e : EEnv) : List Node → Node → ESt → Node → ESt → Prop
  | nil (x s) : Chain e [] x s x s
  | cons {f fs x s y s1 z s2} : Evaluates e (.apply f [x] [] none) s y s1 → Chain e fs y s1 z s2 →
      Chain e (f :: fs) x s z s2

/-- `Each e fs xs s ys s'`: `ys` are the results for the items `xs` from left to right, without those that
    are nothing. -/
inductive Each (e : EEnv) (fs : List Node) : List Node → ESt → List Node → ESt → Prop
  | nil (s) : Each e fs [] s [] s
  | drop {x xs s s1 ys s2} : Chain e fs x s .none s1 → Each e fs xs s1 ys s2 → Each e fs (x :: xs) s ys s2
  | keep {x xs s y s1 ys s2} : Chain e fs x s y s1 → y ≠ .none → Each e fs xs s1 ys s2 →
      Each e fs (x :: xs) s (y :: ys) s2

/-- The arguments of an application one after another; `ys` are the values, an embedded list counts as its
    items and nothing is left out. -/
inductive Args (e : EEnv) : List Node → ESt → List Node → ESt → Prop
  | nil (s) : Args e [] s [] s
  | drop {x xs s s1 ys s2} : Evaluates e x s .none s1 → Args e xs s1 ys s2 → Args e (x :: xs) s ys s2
  | one {x xs s y s1 ys s2} : Evaluates e x s y s1 → y ≠ .none → (∀ a, y ≠ .embed a) → Args e xs s1 ys s2 →
      Args e (x :: xs) s (y :: ys) s2
  | embedded {x xs s zs s1 ys s2} : Evaluates e x s (.embed (.list zs)) s1 → Args e xs s1 ys s2 →
      Args e (x :: xs) s (zs ++ ys) s2

end Spec

end Yupp
