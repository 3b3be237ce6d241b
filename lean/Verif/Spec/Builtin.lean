import Verif.Model.Builtin
import Verif.Spec.Eval
/-!
# Vocabulary of the properties of built-in functions, C45–C47, C53
-/

namespace Yupp.Spec

/-- The built-in function of that name is there and no script changed it. -/
structure Standard (e : EEnv) (x : BExt) (f : Str) : Prop where
  table : ∀ scripts, e.builtin scripts f = some .fn
  call : ∀ scripts args seen, e.call scripts f args seen = builtinCall x f args seen

/-- `($f arg …)` -/
def fnCall (f : Str) (l loc : Option Loc) (args : List Node) : Node := .apply (.var false [] ⟨f, l⟩) args [] loc

/-- No scope redefines the name. -/
def Unbound (f : Str) (s : ESt) : Prop := Scopes.lookup s.env f = none

/-- The text of a value: all kinds of texts have one. (`Node.text?` computes it, `C53_texts`.) -/
inductive HasText : Node → Str → Prop
  | atom (s) : HasText (.atom s) s.txt
  | remark (s) : HasText (.remark s) s.txt
  | str (s) : HasText (.str s) s.txt
  | plain (s i t) : HasText (.plain s i t) s.txt
  | pstr (s) : HasText (.pstr s) s
  | result (r) : HasText (.result r) r.txt

/-- The whole number of a value: truth values count as 1 and 0. (`Node.whole?` computes it, `C53_numbers`.) -/
inductive HasNumber : Node → Int → Prop
  | int (n) : HasNumber (.int n) n
  | yes : HasNumber (.bool true) 1
  | no : HasNumber (.bool false) 0

/-- Texts, whole numbers, and lists of them. -/
inductive Datum : Node → Prop
  | text {a t} : a.text? = some t → Datum a
  | number {a n} : a.whole? = some n → Datum a
  | list {xs} : (∀ x ∈ xs, Datum x) → Datum (.list xs)

/-- Equal as values: the same text, the same number, or lists of equal items. -/
inductive Same : Node → Node → Prop
  | text {a b t} : a.text? = some t → b.text? = some t → Same a b
  | number {a b n} : a.whole? = some n → b.whole? = some n → Same a b
  | list {as bs} : as.length = bs.length → (∀ (i : Nat) (a b : Node), as[i]? = some a → bs[i]? = some b → Same a b) → Same (.list as) (.list bs)

/-- `i` is the lowest position at which `p` holds, or -1 if there is none. -/
def Lowest (p : Node → Prop) (xs : List Node) (i : Int) : Prop :=
  (∃ (k : Nat) (y : Node), i = k ∧ xs[k]? = some y ∧ p y ∧ ∀ (j : Nat) (z : Node), j < k → xs[j]? = some z → ¬ p z) ∨
  (i = -1 ∧ ∀ y ∈ xs, ¬ p y)

/-- `i` is the highest position at which `p` holds, or -1 if there is none. -/
def Highest (p : Node → Prop) (xs : List Node) (i : Int) : Prop :=
  (∃ (k : Nat) (y : Node), i = k ∧ xs[k]? = some y ∧ p y ∧ ∀ (j : Nat) (z : Node), k < j → xs[j]? = some z → ¬ p z) ∨
  (i = -1 ∧ ∀ y ∈ xs, ¬ p y)

/-- `v` occurs in `s` at position `k`. -/
def OccursAt (v s : Str) (k : Nat) : Prop := ∃ a b, s = a ++ v ++ b ∧ a.length = k

/-- `ys` are the items of `xs` that are equal to no item of `old` and to no item before them, in order. -/
def FirstsOf (old xs ys : List Node) : Prop :=
  ∃ keep : Nat → Bool, (∀ (i : Nat) (x : Node), xs[i]? = some x →
      (keep i = true ↔ (∀ y ∈ old, ¬ Same y x) ∧ ∀ (j : Nat) (y : Node), j < i → xs[j]? = some y → ¬ Same y x)) ∧
    ys = (xs.zipIdx.filter (fun p => keep p.2)).map (·.1)

/-- Calls of `unique`, one after another: each list with what the call gives. `seen` is what earlier calls were
    given. -/
inductive UniqueCalls (e : EEnv) (l loc : Option Loc) : List (List Node × List Node) → ESt → ESt → Prop
  | nil (s) : UniqueCalls e l loc [] s s
  | cons {xs ys cs s s1 s2} : Evaluates e (fnCall (lit "unique") l loc [.list xs]) s (.list ys) s1 →
      UniqueCalls e l loc cs s1 s2 → UniqueCalls e l loc ((xs, ys) :: cs) s s2

end Yupp.Spec
