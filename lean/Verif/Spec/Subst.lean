import Verif.Spec.Eval
/-!
# Substitution of markers, for C32 and C33
-/

namespace Yupp

namespace Spec

/-- `simul ρ 0 t`: every marker `($name)` of the text `t` whose name is in the table `ρ` is replaced by the text
    the (first entry of the) table holds for it; replacements are not looked at again. The number counts
    the characters of the current marker still to be passed. -/
def simul (ρ : List (Str × Str)) : Nat → Str → Str
  | _, [] => []
  | k + 1, _ :: t => simul ρ k t
  | 0, c :: t =>
    match ρ.find? (fun p => (['(', '$'] ++ p.1 ++ [')']).isPrefixOf (c :: t)) with
    | some p => p.2 ++ simul ρ (p.1.length + 2) t
    | none => c :: simul ρ 0 t

/-- The text with all markers replaced. -/
def substitute (ρ : List (Str × Str)) (t : Str) : Str := simul ρ 0 t

/-- No marker of the table occurs in the text. -/
def Unmarked (ρ : List (Str × Str)) (t : Str) : Prop :=
  ∀ p ∈ ρ, ∀ a b, t ≠ a ++ (['(', '$'] ++ p.1 ++ [')']) ++ b

/-- Names hold no parentheses (they are identifiers or numbers). -/
def NamesOk (ρ : List (Str × Str)) : Prop := ∀ p ∈ ρ, '(' ∉ p.1 ∧ ')' ∉ p.1

/-- The text of a value: of a list the texts of its items, of nothing the empty text. -/
inductive TextOf : Node → Str → Prop
  | none : TextOf .none []
  | atom (s) : TextOf (.atom s) s.txt
  | remark (s) : TextOf (.remark s) s.txt
  | str (s) : TextOf (.str s) s.txt
  | plain (s i) : TextOf (.plain s i false) s.txt
  | pstr (s) : TextOf (.pstr s) s
  | result (r) : TextOf (.result r) r.txt
  | int (n) : TextOf (.int n) (toString n).toList
  | bool (b) : TextOf (.bool b) (if b then ['T', 'r', 'u', 'e'] else ['F', 'a', 'l', 's', 'e'])
  | float (f) : TextOf (.float f) f.str
  | lazy {a t} : TextOf a t → TextOf (.lazy a) t
  | nil : TextOf (.list []) []
  | cons {x xs t ts} : TextOf x t → TextOf (.list xs) ts → TextOf (.list (x :: xs)) (t ++ ts)

/-- Text values, which can be templates. -/
inductive Template : Node → Str → Prop
  | remark (s) : Template (.remark s) s.txt
  | str (s) : Template (.str s) s.txt
  | plain (s i t) : Template (.plain s i t) s.txt
  | pstr (s) : Template (.pstr s) s
  | result (r) : Template (.result r) r.txt

/-- The text put in a macro for an argument: an empty list is written `()`, a text or number as it is. (For other
    lists and deferred expressions it is what Python writes for the tree, which is not specified here.) -/
inductive ArgText : Node → Str → Prop
  | atom (s) : ArgText (.atom s) s.txt
  | remark (s) : ArgText (.remark s) s.txt
  | str (s) : ArgText (.str s) s.txt
  | plain (s i t) : ArgText (.plain s i t) s.txt
  | pstr (s) : ArgText (.pstr s) s
  | result (r) : ArgText (.result r) r.txt
  | int (n) : ArgText (.int n) (toString n).toList
  | bool (b) : ArgText (.bool b) (if b then ['T', 'r', 'u', 'e'] else ['F', 'a', 'l', 's', 'e'])
  | float (f) : ArgText (.float f) f.str
  | nil : ArgText (.list []) ['(', ')']

/-- The values of named arguments, one after another. -/
inductive Named (e : EEnv) : List (Src × Node) → ESt → List (Str × Node) → ESt → Prop
  | nil (s) : Named e [] s [] s
  | cons {a x r s v s1 vs s2} : Evaluates e x s v s1 → Named e r s1 vs s2 →
      Named e ((a, x) :: r) s ((a.txt, v) :: vs) s2

/-- A relation, item by item. -/
inductive Each2 {α β : Type} (R : α → β → Prop) : List α → List β → Prop
  | nil : Each2 R [] []
  | cons {a b as bs} : R a b → Each2 R as bs → Each2 R (a :: as) (b :: bs)

/-- The table for positional arguments: their numbers. -/
def positions : Nat → List Str → List (Str × Str)
  | _, [] => []
  | i, x :: xs => (natStr i, x) :: positions (i + 1) xs

end Spec

end Yupp
