import Verif.Spec.Lexeme
/-!
# Integer literals

Specification for C48. Nothing of the model is used.
-/

namespace Yupp

/-- The value of a digit. -/
inductive Digit : Char → Nat → Prop where
  | dec {c : Char} : '0' ≤ c → c ≤ '9' → Digit c (c.toNat - '0'.toNat)
  | low {c : Char} : 'a' ≤ c → c ≤ 'f' → Digit c (10 + (c.toNat - 'a'.toNat))
  | up {c : Char} : 'A' ≤ c → c ≤ 'F' → Digit c (10 + (c.toNat - 'A'.toNat))

/-- The number a string of digits denotes in a base. -/
inductive Denotes (b : Nat) : Str → Nat → Prop where
  | nil : Denotes b [] 0
  | snoc {s : Str} {n : Nat} {c : Char} {d : Nat} : Denotes b s n → Digit c d → d < b →
      Denotes b (s ++ [c]) (n * b + d)

/-- Unsigned literals and their values. -/
inductive Literal : Str → Nat → Prop where
  | zero {s : Str} : s ≠ [] → (∀ c ∈ s, c = '0') → Literal s 0
  | dec {c : Char} {s : Str} {n : Nat} : '1' ≤ c → c ≤ '9' → Denotes 10 (c :: s) n → Literal (c :: s) n
  | hex {x : Char} {s : Str} {n : Nat} : x = 'x' ∨ x = 'X' → s ≠ [] → Denotes 16 s n → Literal ('0' :: x :: s) n
  | bin {x : Char} {s : Str} {n : Nat} : x = 'b' ∨ x = 'B' → s ≠ [] → Denotes 2 s n → Literal ('0' :: x :: s) n
  | oct {x : Char} {s : Str} {n : Nat} : x = 'o' ∨ x = 'O' → s ≠ [] → Denotes 8 s n → Literal ('0' :: x :: s) n

/-- A sign in front of a literal, and its value. -/
inductive Signed : Str → Nat → Int → Prop where
  | none {n : Nat} : Signed [] n n
  | plus {n : Nat} : Signed ['+'] n n
  | minus {n : Nat} : Signed ['-'] n (-n)

/-- The text does not continue a name or a number. -/
def Apart (r : Str) : Prop :=
  (∀ c, r.head? = some c → ¬ NameChar c) ∧ (∀ c d t, r = c :: d :: t → c = '.' → ¬ ('0' ≤ d ∧ d ≤ '9'))

end Yupp
