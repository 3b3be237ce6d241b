import Verif.Spec.Builtin
import Verif.Spec.Numeral
/-!
# Texts in pieces, slices, digits: vocabulary of C75
-/

namespace Yupp.Spec

/-- `t` cut at `sep`, from left to right. -/
inductive Pieces (sep : Str) : Str → List Str → Prop
  | last {t} : (∀ k, ¬ OccursAt sep t k) → Pieces sep t [t]
  | cut {a r ps} : (∀ j, j < a.length → ¬ OccursAt sep (a ++ sep ++ r) j) → Pieces sep r ps →
      Pieces sep (a ++ sep ++ r) (a :: ps)

/-- The pieces one after another, with `sep` between them. -/
inductive Joined (sep : Str) : List Str → Str → Prop
  | none : Joined sep [] []
  | one (a) : Joined sep [a] a
  | more {a b bs t} : Joined sep (b :: bs) t → Joined sep (a :: b :: bs) (a ++ sep ++ t)

/-- The words of a text: what lies between white space. -/
inductive Words : Str → List Str → Prop
  | blank {t} : (∀ c ∈ t, isSpace c = true) → Words t []
  | word {a w r ws} : (∀ c ∈ a, isSpace c = true) → w ≠ [] → (∀ c ∈ w, isSpace c = false) →
      (∀ c, r.head? = some c → isSpace c = true) → Words r ws → Words (a ++ w ++ r) (w :: ws)

/-- `r` is `t` without the characters that satisfy `p` at the left end (if `left`) and at the right end (if `right`). -/
def Stripped (p : Char → Prop) (left right : Bool) (t r : Str) : Prop :=
  ∃ a b, t = a ++ r ++ b ∧ (∀ c ∈ a, p c) ∧ (∀ c ∈ b, p c) ∧
    (if left then ∀ c, r.head? = some c → ¬ p c else a = []) ∧
    (if right then ∀ c, r.getLast? = some c → ¬ p c else b = [])

/-- The position that a bound means in a sequence of length `n`: negative ones count from the end, and none lies outside. -/
inductive Position (n : Nat) : Int → Nat → Prop
  | inside (i : Nat) : i ≤ n → Position n i i
  | beyond (i : Int) : (n : Int) < i → Position n i n
  | fromEnd (k : Nat) : 0 < k → k ≤ n → Position n (-(k : Int)) (n - k)
  | before (i : Int) : i < -(n : Int) → Position n i 0

/-- A bound as an argument: a whole number, or an empty text for the end of the sequence. -/
inductive SliceEnd (n : Nat) (missing : Nat) : Node → Nat → Prop
  | given {a i k} : a.whole? = some i → Position n i k → SliceEnd n missing a k
  | left {a} : a.text? = some [] → SliceEnd n missing a missing

/-- `ys` are the items of `xs` from position `i` up to, and without, position `j`. -/
def Between {α : Type} (xs : List α) (i j : Nat) (ys : List α) : Prop :=
  ys.length = j - i ∧ ∀ k, k < j - i → ys[k]? = xs[i + k]?

/-- A text that denotes a number in a base: white space around, a sign, perhaps the prefix of the base, digits. -/
inductive Written (b : Nat) : Str → Int → Prop
  | mk {s g p ds n v t} : (∀ c ∈ s, isSpace c = true) → (∀ c ∈ t, isSpace c = true) → Signed g n v →
      (p = [] ∨ b = 16 ∧ (p = ['0', 'x'] ∨ p = ['0', 'X']) ∨ b = 2 ∧ (p = ['0', 'b'] ∨ p = ['0', 'B']) ∨
        b = 8 ∧ (p = ['0', 'o'] ∨ p = ['0', 'O'])) →
      ds ≠ [] → Denotes b ds n → Written b (s ++ (g ++ (p ++ ds)) ++ t) v

end Yupp.Spec
