import Verif.Model.Builtin
/-!
# What escape sequences stand for, for C46
-/

namespace Yupp.Spec

/-- The sequences of a backslash and one character, and the characters they stand for, as in the manual of Python. -/
def escapes : List (Char × Char) :=
  [('\\', '\\'), ('\'', '\''), ('"', '"'), ('a', '\x07'), ('b', '\x08'), ('f', '\x0c'), ('n', '\n'), ('r', '\r'), ('t', '\t'), ('v', '\x0b')]

/-- The number with these octal digits. -/
def octalValue (ds : List Nat) : Nat := ds.foldl (fun n d => 8 * n + d) 0

/-- The digit `d`, less than 8, written down. -/
def octalDigit (d : Nat) : Char := Char.ofNat (48 + d)

/-- The text with escape sequences, and the text it stands for: the sequences of the list, one to three octal digits (as many as
    there are), and other characters for themselves, behind a backslash as well. The sequences of the line end and of `x`, `u`,
    `U` and `N` are left out. -/
inductive Escaped : Str → Str → Prop
  | nil : Escaped [] []
  | char {c s t} : c ≠ '\\' → Escaped s t → Escaped (c :: s) (c :: t)
  | one {c d s t} : (c, d) ∈ escapes → Escaped s t → Escaped ('\\' :: c :: s) (d :: t)
  | other {c s t} : (∀ d, (c, d) ∉ escapes) → c ∉ ['\n', 'x', 'u', 'U', 'N'] → ¬ ('0' ≤ c ∧ c ≤ '7') → Escaped s t →
      Escaped ('\\' :: c :: s) ('\\' :: c :: t)
  | octal {ds s t} : ds ≠ [] → ds.length ≤ 3 → (∀ d ∈ ds, d < 8) →
      (ds.length = 3 ∨ ∀ c, s.head? = some c → ¬ ('0' ≤ c ∧ c ≤ '7')) → Escaped s t →
      Escaped ('\\' :: (ds.map octalDigit ++ s)) (Char.ofNat (octalValue ds) :: t)

/-- What may stand between two quotes `q`: no line ends and no zero characters, and quotes and backslashes only behind a backslash. -/
inductive BetweenQuotes (q : Char) : Str → Prop
  | nil : BetweenQuotes q []
  | char {c s} : c ≠ q → c ∉ ['\\', '\n', '\r', '\x00'] → BetweenQuotes q s → BetweenQuotes q (c :: s)
  | behind {c s} : c ∉ ['\n', '\r', '\x00'] → BetweenQuotes q s → BetweenQuotes q ('\\' :: c :: s)

end Yupp.Spec
