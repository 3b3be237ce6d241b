import Verif.Spec.Texts
/-!
# Items of sequences, letters and widths: vocabulary of C85 and C86
-/

namespace Yupp.Spec

/-- Position `k` of a sequence of `n` items, counted from the end if it is negative, is the one after `i` items. -/
def Counts (n : Nat) (k : Int) (i : Nat) : Prop := i < n ∧ (k = i ∨ k = i - n)

/-- The small letters of the alphabet. -/
def smallLetters : Str := ['a', 'b', 'c', 'd', 'e', 'f', 'g', 'h', 'i', 'j', 'k', 'l', 'm', 'n', 'o', 'p', 'q', 'r', 's', 't', 'u', 'v', 'w',
  'x', 'y', 'z']

/-- The capital letters, in the same order. -/
def capitalLetters : Str := ['A', 'B', 'C', 'D', 'E', 'F', 'G', 'H', 'I', 'J', 'K', 'L', 'M', 'N', 'O', 'P', 'Q', 'R', 'S', 'T', 'U', 'V', 'W',
  'X', 'Y', 'Z']

/-- `c` is the letter of `from'` that `d` is of `to`. -/
def SameLetter (from' to : Str) (c d : Char) : Prop := ∃ i : Nat, from'[i]? = some c ∧ to[i]? = some d

/-- A letter as a small one, every other character as it is. -/
def Small (c d : Char) : Prop := SameLetter capitalLetters smallLetters c d ∨ c ∉ capitalLetters ∧ d = c

/-- A letter as a capital one, every other character as it is. -/
def Capital (c d : Char) : Prop := SameLetter smallLetters capitalLetters c d ∨ c ∉ smallLetters ∧ d = c

/-- A small letter as a capital one and a capital one as a small one. -/
def Swapped (c d : Char) : Prop :=
  SameLetter capitalLetters smallLetters c d ∨ SameLetter smallLetters capitalLetters c d ∨ c ∉ capitalLetters ∧ c ∉ smallLetters ∧ d = c

/-- Character by character. -/
inductive EachChar (r : Char → Char → Prop) : Str → Str → Prop
  | nil : EachChar r [] []
  | cons {c d t u} : r c d → EachChar r t u → EachChar r (c :: t) (d :: u)

/-- `k` characters fill a text of the length `m` up to the width `n`, none if it is as wide already. -/
def Fills (k m : Nat) (n : Int) : Prop := k = 0 ∧ n ≤ m ∨ (m : Int) + k = n

end Yupp.Spec
