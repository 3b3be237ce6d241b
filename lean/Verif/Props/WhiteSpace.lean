import Verif.Spec.WhiteSpace
import Verif.Props.Reduce
import Verif.Props.Indent
/-!
# C02 — The characters that are white space and those that end lines

The specifications use `isSpace` and `isLineBreak`; here they are compared with lists of characters.
-/

namespace Yupp
open Spec

/-- A character is white space if it is in the list. -/
theorem isSpace_iff {c : Char} : isSpace c = true ↔ c ∈ whiteSpaces := by
  have key : ∀ d : Char, c = d ↔ c.toNat = d.toNat := fun d =>
    ⟨fun h => by rw [h], fun h => Char.ext (UInt32.toNat_inj.1 h)⟩
  simp only [isSpace, whiteSpaces, List.mem_cons, List.not_mem_nil, or_false, key, Bool.or_eq_true, Bool.and_eq_true, decide_eq_true_eq, beq_iff_eq]
  simp only [
    show '\x09'.toNat = 9 from rfl, show '\x0a'.toNat = 10 from rfl, show '\x0b'.toNat = 11 from rfl,
    show '\x0c'.toNat = 12 from rfl, show '\x0d'.toNat = 13 from rfl, show '\x1c'.toNat = 28 from rfl,
    show '\x1d'.toNat = 29 from rfl, show '\x1e'.toNat = 30 from rfl, show '\x1f'.toNat = 31 from rfl,
    show ' '.toNat = 32 from rfl, show '\u0085'.toNat = 133 from rfl, show '\u00a0'.toNat = 160 from rfl,
    show '\u1680'.toNat = 5760 from rfl, show '\u2000'.toNat = 8192 from rfl, show '\u2001'.toNat = 8193 from rfl,
    show '\u2002'.toNat = 8194 from rfl, show '\u2003'.toNat = 8195 from rfl, show '\u2004'.toNat = 8196 from rfl,
    show '\u2005'.toNat = 8197 from rfl, show '\u2006'.toNat = 8198 from rfl, show '\u2007'.toNat = 8199 from rfl,
    show '\u2008'.toNat = 8200 from rfl, show '\u2009'.toNat = 8201 from rfl, show '\u200a'.toNat = 8202 from rfl,
    show '\u2028'.toNat = 8232 from rfl, show '\u2029'.toNat = 8233 from rfl, show '\u202f'.toNat = 8239 from rfl,
    show '\u205f'.toNat = 8287 from rfl, show '\u3000'.toNat = 12288 from rfl]
  omega

/-- **C02.** A line is blank if every character of it is in the list, and the characters in the list are no other than these. -/
theorem C02_white_space (l : Str) : whiteLine l = true ↔ ∀ c ∈ l, c ∈ whiteSpaces := by
  simp only [whiteLine, List.all_eq_true, isSpace_iff]

/-- **C02.** The characters that end lines are white space, so blank lines are blank with their ends. -/
theorem C02_line_ends {c : Char} (h : c ∈ lineEnds) : c ∈ whiteSpaces := by
  revert c
  decide

/-! A line of a tabulation, a blank and a no-break space is blank, one with a zero width space (U+200B) is not. -/

example : whiteLine ['\t', ' ', '\u00a0', '\n'] = true := (C02_white_space _).2 (by decide)
example : whiteLine [' ', '\u200b'] ≠ true := fun h => absurd ((C02_white_space _).1 h) (by decide)

end Yupp
