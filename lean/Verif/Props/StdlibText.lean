import Verif.Model.Stdlib
import Verif.Props.Stdlib
/-!
# C76 — The definitions proved about are those of the library file
-/

namespace Yupp

open Spec

/-- Recognises `Spec.Choice`. -/
def isChoice (first second name : Str) : Node → Bool
  | .set (.one n) (.lambda [([], c, none), ([], t, some (.text [])), ([], f, some (.text []))]
      (.apply (.cond (.var false [] c') (.var false [] a) (.var false [] b)) [] [] _)) =>
    n.txt == name && c.txt == lit "cond" && t.txt == lit "then" && f.txt == lit "else" && c'.txt == lit "cond" && a.txt == first && b.txt == second
  | _ => false

/-- Recognises `Spec.Binary`. -/
def isBinary : Node → Bool
  | .set (.one n) (.lambda [([], b, none)] (.apply (.var false [] f) [.var false [] b', .int 2] [] _)) =>
    n.txt == lit "BIN" && b.txt == ['b'] && f.txt == lit "atoi" && b'.txt == ['b']
  | _ => false

theorem isChoice_sound {first second name : Str} {d : Node} (h : isChoice first second name d = true) : Choice first second name d := by
  unfold isChoice at h
  split at h
  · simp only [Bool.and_eq_true, beq_iff_eq] at h
    obtain ⟨⟨⟨⟨⟨⟨rfl, h1⟩, h2⟩, h3⟩, h4⟩, h5⟩, h6⟩ := h
    exact .mk h1 h2 h3 h4 h5 h6
  · cases h

theorem isBinary_sound {d : Node} (h : isBinary d = true) : Binary d := by
  unfold isBinary at h
  split at h
  · simp only [Bool.and_eq_true, beq_iff_eq] at h
    obtain ⟨⟨⟨h1, h2⟩, h3⟩, h4⟩ := h
    exact .mk h1 h2 h3 h4
  · cases h

/-- The three definitions as the library writes them, `lib/stdlib.yu:24, 29, 85`. -/
def ifText : Str := ['(', '$', 's', 'e', 't', ' ', 'i', 'f', ' ', '\\', 'c', 'o', 'n', 'd', '.', '\\', 't', 'h', 'e', 'n', ':', '[', ']', '.', '\\', 'e', 'l', 's', 'e', ':', '[', ']', '.', '(', '$', ' ', 't', 'h', 'e', 'n', ' ', '?', ' ', 'c', 'o', 'n', 'd', ' ', '|', ' ', 'e', 'l', 's', 'e', ')', ')']
def unlessText : Str := ['(', '$', 's', 'e', 't', ' ', 'u', 'n', 'l', 'e', 's', 's', ' ', '\\', 'c', 'o', 'n', 'd', '.', '\\', 't', 'h', 'e', 'n', ':', '[', ']', '.', '\\', 'e', 'l', 's', 'e', ':', '[', ']', '.', '(', '$', ' ', 'e', 'l', 's', 'e', ' ', '?', ' ', 'c', 'o', 'n', 'd', ' ', '|', ' ', 't', 'h', 'e', 'n', ')', ')']
def binText : Str := ['(', '$', 's', 'e', 't', ' ', 'B', 'I', 'N', ' ', '\\', 'b', '.', '(', '$', 'a', 't', 'o', 'i', ' ', 'b', ' ', '2', ')', ')']

/-- The tree of a text parsed on its own, if it is a single one. -/
def parsedAlone (n : Nat) (t : Str) (ok : Node → Bool) : Bool :=
  match (P { inputFile := ['a'] } n).parse ['a'] (PSt.start { inputFile := ['a'] } none t) with
  | .ok ([d], _) => ok d
  | _ => false

theorem parsedAlone_sound {n : Nat} {t : Str} {ok : Node → Bool} (h : parsedAlone n t ok = true) :
    ∃ d p, (P { inputFile := ['a'] } n).parse ['a'] (PSt.start { inputFile := ['a'] } none t) = .ok ([d], p) ∧ ok d = true := by
  unfold parsedAlone at h
  split at h
  · rename_i d p hp
    exact ⟨d, p, hp, h⟩
  · cases h

set_option maxRecDepth 100000 in
theorem if_parsed : parsedAlone 100 ifText (isChoice (lit "then") (lit "else") (lit "if")) = true := by decide +kernel

set_option maxRecDepth 100000 in
theorem unless_parsed : parsedAlone 100 unlessText (isChoice (lit "else") (lit "then") (lit "unless")) = true := by decide +kernel

set_option maxRecDepth 100000 in
theorem bin_parsed : parsedAlone 100 binText isBinary = true := by decide +kernel

theorem lines_checked : ifText ∈ stdlibLines ∧ unlessText ∈ stdlibLines ∧ binText ∈ stdlibLines := by decide +kernel

/-- **C76**. The definitions of `$if`, `$unless` and `$BIN` that the theorems are about are lines of the library file: each of these
    lines, parsed, is one definition of that form. -/
theorem C76_library :
    ∃ l1 l2 l3, l1 ∈ stdlibLines ∧ l2 ∈ stdlibLines ∧ l3 ∈ stdlibLines ∧
    (∃ n d p, (P { inputFile := ['a'] } n).parse ['a'] (PSt.start { inputFile := ['a'] } none l1) = .ok ([d], p) ∧
      Choice (lit "then") (lit "else") (lit "if") d) ∧
    (∃ n d p, (P { inputFile := ['a'] } n).parse ['a'] (PSt.start { inputFile := ['a'] } none l2) = .ok ([d], p) ∧
      Choice (lit "else") (lit "then") (lit "unless") d) ∧
    ∃ n d p, (P { inputFile := ['a'] } n).parse ['a'] (PSt.start { inputFile := ['a'] } none l3) = .ok ([d], p) ∧ Binary d := by
  have h := lines_checked
  obtain ⟨d1, p1, h1, k1⟩ := parsedAlone_sound if_parsed
  obtain ⟨d2, p2, h2, k2⟩ := parsedAlone_sound unless_parsed
  obtain ⟨d3, p3, h3, k3⟩ := parsedAlone_sound bin_parsed
  exact ⟨ifText, unlessText, binText, h.1, h.2.1, h.2.2,
    ⟨100, d1, p1, h1, isChoice_sound k1⟩, ⟨100, d2, p2, h2, isChoice_sound k2⟩, 100, d3, p3, h3, isBinary_sound k3⟩

end Yupp
