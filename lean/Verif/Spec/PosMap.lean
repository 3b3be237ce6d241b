/-!
# What an offset table means

An offset table is a list of pairs `(key, shift)`. A position `p` of the new text
belongs to position `p + shift` of the old text, where `shift` is that of the last
entry whose key is not greater than `p` (0 if there is none). This is how the
editor plug-in reads the tables (`sublime_text/Data/Packages/yupp/yupp.py`).
-/

namespace Yupp.Spec

/-- Shift of the last entry whose key is not greater than `p`. -/
def shiftAt (o : List (Int × Int)) (p : Int) : Int :=
  match (o.filter (fun e => decide (e.1 ≤ p))).getLast? with
  | some e => e.2
  | none => 0

/-- Position of the old text that belongs to position `p` of the new text. -/
def posMap (o : List (Int × Int)) (p : Int) : Int := p + shiftAt o p

/-- Keys never decrease. -/
def Ascending {β : Type} (o : List (Int × β)) : Prop := o.Pairwise (fun a b => a.1 ≤ b.1)

/-- Keys strictly increase. -/
def StrictlyAscending {β : Type} (o : List (Int × β)) : Prop := o.Pairwise (fun a b => a.1 < b.1)

/-- Later positions never belong to earlier positions. -/
def Monotone (o : List (Int × Int)) : Prop := ∀ p q, p ≤ q → posMap o p ≤ posMap o q

end Yupp.Spec
