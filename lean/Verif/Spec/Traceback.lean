import Verif.Model.Traceback
/-!
# What a traceback should show

Specification for C64 and C65. Python counts `head` lines before the text it got from the decoder (those it read itself
to find the encoding); for a file that is not preprocessed there are none. So line `head + n` of the running program
is line `n` of the file.
-/

namespace Yupp.Spec

/-- The line of the file that belongs to the line of the running program. -/
def lineOf (head : Nat) (running : Int) : Int := running - head

/-- A stack of frames cut into runs: in a run all frames have the same file, line and name, neighbouring runs differ. -/
structure Runs (fs : List TbFrame) (gs : List (List TbFrame)) : Prop where
  all : gs.flatten = fs
  some : ∀ g ∈ gs, g ≠ []
  same : ∀ g ∈ gs, ∀ a ∈ g, ∀ b ∈ g, (a.file, a.line, a.name) = (b.file, b.line, b.name)
  differ : ∀ (i : Nat) (g h : List TbFrame), gs[i]? = Option.some g → gs[i + 1]? = Option.some h →
    ∀ a ∈ g, ∀ b ∈ h, (a.file, a.line, a.name) ≠ (b.file, b.line, b.name)

/-- A frame: its file, line and name, and its source line. -/
def frameRow (f : TbFrame) : Str :=
  lit "  File \"" ++ f.file ++ lit "\", line " ++ (toString f.line).toList ++ lit ", in " ++ f.name ++ lit "\n" ++ f.extra

/-- How many more times a frame was there. -/
def moreRow (n : Nat) : Str :=
  lit "  [Previous line repeated " ++ (toString n).toList ++ (if n = 1 then lit " more time]\n" else lit " more times]\n")

/-- What is printed for a run: the first three frames and the number of the others. -/
def printed (g : List TbFrame) : List Str :=
  (g.take 3).map frameRow ++ if 3 < g.length then [moreRow (g.length - 3)] else []

end Yupp.Spec
