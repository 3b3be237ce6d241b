import Verif.Model.Start
import Verif.Spec.Call
import Verif.Spec.Command
import Verif.Spec.OutputName
/-!
# What a program is told of its translation, for C81
-/

namespace Yupp.Spec

/-- `InDir p b`: `b` is the last component of the path `p`. -/
def InDir (p b : Str) : Prop := '/' ∉ b ∧ (p = b ∨ ∃ d, p = d ++ '/' :: b)

/-- The name a program knows a file by: the last component of its path; if there is no path, a word for the standard stream. -/
inductive Called (stream : Str) : Option Str → Str → Prop where
  | file {p b} : p ≠ [] → InDir p b → Called stream (some p) b
  | empty : Called stream (some []) stream
  | stream : Called stream none stream

/-- `BareName b s`: `s` is the name `b` without its extension. -/
inductive BareName : Str → Str → Prop where
  | ext {s x} : HasStem s → '.' ∉ x → BareName (s ++ '.' :: x) s
  | none {s} : NoExt s → BareName s s

/-- A character of a module name: hyphens become underscores, letters capital. -/
def moduleChar (c : Char) : Char := if c = '-' then '_' else c.toUpper

/-- The module name of a source. Letters outside ASCII are left out here. -/
inductive ModuleName : Option Str → Str → Prop where
  | file {p b s} : p ≠ [] → InDir p b → BareName b s → (∀ c ∈ s, c.toNat < 128) → ModuleName (some p) (s.map moduleChar)
  | empty : ModuleName (some []) (lit "UNTITLED")
  | stream : ModuleName none (lit "UNTITLED")

/-- The extension is `py`, in small or capital letters. -/
def PythonName (b : Str) : Prop := ∃ s x, b = s ++ '.' :: x ∧ HasStem s ∧ x.map Char.toLower = ['p', 'y']

/-- Which comments are skipped. -/
inductive Skips : SkipOption → Str → Skip → Prop where
  | none {b} : Skips .none b .none
  | c {b} : Skips .c b .c
  | python {b} : Skips .python b .python
  | autoPython {b} : PythonName b → Skips .auto b .python
  | autoC {b} : ¬ PythonName b → Skips .auto b .c

/-- The functions that tell of the translation are in the table and no script changed them. -/
structure Tells (e : EEnv) (x : BExt) (v : Start) (now : Str) : Prop where
  table : ∀ scripts, ∀ f ∈ [lit "__FILE__", lit "__OUTPUT_FILE__", lit "__MODULE_NAME__", lit "__TITLE__"],
    e.builtin scripts f = some .fn
  call : ∀ py f args seen, e.call py f args seen = tellCall x v now py f args seen

/-- `"…"` -/
def inQuotes (t : Str) : Str := '"' :: (t ++ ['"'])

/-- The name of the output file at some point of a program: the one set last, else that of the file it is translated to. -/
def nameNow (s : ESt) (o : Str) : Str := match s.outputFile with | some f => f | none => o

/-- The time of creation as a title shows it: it is left out if the argument is false. -/
inductive TimeAsked : List Node → Str → Str → Prop where
  | default {now} : TimeAsked [] now (lit "at " ++ now)
  | off {d now} : Known d → False' d → TimeAsked [d] now []
  | on {d now} : Known d → ¬ False' d → TimeAsked [d] now (lit "at " ++ now)

/-- The title of an output in C. -/
def titleC (output input time : Str) : Str :=
  lit "/*  " ++ output ++ lit " was generated by yupp 1.2c1\n" ++
  lit "    out of " ++ input ++ lit " " ++ time ++ lit "\n" ++
  lit " */"

/-- The title of an output in Python. -/
def titlePython (output input time : Str) : Str :=
  lit "#  " ++ output ++ lit " was generated by yupp 1.2c1\n" ++
  lit "#  out of " ++ input ++ lit " " ++ time

/-- A part of a text. -/
def Inside (a t : Str) : Prop := ∃ l r, t = l ++ a ++ r

end Yupp.Spec
