import Verif.Model.Plain
/-!
# Sources and locations (`pp/yugen.py:61-75, 2920-2942`)
-/

namespace Yupp

/-- First component of an entry of `yushell.source`: where the text comes from.
    `pp/yugen.py:886, 922, 2662, 3592`. -/
inductive Decl
  | path (p : Option Str)      -- a file: its full name if it differs from the key
  | at (l : Loc)               -- macro or eval: where it was declared
deriving DecidableEq, Repr

/-- `yushell.source` (keys are file names, or the decimal number of an inclusion) and
    `yushell.inclusion` (where the macro or eval was called, `none` if unknown). `pp/yugen.py:2662-2664`. -/
structure World where
  source : List (Str × Decl × Str) := []
  inclusion : List (Option Loc) := []
deriving DecidableEq, Repr

/-- `str.isdigit` for the keys that occur (ASCII). `pp/yugen.py:219, 2928`. -/
def isDigits (s : Str) : Bool := !s.isEmpty && s.all Char.isDigit

/-- `int(s)` of an ASCII digit string. `pp/yugen.py:221, 2931`. -/
def digitsVal (s : Str) : Nat := s.foldl (fun n c => 10 * n + (c.toNat - 48)) 0

/-- `yushell.source[ name ]`, `pp/yugen.py:218, 2927`. -/
def World.find (w : World) (name : Str) : Option (Decl × Str) := (w.source.find? (·.1 == name)).map (·.2)

/-- `RESULT.loc`, `pp/yugen.py:2926-2942`. The recursion follows call sites and declarations, which
    were registered earlier; `fuel` bounds it. A missing entry (`KeyError` in the code) yields
    nothing. -/
def World.loc (w : World) : Nat → Loc → Browse
  | 0, _ => []
  | n + 1, l =>
    match w.find l.file with
    | none => []
    | some (d, _) =>
      if isDigits l.file then
        let call := match w.inclusion[digitsVal l.file]? with
          | some (some c) => w.loc n c
          | _ => []
        match d with
        | .at dl => call ++ w.loc n { dl with pos := -dl.pos }
        | .path _ => call
      else
        match d with
        | .path (some p) => [(0, if p.isEmpty then l.file else p, l.pos)]
        | _ => [(0, l.file, l.pos)]

end Yupp
