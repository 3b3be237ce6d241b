import Verif.Model.Parse
/-!
# Where an error is (`_loc`, `pp/yugen.py:207-245`)
-/

namespace Yupp

/-- A place as it is told: in a macro (or another evaluated text) or in a file, its name, the number of the line, the line itself,
    and the column of the pointer below it. `pp/yugen.py:207-210`. -/
structure Told where
  inMacro : Bool
  name : Str
  line : Nat
  shown : Str
  caret : Option Nat
deriving DecidableEq, Repr

/-- `sou.find( EOL, pos )`, or the length of the text, `pp/yugen.py:232-234`. (Positions are not negative: those of nodes of the
    tree never are.) -/
def eolAt (sou : Str) (pos : Nat) : Nat :=
  match findIdx ['\n'] (sou.drop pos) with
  | some k => pos + k
  | none => sou.length

/-- The place itself, `pp/yugen.py:231-244`. A string times a negative number is empty. -/
def tellHere (inMacro : Bool) (name sou : Str) (pos : Nat) (pointer : Bool) : Told :=
  let eol := eolAt sou pos
  let lnlist := splitLines (sou.take eol)
  let ln := match lnlist.getLast? with
    | some l => lstrip l
    | none => lit "<not found>"
  { inMacro, name, line := lnlist.length, shown := ln, caret := if pointer then some (pos + ln.length - eol) else none }

/-- `_loc`, `pp/yugen.py:216-245`: the places in the order they are told. `texts` is `str( decl )` of an evaluated text: the name
    of the macro, or `<string>`. `none`: an exception, or nesting is deeper than `fuel`. -/
def World.tell (w : World) (texts : Nat → Str) : Nat → Loc → Bool → Option (List Told)
  | 0, _, _ => none
  | n + 1, l, pointer =>
    match w.find l.file with
    | none => none
    | some (d, sou) =>
      if isDigits l.file then
        match w.inclusion[digitsVal l.file]?, d with
        | some call, .at dl => do
          let outer ← (match call with
            | some c => w.tell texts n c false
            | none => some [])
          let decl ← w.tell texts n dl false
          pure (outer ++ decl ++ [tellHere true (texts (digitsVal l.file)) sou l.pos.toNat pointer])
        | _, _ => none
      else
        let name := match d with
          | .path (some p) => if p.isEmpty then l.file else p
          | _ => l.file
        some [tellHere false name sou l.pos.toNat pointer]

/-- `LOC_FILE`, `LOC_MACRO`, `LOC_LINE`, `pp/yugen.py:207-209, 237-244`. -/
def Told.text (t : Told) : Str :=
  lit "\n  " ++ (if t.inMacro then lit "Macro" else lit "File") ++ lit " \"" ++ t.name ++ lit "\", line " ++ natStr t.line ++
    lit "\n    " ++ t.shown ++ (match t.caret with
      | some k => lit "\n    " ++ List.replicate k ' ' ++ ['^']
      | none => [])

/-- What is added to a message, `pp/yugen.py:272-273`. -/
def locText (ts : List Told) : Str := (ts.map Told.text).flatten

end Yupp
