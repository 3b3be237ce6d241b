import Verif.Base.Path
import Verif.Model.Builtin
/-!
# What a translation starts with (`pp/yugen.py:2657-2684`) and the functions that tell of it (`pp/yugen.py:2687-2693, 2737-2744`)
-/

namespace Yupp

/-- `config.pp_skip_comments`, `pp/yuconfig.py:21-24`. -/
inductive SkipOption where
  | none
  | c
  | python
  | auto
deriving DecidableEq, Repr

/-- The constant part of `yushell`: `input_file`, `output_file` (as it starts), `output_python`, `module`,
    `pp_skip_comments`. `pp/yugen.py:2657-2684`. -/
structure Start where
  inputFile : Str
  outputFile : Str
  outputPython : Bool
  module : Str
  skip : Skip

/-- A name that is given and not empty: `if _input`. `pp/yugen.py:2658-2659, 2665`. -/
def given : Option Str → Option Str
  | some [] => none
  | x => x

/-- `yushell( text, _input, _output )`. `upper` is `str.upper`. `lower()` is that of ASCII: no other character becomes
    one of `.py`. `pp/yugen.py:2657-2684`. -/
def start (upper : Str → Str) (skip : SkipOption) (input output : Option Str) : Start :=
  let i := match given input with | some p => basename p | none => lit "<stdin>"
  let o := match given output with | some p => basename p | none => lit "<stdout>"
  let py := lowerStr (splitext o).2 == lit ".py"
  { inputFile := i
    outputFile := o
    outputPython := py
    module := match given input with
      | some _ => upper ((splitext i).1.map fun c => if c = '-' then '_' else c)
      | none => lit "UNTITLED"
    skip := match skip with
      | .none => .none
      | .c => .c
      | .python => .python
      | .auto => if py then .python else .c }

/-- `_title_template_c % …`, `_title_template_python % …`, `pp/yugen.py:2688-2693`; `APP`, `VERSION`: `pp/yulic.py:17-18`. -/
def title (python : Bool) (output input datetime : Str) : Str :=
  if python then
    lit "#  " ++ output ++ lit " was generated by yupp 1.2c1\n#  out of " ++ input ++ [' '] ++ datetime
  else
    lit "/*  " ++ output ++ lit " was generated by yupp 1.2c1\n    out of " ++ input ++ [' '] ++ datetime ++ lit "\n */"

/-- `yushell.output_file` at some point of the evaluation. `pp/yugen.py:2659, 3516`. -/
def outputNow (v : Start) (py : PyState) : Str := py.outputFile.getD v.outputFile

/-- Calls of the functions that tell of the translation; other functions are those of `builtinCall`. `now` is the current
    time as it is formatted. `none`: the call raises (here: wrong number of arguments). `pp/yugen.py:2737-2744`. -/
def tellCall (x : BExt) (v : Start) (now : Str) (py : PyState) (f : Str) (args seen : List Node) :
    Option (Node × List Node) :=
  let stamp (dt : Bool) := if dt then lit "at " ++ now else []
  if f = lit "__FILE__" then
    match args with
    | [] => some (.pstr (['"'] ++ v.inputFile ++ ['"']), seen)
    | _ => none
  else if f = lit "__OUTPUT_FILE__" then
    match args with
    | [] => some (.pstr (['"'] ++ outputNow v py ++ ['"']), seen)
    | _ => none
  else if f = lit "__MODULE_NAME__" then
    match args with
    | [] => some (.atom ⟨v.module, none⟩, seen)
    | _ => none
  else if f = lit "__TITLE__" then
    match args with
    | [] => some (.plain ⟨title v.outputPython (outputNow v py) v.inputFile (stamp true), none⟩ .no false, seen)
    | [dt] => some (.plain ⟨title v.outputPython (outputNow v py) v.inputFile (stamp (truthy dt)), none⟩ .no false, seen)
    | _ => none
  else builtinCall x f args seen

end Yupp
