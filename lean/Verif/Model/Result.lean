import Verif.Base.Dedent
import Verif.Model.Offset
/-!
# Result text with references to the sources (`pp/yugen.py`)
-/

namespace Yupp

/-- The options used by the modelled code, `pp/yuconfig.py`. -/
structure Config where
  trimAppIndent : Bool := true      -- pp_trim_app_indent
  reduceEmptiness : Bool := true    -- pp_reduce_emptiness
  browse : Bool := false            -- pp_browse
  skipComments : Nat := 0           -- pp_skip_comments: 0 none, 1 C, 2 Python, 3 auto
deriving DecidableEq, Repr

/-- Browse entries `(position, file, position in the file)`. The code stores the number of the file
    in `RESULT.files`; the model keeps the file name itself (the numbering is injective).
    `pp/yugen.py:2901-2959`. -/
abbrev Browse := List (Int × Str × Int)

/-- `RESULT`, `pp/yugen.py:2901-2913`. -/
structure Res where
  txt : Str
  browse : Browse := []
  offset : Offset := []
deriving DecidableEq, Repr

/-- `offset[-1][1] if offset else 0`, `pp/yugen.py:2950`. -/
def lastShift (o : Offset) : Int := match o.getLast? with | some e => e.2 | none => 0

/-- `RESULT.add_text`, `pp/yugen.py:2945-2960`. The code appends to the lists of `self` in
    place; `self` is dropped by its only caller (`reduce` in `_plain_with_browse`). -/
def Res.addText (self other : Res) : Res :=
  if other.txt.isEmpty then self
  else
    let l : Int := self.txt.length
    let base : Int := lastShift self.offset
    { txt := self.txt ++ other.txt
      browse := self.browse ++ other.browse.map (fun e => (e.1 + (l + base), e.2))
      offset := self.offset ++ other.offset.map (fun e => (e.1 + l, e.2 + base)) }

/-- `ps_space` on a plain string, `pp/yugen.py:2006-2016`: the rest and the blanks. -/
def spaceSplit (s : Str) : Str × Str := (s.dropWhile isBlank, s.takeWhile isBlank)

/-- `TRIM.trim`, `pp/yugen.py:2413-2417`. -/
def trim (cfg : Config) (indent : Str) (plain : Str) : Str :=
  if plain.isEmpty || !cfg.trimAppIndent then plain
  else joinStr indent (splitKeep (dedent plain))

/-- Is the line empty in the sense of `trim_with_browse` and `reduce_emptiness`:
    `rest == EOL`, `pp/yugen.py:2430-2431, 3837-3838`. -/
def emptyLine (ln : Str) : Bool := (spaceSplit ln).1 == ['\n']

/-- One round of the loop that finds the shared indent, `pp/yugen.py:2429-2456`;
    `none` is `cutting is None`. -/
def cutStep (cutting : Option Str) (ln : Str) : Option Str :=
  if emptyLine ln then cutting
  else match cutting with
    | none => none
    | some c =>
      let indent := (spaceSplit ln).2
      if indent.isEmpty then none
      else if c.isEmpty then some indent
      else if c.isPrefixOf indent then some c
      else if indent.isPrefixOf c then some indent
      else none

/-- `c`, the length of the shared indent, `pp/yugen.py:2427-2459`. -/
def cutLen (lns : List Str) : Nat :=
  match lns.foldl cutStep (some []) with
  | some c => c.length
  | none => 0

/-- Text of one line after trimming, `pp/yugen.py:2462`; `first` is `i == 0`. -/
def trimLine (c : Nat) (indent : Str) (first : Bool) (ln : Str) : Str :=
  if emptyLine ln then ln else (if first then [] else indent) ++ ln.drop c

/-- Loop over the lines, `pp/yugen.py:2460-2462`. -/
def trimLines (c : Nat) (indent : Str) : Bool → List Str → Str
  | _, [] => []
  | first, ln :: lns => trimLine c indent first ln ++ trimLines c indent false lns

/-- The inner loop for added indents, `pp/yugen.py:2479-2482`. -/
def addedOffsets : Nat → Int → Int → Offset
  | 0, _, _ => []
  | n + 1, pos, total => (pos, total - 1) :: addedOffsets n (pos + 1) (total - 1)

/-- Loop that calculates the offsets, `pp/yugen.py:2465-2483`. -/
def trimOffsets (c : Nat) (indentLen : Nat) : Bool → List Str → Int → Int → Offset
  | _, [], _, _ => []
  | first, ln :: lns, pos, total =>
    if emptyLine ln then trimOffsets c indentLen false lns (pos + ln.length) total
    else
      let delta : Int := if first then c else (c : Int) - indentLen
      if 0 < delta then
        (pos, total + delta) ::
          trimOffsets c indentLen false lns (pos - delta + ln.length) (total + delta)
      else
        addedOffsets (-delta).toNat pos total ++
          trimOffsets c indentLen false lns (pos - delta + ln.length) (total + delta)

/-- `TRIM.trim_with_browse`, `pp/yugen.py:2420-2489`. -/
def trimWithBrowse (cfg : Config) (indent : Str) (plain : Res) : Res :=
  if plain.txt.isEmpty || !cfg.trimAppIndent then plain
  else
    let lns := splitKeep plain.txt
    let c := cutLen lns
    let offset := trimOffsets c indent.length true lns 0 0
    { txt := trimLines c indent true lns
      browse := plain.browse
      offset := if plain.offset.isEmpty then offset else mergeOffset plain.offset offset }

end Yupp
