import Verif.Base.PyStr
/-!
# `textwrap.dedent` of CPython 3.11

Part of the trusted base (library code, not yupp). Only LF ends a line here, as
the regular expressions of `textwrap` use `re.MULTILINE`.
-/

namespace Yupp

/-- Pieces of a text between LFs (`re.MULTILINE` view of a text): always at least one. -/
def splitNL : Str → List Str
  | [] => [[]]
  | c :: t =>
    if c == '\n' then [] :: splitNL t
    else match splitNL t with
      | [] => [[c]]
      | l :: ls => (c :: l) :: ls

/-- SPACE or TAB -/
def isBlank (c : Char) : Bool := c == ' ' || c == '\t'

/-- Longest common prefix of two strings (the loop over `zip(margin, indent)`). -/
def commonPrefix : Str → Str → Str
  | a :: s, b :: t => if a == b then a :: commonPrefix s t else []
  | _, _ => []

/-- The indents found by `_leading_whitespace_re = (^[ \t]*)(?:[^ \t\n])`. -/
def dedentIndents (ls : List Str) : List Str :=
  (ls.filter (fun l => l.any (fun c => !isBlank c))).map (·.takeWhile isBlank)

/-- One step of the margin loop of `dedent`. -/
def dedentStep (margin : Option Str) (indent : Str) : Option Str :=
  match margin with
  | none => some indent
  | some m =>
    if m.isPrefixOf indent then some m
    else if indent.isPrefixOf m then some indent
    else some (commonPrefix m indent)

/-- `textwrap.dedent(text)` -/
def dedent (text : Str) : Str :=
  -- text = _whitespace_only_re.sub('', text)
  let ls := (splitNL text).map (fun l => if l.all isBlank then [] else l)
  match (dedentIndents ls).foldl dedentStep none with
  | none => joinStr ['\n'] ls
  | some margin =>
    -- re.sub(r'(?m)^' + margin, '', text); an empty margin changes nothing
    joinStr ['\n'] (ls.map (fun l => if margin.isPrefixOf l then l.drop margin.length else l))

end Yupp
