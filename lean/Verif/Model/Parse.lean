import Verif.Model.Lex
import Verif.Model.Final
import Verif.Base.Path
/-!
# The parser (`pp/yugen.py:867-1406, 1510-2089, 2159-2207`)

Every grammar rule takes the remaining source text and returns the rest with the tree it made
(`none`: no match). The rules call each other through the record `Parsers`; `P n` is the parser
whose rules may be nested `n` deep (`P 0` gives up with `timeout`). The real parser is the limit.

Exceptions are the result `err`; their texts are not modelled.
-/

namespace Yupp

/-- `PP_SKIP_*`, `pp/yuconfig.py:21-23`, after `PP_SKIP_COMMENTS_AUTO` is resolved, `pp/yugen.py:2680-2682`. -/
inductive Skip where
  | none
  | c
  | python
deriving DecidableEq, Repr

/-- What the parser is given: `yushell.input_file`, `yushell.output_python`,
    `yushell.pp_skip_comments`, and the outside world: looking up and reading a library
    (`pp/yugen.py:873-881`, path and text), loading a Python script (`pp/yugen.py:896-904`),
    evaluating an infix expression of an import (`pp/yugen.py:914-915`, it may use the scripts loaded
    so far), `_unq` of a literal, `float`, and the non-ASCII word characters of `re`.
    Files do not change while a text is parsed. -/
structure PEnv where
  inputFile : Str
  outputPython : Bool := false
  skip : Skip := .none
  readLib : Str → Option (Str × Str) := fun _ => none
  loadScript : Str → Bool := fun _ => false
  evalImport : List Str → List Node → Option Str := fun _ _ => none
  unq : Str → Str := id
  float : Str → PyFloat := fun s => ⟨s, false, none⟩
  word : Char → Bool := fun _ => false

/-- The mutable part of `yushell`: `source` and `inclusion`, `script`, `shrink`. `reads` is an
    observation: the libraries opened so far, newest first, and whether by `($import name)`.
    `pp/yugen.py:2657-2684`. -/
structure PSt where
  world : World := {}
  scripts : List Str := []
  shrink : Nat := 0
  reads : List (Str × Bool) := []

/-- Outcome of a computation. Python raises as in `pp/yugen.py:1084-1088`. -/
inductive PRes (α : Type) where
  | ok (a : α)
  | err
  | timeout

/-- A computation that may change `PSt`, raise, or nest too deep. No counterpart in the code: sequencing of Python, with exceptions and a bound on nesting. -/
def PM (α : Type) := PSt → PRes (α × PSt)

namespace PM
/-- A value. No counterpart in the code. -/
def pure (a : α) : PM α := fun s => .ok (a, s)
/-- One after the other. No counterpart in the code. -/
def bind (m : PM α) (f : α → PM β) : PM β := fun s =>
  match m s with
  | .ok (a, s') => f a s'
  | .err => .err
  | .timeout => .timeout
/-- `raise`. E.g. `pp/yugen.py:1084-1088`. -/
def err : PM α := fun _ => .err
/-- Nested too deep. No counterpart in the code. -/
def timeout : PM α := fun _ => .timeout
/-- The state. No counterpart in the code. -/
def get : PM PSt := fun s => .ok (s, s)
/-- Replaces the state. No counterpart in the code. -/
def set (s : PSt) : PM Unit := fun _ => .ok ((), s)
/-- an exception unless there is a value. E.g. `pp/yugen.py:1084-1088`. -/
def ofOption : Option α → PM α
  | some a => PM.pure a
  | none => PM.err
/-- No counterpart in the code: sequencing of Python, with exceptions and a bound on nesting. -/
instance : Monad PM where
  pure := PM.pure
  bind := PM.bind
end PM

/-- One item of a lambda's parameter list: late-bound names, name, default. `pp/yugen.py:1607-1684`. -/
abbrev Bound := List Src × Src × Option Node

/-- Where a text ends, `pp/yugen.py:1833-1920, 1968-1984`, and the end of the source, line 959. -/
inductive Stop where
  | eof         -- `while sou`
  | eolBracket  -- `]` EOL text EOL `[`
  | bracket     -- `]` text `[` >> { tag } `)` <<
  | square      -- `[` text `]`
  | code        -- `($code` text `)`, `(${}` text `)`
  | comma       -- `,,` text `;;` | >> `,,` | { tag } `)` <<
  | brace       -- `{` text `}`
deriving DecidableEq, Repr

/-- State of the `ps_plain` generator, `pp/yugen.py:1510-1557`: the text it was started on, the
    number of characters taken, the indent. -/
structure Gen where
  start : Src
  i : Nat
  indent : Indent

/-- State of `ps_text`, `pp/yugen.py:996-998`. `gen` is the current `ps_plain` generator if the last
    thing that happened was one of its steps (`sou == _plain_ret`; every other step shortens `sou`). -/
structure TextSt where
  sou : Src
  ast : List Node := []
  sq : Nat := 0
  pth : Nat := 0
  gen : Option Gen := none

/-- The rules that are called recursively. `pp/yugen.py:979-2216`. -/
structure Parsers where
  form : Src → PM (Src × Option Node)
  args : Option Src → Src → List Node → List (Src × Node) → PM (Src × List Node × List (Src × Node))
  items : Src → List Node → PM (Src × List Node)
  bounds : Src → List Bound → List Src → PM (Src × List Bound)
  text : Stop → TextSt → PM (Src × List Node)
  parse : Str → PM (List Node)

/-- `sou[ :1 ] == c`. E.g. `pp/yugen.py:1816-1920`. -/
def Src.at (s : Src) (c : Char) : Bool := s.starts [c]

/-- A rule result: no match. E.g. `pp/yugen.py:1077-1079`. -/
def noMatch (s : Src) : PM (Src × Option α) := pure (s, none)

/-- Tries a rule, then the next one: the pattern `if leg is not None: return ( sou, leg )`.
    E.g. `pp/yugen.py:1687-1703`. -/
def orElse (r : PM (Src × Option α)) (next : Src → PM (Src × Option α)) : PM (Src × Option α) := do
  let (s, leg) ← r
  match leg with
  | some x => pure (s, some x)
  | none => next s

/-- Optional closing tag and `)`: `{ '\\tag' } ')'`, e.g. `pp/yugen.py:1083-1089`. -/
def closing (tag : Str) (s : Src) : PM Src :=
  let s := if s.starts tag then psGap (s.drop tag.length) else s
  if s.at ')' then pure (s.drop 1) else PM.err

/-- The second half of `ps_quote`, `pp/yugen.py:2073-2089`: a body in parentheses. -/
def psQuoted (s : Src) : PM (Src × Option Node) :=
  let pos := if s.starts kBquote then kBquote.length else if s.starts kQuote then kQuote.length else 0
  if pos = 0 then noMatch s
  else
    let s := s.drop pos
    match bodyLen s.txt with
    | some 0 => pure (s.drop 1, some (.str { txt := [] }))
    | some n => pure (s.drop (n + 1), some (.str (s.take n)))
    | none => PM.err

/-- `ps_quote`, `pp/yugen.py:2047-2089`. Regular expression groups are plain strings, so a C literal
    has no location. -/
def psQuote (e : PEnv) (s : Src) : PM (Src × Option Node) :=
  if e.outputPython then
    match pyStrLen s.txt with
    | .yes n => pure (s.drop n, some (.str (s.take n)))
    | .raises => PM.err
    | .no => psQuoted s
  else
    match cStrLen s.txt with
    | some n => pure (s.drop n, some (.str { txt := s.txt.take n }))
    | none => psQuoted s

/-- `ps_number`, `pp/yugen.py:2183-2207`. -/
def psNumber (e : PEnv) (s : Src) : PM (Src × Option Node) :=
  let n := floatLen s.txt
  if n ≠ 0 then
    if floatOk (s.txt.take n) then pure (s.drop n, some (.float (e.float (s.txt.take n)))) else PM.err
  else
    let n := intLen s.txt
    if n ≠ 0 then
      match intOf (dropEl (s.txt.take n)) with
      | some v => pure (s.drop n, some (.int v))
      | none => PM.err
    else noMatch s

/-- `ps_value`, `pp/yugen.py:1687-1702`. -/
def psValue (e : PEnv) (s : Src) : PM (Src × Option Node) :=
  orElse (psQuote e s) (psNumber e)

/-- `ps_comment`, `pp/yugen.py:2160-2179`. -/
def psComment (s : Src) : PM (Src × Option Node) :=
  if s.starts kComment then
    let s := s.drop kComment.length
    match bodyLen s.txt with
    | some n => pure (s.drop (n + 1), some .comment)
    | none => PM.err
  else noMatch s

/-- `ps_remark_c` / `ps_remark_python` as `ps_text` uses them, `pp/yugen.py:1040-1051`. -/
def psRemark (e : PEnv) (s : Src) : PM (Src × Option Node) :=
  match (match e.skip with
      | .none => Scan.no
      | .c => remarkCLen s.txt
      | .python => remarkPyLen s.txt) with
  | .yes n => pure (s.drop n, some (.remark (s.take n)))
  | .raises => PM.err
  | .no => noMatch s

/-- The loop `region '::'` of `ps_variable`, `pp/yugen.py:1596-1603`; `n` bounds the rounds, each
    takes at least three characters. -/
def regions : Nat → Src → List Src → Src → PM (Src × List Src × Src)
  | 0, _, _, _ => PM.timeout
  | n + 1, s, reg, a =>
    if s.starts [':', ':'] then
      match psAtom (s.drop 2) with
      | (s, some b) => regions n s (reg ++ [a]) b
      | (_, none) => PM.err
    else pure (s, reg, a)

/-- `ps_variable`, `pp/yugen.py:1572-1603`: late flag, regions, atom. -/
def psVar (s : Src) : PM (Src × Option (Bool × List Src × Src)) :=
  if s.at '&' then
    match psAtom (s.drop 1) with
    | (s, some a) => pure (s, some (true, [], a))
    | (_, none) => PM.err
  else
    match psAtom s with
    | (s, none) => noMatch s
    | (s, some a) => do
      let (s, reg, a) ← regions (s.txt.length + 1) s [] a
      pure (s, some (false, reg, a))

/-- The atoms of `( a b c )` in `ps_binding`, `pp/yugen.py:1136-1148`; `n` bounds the rounds. -/
def atoms1 : Nat → Src → List Src → PM (Src × List Src)
  | 0, _, _ => PM.timeout
  | n + 1, s, lval =>
    match psAtom s with
    | (_, none) => PM.err
    | (s, some a) =>
      let s := psGap s
      if s.at ')' then pure (s.drop 1, lval ++ [a]) else atoms1 n s (lval ++ [a])

/-- The parameters of `ps_macro`, `pp/yugen.py:1242-1254`; `n` bounds the rounds. -/
def atoms0 : Nat → Src → List Src → PM (Src × List Src)
  | 0, _, _ => PM.timeout
  | n + 1, s, pars =>
    if s.at ')' then pure (s.drop 1, pars)
    else
      match psAtom s with
      | (_, none) => PM.err
      | (s, some a) => atoms0 n (psGap s) (pars ++ [a])

/-- `ps_binding`, `pp/yugen.py:1126-1163`. -/
def psBinding (p : Parsers) (s : Src) : PM (Src × LVal × Node) := do
  let (s, lval) ← (
    if s.at '(' then do
      let s := psGap (s.drop 1)
      let (s, l) ← atoms1 (s.txt.length + 1) s []
      pure (s, LVal.many l)
    else
      match psAtom s with
      | (s, some a) => pure (s, LVal.one a)
      | (_, none) => PM.err : PM (Src × LVal))
  let (s, leg) ← p.form (psGap s)
  match leg with
  | some x => pure (s, lval, x)
  | none => PM.err

/-- `ps_set`, `pp/yugen.py:1067-1089`. -/
def psSet (p : Parsers) (s : Src) : PM (Src × Option Node) :=
  if s.starts kSet then do
    let (s, lval, x) ← psBinding p (psGap (s.drop kSet.length))
    let s ← closing kSetT (psGap s)
    pure (s, some (.set lval x))
  else noMatch s

/-- `ps_let`, `pp/yugen.py:1093-1122`. -/
def psLet (p : Parsers) (s : Src) : PM (Src × Option Node) :=
  if s.starts kLet then do
    let (s, lval, x) ← psBinding p (psGap (s.drop kLet.length))
    let (s, leg) ← p.form (psGap s)
    match leg with
    | none => PM.err
    | some y => do
      let s ← closing kLetT (psGap s)
      pure (s, some (.letn lval x y))
  else noMatch s

/-- `ps_macro`, `pp/yugen.py:1218-1264`. `str( leg )` drops the location. -/
def psMacro (s : Src) : PM (Src × Option Node) :=
  if s.starts kMacro then
    match psAtom (psGap (s.drop kMacro.length)) with
    | (_, none) => PM.err
    | (s, some name) =>
      let s := psGap s
      if s.at '(' then do
        let s := psGap (s.drop 1)
        let (s, pars) ← atoms0 (s.txt.length + 1) s []
        match bodyLen s.txt with
        | some n => pure (s.drop (n + 1), some (.macro name pars { txt := s.txt.take n }))
        | none => PM.err
      else PM.err
  else noMatch s

/-- `ps_emit`, `pp/yugen.py:1268-1299`. -/
def psEmit (p : Parsers) (s : Src) : PM (Src × Option Node) :=
  if s.starts kEmit then do
    let (s, v) ← psVar (psGap (s.drop kEmit.length))
    match v with
    | none => PM.err
    | some (late, reg, a) => do
      let (s, leg) ← p.form (psGap s)
      let s := match leg with
        | some _ => psGap s
        | none => s
      let s ← closing kEmitT s
      pure (s, some (.emit late reg a (leg.getD .none)))
  else noMatch s

/-- `ps_code`, `pp/yugen.py:1816-1922`. -/
def psCode (p : Parsers) (s : Src) : PM (Src × Option Node) :=
  let text (stop : Stop) (s : Src) : PM (Src × Option Node) := do
    let (s, ast) ← p.text stop { sou := s }
    pure (s, some (.text ast))
  if s.at ']' then
    match psEol (psSpace (s.drop 1)) with
    | (rest, some _) => text .eolBracket rest
    | (_, none) => text .bracket (s.drop 1)
  else if s.at '[' then text .square (s.drop 1)
  else if s.starts kCode then text .code (s.drop kCode.length)
  else if s.starts kComma then text .comma (s.drop kComma.length)
  else noMatch s

/-- `ps_infix`, `pp/yugen.py:1958-1986`. -/
def psInfix (p : Parsers) (s : Src) : PM (Src × Option Node) :=
  if s.at '{' then do
    let (rest, ast) ← p.text .brace { sou := s.drop 1 }
    pure (rest, some (.infix (.text ast) s.loc))
  else if s.starts kInfix then do
    let (rest, ast) ← p.text .code { sou := s.drop kInfix.length }
    pure (rest, some (.infix (.text ast) (s.loc.map (fun l => { l with pos := l.pos + 1 }))))
  else noMatch s

/-- The loop of `ps_list`, `pp/yugen.py:1935-1952`. -/
def psItems (p : Parsers) (s : Src) (lst : List Node) : PM (Src × List Node) :=
  if s.at ')' then pure (s.drop 1, lst)
  else do
    let embed := s.at '*'
    let (s, leg) ← p.form (if embed then psGap (s.drop 1) else s)
    match leg with
    | none => PM.err
    | some x => p.items (psGap s) (lst ++ [if embed then .embed x else x])

/-- `ps_list`, `pp/yugen.py:1926-1954`. -/
def psList (p : Parsers) (s : Src) : PM (Src × Option Node) :=
  if s.at '(' then do
    let (s, lst) ← p.items (psGap (s.drop 1)) []
    pure (s, some (.list lst))
  else noMatch s

/-- Looks for `\name` not followed by a dot, `pp/yugen.py:1353-1365`. -/
def argName (s : Src) : Option (Src × Src) :=
  if s.at '\\' then
    match psAtom (s.drop 1) with
    | (look, some name) =>
      let look := psGap look
      if look.at '.' then none else some (look, name)
    | (_, none) => none
  else none

/-- The argument loop of `ps_application`, `pp/yugen.py:1349-1397`. `fn` is the name of the function if
    it is a variable. Names are compared by their text. -/
def psArgs (p : Parsers) (fn : Option Src) (s : Src) (args : List Node) (named : List (Src × Node)) :
    PM (Src × List Node × List (Src × Node)) :=
  let s := psGap s
  match argName s with
  | some (look, name) =>
    if fn.map (·.txt) = some name.txt then pure (look, args, named)
    else do
      let (s, form) ← p.form (psGap look)
      match form with
      | none => PM.err
      | some x => p.args fn s args (named ++ [(name, x)])
  | none => do
    let embed := s.at '*'
    let (s, form) ← p.form (if embed then psGap (s.drop 1) else s)
    match form with
    | some x => p.args fn s (args ++ [if embed then .embed x else x]) named
    | none => if embed then PM.err else pure (s, args, named)

/-- `ps_application`, `pp/yugen.py:1303-1405`. -/
def psApplication (p : Parsers) (s : Src) : PM (Src × Option Node) :=
  if !s.starts kApply then noMatch s
  else if s.starts kQuote then noMatch s
  else if s.starts kCode then psCode p s
  else if s.starts kEmit then psEmit p s
  else if s.starts kInfix then psInfix p s
  else do
    let file := s.loc
    let s := s.drop 2
    let ev := s.at '$'
    let (s, func) ← p.form (psGap (if ev then s.drop 1 else s))
    match func with
    | none => PM.err
    | some f => do
      let fn := match f with
        | .var _ _ a => some a
        | _ => none
      let (s, args, named) ← p.args fn s [] []
      let s := psGap s
      if s.at ')' then
        let app := Node.apply f args named (file.map (fun l => { l with pos := l.pos + 1 }))
        pure (s.drop 1, some (if ev then
          .eval app (some { txt := lit "<string>", loc := file.map (fun l => { l with pos := l.pos + 2 }) }) none
          else app))
      else PM.err

/-- `ps_l_form`, `pp/yugen.py:1775-1808`. -/
def psLForm (p : Parsers) (s : Src) : PM (Src × Option Node) :=
  orElse (psCode p s) fun s =>
  orElse (psInfix p s) fun s =>
  orElse (psLet p s) fun s =>
  orElse (psApplication p s) fun s =>
  psList p s

/-- The loop over the parameters of `ps_lambda`, `pp/yugen.py:1638-1674`. -/
def psBounds (p : Parsers) (s : Src) (bound : List Bound) (late : List Src) : PM (Src × List Bound) :=
  if s.at '\\' then
    if (s.drop 1).starts ['.', '.', '.'] then
      if late.isEmpty then p.bounds (psGap (s.drop 4)) (bound ++ [([], { txt := ['.', '.', '.'] }, none)]) []
      else PM.err
    else
      match psAtom (s.drop 1) with
      | (_, none) => PM.err
      | (s, some a) => do
        let (s, dflt) ← (
          if s.at ':' then do
            let (s, form) ← p.form (s.drop 1)
            match form with
            | some x => pure (s, some x)
            | none => PM.err
          else pure (s, none) : PM (Src × Option Node))
        if s.starts ['.', '.'] then p.bounds (psGap (s.drop 2)) bound (late ++ [a])
        else if s.at '.' then p.bounds (psGap (s.drop 1)) (bound ++ [(late, a, dflt)]) []
        else PM.err
  else pure (s, bound)

/-- `ps_lambda`, `pp/yugen.py:1607-1683`. -/
def psLambda (p : Parsers) (s : Src) : PM (Src × Option Node) :=
  if s.at '\\' then
    if (s.drop 1).at '(' then do
      let (s, v) ← psVar (psGap (s.drop 2))
      match v with
      | none => PM.err
      | some (late, reg, a) =>
        let s := psGap s
        if s.starts [')', '.'] then do
          let (s, leg) ← psLForm p (psGap (s.drop 2))
          match leg with
          | some x => pure (s, some (.lambdaVar late reg a x))
          | none => PM.err
        else PM.err
    else do
      let (s, bound) ← psBounds p s [] []
      let (s, leg) ← psLForm p s
      match leg with
      | some x => pure (s, some (.lambda bound x))
      | none => PM.err
  else noMatch s

/-- `ps_former`, `pp/yugen.py:1744-1771`. -/
def psFormer (e : PEnv) (p : Parsers) (s : Src) : PM (Src × Option Node) :=
  orElse (psValue e s) fun s =>
  orElse (do
    let (s, v) ← psVar s
    pure (s, v.map (fun (late, reg, a) => Node.var late reg a))) fun s =>
  orElse (psLambda p s) fun s =>
  psLForm p s

/-- `ps_form`, `pp/yugen.py:1706-1740`. -/
def psForm (e : PEnv) (p : Parsers) (s : Src) : PM (Src × Option Node) := do
  let (s, leg) ← psFormer e p s
  match leg with
  | none => noMatch s
  | some l1 =>
    let s := psGap s
    if s.at '?' then do
      let (s, cond) ← psFormer e p (psGap (s.drop 1))
      match cond with
      | none => PM.err
      | some c =>
        let s := psGap s
        if s.at '|' then do
          let (s, form) ← p.form (psGap (s.drop 1))
          match form with
          | none => PM.err
          | some l0 => pure (s, some (.cond c l1 l0))
        else pure (s, some (.cond c l1 .none))
    else pure (s, some l1)

/-- `_open_sq_bracket`, `pp/yugen.py:1811-1812`. -/
def openBracket (s : Src) : Nat :=
  if s.at '[' then 1 else if s.starts ['\\', '['] then 2 else 0

/-- The test made at every `YIELD` of `ps_text`: the text ends here and parsing goes on at the
    returned place, `pp/yugen.py:959, 1835-1843, 1856-1872, 1879-1882, 1889-1892, 1900-1920, 1971-1974`. -/
def stopAt (stop : Stop) (s : Src) (sq pth : Nat) : Option Src :=
  match stop with
  | .eof => if s.txt.isEmpty then some s else none
  | .eolBracket =>
    match psEol s with
    | (rest, some _) =>
      let rest := psSpace rest
      if openBracket rest = 0 then none else some (rest.drop (openBracket rest))
    | (_, none) => none
  | .bracket =>
    let pos := openBracket s
    if pos = 0 then none
    else
      let look := psGap (s.drop pos)
      let ok (look : Src) : Option Src := if (psGap look).at ')' then some (s.drop pos) else none
      if look.at '\\' then
        match psAtom (look.drop 1) with
        | (_, none) => none
        | (look, some _) => ok look
      else ok look
  | .square => if s.at ']' && sq == 0 then some (s.drop 1) else none
  | .code => if s.at ')' && pth == 0 then some (s.drop 1) else none
  | .comma =>
    if s.starts kSemi then some (s.drop kSemi.length)
    else if s.starts kComma then some s
    else if s.at '\\' then
      match psAtom (s.drop 1) with
      | (_, none) => none
      | (look, some _) => if (psGap look).at ')' && pth == 0 then some s else none
    else if s.at ')' && pth == 0 then some s
    else none
  | .brace => if s.at '}' then some (s.drop 1) else none

/-- One step of `ps_plain` as `ps_text` makes it, `pp/yugen.py:1055-1063, 1525-1557`; `none`: an
    exception (end of text, forbidden character). -/
def plainStep (t : TextSt) : Option TextSt :=
  let (g, ast) := match t.gen with
    | some g => (g, t.ast.dropLast)
    | none => (⟨t.sou, 0, if t.ast.isEmpty then .str [] else .none⟩, t.ast)
  match t.sou.txt with
  | [] => none
  | c :: _ =>
    if !isAny c then none
    else
      let indent := indentStep g.indent c
      some { sou := t.sou.drop 1
             ast := ast ++ [.plain (g.start.take (g.i + 1)) indent false]
             sq := depthStep '[' ']' t.sq c
             pth := depthStep '(' ')' t.pth c
             gen := some ⟨g.start, g.i + 1, indent⟩ }

/-- `_import_source`, `pp/yugen.py:867-887`: the key of the text to parse. -/
def importSource (e : PEnv) (lib : Str) (once : Bool) : PM Str := fun s =>
  if once && (s.world.find lib).isSome then .ok (lit "<null>", s)
  else match e.readLib lib with
    | none => .err
    | some (path, txt) =>
      .ok (lib, { s with
        world := { s.world with source := (lib, .path (some path), unifyEol txt) :: s.world.source }
        reads := (lib, once) :: s.reads })

/-- `_import_python`, `pp/yugen.py:890-909`. -/
def importPython (e : PEnv) (script : Str) : PM Unit := fun s =>
  if script ∈ s.scripts then .ok ((), s)
  else if e.loadScript script then .ok ((), { s with scripts := s.scripts ++ [script] })
  else .err

/-- Decimal digits, `str( n )`. `pp/yugen.py:921, 3591`. -/
def natStr (n : Nat) : Str := (toString n).toList

/-- `_import_eval`, `pp/yugen.py:912-923`. -/
def importEval (e : PEnv) (ast : List Node) (loc : Option Loc) : PM Str := fun s =>
  match e.evalImport s.scripts ast with
  | none => .err
  | some sou =>
    let key := natStr s.world.inclusion.length
    let decl := match loc with
      | some l => Decl.at l
      | none => Decl.path none
    .ok (key, { s with world := { source := (key, decl, sou) :: s.world.source
                                  inclusion := s.world.inclusion ++ [none] } })

/-- `TEXT.enclose_import`, `pp/yugen.py:558-561`. -/
def encloseImport (ast : List Node) : List Node :=
  if ast.isEmpty then [] else .importBegin :: ast ++ [.importEnd]

/-- `ps_import`, `pp/yugen.py:1167-1214`: the nodes of the imported text. -/
def psImport (e : PEnv) (p : Parsers) (s : Src) : PM (Src × Option (List Node)) :=
  if s.starts kImport then do
    let s := psGap (s.drop kImport.length)
    let (s, ast) ← (
      match psAtom s with
      | (s, some a) => do
        let key ← importSource e (a.txt ++ lit ".yu") true
        let ast ← p.parse key
        pure (s, encloseImport ast)
      | (s, none) => do
        let (s, leg) ← psQuote e s
        match leg with
        | some (.str q) =>
          let lpath := e.unq q.txt
          if lowerStr (splitext (basename lpath)).2 = lit ".py" then do
            importPython e lpath
            pure (s, [])
          else do
            let key ← importSource e lpath false
            let ast ← p.parse key
            pure (s, encloseImport ast)
        | _ => do
          let (s, leg) ← psInfix p s
          match leg with
          | some (.infix (.text ast) loc) => do
            let key ← importEval e ast loc
            let ast ← p.parse key
            pure (s, ast)
          | _ => PM.err : PM (Src × List Node))
    let s ← closing kImportT (psGap s)
    pure (s, some ast)
  else noMatch s

/-- The alternatives of `ps_text` before `YIELD`, `pp/yugen.py:1001-1051`. -/
def psTextLeg (e : PEnv) (p : Parsers) (s : Src) : PM (Src × Option (List Node)) :=
  let one (r : PM (Src × Option Node)) : PM (Src × Option (List Node)) := do
    let (s, leg) ← r
    pure (s, leg.map ([·]))
  orElse (one (psSet p s)) fun s =>
  orElse (one (psLet p s)) fun s =>
  orElse (psImport e p s) fun s =>
  orElse (one (psMacro s)) fun s =>
  orElse (one (psComment s)) fun s =>
  orElse (one (psApplication p s)) fun s =>
  orElse (one (psQuote e s)) fun s =>
  one (psRemark e s)

/-- `ps_text` together with the loop that consumes it, `pp/yugen.py:979-1063`. -/
def psText (e : PEnv) (p : Parsers) (stop : Stop) (t : TextSt) : PM (Src × List Node) := do
  let (s, leg) ← psTextLeg e p t.sou
  match leg with
  | some xs => p.text stop { t with sou := s, ast := t.ast ++ xs, gen := none }
  | none =>
    match stopAt stop s t.sq t.pth with
    | some rest => pure (rest, t.ast)
    | none => do
      let t ← PM.ofOption (plainStep { t with sou := s })
      p.text stop t

/-- Lines of the header loop, `pp/yugen.py:1481-1507`; `n` is `ln_count`. The result is the rest and
    the header, and the value of `shrink` if the magic comment was found. -/
def headerLoop (word : Char → Bool) : Nat → Src → List Node → Option (Src × List Node × Nat)
  | 0, _, _ => none
  | n + 1, s, header =>
    let s := psSpace s
    match remarkPyLen s.txt with
    | .yes k =>
      let leg := s.take k
      let rest := s.drop k
      match codingSearch word leg.txt with
      | some false => some (rest, header, 3 - (n + 1))
      | some true =>
        match findIdx kCoding leg.txt with
        | some i => some (rest, header ++ [.remark (leg.take i), .remark (leg.drop (i + kCoding.length))], 3 - (n + 1))
        | none =>   -- `find` gives -1: `leg[ :-1 ]`, `leg[ 4: ]`
          some (rest, header ++ [.remark { leg with txt := leg.txt.dropLast }, .remark (leg.drop 4)], 3 - (n + 1))
      | none =>
        match psEol rest with
        | (rest, some eol) => headerLoop word n rest (header ++ [.remark leg, .remark eol])
        | (rest, none) => headerLoop word n rest (header ++ [.remark leg, .none])
    | _ => none

/-- `ps_header_python`, `pp/yugen.py:1468-1507`. A line end in the header is a bare `SOURCE` in the
    code; it behaves like a remark. -/
def psHeader (word : Char → Bool) (s : Src) : Option (Src × List Node × Nat) :=
  match psEol (psSpace s) with
  | (rest, some _) => headerLoop word 1 rest []
  | (rest, none) => headerLoop word 2 rest []

/-- The loop of `yuparse` over a text after its header, `pp/yugen.py:957-976`. If nothing follows the
    header, `ast` is unbound and an exception is raised. -/
def psRun (p : Parsers) (s : Src) (header : List Node) : PM (List Node) :=
  if s.txt.isEmpty then PM.err
  else do
    let (_, ast) ← p.text .eof { sou := s }
    pure (if ast.isEmpty then [] else header ++ ast)

/-- `yuparse`, `pp/yugen.py:941-976`: the nodes of the `TEXT`. -/
def psParse (e : PEnv) (p : Parsers) (key : Str) : PM (List Node) := do
  let st ← PM.get
  match st.world.find key with
  | none => PM.err
  | some (_, []) => pure []
  | some (_, txt) =>
    let s : Src := { txt := txt, loc := some ⟨key, 0⟩ }
    if e.inputFile = key && e.outputPython then
      match psHeader e.word s with
      | some (rest, header, shrink) => do
        PM.set { st with shrink := shrink }
        psRun p rest header
      | none => psRun p s []
    else psRun p s []

/-- One more level of nesting. `pp/yugen.py:979-2216`. -/
def Parsers.step (e : PEnv) (p : Parsers) : Parsers where
  form := psForm e p
  args := psArgs p
  items := psItems p
  bounds := psBounds p
  text := psText e p
  parse := psParse e p

/-- No nesting at all. For `pp/yugen.py:979-2216`. -/
def Parsers.bot : Parsers where
  form _ := PM.timeout
  args _ _ _ _ := PM.timeout
  items _ _ := PM.timeout
  bounds _ _ _ := PM.timeout
  text _ _ := PM.timeout
  parse _ := PM.timeout

/-- The tables when a translation starts, `yushell`, `pp/yugen.py:2657-2683`: `input` is the path of the
    input file, `none` for the standard input. -/
def PSt.start (e : PEnv) (input : Option Str) (text : Str) : PSt :=
  { world := { source := [(e.inputFile, .path input, unifyEol text), (lit "<null>", .path (some []), [])] } }

/-- The parser with rules nested at most `n` deep (rounds of loops count as nesting). `pp/yugen.py:941-2216`. -/
def P (e : PEnv) : Nat → Parsers
  | 0 => Parsers.bot
  | n + 1 => (P e n).step e

end Yupp
