import Verif.Base.Path
import Verif.Model.Fs
import Verif.Model.Final
/-!
# The shell (`pp/yup.py`)

Parsing and evaluation are a parameter here (`Engine`); `pp/yup.py` itself is modelled function by
function. Printing, logging and tracing are left out.
-/

namespace Yupp

/-- The options of the shell used here, `pp/yup.py:93-99`. -/
structure ShellCfg where
  outputDir : Str := []
  readOnly : Bool := true

/-- What parsing and evaluating came to, before the final text processing. `pp/yup.py:290-366`. -/
inductive Raw
  | raised                       -- an exception of `yuparse` or `yueval`
  | tree (readable : Str)        -- not a text; `make_ast_readable` of it
  | str (s : Str)                -- a `str`
  | res (r : Res)                -- a `RESULT`
deriving DecidableEq, Repr

/-- One run of the translator: the value and what it leaves in `feedback` and `yushell`. `pp/yup.py:290-366`. -/
structure Run where
  raw : Raw
  outputFile : Option Str := none    -- feedback.output_file
  rept : Bool := false               -- feedback.repeat
  shrink : Nat := 0                  -- yushell.shrink

/-- `yushell`, `yuinit`, `yuparse`, `yueval`: from the files (imports), the pass, the names of the input
    and output file and the text. `pp/yup.py:290-366`, `pp/yugen.py:941-976, 2657-2690, 3069-3785`. -/
abbrev Engine := Fs → Nat → Str → Str → Str → Run

/-- `plain` in `_pp_stream`. `pp/yup.py:394-433`. -/
inductive Plain
  | nothing                      -- None (never set)
  | str (s : Str)
  | res (r : Res)
deriving DecidableEq, Repr

/-- The characters of `plain`. `pp/yup.py:410`. -/
def Plain.txt : Plain → Str
  | .nothing => []
  | .str s => s
  | .res r => r.txt

/-- `_pp`, `pp/yup.py:290-368`: success flag and text. -/
def pp (cfg : Config) : Raw → Bool × Plain
  | .raised => (false, .str [])
  | .tree s => (false, .str s)
  | .str s => (true, .str (replaceSteady (reduceEmptiness cfg s)))
  | .res r => (true, .res (Res.replaceSteady (Res.reduceEmptiness cfg r)))

/-- Is `c` the letter `l` in any case? (`re.IGNORECASE`, `lower`; exact for the letters used: no
    other character folds to them.). `pp/yup.py:371-389`. -/
def sameLetter (l : Char) (c : Char) : Bool := c.toLower == l

/-- `re_e_yu.search(e)`, `pp/yup.py:74`, for an extension `e` (a dot and no other dot): `none` if there
    is no match, else `group(1)`. `$` also matches before a final line end. -/
def matchYu (e : Str) : Option (Option Str) :=
  match e with
  | '.' :: y :: u :: rest =>
    if sameLetter 'y' y && sameLetter 'u' u then
      match rest with
      | [] => some none
      | ['\n'] => some none
      | '-' :: c :: t => some (some (c :: t))
      | _ => none
    else none
  | _ => none

/-- `E_YUGEN`. `pp/yup.py:72`. -/
def eYugen : Str := lit ".yugen"
/-- `E_BAK`. `pp/yup.py:75`. -/
def eBak : Str := lit ".bak"
/-- `E_AST`. `pp/yup.py:76`. -/
def eAst : Str := lit ".ast"
/-- The suffix of the browse file. `pp/yup.py:415`. -/
def eJson : Str := lit ".json"

/-- `_output_fn`, `pp/yup.py:371-391`. -/
def outputFn (sh : ShellCfg) (fn : Str) : Str :=
  let p := if sh.outputDir.isEmpty then fn else pathJoin sh.outputDir (basename fn)
  let fno := (splitext p).1
  let e := (splitext p).2
  if e.isEmpty then fno ++ eYugen
  else
    match matchYu e with
    | none => fno ++ eYugen ++ e
    | some (some x) => fno ++ ['.'] ++ x
    | some none => if (splitext fno).2.isEmpty then fno ++ eYugen else fno

/-- `shell_backup`, `pp/yup.py:222-228`. -/
def shellBackup (fn : Str) : Prog Unit := do
  if ← isfile fn then
    let bak := fn ++ eBak
    if ← isfile bak then
      chmod bak false
      remove bak
    rename fn bak

/-- `shell_savetofile`, `pp/yup.py:231-233` (and the writing of the browse file, 414-420). -/
def saveToFile (fn text : Str) : Prog Unit := do
  openW fn (← now)
  writeAll fn text (← now)

/-- The name of the file for the tree, `pp/yup.py:424`. -/
def astFn (fno : Str) : Str := (splitext fno).1 ++ eAst

/-- The name the output goes to, `pp/yup.py:404-406`: `feedback.output_file` if it is set and not
    empty. -/
def finalFn (run : Run) (fno : Str) : Str :=
  match run.outputFile with
  | some f => if f.isEmpty then fno else f
  | none => fno

/-- Result of `_pp_stream`: `ok`, `plain`, `fn_o`. `pp/yup.py:433`. -/
structure StreamRes where
  ok : Bool
  plain : Plain
  fnO : Str

/-- Writing the browse information, `pp/yup.py:413-420`. -/
def saveBrowse (json : Res → Str) (fno : Str) : Plain → Prog Unit
  | .res r => saveToFile (fno ++ eJson) (json r)
  | _ => Prog.pure ()

/-- The file operations of `_pp_stream` after the translation, `pp/yup.py:403-427`; `json` is
    `json.dumps` of the tables. -/
def ppStore (sh : ShellCfg) (json : Res → Str) (ok : Bool) (plain : Plain) (fno : Str) : Prog Unit := do
  if ok then
    shellBackup fno
    saveToFile fno plain.txt
    if sh.readOnly then chmod fno true
    saveBrowse json fno plain
  else if !plain.txt.isEmpty then
    saveToFile fno plain.txt

/-- `_pp_stream`, `pp/yup.py:394-433`. `rd` is `_stream.read()`. The three variables have got their final
    values when the file operations start. -/
def ppStream (cfg : Config) (sh : ShellCfg) (json : Res → Str) (eng : Engine) (passage : Nat)
    (rd : Prog Str) (fn fno : Str) : Prog (StreamRes × Option Run) := fun o s =>
  match rd o s with
  | .crashed s' => .crashed s'
  | .raised s' => .done (⟨false, .nothing, fno⟩, none) s'
  | .done text s' =>
    let run := eng s'.fs passage fn fno text
    let r := pp cfg run.raw
    let fno' := if r.1 then finalFn run fno else if r.2.txt.isEmpty then fno else astFn fno
    Prog.tryIO
      (do ppStore sh json r.1 r.2 fno'; return (⟨r.1, r.2, fno'⟩, some run))
      (Prog.pure (⟨r.1, r.2, fno'⟩, some run)) o s'

/-- `_pp_file`, `pp/yup.py:436-468`: success, and `feedback.repeat`. -/
def ppFile (cfg : Config) (sh : ShellCfg) (json : Res → Str) (eng : Engine) (passage : Nat) (fn : Str) :
    Prog (Bool × Bool) := do
  if ← Prog.tryIO (do openR fn; return true) (Prog.pure false) then
    let r ← ppStream cfg sh json eng passage (readFile fn) fn (outputFn sh fn)
    return (r.1.ok, match r.2 with | some run => run.rept | none => false)
  else return (false, false)

/-- One call of `_pp_file` made by `cli` (the model keeps a list of the calls). `pp/yup.py:562-613`. -/
structure Call where
  path : Str
  passage : Nat
  ok : Bool
deriving DecidableEq, Repr

/-- The loop over the passes of one file, `pp/yup.py:585-592`: what it adds to `f_failed`, and the calls
    made. `fuel` bounds the number of passes (`none`: not finished). -/
def runPasses (file : Nat → Str → Prog (Bool × Bool)) (path : Str) :
    Nat → Nat → Prog (Option (Nat × List Call))
  | 0, _ => Prog.pure none
  | fuel + 1, p => do
    let r ← file p path
    if !r.1 then return some (1, [⟨path, p, false⟩])
    else if !r.2 then return some (0, [⟨path, p, true⟩])
    else
      let rest ← runPasses file path fuel (p + 1)
      return rest.map fun q => (q.1, ⟨path, p, true⟩ :: q.2)

/-- The loop over the files, `pp/yup.py:582-592`: `f_failed` and the calls made. -/
def runFiles (file : Nat → Str → Prog (Bool × Bool)) (fuel : Nat) :
    List Str → Nat → Prog (Option (Nat × List Call))
  | [], failed => Prog.pure (some (failed, []))
  | path :: rest, failed => do
    match ← runPasses file path fuel 0 with
    | none => return none
    | some q =>
      let q' ← runFiles file fuel rest (failed + q.1)
      return q'.map fun r => (r.1, q.2 ++ r.2)

/-- The result of `cli` for a non-empty list of files, `pp/yup.py:581-594`, with the calls made. -/
def cliFiles (file : Nat → Str → Prog (Bool × Bool)) (fuel : Nat) (files : List Str) :
    Prog (Option (Nat × List Call)) := do
  let r ← runFiles file fuel files 0
  return r.map fun q => (q.1 <<< 2, q.2)

/-- Exit code of a process ended by `sys.exit(n)`: POSIX keeps eight bits. `pp/yup.py:617-618`. -/
def exitCode (n : Nat) : Nat := n % 256

/-- `$__PASSAGE__` applied to a list, `pp/yugen.py:3243-3245`: `feedback.repeat` and the value. -/
def passageBuiltin (passage : Nat) (l : List α) : Bool × Option α :=
  (decide ((passage : Int) < (l.length : Int) - 1), l[passage]?)

/-- The options of `proc_stream`, from the `.yuconfig` scripts. `pp/yup.py:191-208, 512-523`. -/
structure ProcCfg where
  force : Bool := false
  dependency : List Str := []

/-- `_getmtime( d ) < t`, `pp/yup.py:503-509, 530`; a missing file raises, which leads to translation. -/
def olderThan (fs : Fs) (t : Nat) (d : Str) : Bool :=
  match fs d with
  | some g => decide (g.mtime < t)
  | none => false

/-- The check of `proc_stream`, `pp/yup.py:523-540`: the content of the output file if the
    translation can be skipped. An `OSError` inside leads to translation. -/
def skipCheck (pc : ProcCfg) (fn fno : Str) : Prog (Option Str) := fun o s =>
  if pc.force then .done none s
  else
    match s.fs fno with
    | none => .done none s
    | some f =>
      if (pc.dependency ++ [fn]).all (olderThan s.fs f.mtime) then
        match readFile fno o s with
        | .done data s' => .done (some data) s'
        | .raised s' => .done none s'
        | .crashed s' => .crashed s'
      else .done none s

/-- The first line of a text with its line end (`readline`). `pp/yup.py:536`, `__init__.py:46-48`. -/
def readline : Str → Str
  | [] => []
  | c :: t => if c = '\n' then [c] else c :: readline t

/-- `proc_stream`, `pp/yup.py:512-543`, on a stream holding `text`: `ok`, `data`, `fn_o`, `shrink`. -/
def procStream (cfg : Config) (sh : ShellCfg) (pc : ProcCfg) (json : Res → Str) (eng : Engine)
    (passage : Nat) (text fn : Str) : Prog (Bool × Plain × Str × Nat) := do
  let fno := outputFn sh fn
  match ← skipCheck pc fn fno with
  | some data => return (true, .str data, fno, if contains (readline text) (lit "coding:") then 1 else 2)
  | none =>
    let r ← ppStream cfg sh json eng passage (Prog.pure text) fn fno
    return (r.1.ok, r.1.plain, fno, match r.2 with | some run => run.shrink | none => 0)

end Yupp
