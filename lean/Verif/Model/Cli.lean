import Verif.Model.Config
/-!
# The command (`pp/yup.py:107-180, 211-219, 470-500, 546-618`, `__main__.py`, `pp/__main__.py`)

`argparse` is a parameter: it turns the words of the command line into the files and the options given, in their order, or ends
the program. Translating a text is a parameter as well; it may depend on what earlier translations of the process left
(`σ`). Of what is printed, the answers to texts are modelled; the title, the names of files, prompts and messages are not.
-/

namespace Yupp

/-- An option as given on the command line, `pp/yup.py:114-155` (those for logging, tracing and warnings are left out). -/
inductive CliOpt where
  | quiet
  | directory (d : Str)
  | outputDir (d : Str)
  | noReadOnly
  | skipComments (k : Nat)
  | trim (b : Bool)
  | reduce (b : Bool)
  | browse (b : Bool)
  | define (d : Str)
  | text (t : Str)
  | source (t : Str)
deriving DecidableEq, Repr

/-- What `argparse` makes of the command line: it ends the program (`--help`, `--version`, errors), or passes the files and
    options. `pp/yup.py:166-180`. -/
inductive ArgRes where
  | exit (n : Nat)
  | args (files : List Str) (opts : List CliOpt)
deriving DecidableEq, Repr

/-- `args`, `pp/yup.py:114-164`. -/
structure CliNames where
  files : List Str := []
  quiet : Bool := false
  directory : List Str := []
  outputDir : Str := []
  readOnly : Bool := true
  skipComments : Nat := 0
  trim : Bool := true
  reduce : Bool := true
  browse : Bool := false
  define : List Str := []
  text : Str := []
  source : Str := []
deriving DecidableEq, Repr

/-- The effect of one option, `pp/yup.py:114-155`: `store_true`, `store_false`, `append`, `store`. -/
def CliNames.take (n : CliNames) : CliOpt → CliNames
  | .quiet => { n with quiet := true }
  | .directory d => { n with directory := n.directory ++ [d] }
  | .outputDir d => { n with outputDir := d }
  | .noReadOnly => { n with readOnly := false }
  | .skipComments k => { n with skipComments := k }
  | .trim b => { n with trim := b }
  | .reduce b => { n with reduce := b }
  | .browse b => { n with browse := b }
  | .define d => { n with define := n.define ++ [d] }
  | .text t => { n with text := t }
  | .source t => { n with source := t }

/-- What outlives a call of `cli`: configuration, `shell.quiet`, and what translations leave. `pp/yup.py:92-99`, `pp/yugen.py:54-64`. -/
structure Process (σ : Type) where
  g : Global
  quiet : Bool := false
  mem : σ

/-- The namespace `argparse` starts from, `pp/yup.py:116-123, 157-165`: two defaults are the current values. -/
def CliNames.start (p : Process σ) (files : List Str) : CliNames := { files := files, quiet := p.quiet, readOnly := p.g.sh.readOnly }

/-- `args.__dict__` (without `output_dir`), `pp/yup.py:566`. -/
def CliNames.dict (n : CliNames) : Ctx := fun k => ([
  (lit "pp_trim_app_indent", PyOpt.bool n.trim), (lit "pp_reduce_emptiness", .bool n.reduce), (lit "pp_browse", .bool n.browse),
  (lit "pp_skip_comments", .int n.skipComments), (lit "pp_define", .list n.define), (lit "directory", .list n.directory),
  (lit "read_only", .bool n.readOnly), (lit "quiet", .bool n.quiet)] : List (Str × PyOpt)).lookup k

/-- What the command line comes to, `pp/yup.py:563-565`: without files nothing is browsed. -/
def namesOf (p : Process σ) (files : List Str) (opts : List CliOpt) : CliNames :=
  let n := opts.foldl CliNames.take (CliNames.start p files)
  if n.files.isEmpty then { n with browse := false } else n

/-- `_pp_configure( args.__dict__ )`, `pp/yup.py:243-258, 566`. -/
def configured (p : Process σ) (n : CliNames) : Process σ :=
  { p with g := ppConfigure n.outputDir n.dict p.g, quiet := n.quiet }

/-- What the command uses. `text`: `yushell( text, source )`, `yuinit`, `yuparse`, `yueval` of a text that is in no file;
    `eng`: the same of files. `pp/yup.py:290-366, 471-500`. -/
structure Interp (σ : Type) where
  argp : List Str → ArgRes
  text : Global → Fs → σ → Option Str → Str → Raw × σ
  eng : Global → σ → Engine
  json : Res → Str

/-- `shell_parse_cli_arguments`, `pp/yup.py:166-180`. -/
def parseArguments (argp : List Str → ArgRes) (arglist : List Str) : Prog ArgRes :=
  match arglist with
  | [a] =>
    if startsWith a ['@'] then
      Prog.tryIO (do openR (a.drop 1); let t ← readFile (a.drop 1); return argp (wordsStr t)) (Prog.pure (.exit 2))
    else Prog.pure (argp arglist)
  | _ => Prog.pure (argp arglist)

/-- The texts printed by `_pp_test` and `_pp_text` after the translation, `pp/yup.py:480-485, 493-498`. `arrow`: `PP_O` and a space, or
    nothing. -/
def answer (arrow : Str) (r : Bool × Plain) : Str :=
  ['\n'] ++ (if r.2.txt.isEmpty then [] else arrow ++ r.2.txt ++ ['\n']) ++ (if r.1 then lit "* OK *\n" else [])

/-- `_pp_test`, `pp/yup.py:471-485`: what is printed and left. `tr` translates. -/
def ppTest (cfg : Config) (tr : σ → Str → Raw × σ) (text : Str) (echo : Bool) (m : σ) : Str × σ :=
  if (strip text).isEmpty then ([], m)
  else
    let r := tr m text
    ((if echo then lit "<-- " ++ text ++ ['\n'] else []) ++ answer (lit "--> ") (pp cfg r.1), r.2)

/-- The texts of the startup testing, `pp/yup.py:573-575`. -/
def startupText : Str := lit "($($\\y:u.\\m.\\...(m y($\\C.\\p.(r)e p)($\\ro.(ce)s)))so r)"

/-- The dialogue, `pp/yup.py:598-612`, with `shell_input`, `pp/yup.py:211-219`: `lines` are typed, then the input ends.
    `test`: `_pp_test( test, False )`. -/
def repl (test : Str → σ → Str × σ) : List Str → Str → σ → Str × σ
  | [], _, m => ([], m)
  | line :: rest, buf, m =>
    if strip line = lit "exit" then ([], m)
    else if strip line = lit "test" then
      let r := test buf m
      let q := repl test rest [] r.2
      (r.1 ++ q.1, q.2)
    else repl test rest (buf ++ line ++ ['\n']) m

/-- How `cli` ends: by `sys.exit( n )` while reading the arguments, or returning `n`. `pp/yup.py:178, 594, 613`. -/
inductive CliEnd where
  | exits (n : Nat)
  | returns (n : Nat)
deriving DecidableEq, Repr

/-- What a call of `cli` comes to: how it ends, the answers printed, the calls of `_pp_file`. `pp/yup.py:562-613`. -/
structure CliRes where
  ended : CliEnd
  printed : Str
  calls : List Call

/-- What `cli` comes to for files, `pp/yup.py:594`. -/
def cliRes (printed : Str) (q : Nat × List Call) : CliRes := ⟨.returns q.1, printed, q.2⟩

/-- The texts translated before the files or the dialogue, `pp/yup.py:568-579`. -/
def greet (I : Interp σ) (fs : Fs) (p : Process σ) (n : CliNames) : Str × σ :=
  let tr := fun m t => I.text p.g fs m none t
  let a := if p.quiet then ([], p.mem) else
    let r := ppTest p.g.cfg tr startupText true p.mem
    let q := ppTest p.g.cfg tr ['\n'] true r.2
    (r.1 ++ q.1, q.2)
  if n.text.isEmpty then a
  else
    let r := I.text p.g fs a.2 (some n.source) n.text
    (a.1 ++ answer [] (pp p.g.cfg r.1), r.2)

/-- `cli` after the arguments are read, `pp/yup.py:564-613`; `lines` are typed by the user. `none`: the passes do not end
    within `fuel`. -/
def cliRun (I : Interp σ) (fuel : Nat) (lines : List Str) (p : Process σ) : ArgRes → Prog (Option CliRes)
  | .exit n => Prog.pure (some ⟨.exits n, [], []⟩)
  | .args files opts => fun o s =>
    let n := namesOf p files opts
    let p := configured p n
    let a := greet I s.fs p n
    if n.files.isEmpty then
      let r := repl (fun t m => ppTest p.g.cfg (fun m t => I.text p.g s.fs m none t) t false m) lines [] a.2
      .done (some ⟨.returns 0, a.1 ++ r.1, []⟩) s
    else (do
      let r ← cliFiles (ppFile p.g.cfg p.g.sh I.json (I.eng p.g a.2)) fuel n.files
      return r.map (cliRes a.1)) o s

/-- `cli`, `pp/yup.py:562-613`. -/
def cli (I : Interp σ) (fuel : Nat) (lines : List Str) (p : Process σ) (arglist : List Str) : Prog (Option CliRes) := do
  let r ← parseArguments I.argp arglist
  cliRun I fuel lines p r

/-- How the command is started: `python yup.py` (`pp/yup.py:616-618`), the installed command and `python -m yupp` (`__main__.py:23-28`),
    `python -m yupp.pp` (`pp/__main__.py:4-5`). -/
inductive Entry where
  | script
  | package
  | subpackage

/-- The status of the process. Only the script passes on what `cli` returns. `pp/yup.py:618`, `__main__.py:24`, `pp/__main__.py:5`. -/
def processStatus : Entry → CliEnd → Nat
  | _, .exits n => exitCode n
  | .script, .returns n => exitCode n
  | .package, .returns _ => 0
  | .subpackage, .returns _ => 0

/-- `proc_stream( f, fn )` as `proc_file` uses it, `pp/yup.py:512-543, 558`: the text is read by `_pp_stream`, if at all. -/
def procOpened (cfg : Config) (sh : ShellCfg) (pc : ProcCfg) (json : Res → Str) (eng : Engine) (passage : Nat) (fn : Str) :
    Prog (Bool × Option Str) := do
  match ← skipCheck pc fn (outputFn sh fn) with
  | some _ => return (true, some (outputFn sh fn))
  | none =>
    let r ← ppStream cfg sh json eng passage (readFile fn) fn (outputFn sh fn)
    return (r.1.ok, some (outputFn sh fn))

/-- `proc_file`, `pp/yup.py:546-559` (`translate` of the package): success and the name of a file. `none`: the file could
    not be opened. The configuration is given (`pp/yup.py:521-522`). -/
def procFile (cfg : Config) (sh : ShellCfg) (pc : ProcCfg) (json : Res → Str) (eng : Engine) (passage : Nat) (fn : Str) :
    Prog (Bool × Option Str) := do
  if ← Prog.tryIO (do openR fn; return true) (Prog.pure false) then
    procOpened cfg sh pc json eng passage fn
  else return (false, none)

end Yupp
