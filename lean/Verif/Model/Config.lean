import Verif.Model.Engine
import Verif.Model.Lex
/-!
# Options, constants and the search for libraries (`pp/yuconfig.py`, `pp/yup.py:182-258`, `pp/yugen.py:54-64, 867-887, 2657-2685, 2788-2797`)

A `.yuconfig` file is a Python script. What it does is a parameter: a function on the namespace it is run in.
-/

namespace Yupp

/-- Values of names in the namespace of a configuration script: those that `isinstance` asks for, `pp/yup.py:201-207`. Lists
    are taken to be lists of strings. -/
inductive PyOpt where
  | int (n : Int)
  | bool (b : Bool)
  | list (xs : List Str)
  | other
deriving DecidableEq, Repr

/-- A namespace, `context` at `pp/yup.py:193`. -/
abbrev Ctx := Str → Option PyOpt

/-- `d[ k ] = v`. `pp/yup.py:194-196`. -/
def Ctx.put (c : Ctx) (k : Str) (v : PyOpt) : Ctx := fun x => if x = k then some v else c x

/-- `yuconfig_defaults`, `pp/yuconfig.py:106-110`: the numbers and truth values of that module, `pp/yuconfig.py:16-101`. -/
def yuconfigDefaults : Ctx := fun k => ([
    (lit "PP_SKIP_COMMENTS_NONE", PyOpt.int 0), (lit "PP_SKIP_C_COMMENTS", .int 1), (lit "PP_SKIP_PYTHON_COMMENTS", .int 2),
    (lit "PP_SKIP_COMMENTS_AUTO", .int 3), (lit "PP_SKIP_COMMENTS", .int 0), (lit "PP_TRIM_APP_INDENT", .bool true),
    (lit "PP_REDUCE_EMPTINESS", .bool true), (lit "PP_BROWSE", .bool false), (lit "WARN_UNBOUND_APPLICATION", .bool true),
    (lit "LOG_LEVEL_DEBUG", .int 1), (lit "LOG_LEVEL_INFO", .int 2), (lit "LOG_LEVEL_WARNING", .int 3),
    (lit "LOG_LEVEL_ERROR", .int 4), (lit "LOG_LEVEL_CRITICAL", .int 5), (lit "LOG_LEVEL", .int 1), (lit "LOG_LEVEL__SCALE_", .int 10),
    (lit "TRACE_STAGE_NONE", .int 0), (lit "TRACE_STAGE_PARSE", .int 1), (lit "TRACE_STAGE_EVAL", .int 2),
    (lit "TRACE_STAGE_ALL", .int 3), (lit "TRACE_STAGE", .int 0), (lit "TRACEBACK_NONE", .int 0), (lit "TRACEBACK_PYTHON", .int 1),
    (lit "TRACEBACK_ALL", .int 2), (lit "TRACEBACK", .int 1)] : List (Str × PyOpt)).lookup k

/-- The configuration scripts that exist, by file name: what each leaves in the namespace (if it raises: what it did
    before that, `pp/yup.py:185-188`). -/
abbrev Scripts := Str → Option (Ctx → Ctx)

/-- `_exec_yuconfig_script`, `pp/yup.py:182-188`. -/
def execScript (scripts : Scripts) (fn : Str) (c : Ctx) : Ctx :=
  match scripts fn with
  | some f => f c
  | none => c

/-- `E_YUCFG`, `pp/yup.py:73`. -/
def eYucfg : Str := lit ".yuconfig"

/-- The namespace the scripts start from, `pp/yup.py:193-196`. -/
def startCtx : Ctx :=
  ((yuconfigDefaults.put (lit "directory") (.list [])).put (lit "dependency") (.list [])).put (lit "pp_define") (.list [])

/-- The namespace they leave, `pp/yup.py:193-200`. -/
def finalCtx (scripts : Scripts) (fn : Str) : Ctx :=
  execScript scripts ((splitext fn).1 ++ eYucfg) (execScript scripts ([] ++ eYucfg) startCtx)

/-- `cfg`, `pp/yup.py:201-208`, of the namespace; the three list options must be there, else a `KeyError` is raised. -/
def cfgOf (c : Ctx) : Option Ctx :=
  if (c (lit "directory")).isSome && (c (lit "dependency")).isSome && (c (lit "pp_define")).isSome then
    some fun k => match c k with
      | some (.int n) => some (.int n)
      | some (.bool b) => some (.bool b)
      | some (.list xs) =>
        if k = lit "directory" ∨ k = lit "dependency" ∨ k = lit "pp_define" then some (.list xs) else none
      | _ => none
  else none

/-- `shell_parse_yuconfig`, `pp/yup.py:191-208`. -/
def parseYuconfig (scripts : Scripts) (fn : Str) : Option Ctx := cfgOf (finalCtx scripts fn)

/-- `bool( v )`; the options are used in conditions. `pp/yugen.py:343, 351, 2414, 2421, 3184, 3828`. -/
def PyOpt.truth : PyOpt → Bool
  | .int n => n != 0
  | .bool b => b
  | .list xs => !xs.isEmpty
  | .other => true

/-- The number `v` is equal to, `pp/yugen.py:2680-2682`: 1, 2, 3, or anything else. -/
def PyOpt.skip : PyOpt → Nat
  | .int n => if n = 1 then 1 else if n = 2 then 2 else if n = 3 then 3 else 0
  | .bool b => if b then 1 else 0
  | _ => 0

/-- The items of a list option. A number there makes the translation fail later, which is not modelled. `pp/yup.py:250-252, 526`. -/
def PyOpt.items : PyOpt → List Str
  | .list xs => xs
  | _ => []

/-- `config`, `shell` and the table `builtin`: what outlives a translation, `pp/yugen.py:54-64, 2701`, `pp/yup.py:92-99`.
    Logging, tracing, printing and warnings are left out. -/
structure Global where
  cfg : Config := {}
  sh : ShellCfg := {}
  define : List Str := []
  directory : List Str := []
  passage : Nat := 0
  table : Str → Option BVal

/-- `cfg.get( k, v )`. `pp/yup.py:244-258`. -/
def Ctx.getD (c : Ctx) (k : Str) (v : PyOpt) : PyOpt := (c k).getD v

/-- `_pp_configure`, `pp/yup.py:243-258`. (`output_dir` is a text, which a configuration script cannot pass.) -/
def ppConfigure (outputDir : Str) (c : Ctx) (g : Global) : Global :=
  { g with
    cfg := {
      trimAppIndent := (c.getD (lit "pp_trim_app_indent") (.bool true)).truth
      reduceEmptiness := (c.getD (lit "pp_reduce_emptiness") (.bool true)).truth
      browse := (c.getD (lit "pp_browse") (.bool false)).truth
      skipComments := (c.getD (lit "pp_skip_comments") (.int 0)).skip }
    sh := { outputDir := outputDir, readOnly := (c.getD (lit "read_only") (.bool true)).truth }
    define := (c.getD (lit "pp_define") (.list [])).items
    directory := (c.getD (lit "directory") (.list [])).items }

/-- The options of `proc_stream` itself, `pp/yup.py:524, 526`. -/
def procCfg (c : Ctx) : ProcCfg :=
  { force := (c.getD (lit "force") (.bool false)).truth, dependency := (c.getD (lit "dependency") (.list [])).items }

/-- `x.split( ':', 1 )`, `pp/yugen.py:2790`: the first part, and the second if there is a colon. -/
def splitColon : Str → Str × Option Str
  | [] => ([], none)
  | c :: t => if c = ':' then ([], some t) else (c :: (splitColon t).1, (splitColon t).2)

/-- Its value, `pp/yugen.py:2793-2794`; without a colon there is none. -/
def defText : Option Str → Str
  | some v => strip v
  | none => []

/-- A constant of the configuration, `pp/yugen.py:2790-2794`: its name and value; `none`: a warning is given. -/
def parseDefine (x : Str) : Option (Str × Node) :=
  let pair := splitColon x
  match psAtom { txt := strip pair.1 } with
  | (rest, some atom) =>
    if rest.txt.isEmpty then
      let val := defText pair.2
      some (atom.txt, if val.isEmpty then .bool true else .pstr val)
    else none
  | _ => none

/-- One step of the loop, `pp/yugen.py:2789-2797`. -/
def defineStep (t : Str → Option BVal) (x : Str) : Str → Option BVal :=
  match parseDefine x with
  | some (k, v) => fun f => if f = k then some (.const v) else t f
  | none => t

/-- `_update_builtin_from_config`, `pp/yugen.py:2788-2797`. -/
def updateTable (defs : List Str) (t : Str → Option BVal) : Str → Option BVal := defs.foldl defineStep t

/-- What `yushell` does to the table, `pp/yugen.py:2685`. -/
def startShell (g : Global) : Global := { g with table := updateTable g.define g.table }

/-- One translation in the life of a process that imports modules, `pp/yup.py:512-543`: the configuration scripts there are
    at that time, the file, whether it had to be translated (otherwise the old output is used), and what the Python scripts
    it imports put into the table (`pp/yugen.py:904`). -/
structure Import where
  scripts : Scripts
  fn : Str
  translated : Bool
  adds : List (Str × BVal) := []

/-- `builtin.update( vars( mod ))`, `pp/yugen.py:904`: the first entry of the list counts. -/
def addToTable (adds : List (Str × BVal)) (g : Global) : Global :=
  { g with table := fun f => match adds.lookup f with | some v => some v | none => g.table f }

/-- The state in which the program of an import is translated, `pp/yup.py:521-522, 542`; `none`: an exception. -/
def Import.start (i : Import) (g : Global) : Option Global :=
  (parseYuconfig i.scripts i.fn).map fun c =>
    if i.translated then startShell (ppConfigure [] c g) else ppConfigure [] c g

/-- What it leaves, `pp/yup.py:521-522, 542`, `pp/yugen.py:904`. -/
def Import.run (i : Import) (g : Global) : Option Global :=
  (i.start g).map fun g => if i.translated then addToTable i.adds g else g

/-- One after another. `pp/yup.py:512-543`. -/
def runImports : List Import → Global → Option Global
  | [], g => some g
  | i :: is, g => match i.run g with
    | some g => runImports is g
    | none => none

/-! ## Libraries -/

/-- `s.rstrip( '/' )`. -/
def rstripSlash (s : Str) : Str := (s.reverse.dropWhile (· == '/')).reverse

/-- `os.path.dirname( p )`. `pp/yugen.py:2673`. -/
def dirname (p : Str) : Str :=
  let head := dirPart p
  if head.all (· == '/') then head else rstripSlash head

/-- `yushell.directory`, `pp/yugen.py:2667-2678`. -/
def libDirs (input : Option Str) (directory : List Str) (lib : Str) : List Str :=
  (match input with | some i => if i.isEmpty then [] else [dirname i] | none => []) ++ directory ++ [lib]

/-- The loop over the directories, `pp/yugen.py:876-879`; `last` is `lpath`. -/
def tryDirs (fs : Fs) (lib : Str) : List Str → Str → Str
  | [], last => last
  | d :: ds, _ => if (fs (pathJoin d lib)).isSome then pathJoin d lib else tryDirs fs lib ds (pathJoin d lib)

/-- `lpath`, `pp/yugen.py:874-879, 896-901`. -/
def libPath (fs : Fs) (dirs : List Str) (lib : Str) : Str :=
  if (fs lib).isSome then lib else tryDirs fs lib dirs lib

/-- Path and text of a library, `pp/yugen.py:874-882`; `none`: an exception. -/
def readLibrary (fs : Fs) (dirs : List Str) (lib : Str) : Option (Str × Str) :=
  (fs (libPath fs dirs lib)).map fun f => (libPath fs dirs lib, f.content)

end Yupp
