import Verif.Base.PyStr
/-!
# Tracebacks of preprocessed programs (`pylib/yutraceback2.py`, `pylib/yutraceback3.py`)

A frame is given by the file name and the name of its code object and the line being executed. The text of source
lines and the values of local variables come from Python (`linecache`, `repr`): a frame carries them.
-/

namespace Yupp

/-- A frame of a traceback. `pylib/yutraceback2.py:41-57`, `pylib/yutraceback3.py:57-79`. -/
structure TbFrame where
  file : Str                 -- co.co_filename
  line : Int                 -- tb.tb_lineno
  name : Str                 -- co.co_name
  extra : Str := []          -- source line and local variables, as they are printed
deriving DecidableEq, Repr

/-- `substitution.files`: name, name of the generated file, `shrink`; newest first.
    `pylib/yutraceback2.py:16-19`, `pylib/yutraceback3.py:21-24`. -/
abbrev SubstFiles := List (Str × Str × Nat)

/-- `substitution` for Python 2, `pylib/yutraceback2.py:16-17`. -/
def substitution2 (files : SubstFiles) (fn fnO : Str) (shrink : Nat) : SubstFiles := (fn, fnO, shrink) :: files

/-- `substitution` for Python 3, `pylib/yutraceback3.py:21-22`. `real` is `os.path.realpath`. -/
def substitution3 (real : Str → Str) (files : SubstFiles) (fn fnO : Str) (shrink : Nat) : SubstFiles :=
  (real fn, real fnO, shrink) :: files

/-- `if lineno < 1: lineno = 1`. `pylib/yutraceback2.py:51`, `pylib/yutraceback3.py:67`. -/
def atLeastOne (n : Int) : Int := if n < 1 then 1 else n

/-- The file and line that are shown, Python 2. `pylib/yutraceback2.py:42-52, 81-91, 123-133`. -/
def locate2 (files : SubstFiles) (f : TbFrame) : TbFrame :=
  match files.lookup f.file with
  | some (fnO, shrink) => { f with file := fnO, line := atLeastOne (f.line - shrink) }
  | none => { f with line := atLeastOne (f.line - 0) }

/-- The file and line that are shown, Python 3. `pylib/yutraceback3.py:59-68`. -/
def locate3 (files : SubstFiles) (f : TbFrame) : TbFrame :=
  match files.lookup f.file with
  | some (fnO, shrink) => { f with file := fnO, line := atLeastOne (f.line - ((shrink : Int) - 1)) }
  | none => { f with line := atLeastOne (f.line - (0 - 1)) }

/-- `while tb is not None and (limit is None or n < limit)`, `pylib/yutraceback2.py:39-60, 78-99`; `n` frames were
    taken. The frames come in the order of the traceback. -/
def extractTb2 (files : SubstFiles) (limit : Option Int) : Int → List TbFrame → List TbFrame
  | _, [] => []
  | n, f :: fs =>
    if (match limit with | some k => decide (n < k) | none => true) then locate2 files f :: extractTb2 files limit (n + 1) fs
    else []

/-- `extract_stack`, `pylib/yutraceback2.py:103-143`; the frames come from the innermost outwards. -/
def extractStack2 (files : SubstFiles) (limit : Option Int) (fs : List TbFrame) : List TbFrame :=
  (extractTb2 files limit 0 fs).reverse

/-- `collections.deque(frame_gen, maxlen=k)`: items are added at the end; the first is dropped if there are too many.
    `pylib/yutraceback3.py:54`. -/
def dequeGo (k : Nat) : List α → List α → List α
  | q, [] => q
  | q, x :: xs => dequeGo k (if k < (q ++ [x]).length then (q ++ [x]).drop 1 else q ++ [x]) xs

/-- The limit in force, `pylib/yutraceback3.py:46-49`; `sysLimit` is `sys.tracebacklimit`. -/
def limit3 (sysLimit limit : Option Int) : Option Int :=
  match limit with
  | some k => some k
  | none => sysLimit.map fun k => if k < 0 then 0 else k

/-- `StackSummary.extract`, `pylib/yutraceback3.py:33-86`. -/
def extract3 (files : SubstFiles) (sysLimit limit : Option Int) (fs : List TbFrame) : List TbFrame :=
  (match limit3 sysLimit limit with
   | none => fs
   | some k => if 0 ≤ k then fs.take k.toNat else dequeGo (-k).toNat [] fs).map (locate3 files)

/-- `_RECURSIVE_CUTOFF`, `pylib/yutraceback3.py:27`. -/
def recursiveCutoff : Nat := 3

/-- `'  File "{}", line {}, in {}\n'` and the rest of a row, `pylib/yutraceback3.py:141-149`. -/
def tbRow (f : TbFrame) : Str :=
  lit "  File \"" ++ f.file ++ lit "\", line " ++ (toString f.line).toList ++ lit ", in " ++ f.name ++ lit "\n" ++ f.extra

/-- The summary line, `pylib/yutraceback3.py:130-133, 152-155`. -/
def tbMore (count : Nat) : Str :=
  lit "  [Previous line repeated " ++ (toString count).toList ++ lit " more time" ++
    (if 1 < count then lit "s" else []) ++ lit "]\n"

/-- The summary of the frames not shown, `pylib/yutraceback3.py:128-133, 150-155`. -/
def tbSummary (count : Nat) : List Str :=
  if recursiveCutoff < count then [tbMore (count - recursiveCutoff)] else []

/-- What is compared, `pylib/yutraceback3.py:125-127`. -/
def TbFrame.key (f : TbFrame) : Str × Int × Str := (f.file, f.line, f.name)

/-- The loop of `StackSummary.format`, `pylib/yutraceback3.py:119-156`: the last frame and `count`. -/
def formatGo : Option (Str × Int × Str) → Nat → List TbFrame → List Str
  | _, count, [] => tbSummary count
  | last, count, f :: fs =>
    if last = some f.key then
      (if recursiveCutoff < count + 1 then [] else [tbRow f]) ++ formatGo last (count + 1) fs
    else
      tbSummary count ++ (if recursiveCutoff < 0 + 1 then [] else [tbRow f]) ++ formatGo (some f.key) 1 fs

/-- `StackSummary.format`, `pylib/yutraceback3.py:107-156`. -/
def tbFormat (fs : List TbFrame) : List Str := formatGo none 0 fs

end Yupp
