import Verif.Base.PyStr
/-!
# File system with faults

The operating system as seen by `pp/yup.py`: named files, and an adversary (`Oracle`) that may let any
operation fail with an `OSError` (= `IOError`) or stop the whole program at it. A failing or
interrupted `write` leaves a prefix of the text in the file. Other processes are not modelled.
-/

namespace Yupp

/-- A regular file. As used by `pp/yup.py:222-233, 394-433, 503-540`. -/
structure File where
  content : Str
  readOnly : Bool := false
  mtime : Nat := 0
deriving DecidableEq, Repr

/-- The regular files by name (names are not normalised: links are not modelled).
    As used by `pp/yup.py:222-233, 394-433`. -/
abbrev Fs := Str → Option File

/-- What the environment does at an operation; `k`: number of characters that were written.
    `IOError` at `pp/yup.py:429, 440, 553`; interrupts and crashes. -/
inductive Fault
  | ok
  | err (k : Nat)
  | crash (k : Nat)
deriving DecidableEq, Repr

/-- The adversary: the fault at, and the time of, the `n`-th operation. Not in the code: what the system does. -/
structure Oracle where
  fault : Nat → Fault
  time : Nat → Nat

/-- Files and the number of operations so far. See `pp/yup.py:222-233, 394-433`. -/
structure Sys where
  fs : Fs
  n : Nat := 0

/-- Result of running a piece of the program. `pp/yup.py:394-433`. -/
inductive Out (α : Type)
  | done (a : α) (s : Sys)
  | raised (s : Sys)          -- an `IOError` is propagating
  | crashed (s : Sys)         -- the program was stopped

namespace Out
/-- The files as they are left. See `pp/yup.py:394-433`. -/
def fs : Out α → Fs
  | .done _ s => s.fs
  | .raised s => s.fs
  | .crashed s => s.fs
end Out

/-- A program over the file system. As `pp/yup.py:222-233, 394-433`. -/
def Prog (α : Type) := Oracle → Sys → Out α

namespace Prog

/-- A value. No counterpart in the code. -/
def pure (a : α) : Prog α := fun _ s => .done a s

/-- One after the other. No counterpart in the code. -/
def bind (m : Prog α) (f : α → Prog β) : Prog β := fun o s =>
  match m o s with
  | .done a s' => f a o s'
  | .raised s' => .raised s'
  | .crashed s' => .crashed s'

/-- No counterpart in the code: sequencing of Python. -/
instance : Monad Prog where
  pure := pure
  bind := bind

/-- `raise IOError`. `pp/yup.py:429, 440, 553`. -/
def raise : Prog α := fun _ s => .raised s

/-- `try: m except IOError: h`. `pp/yup.py:394-431, 438-442, 551-555`. -/
def tryIO (m h : Prog α) : Prog α := fun o s =>
  match m o s with
  | .raised s' => h o s'
  | r => r

/-- An operation: it may fail, be interrupted, or change the files.
    A call at `pp/yup.py:223-233, 412-416, 439, 524-533`. -/
def op (f : Fs → Option Fs) (partly : Nat → Fs → Fs := fun _ fs => fs) : Prog Unit := fun o s =>
  match o.fault s.n with
  | .err k => .raised { fs := partly k s.fs, n := s.n + 1 }
  | .crash k => .crashed { fs := partly k s.fs, n := s.n + 1 }
  | .ok =>
    match f s.fs with
    | some fs' => .done () { fs := fs', n := s.n + 1 }
    | none => .raised { fs := s.fs, n := s.n + 1 }

end Prog

/-- The files after storing (or removing) one. Calls at `pp/yup.py:226-233, 412-416`. -/
def Fs.set (fs : Fs) (fn : Str) (f : Option File) : Fs := fun x => if x = fn then f else fs x

/-- `os.path.isfile(fn)`; it never raises. `pp/yup.py:223, 225, 524`. -/
def isfile (fn : Str) : Prog Bool := fun _ s => .done (s.fs fn).isSome s

/-- `os.chmod(fn, ...)`. `pp/yup.py:226, 412`. -/
def chmod (fn : Str) (ro : Bool) : Prog Unit :=
  Prog.op fun fs => (fs fn).map fun f => fs.set fn (some { f with readOnly := ro })

/-- `os.remove(fn)`. `pp/yup.py:227`. -/
def remove (fn : Str) : Prog Unit :=
  Prog.op fun fs => (fs fn).map fun _ => fs.set fn none

/-- `os.rename(a, b)`: replaces `b`. `pp/yup.py:228`. -/
def rename (a b : Str) : Prog Unit :=
  Prog.op fun fs => (fs a).map fun f => (fs.set a none).set b (some f)

/-- The time of the next operation. The times `pp/yup.py:503-509` returns later. -/
def now : Prog Nat := fun o s => .done (o.time s.n) s

/-- `open(fn, 'w')`: creates or empties the file; fails if it is read-only. `pp/yup.py:232, 415`. -/
def openW (fn : Str) (t : Nat) : Prog Unit :=
  Prog.op fun fs =>
    match fs fn with
    | some f => if f.readOnly then none else some (fs.set fn (some { f with content := [], mtime := t }))
    | none => some (fs.set fn (some { content := [], mtime := t }))

/-- `f.write(text)` and closing, for the file opened by `openW`: all the text, or a part of it if
    there is a fault. `pp/yup.py:233, 416`. -/
def writeAll (fn : Str) (text : Str) (t : Nat) : Prog Unit :=
  Prog.op (fun fs => (fs fn).map fun f => fs.set fn (some { f with content := text, mtime := t }))
    (fun k fs => match fs fn with
      | some f => fs.set fn (some { f with content := text.take k, mtime := t })
      | none => fs)

/-- `open(fn, 'r')`. `pp/yup.py:439, 532, 552`. -/
def openR (fn : Str) : Prog Unit := Prog.op fun fs => (fs fn).map fun _ => fs

/-- `open(fn, 'r')` and `read()`, or `read()` of an open file. Line ends are translated on reading (universal newlines).
    `pp/yup.py:397, 532-533`. -/
def readFile (fn : Str) : Prog Str := fun o s =>
  match o.fault s.n with
  | .err _ => .raised { s with n := s.n + 1 }
  | .crash _ => .crashed { s with n := s.n + 1 }
  | .ok =>
    match s.fs fn with
    | some f => .done (replace ['\r'] ['\n'] (replace ['\r', '\n'] ['\n'] f.content)) { s with n := s.n + 1 }
    | none => .raised { s with n := s.n + 1 }

end Yupp
