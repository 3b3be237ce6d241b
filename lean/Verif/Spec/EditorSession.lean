import Verif.Spec.Editor
/-!
# Sessions with the plug-in, for C98

A user opens, closes and activates views, moves carets and gives the command, in any order. Between these events files may change.
-/

namespace Yupp.Spec

/-- What the plug-in gets to know. -/
inductive EditEvent where
  | load (fn : Str)
  | close (fn : Str)
  | activate (fn : Str)
  | command
  | look (fn : Str) (caret : Str → Int)

/-- What it does. -/
def EditEvent.run (dk : Disk) (ed : Editor) : EditEvent → Option Editor
  | .load fn => some (if fn = [] then ed else onLoad dk ed fn)
  | .close fn => onClose ed fn
  | .activate fn => onActivated dk ed fn
  | .command => gotoOrigin dk ed
  | .look fn caret => some { ed with file := fn, caret := caret }

/-- A session, with the files as they were at the events. -/
inductive EditSession : List Disk → Editor → Prop
  | start (fn caret) : EditSession [] { file := fn, caret := caret }
  | step {h ed ed'} (dk : Disk) (ev : EditEvent) : EditSession h ed → ev.run dk ed = some ed' → EditSession (dk :: h) ed'

/-- A file the plug-in has tables for. -/
def HasTables (ed : Editor) (fn : Str) : Prop := ed.state fn = some .fruit ∨ ed.state fn = some .checkRaw

/-- The command is given several times; where it leads, the editor may load the file. -/
def visit (dk : Disk) : List Bool → Editor → Option Editor
  | [], ed => some ed
  | b :: bs, ed => (gotoOrigin dk ed).bind fun ed' => visit dk bs (if b then onLoad dk ed' ed'.file else ed')

end Yupp.Spec
