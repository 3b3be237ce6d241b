import Verif.Model.Result
import Verif.Model.Shell
/-!
# The editor plug-in (`sublime_text/Data/Packages/yupp/yupp.py`)

The dictionaries of the plug-in are functions to `Option`. A view is given by the name of its file and the position of
the caret in it; showing and highlighting are left out. An exception is `none`; what was changed before it is lost. The
plug-in is taken to run in Python 2 (`xrange`, line 80, does not exist in Python 3).
-/

namespace Yupp

/-- `STATE_…`, `yupp.py:15-18`. -/
inductive FState where
  | noBrowse | fruit | origin | checkRaw
deriving DecidableEq, Repr

/-- A value of `file_jump`: a file name (`yupp.py:110, 112`) or a dictionary from positions to places (`yupp.py:221, 244-272`),
    newest entry first. -/
inductive Jump where
  | name (fn : Str)
  | table (t : List (Int × Str × Int))
deriving DecidableEq, Repr

/-- A value of `file_data`, `yupp.py:73-81`. As in `Res`, a file is given by its name instead of its number. `paths` holds the
    files found so far. -/
structure FData where
  browse : Browse
  offset : Offset
  files : List Str := []
  paths : List (Str × Str) := []
deriving DecidableEq, Repr

/-- What the plug-in asks the system: `os.path.isfile`, `abspath`, `dirname`, `normpath(join(d, fn))`, `getmtime`, the browse file and the
    folders of the project. -/
structure Disk where
  isFile : Str → Bool
  abspath : Str → Str
  dirname : Str → Str
  join : Str → Str → Str
  mtime : Str → Nat
  json : Str → FData
  folders : List Str

/-- The state of the plug-in, `yupp.py:20-24`, the active view and the carets. -/
structure Editor where
  state : Str → Option FState := fun _ => none
  data : Str → Option FData := fun _ => none
  jump : Str → Option Jump := fun _ => none
  mtime : Str → Option Nat := fun _ => none
  file : Str := []
  caret : Str → Int := fun _ => 0

/-- `d[ k ] = v`. -/
def put (d : Str → β) (k : Str) (v : β) : Str → β := fun x => if x = k then v else d x

/-- The loops over directories, `yupp.py:53-63`. -/
def firstFile (dk : Disk) : List Str → Str
  | [] => []
  | p :: ps => if dk.isFile p then p else firstFile dk ps

/-- `search_file` of a file not found before, `yupp.py:47-65`. -/
def searchPath (dk : Disk) (dirs : List Str) (fn : Str) : Str :=
  if dk.isFile fn then dk.abspath fn
  else firstFile dk (dirs.map (dk.join · fn) ++ dirs.map (dk.join · (basename fn)))

/-- `search_file`, `yupp.py:42-65`: the path and the paths found. -/
def searchFile (dk : Disk) (dirs : List Str) (paths : List (Str × Str)) (fn : Str) : Str × List (Str × Str) :=
  let known := (paths.lookup fn).getD []
  if known.isEmpty then
    let p := searchPath dk dirs fn
    if p.isEmpty then ([], paths) else (p, (fn, p) :: paths)
  else (known, paths)

/-- The origin of a file without browse file, `yupp.py:92-106`. -/
def originName (fn : Str) : Option Str :=
  let b := (splitext fn).1
  let e := (splitext fn).2
  if e.isEmpty then none
  else if e = lit ".yugen" then some (b ++ lit ".yu")
  else
    let bb := (splitext b).1
    let be := (splitext b).2
    if be = lit ".yugen" then some (bb ++ e) else some (b ++ lit ".yu-" ++ e.drop 1)

/-- `open_file`, `yupp.py:68-113`. -/
def openFile (dk : Disk) (ed : Editor) (fn : Str) : Editor :=
  if dk.isFile (fn ++ lit ".json") then
    let d := dk.json fn
    let paths := d.files.foldl (fun ps f => (searchFile dk [dk.dirname fn] ps f).2) []
    { ed with
      data := put ed.data fn (some { d with paths := paths })
      state := put ed.state fn (some (if dk.isFile (fn ++ lit ".txt") then .checkRaw else .fruit))
      mtime := put ed.mtime fn (some (dk.mtime fn)) }
  else match originName fn with
    | none => ed
    | some o =>
      if dk.isFile o then
        { ed with
          state := put (put ed.state fn (some .noBrowse)) o (some .noBrowse)
          jump := put (put ed.jump fn (some (.name o))) o (some (.name fn)) }
      else ed

/-- `file_….pop( x, None )` for several names. -/
def drops (d : Str → Option β) (xs : List Str) : Str → Option β := fun x => if x ∈ xs then none else d x

/-- `close_file`, `yupp.py:116-131`. -/
def closeFile (ed : Editor) (fn : Str) : Option Editor :=
  match ed.state fn with
  | none => none
  | some st =>
    let rest (xs : List Str) (ys : List Str) : Editor :=
      { ed with state := drops ed.state (fn :: xs), data := drops ed.data (fn :: ys), jump := drops ed.jump (fn :: xs),
                mtime := drops ed.mtime [fn] }
    match st with
    | .fruit => (ed.data fn).map fun d =>
      let ps := (d.files.map fun f => (d.paths.lookup f).getD [])
      rest ps ps
    | .noBrowse => match ed.jump fn with
      | some (.name o) => some (rest [o] [])
      | _ => none
    | _ => some (rest [] [])

/-- `on_load`, `yupp.py:137-153`, but for the view. -/
def onLoad (dk : Disk) (ed : Editor) (fn : Str) : Editor :=
  match ed.state fn with
  | some _ => ed
  | none => openFile dk ed fn

/-- `on_close`, `yupp.py:156-162`. -/
def onClose (ed : Editor) (fn : Str) : Option Editor :=
  match ed.state fn with
  | none => some ed
  | some _ => closeFile ed fn

/-- `on_activated`, `yupp.py:166-174`. -/
def onActivated (dk : Disk) (ed : Editor) (fn : Str) : Option Editor :=
  match ed.mtime fn with
  | none => some ed
  | some t => if t = dk.mtime fn then some ed else (closeFile ed fn).map (openFile dk · fn)

/-- `goto`, `yupp.py:180-188`. -/
def Editor.goto (ed : Editor) (fn : Str) (pos : Int) : Editor := { ed with file := fn, caret := put ed.caret fn pos }

/-- The variables of the loop, `yupp.py:243-269`. -/
structure Walk where
  state : Str → Option FState
  jump : Str → Option Jump
  paths : List (Str × Str)
  fn : Str
  pos : Int

/-- `while i >= 0`, `yupp.py:253-269`; the counter is `i + 1`. -/
def walkBack (dk : Disk) (b : Browse) (found : Int) : Nat → Walk → Option Walk
  | 0, w => some w
  | i + 1, w =>
    match b[i]? with
    | none => none
    | some (posFrom, file, posTo) =>
      if posFrom ≠ found then some w
      else
        let r := searchFile dk dk.folders w.paths file
        if r.1.isEmpty then walkBack dk b found i { w with paths := r.2 }
        else match w.jump r.1 with
          | some (.name _) => none
          | some (.table t) => walkBack dk b found i
              { state := put w.state r.1 (some .origin), jump := put w.jump r.1 (some (.table ((posTo.natAbs, w.fn, w.pos) :: t)))
                paths := r.2, fn := r.1, pos := posTo.natAbs }
          | none => walkBack dk b found i
              { state := put w.state r.1 (some .origin), jump := put w.jump r.1 (some (.table [(posTo.natAbs, w.fn, w.pos)]))
                paths := r.2, fn := r.1, pos := posTo.natAbs }

/-- `offset[ i - 1 ][ 1 ] if i else 0`, `yupp.py:215-216`. -/
def deltaAt (o : Offset) (pos : Int) : Int :=
  match bisect o pos with
  | 0 => 0
  | i + 1 => match o[i]? with | some e => e.2 | none => 0

/-- The relative shift, `yupp.py:238-243`. -/
def shifted (b : Browse) (i : Nat) (q posFound posTo : Int) : Int :=
  let plus : Bool := match i with
    | 0 => false
    | j + 1 => match b[j]? with
      | some e => decide (e.1 ≠ posFound) && decide (0 < posTo)
      | none => false
  ((if plus then posTo + (q - posFound) else posTo).natAbs : Int)

/-- The jumps from a position of a generated file, `yupp.py:225-273`. -/
def freshJump (dk : Disk) (ed : Editor) (d : FData) (pos : Int) : Option Editor :=
  let q := pos + deltaAt d.offset pos
  match bisect d.browse q with
  | 0 => some ed
  | i + 1 =>
    match d.browse[i]? with
    | none => none
    | some (posFound, file, posTo) =>
      let r := searchFile dk dk.folders d.paths file
      let p := shifted d.browse i q posFound posTo
      let jump := put (put ed.jump ed.file (some (.table []))) r.1 (some (.table []))
      let w : Walk :=
        if r.1.isEmpty then { state := ed.state, jump := jump, paths := r.2, fn := ed.file, pos := pos }
        else { state := put ed.state r.1 (some .origin), jump := put jump r.1 (some (.table [(p, ed.file, pos)]))
               paths := r.2, fn := r.1, pos := p }
      match walkBack dk d.browse posFound i w with
      | none => none
      | some w =>
        match w.jump ed.file with
        | some (.table t) => some (Editor.goto
            { ed with state := w.state, jump := put w.jump ed.file (some (.table ((pos, w.fn, w.pos) :: t)))
                      data := put ed.data ed.file (some { d with paths := w.paths }) } w.fn w.pos)
        | _ => none

/-- `GotoOriginCommand.run`, `yupp.py:191-273`. -/
def gotoOrigin (dk : Disk) (ed : Editor) : Option Editor :=
  match ed.state ed.file with
  | none => some ed
  | some .noBrowse => match ed.jump ed.file with
    | some (.name fn) => some { ed with file := fn }
    | _ => none
  | some st =>
    let pos := ed.caret ed.file
    let fresh : Option Editor :=
      match st with
      | .fruit => match ed.data ed.file with
        | none => none
        | some d => freshJump dk ed d pos
      | .checkRaw => match ed.data ed.file with
        | none => none
        | some d =>
          let to := pos + deltaAt d.offset pos
          let raw := ed.file ++ lit ".txt"
          some (Editor.goto { ed with state := put ed.state raw (some .origin), jump := put ed.jump raw (some (.table [(to, ed.file, pos)])) } raw to)
      | _ => some ed
    match ed.jump ed.file with
    | some (.name _) => none
    | some (.table t) => match t.lookup pos with
      | some (f, p) => some (ed.goto f p)
      | none => fresh
    | none => fresh

end Yupp
