import Verif.Model.Result
/-!
# Final text processing (`pp/yugen.py`)
-/

namespace Yupp

/-- `_unify_eol`, `pp/yugen.py:863-864`. -/
def unifyEol (st : Str) : Str := replace ['\r'] ['\n'] (replace ['\r', '\n'] ['\n'] st)

/-- `STEADY_SPACE`, `pp/yugen.py:2653`. -/
def steadySpace : Char := 'þ'
/-- `STEADY_TAB`, `pp/yugen.py:2654`. -/
def steadyTab : Char := 'ÿ'

/-- `replace_steady` on a plain string, `pp/yugen.py:3891-3896`. -/
def replaceSteady (text : Str) : Str := replace [steadySpace] [' '] (replace [steadyTab] ['\t'] text)

/-- `replace_steady` on a `RESULT`, `pp/yugen.py:3891-3896`. -/
def Res.replaceSteady (r : Res) : Res := { r with txt := Yupp.replaceSteady r.txt }

/-- The filter of `reduce_emptiness`, `pp/yugen.py:3881-3888`: `_filter.empty` is the flag. -/
def reduceFilter : Bool → List Str → List Str
  | _, [] => []
  | empty, ln :: lns =>
    let empty' := (strip ln).isEmpty
    if !empty || !empty' then ln :: reduceFilter empty' lns else reduceFilter empty' lns

/-- `reduce_emptiness` on a plain string, `pp/yugen.py:3822-3829, 3881-3888`. -/
def reduceEmptiness (cfg : Config) (text : Str) : Str :=
  if !cfg.reduceEmptiness then text
  else joinStr ['\n'] ((reduceFilter false (splitLines text)).map rstrip) ++ ['\n']

/-- Loop building the text in browse mode, `pp/yugen.py:3842-3851`. -/
def reduceText : Bool → List Str → Str
  | _, [] => []
  | prevEmpty, ln :: lns =>
    if emptyLine ln then
      if !prevEmpty then ln ++ reduceText true lns else reduceText prevEmpty lns
    else ln ++ reduceText false lns

/-- State of the offset loop in browse mode: `offset`, `total`, `_pos`, `pos`, `prev_empty`.
    `pp/yugen.py:3840-3845`. -/
structure ReduceSt where
  offset : Offset := []
  total : Int := 0
  pos' : Int := 0
  pos : Int := 0
  prevEmpty : Bool := false

/-- One round of the offset loop in browse mode, `pp/yugen.py:3858-3873`.
    (`offset[-1] = e` on an empty list would raise; `pos == _pos` cannot hold then.) -/
def reduceStep (st : ReduceSt) (ln : Str) : ReduceSt :=
  if emptyLine ln then
    if st.prevEmpty then
      let total := st.total + ln.length
      if st.pos = st.pos' then
        { st with total := total, offset := st.offset.dropLast ++ [(st.pos, total)] }
      else
        { st with total := total, offset := st.offset ++ [(st.pos, total)], pos' := st.pos }
    else { st with pos := st.pos + ln.length, prevEmpty := true }
  else { st with pos := st.pos + ln.length, prevEmpty := false }

/-- `reduce_emptiness` on a `RESULT`, `pp/yugen.py:3828-3879`. -/
def Res.reduceEmptiness (cfg : Config) (r : Res) : Res :=
  if !cfg.reduceEmptiness then r
  else
    let lns := splitKeep r.txt
    let offset := (lns.foldl reduceStep {}).offset
    { txt := reduceText false lns
      browse := r.browse
      offset := if r.offset.isEmpty then offset else mergeOffset r.offset offset }

end Yupp
