import Verif.Model.Final
import Verif.Model.Plain
import Verif.Spec.PosMap
/-!
# Where each character of a generated text comes from

Specification for C08: instead of offset and browse tables every character carries
its origin. No table occurs in this file except in `resolve`, which is what a reader
of the tables (the editor plug-in) computes.
-/

namespace Yupp.Spec

/-- Origin of a character: reference `(file, position)` of the fragment it was copied from and its
    index in that fragment; `outer` are the references further out (where an evaluated text was called
    from), outermost first. -/
structure Origin where
  file : Str
  pos : Int
  idx : Nat
  outer : List (Str × Int)
deriving DecidableEq, Repr

/-- A character of the generated text; `none` for inserted characters and for text without a
    location. -/
structure Cell where
  ch : Char
  org : Option Origin
deriving DecidableEq, Repr

/-- The text of the cells. -/
def text (cs : List Cell) : Str := cs.map (·.ch)

/-- Cells of a text without location. -/
def blankCells (s : Str) : List Cell := s.map (fun c => ⟨c, none⟩)

/-- Cells of a fragment whose innermost reference is `(file, pos)`. -/
def fragCells (file : Str) (pos : Int) (s : Str) (outer : List (Str × Int) := []) : List Cell :=
  (List.range s.length).zipWith (fun i c => ⟨c, some ⟨file, pos, i, outer⟩⟩) s

/-- Cells of a located text; the innermost reference is the last one listed for the location. -/
def srcCells (x : TextExt) (s : Src) : List Cell :=
  match s.loc with
  | none => blankCells s.txt
  | some l => match (x.locs l).getLast? with
    | none => blankCells s.txt
    | some e => fragCells e.2.1 e.2.2 s.txt ((x.locs l).dropLast.map (·.2))

/-- Cut a list into pieces of the given lengths. -/
def chunks {γ : Type} : List Nat → List γ → List (List γ)
  | [], _ => []
  | n :: ns, l => l.take n :: chunks ns (l.drop n)

/-- The lines (with terminators) of a text, as cells. -/
def cellLines (cs : List Cell) : List (List Cell) :=
  chunks ((splitKeep (text cs)).map (·.length)) cs

/-- Indentation trimming: every non-empty line loses `c` cells; every one but the first gains the
    indent. -/
def trimCellLines (c : Nat) (indent : Str) : Bool → List (List Cell) → List Cell
  | _, [] => []
  | first, ln :: lns =>
    (if emptyLine (text ln) then ln
     else (if first then [] else blankCells indent) ++ ln.drop c) ++ trimCellLines c indent false lns

/-- `TRIM` in browse mode. -/
def trimCells (cfg : Config) (indent : Str) (cs : List Cell) : List Cell :=
  if cs.isEmpty || !cfg.trimAppIndent then cs
  else trimCellLines (cutLen (splitKeep (text cs))) indent true (cellLines cs)

/-- Drop an empty line that follows an empty line. -/
def dropRepeated : Bool → List (List Cell) → List Cell
  | _, [] => []
  | prevEmpty, ln :: lns =>
    if emptyLine (text ln) then (if prevEmpty then [] else ln) ++ dropRepeated true lns
    else ln ++ dropRepeated false lns

/-- Empty-line reduction in browse mode. -/
def reduceCells (cfg : Config) (cs : List Cell) : List Cell :=
  if cfg.reduceEmptiness then dropRepeated false (cellLines cs) else cs

/-- Steady blanks become blanks. -/
def steadyCells (cs : List Cell) : List Cell :=
  cs.map (fun c => { c with ch := if c.ch = 'ÿ' then '\t' else if c.ch = 'þ' then ' ' else c.ch })

mutual
/-- Cells of an evaluated tree; `σ` gives those of the already generated texts in it. -/
def treeCells (cfg : Config) (x : TextExt) (σ : Res → List Cell) : Node → List Cell
  | .none => []
  | .result r => σ r
  | .trim a indent => trimCells cfg indent (treeCells cfg x σ a)
  | .list xs => treesCells cfg x σ xs
  | .t xs _ => treesCells cfg x σ xs
  | .lazy a => treeCells cfg x σ a
  | .plain s _ tr => srcCells x (getTrimmedWithBrowse cfg s tr)
  | .atom s => srcCells x s
  | .remark s => srcCells x s
  | .str s => srcCells x s
  | n => blankCells (strOf x n)
/-- Cells of a list of trees. -/
def treesCells (cfg : Config) (x : TextExt) (σ : Res → List Cell) : List Node → List Cell
  | [] => []
  | n :: ns => treeCells cfg x σ n ++ treesCells cfg x σ ns
end

mutual
/-- The already generated texts in a tree. -/
def results : Node → List Res
  | .result r => [r]
  | .trim a _ => results a
  | .list xs => resultss xs
  | .t xs _ => resultss xs
  | .lazy a => results a
  | _ => []
/-- The already generated texts in a list of trees. -/
def resultss : List Node → List Res
  | [] => []
  | n :: ns => results n ++ resultss ns
end

/-- Every text the generator can produce, with the origin of each of its characters: trees over
    already generated texts, empty-line reduction and steady-blank replacement, in any order and
    nesting. -/
inductive Generated (cfg : Config) (x : TextExt) : Res → List Cell → Prop
  | tree (n : Node) (σ : Res → List Cell) :
      (∀ r ∈ results n, Generated cfg x r (σ r)) →
      Generated cfg x (plainBrowse cfg x n) (treeCells cfg x σ n)
  | reduce (r cs) : Generated cfg x r cs → Generated cfg x (r.reduceEmptiness cfg) (reduceCells cfg cs)
  | steady (r cs) : Generated cfg x r cs → Generated cfg x r.replaceSteady (steadyCells cs)

/-- What a reader of the tables computes for position `p` of the text: the position is shifted with
    the offset table, then the last browse entry not beyond it is taken, and the distance from that
    entry is the index in the fragment. -/
def resolve (r : Res) (p : Int) : Option (Str × Int × Int) :=
  let q := posMap r.offset p
  (r.browse.filter (fun e => decide (e.1 ≤ q))).getLast?.map (fun e => (e.2.1, e.2.2, q - e.1))

/-- All references of the fragment that `resolve` finds, outermost first: the entries with the same key. -/
def references (r : Res) (p : Int) : List (Str × Int) :=
  match (r.browse.filter (fun e => decide (e.1 ≤ posMap r.offset p))).getLast? with
  | some e => (r.browse.filter (fun d => decide (d.1 = e.1))).map (·.2)
  | none => []

end Yupp.Spec
