import Verif.Base.PyStr
/-!
# Offset tables (`pp/yugen.py`)
-/

namespace Yupp

/-- An offset table: `(position in the new text, accumulated shift)`. `pp/yugen.py:2367-2400`. -/
abbrev Offset := List (Int × Int)

/-- The loop of `_bisect`, `pp/yugen.py:2372-2378`. `n` bounds the number of
    rounds; `hi - lo` rounds always suffice (`bisectGo_eq` in `Lemmas/Offset`). The index
    `mid` is always in range; `none` cannot occur for `hi ≤ a.length`. -/
def bisectGo {β : Type} (a : List (Int × β)) (x : Int) : Nat → Nat → Nat → Nat
  | 0, lo, _ => lo
  | n + 1, lo, hi =>
    if lo < hi then
      let mid := (lo + hi) / 2
      match a[mid]? with
      | some e => if x < e.1 then bisectGo a x n lo mid else bisectGo a x n (mid + 1) hi
      | none => lo
    else lo

/-- `_bisect`, `pp/yugen.py:2367-2378` (all calls have `lo = 0`). -/
def bisect {β : Type} (a : List (Int × β)) (x : Int) : Nat := bisectGo a x a.length 0 a.length

/-- State of the outer loop of `_merge_offset`: `result`, `_delta`, `_inx`. `pp/yugen.py:2381-2400`. -/
structure MergeSt where
  result : Offset
  delta : Int
  inx : Nat

/-- Inner loop of `_merge_offset`, `pp/yugen.py:2388-2392`:
    `for i in range(_inx, inx)` over the entries `p_offset[_inx:inx]`. -/
def mergeInner (pos delta : Int) : List (Int × Int) → Offset → Offset
  | [], r => r
  | (p, d) :: es, r =>
    mergeInner pos delta es (if p - delta < pos then r ++ [(p - delta, d + delta)] else r)

/-- Body of the outer loop of `_merge_offset`, `pp/yugen.py:2386-2394`. -/
def mergeStep (pOff : Offset) (st : MergeSt) (e : Int × Int) : MergeSt :=
  let (pos, delta) := e
  let inx := bisect pOff (pos + delta)
  let pDelta := if inx = 0 then 0 else ((pOff[inx - 1]?).map (·.2)).getD 0
  let es := (pOff.drop st.inx).take (inx - st.inx)
  let result := mergeInner pos st.delta es st.result
  { result := result ++ [(pos, pDelta + delta)], delta := delta, inx := st.inx + es.length }

/-- `_merge_offset`, `pp/yugen.py:2381-2400`. -/
def mergeOffset (pOff off : Offset) : Offset :=
  let st := off.foldl (mergeStep pOff) { result := [], delta := 0, inx := 0 }
  st.result ++ (pOff.drop st.inx).map (fun e => (e.1 - st.delta, e.2 + st.delta))

end Yupp
