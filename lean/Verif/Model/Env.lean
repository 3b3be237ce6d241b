import Verif.Model.Ast
/-!
# Environments (`pp/yugen.py:2507-2602`)

Two layers: `PyEnv` follows the class literally (a dictionary and the list `order`), and
`Frame` / `Scopes` (association lists) are what the evaluator model uses. `Props/Env` proves
that the second one is an exact abstraction of the first one.
-/

namespace Yupp

/-- `ENV` without `parent`, `pp/yugen.py:2507-2519`: the inherited dictionary and `order`. -/
structure PyEnv (α : Type) where
  dict : Str → Option α
  order : List Str

namespace PyEnv
variable {α : Type}

/-- `ENV()`, `pp/yugen.py:2513-2516`. -/
def empty : PyEnv α := { dict := fun _ => none, order := [] }

/-- `dict.__setitem__(self, key, value)`. `pp/yugen.py:2522-2527`. -/
def dictSet (e : PyEnv α) (key : Str) (value : α) : PyEnv α :=
  { e with dict := fun k => if k = key then some value else e.dict k }

/-- `ENV.__setitem__`, `pp/yugen.py:2522-2527`. -/
def setItem (e : PyEnv α) (key : Str) (value : α) : PyEnv α :=
  let order := if key ∈ e.order then e.order.erase key else e.order
  { e with order := order ++ [key] }.dictSet key value

/-- `ENV.__delitem__`, `pp/yugen.py:2538-2540`; `none` is an exception (`list.remove` or
    `dict.__delitem__` of a missing key). -/
def delItem (e : PyEnv α) (key : Str) : Option (PyEnv α) :=
  if key ∈ e.order then
    match e.dict key with
    | some _ => some { dict := fun k => if k = key then none else e.dict k, order := e.order.erase key }
    | none => none
  else none

/-- `ENV.lookup`, `pp/yugen.py:2558-2567`: the scopes from the innermost outwards. -/
def lookup : List (PyEnv α) → Str → Option α
  | [], _ => none
  | e :: es, var => match e.dict var with
    | some v => some v
    | none => lookup es var

/-- `ENV.update_variable`, `pp/yugen.py:2570-2580`. The flag is false for `NOT_FOUND`. -/
def updateVariable : List (PyEnv α) → Str → α → List (PyEnv α) × Bool
  | [], _, _ => ([], false)
  | e :: es, var, value => match e.dict var with
    | some _ => (e.dictSet var value :: es, true)
    | none => let r := updateVariable es var value; (e :: r.1, r.2)

/-- `isinstance(self.__getitem__(key), BOUND)`, `pp/yugen.py:2585`. -/
def boundAt (isBound : α → Bool) (e : PyEnv α) (k : Str) : Bool :=
  match e.dict k with | some v => isBound v | none => false

/-- `ENV.unassigned`, `pp/yugen.py:2583-2588`, over an arbitrary test for `BOUND`; a key without
    value would raise `KeyError` and cannot occur. -/
def unassigned (isBound : α → Bool) (e : PyEnv α) : Option Str :=
  e.order.find? (e.boundAt isBound)

/-- `ENV.xlocal`, `pp/yugen.py:2553-2555`: the pairs in order. -/
def xlocal (e : PyEnv α) : List (Str × Option α) := e.order.map (fun k => (k, e.dict k))

end PyEnv

namespace Frame
variable {α : Type}

/-- Value of a name in one scope. `pp/yugen.py:2530-2531`. -/
def get (f : List (Str × α)) (k : Str) : Option α := (f.find? (fun e => e.1 == k)).map (·.2)

/-- `ENV.__contains__`, `pp/yugen.py:2534-2535`. -/
def has (f : List (Str × α)) (k : Str) : Bool := (get f k).isSome

/-- `ENV.__delitem__` of a present key, `pp/yugen.py:2538-2540`. -/
def del (f : List (Str × α)) (k : Str) : List (Str × α) := f.filter (fun e => !(e.1 == k))

/-- `ENV.__setitem__`, `pp/yugen.py:2522-2527`. -/
def set (f : List (Str × α)) (k : Str) (v : α) : List (Str × α) := del f k ++ [(k, v)]

/-- `dict.__setitem__` of a present key: the order is kept. `pp/yugen.py:2522-2527, 2570-2580`. -/
def put (f : List (Str × α)) (k : Str) (v : α) : List (Str × α) :=
  f.map (fun e => if e.1 == k then (e.1, v) else e)

/-- `ENV(parent, local)`, `pp/yugen.py:2513-2519`. -/
def ofList (l : List (Str × α)) : List (Str × α) := l.foldl (fun f e => set f e.1 e.2) []

end Frame

/-- `isinstance(node, BOUND)`. `pp/yugen.py:2221-2226`. -/
def Node.isBound : Node → Bool
  | .bound => true
  | _ => false

/-- `ENV.unassigned`, `pp/yugen.py:2583-2588`. -/
def Frame.unassigned (f : Frame) : Option Str := (f.find? (fun e => e.2.isBound)).map (·.1)

/-- The chain of scopes, innermost first. `ENV.parent`, `pp/yugen.py:2507-2520`. -/
abbrev Scopes := List Frame

/-- `ENV.lookup`, `pp/yugen.py:2558-2567`. -/
def Scopes.lookup {α : Type} : List (List (Str × α)) → Str → Option α
  | [], _ => none
  | f :: fs, k => match Frame.get f k with
    | some v => some v
    | none => Scopes.lookup fs k

/-- `ENV.update_variable`, `pp/yugen.py:2570-2580`; `none` for `NOT_FOUND`. -/
def Scopes.update {α : Type} : List (List (Str × α)) → Str → α → Option (List (List (Str × α)))
  | [], _, _ => none
  | f :: fs, k, v => match Frame.get f k with
    | some _ => some (Frame.put f k v :: fs)
    | none => (Scopes.update fs k v).map (f :: ·)

end Yupp
