import Verif.Model.Config
/-!
# Vocabulary of C70–C72: options, constants, libraries
-/

namespace Yupp.Spec

/-! ## Options -/

/-- A script (if it is there) does not touch the name. -/
def Untouched (f : Option (Ctx → Ctx)) (k : Str) : Prop := ∀ g, f = some g → ∀ c, g c k = c k

/-- The script is there and gives the name a value. -/
def Sets (f : Option (Ctx → Ctx)) (k : Str) (v : PyOpt) : Prop := ∃ g, f = some g ∧ ∀ c, g c k = some v

/-- The script is there and appends to the list. -/
def Appends (f : Option (Ctx → Ctx)) (k : Str) (xs : List Str) : Prop :=
  ∃ g, f = some g ∧ ∀ c ys, c k = some (.list ys) → g c k = some (.list (ys ++ xs))

/-- What the options say: the script of the file itself counts, then the common one. `none`: nothing. -/
inductive Setting (common own : Option (Ctx → Ctx)) (k : Str) : Option PyOpt → Prop
  | own {v} : Sets own k v → Setting common own k (some v)
  | common {v} : Untouched own k → Sets common k v → Setting common own k (some v)
  | unset : Untouched own k → Untouched common k → Setting common own k none

/-- A switch: numbers count as on unless zero; anything that is neither number nor truth value is ignored. -/
def switch (default : Bool) : Option PyOpt → Bool
  | some (.bool b) => b
  | some (.int n) => n ≠ 0
  | _ => default

/-- The configuration scripts read for a file: the common one, and its own. -/
def commonScript (i : Import) : Option (Ctx → Ctx) := i.scripts (lit ".yuconfig")
def ownScript (i : Import) : Option (Ctx → Ctx) := i.scripts ((splitext i.fn).1 ++ lit ".yuconfig")

/-- The three lists that scripts add to are there. -/
def ListsKept (i : Import) : Prop :=
  ∀ k, k = lit "directory" ∨ k = lit "dependency" ∨ k = lit "pp_define" → (finalCtx i.scripts i.fn k).isSome

/-- The same options. -/
structure SameOptions (a b : Global) : Prop where
  cfg : a.cfg = b.cfg
  sh : a.sh = b.sh
  define : a.define = b.define
  directory : a.directory = b.directory

/-! ## Constants -/

/-- White space only. -/
def White (s : Str) : Prop := ∀ c ∈ s, isSpace c = true

/-- A name: a letter, then letters and figures. -/
def IsConstName (n : Str) : Prop := ∃ c t, n = c :: t ∧ isLetter c = true ∧ ∀ x ∈ t, isLetter x = true ∨ isFigure x = true

/-- No white space at its ends. -/
def Tight (v : Str) : Prop := (∀ c, v.head? = some c → isSpace c = false) ∧ (∀ c, v.getLast? = some c → isSpace c = false)

/-- `NAME`, or `NAME: value`. -/
inductive Constant : Str → Str → Node → Prop
  | flag {a n b} : White a → IsConstName n → White b → Constant (a ++ n ++ b) n (.bool true)
  | empty {a n b c} : White a → IsConstName n → White b → White c → Constant (a ++ n ++ b ++ ':' :: c) n (.bool true)
  | value {a n b c v d} : White a → IsConstName n → White b → White c → v ≠ [] → Tight v → White d →
      Constant (a ++ n ++ b ++ ':' :: (c ++ v ++ d)) n (.pstr v)

/-! ## Libraries -/

/-- The places where a library is looked for, in order: the name itself (from the working directory), beside the input file,
    in the directories of the options, in the library of yupp. -/
def places72 (input : Option Str) (directory : List Str) (lib name : Str) : List Str :=
  name :: ((match input with | some i => if i = [] then [] else [pathJoin (dirname i) name] | none => []) ++
    directory.map (pathJoin · name) ++ [pathJoin lib name])

/-- `p` is the first of the places where there is a file. -/
def FirstFile (fs : Fs) (ps : List Str) (p : Str) (f : File) : Prop :=
  ∃ before after, ps = before ++ p :: after ∧ (∀ q ∈ before, fs q = none) ∧ fs p = some f

end Yupp.Spec
