import Verif.Spec.Scope
/-!
# Programs without functions of their own, for C97

Such a program consists of texts, data, names, lists, applications of data and of built-in functions, conditionals,
Python expressions, `$set`, `$let`, `$emit` and `$skip`, nested in any way. Names may be assigned and shadowed as one likes,
but what is assigned to a name does not use that name.
-/

namespace Yupp.Spec

/-- Values that hold no code: texts, numbers, nothing, and lists of such values. -/
inductive Inert : Node → Prop
  | none : Inert .none
  | atom (s) : Inert (.atom s)
  | remark (s) : Inert (.remark s)
  | str (s) : Inert (.str s)
  | plain (s i t) : Inert (.plain s i t)
  | pstr (s) : Inert (.pstr s)
  | result (r) : Inert (.result r)
  | int (n) : Inert (.int n)
  | bool (b) : Inert (.bool b)
  | float (f) : Inert (.float f)
  | list (xs) : (∀ x ∈ xs, Inert x) → Inert (.list xs)

/-- What is known about names at a place of a program: which are in scope for sure, and which wait for the value that is just
    being evaluated. -/
structure NamesAt where
  sure : Str → Prop
  waiting : Str → Prop

/-- At the beginning of a program nothing is known. -/
def NamesAt.empty : NamesAt := ⟨fun _ => False, fun _ => False⟩

/-- Where the value for the names `ns` is written. -/
def NamesAt.hide (Γ : NamesAt) (ns : List Str) : NamesAt := ⟨Γ.sure, fun a => a ∈ ns ∨ Γ.waiting a⟩

/-- Where the names `ns` have their value. -/
def NamesAt.bind (Γ : NamesAt) (ns : List Str) : NamesAt := ⟨fun a => a ∈ ns ∨ Γ.sure a, fun a => a ∉ ns ∧ Γ.waiting a⟩

/-- A name that stands for itself when it is not in scope. -/
structure Itself (e : EEnv) (sc : List Str) (a : Str) : Prop where
  builtin : e.builtin sc a = none
  special : isSpecial a = false
  hyphen : '-' ∉ a

/-- A name that may be called although it is not in scope: a built-in function or constant that makes data of data. -/
structure MakesData (e : EEnv) (sc : List Str) (f : Str) : Prop where
  const : ∀ v, e.builtin sc f = some (.const v) → Inert (strResult v)
  call : ∀ py args seen v seen', (∀ a ∈ args, Inert a) → e.call py f args seen = some (v, seen') → Inert (callResult v)
  lazy : f ≠ lit "lazy"
  reduce : f ≠ lit "reduce"
  skip : f ≠ lit "skip"
  hyphen : '-' ∈ f → e.builtin sc f ≠ none

/-- Parts of a program. -/
inductive Part where
  | expr (x : Node)
  | items (xs : List Node)
  | named (xs : List (Src × Node))
  | pieces (xs : List Node)
  | skipped (level : Nat) (xs : List Node)

/-- Programs without functions, macros and evaluated texts of their own. -/
inductive Straight (e : EEnv) (sc : List Str) : NamesAt → Part → Prop where
  | data {Γ x} : Inert x → Straight e sc Γ (.expr x)
  | name {Γ late reg a} : ¬ Γ.waiting a.txt → Γ.sure a.txt ∨ late = false ∧ Itself e sc a.txt →
      Straight e sc Γ (.expr (.var late reg a))
  | list {Γ xs} : Straight e sc Γ (.items xs) → Straight e sc Γ (.expr (.list xs))
  | apply {Γ fn args ns loc} : Straight e sc Γ (.expr fn) → Straight e sc Γ (.items args) → Straight e sc Γ (.named ns) →
      Straight e sc Γ (.expr (.apply fn args ns loc))
  | call {Γ reg f args ns loc} : ¬ Γ.waiting f.txt → MakesData e sc f.txt → Straight e sc Γ (.items args) →
      Straight e sc Γ (.named ns) → Straight e sc Γ (.expr (.apply (.var false reg f) args ns loc))
  | letn {Γ lval ast form} : (lvalNames lval).Nodup → Straight e sc (Γ.hide (lvalNames lval)) (.expr ast) →
      Straight e sc (Γ.bind (lvalNames lval)) (.expr form) → Straight e sc Γ (.expr (.letn lval ast form))
  | cond {Γ c l1 l0} : Straight e sc Γ (.expr c) → Straight e sc Γ (.expr l1) → Straight e sc Γ (.expr l0) →
      Straight e sc Γ (.expr (.cond c l1 l0))
  | python {Γ t i loc} :
      (∀ code, e.pyParse (lstrip t.txt) = some code → (∀ k ∈ code.names, ¬ Γ.waiting k) ∧
        ∀ py g v, (∀ p ∈ g, Inert p.2) → e.pyEval py code g = some v → Inert v) →
      Straight e sc Γ (.expr (.infix (.text [.plain t i false]) loc))
  | emit {Γ late reg a ast} : ¬ Γ.waiting a.txt → Straight e sc Γ (.expr ast) →
      Straight e sc Γ (.expr (.emit late reg a ast))
  | text {Γ xs} : Straight e sc Γ (.pieces xs) → Straight e sc Γ (.expr (.text xs))
  | block {Γ xs i} : Straight e sc Γ (.pieces xs) → Straight e sc Γ (.expr (.t xs i))
  | noItems {Γ} : Straight e sc Γ (.items [])
  | item {Γ x xs} : Straight e sc Γ (.expr x) → Straight e sc Γ (.items xs) → Straight e sc Γ (.items (x :: xs))
  | embed {Γ x xs} : Straight e sc Γ (.expr x) → Straight e sc Γ (.items xs) → Straight e sc Γ (.items (.embed x :: xs))
  | noNamed {Γ} : Straight e sc Γ (.named [])
  | named {Γ a x xs} : Straight e sc Γ (.expr x) → Straight e sc Γ (.named xs) → Straight e sc Γ (.named ((a, x) :: xs))
  | noPieces {Γ} : Straight e sc Γ (.pieces [])
  | piece {Γ x xs} : Straight e sc Γ (.expr x) → Straight e sc Γ (.pieces xs) → Straight e sc Γ (.pieces (x :: xs))
  | embedded {Γ x xs} : Straight e sc Γ (.expr x) → Straight e sc Γ (.pieces xs) →
      Straight e sc Γ (.pieces (.embed x :: xs))
  | comment {Γ xs} : Straight e sc Γ (.pieces xs) → Straight e sc Γ (.pieces (.comment :: xs))
  | opens {Γ xs} : Straight e sc Γ (.pieces xs) → Straight e sc Γ (.pieces (.importBegin :: xs))
  | closes {Γ xs} : Straight e sc Γ (.pieces xs) → Straight e sc Γ (.pieces (.importEnd :: xs))
  | skip {Γ a loc xs} : a.txt = lit "skip" → e.builtin sc a.txt = none → ¬ Γ.waiting a.txt → Straight e sc Γ (.pieces xs) →
      Straight e sc Γ (.skipped 1 xs) → Straight e sc Γ (.pieces (.apply (.var false [] a) [] [] loc :: xs))
  | set {Γ lval ast xs} : (lvalNames lval).Nodup → (∀ a, lval = .one a → a.txt ≠ lit "__OUTPUT_FILE__") →
      Straight e sc (Γ.hide (lvalNames lval)) (.expr ast) → Straight e sc (Γ.bind (lvalNames lval)) (.pieces xs) →
      Straight e sc Γ (.pieces (.set lval ast :: xs))
  | output {Γ a ast xs} : a.txt = lit "__OUTPUT_FILE__" → Straight e sc Γ (.expr ast) → Straight e sc Γ (.pieces xs) →
      Straight e sc Γ (.pieces (.set (.one a) ast :: xs))
  | skipEnd {Γ xs} : Straight e sc Γ (.pieces xs) → Straight e sc Γ (.skipped 0 xs)
  | skipNone {Γ n} : Straight e sc Γ (.skipped (n + 1) [])
  | skipOne {Γ n x xs} : Straight e sc Γ (.skipped (skipStep (n + 1) x) xs) → Straight e sc Γ (.skipped (n + 1) (x :: xs))

/-- All names in scope stand for data, except those that wait; and those that are in scope for sure are. -/
structure Fits (Γ : NamesAt) (env : Scopes) : Prop where
  data : ∀ a v, ¬ Γ.waiting a → Scopes.lookup env a = some v → Inert v
  sure : ∀ a, Γ.sure a → (Scopes.lookup env a).isSome

end Yupp.Spec
