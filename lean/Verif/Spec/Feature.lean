import Verif.Spec.Scope
import Verif.Spec.Subst
/-!
# Special forms, output names, evaluated texts: C56–C60
-/

namespace Yupp.Spec

/-- A special form: its name is bound neither by a scope nor by the table of built-in functions. -/
structure Reserved (e : EEnv) (s : ESt) (a : Str) : Prop where
  scope : Scopes.lookup s.env a = none
  table : e.builtin s.p.scripts a = none

/-- A name without quotes. -/
def IsName (v : Node) : Prop := ∃ a, v = .atom a

/-- The text that is parsed when a text is evaluated: code as it is; a quoted text `'…'` without the quotes, escapes
    and outer spaces, and as an application `($…)` unless it is written as one. -/
inductive SourceOf (unq : Str → Str) : Node → Str → Prop
  | code {v t} : Template v t → (∀ s, v ≠ .str s) → SourceOf unq v t
  | form {s t} : strip (unq s.txt) = '(' :: '$' :: t → SourceOf unq (.str s) ('(' :: '$' :: t)
  | expr {s t} : strip (unq s.txt) = t → (∀ u, t ≠ '(' :: '$' :: u) → SourceOf unq (.str s) ('(' :: '$' :: t ++ [')'])

/-- The text `t` gets the next number, with the places of its declaration and of its call. -/
def record (s : ESt) (t : Str) (decl call : Option Loc) : Str × ESt :=
  (natStr s.p.world.inclusion.length,
   { s with p := { s.p with world := {
      source := (natStr s.p.world.inclusion.length, (match decl with | some l => Decl.at l | none => Decl.path none), t) :: s.p.world.source
      inclusion := s.p.world.inclusion ++ [call] } } })

/-- The registered text `key` parses to `xs`. -/
def Parses (e : EEnv) (key : Str) (s : ESt) (xs : List Node) (s' : ESt) : Prop :=
  ∃ n p, (P e.pe n).parse key s.p = .ok (xs, p) ∧ s' = { s with p := p }

/-- A definition. -/
def Defines (x : Node) : Prop := ∃ lval ast, x = .set lval ast

/-- The characters that end a line, as listed in the documentation of `str.splitlines`: line feed, line tabulation, form feed,
    carriage return, the separators of files, groups and records, next line, line separator, paragraph separator. -/
def lineEnds : List Char := ['\n', '\x0b', '\x0c', '\r', '\x1c', '\x1d', '\x1e', '\u0085', '\u2028', '\u2029']

/-- `i` after every line end: after every `\r\n`, `\n` and `\r`, and after every other line break that is not the end of
    the text. -/
def afterLines (i : Str) : Str → Str
  | [] => []
  | '\r' :: '\n' :: t => '\r' :: '\n' :: (i ++ afterLines i t)
  | c :: t =>
    if c ∈ lineEnds ∧ (c = '\n' ∨ c = '\r' ∨ t ≠ []) then c :: (i ++ afterLines i t)
    else c :: afterLines i t

/-- The items of a text that stands at the indent `i`: the lines of the plain texts are moved to the right by `i`, and what
    follows them stands further to the right. (Plain texts within a line, without `indent`, stay.) -/
def atIndent (i : Str) (xs : List Node) : List Node := xs.map fun
  | .plain s (.str j) tr => .plain { txt := afterLines i s.txt } (.str (i ++ j)) tr
  | .plain s .no tr => .plain { txt := afterLines i s.txt } .no tr
  | x => x

end Yupp.Spec
