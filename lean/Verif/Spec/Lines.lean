import Verif.Base.PyStr
/-!
# Specification vocabulary for lines
-/

namespace Yupp.Spec

/-- Each of CR LF, CR, LF is one line end, written as LF; other characters are kept. -/
def oneEol : Str → Str
  | [] => []
  | '\r' :: '\n' :: t => '\n' :: oneEol t
  | '\r' :: t => '\n' :: oneEol t
  | c :: t => c :: oneEol t

/-- Two lists related element by element. -/
inductive All2 {α β} (R : α → β → Prop) : List α → List β → Prop
  | nil : All2 R [] []
  | cons {a b as bs} : R a b → All2 R as bs → All2 R (a :: as) (b :: bs)

/-- A line of white space only (possibly empty). -/
def whiteLine (l : Str) : Bool := l.all isSpace

/-- A line that holds only blanks and tabs, and its newline. -/
def blankNLLine (l : Str) : Bool :=
  l.getLast? == some '\n' && l.dropLast.all (fun c => c == ' ' || c == '\t')

/-- The items, without those that satisfy `p` and directly follow an item that satisfies `p`. -/
def dropSuccessive {α} (p : α → Bool) (ls : List α) : List α :=
  ((ls.zip (false :: ls.map p)).filter (fun x => !(p x.1 && x.2))).map (·.1)

/-- `l'` is `l` without its trailing white space. -/
def StripEnd (l l' : Str) : Prop :=
  ∃ ws, l = l' ++ ws ∧ (∀ c ∈ ws, isSpace c = true) ∧ (∀ c, l'.getLast? = some c → isSpace c = false)

/-- No two neighbours satisfy `p`. -/
def NoTwo {α} (p : α → Bool) (ls : List α) : Prop :=
  ∀ i a b, ls[i]? = some a → ls[i + 1]? = some b → ¬ (p a = true ∧ p b = true)

end Yupp.Spec

namespace Yupp.Spec

/-- SPACE or TAB. -/
def blankChar (c : Char) : Bool := c == ' ' || c == '\t'

/-- `m` is a run of blanks every line starts with that holds something else than blanks. -/
def CommonIndent (ls : List Str) (m : Str) : Prop :=
  (∀ c ∈ m, blankChar c = true) ∧ ∀ l ∈ ls, l.all blankChar = false → m <+: l

/-- `m` is the longest such run. -/
def LongestCommonIndent (ls : List Str) (m : Str) : Prop :=
  CommonIndent ls m ∧ ∀ m', CommonIndent ls m' → m' <+: m

/-- The blanks a line starts with. -/
def indentOf (l : Str) : Str := l.takeWhile blankChar

end Yupp.Spec
