import Verif.Spec.Header
import Verif.Spec.Numeral
import Verif.Spec.Balanced
import Verif.Model.Ast
/-!
# Expressions and texts, and how they are written down

Specification for C20: abstract expressions and texts, the grammar of their written forms, and the syntax tree
each stands for. Of the model only the type of syntax trees is used. Left out are floating point numbers,
imports and, in Python mode, literals in triple quotes or over several lines.
-/

namespace Yupp

/-- The left side of a definition: a name or a list of names. -/
inductive Target where
  | one (a : Str)
  | many (as : List Str)

mutual
/-- Expressions. -/
inductive Expr where
  | name (late : Bool) (regions : List Str) (a : Str)   -- `a`, `r::a`, `&a`
  | int (n : Int)
  | str (s : Str)                                       -- a text: the text of the literal, or of the quote
  | list (xs : ExprArgs)                                -- `(x y *z)`
  | app (f : Expr) (xs : ExprArgs) (ms : ExprNamed)     -- `($f x *y \n z)`
  | eval (f : Expr) (xs : ExprArgs) (ms : ExprNamed)    -- `($$f x *y \n z)`
  | fn (ps : ExprParams) (body : Expr)                  -- `\p.\q:x.body`
  | fnOf (late : Bool) (regions : List Str) (a : Str) (body : Expr)  -- `\(a).body`
  | cond (c yes no : Expr)                              -- `yes ? c | no`
  | when (c yes : Expr)                                 -- `yes ? c`
  | letIn (t : Target) (x y : Expr)                     -- `($let t x y)`
  | emit (late : Bool) (regions : List Str) (a : Str)   -- `($emit a)`
  | emitWith (late : Bool) (regions : List Str) (a : Str) (f : Expr)  -- `($emit a f)`
  | code (xs : ExprText)                                -- `[text]`, `($code text)`, `,,text;;`, `]text[`
  | python (xs : ExprText)                              -- `{text}`, `(${} text)`

/-- Items of a list, positional arguments of an application. -/
inductive ExprArgs where
  | nil
  | pos (x : Expr) (xs : ExprArgs)              -- `x`
  | embed (x : Expr) (xs : ExprArgs)            -- `*x`

/-- Named arguments of an application. -/
inductive ExprNamed where
  | nil
  | cons (a : Str) (x : Expr) (ms : ExprNamed)  -- `\a x`

/-- Parameters of a function. -/
inductive ExprParams where
  | nil
  | par (late : List Str) (a : Str) (ps : ExprParams)             -- `\l..\a.`
  | dflt (late : List Str) (a : Str) (x : Expr) (ps : ExprParams) -- `\l..\a:x.`
  | dots (ps : ExprParams)                                        -- `\...`

/-- Texts. -/
inductive ExprText where
  | nil
  | chars (w : Str) (xs : ExprText)                               -- plain text
  | expr (x : Expr) (xs : ExprText)                               -- `($f ..)`, `($let ..)`, `($emit ..)`, ...
  | set (t : Target) (x : Expr) (xs : ExprText)                   -- `($set t x)`
  | macro (a : Str) (ps : List Str) (body : Str) (xs : ExprText)  -- `($macro a(ps)body)`
  | comment (xs : ExprText)                                       -- `($! .. )`
  | str (s : Str) (xs : ExprText)                                 -- a literal or a quote
  | remark (s : Str) (xs : ExprText)                              -- a comment of the target language
end

/-- The name of a function that is a name. -/
def Expr.fname : Expr → Option Str
  | .name _ _ a => some a
  | _ => none

/-- Whether a text begins with plain text. -/
def ExprText.startsPlain : ExprText → Bool
  | .chars .. => true
  | _ => false

/-! ## Modes -/

/-- Comments of the target language in which nothing is expanded. -/
inductive Remarks where
  | none
  | c
  | python

/-- What is made: a Python file or another one, and the comments that are left alone. -/
structure Mode where
  python : Bool
  remarks : Remarks

/-! ## Written forms -/

/-- A name with its regions: `r::a`, and the late `&a`. -/
inductive WrittenName : Bool → List Str → Str → Str → Prop where
  | plain {a : Str} : IsName a → WrittenName false [] a a
  | region {r a t : Str} {rs : List Str} : IsName r → WrittenName false rs a t →
      WrittenName false (r :: rs) a (r ++ ':' :: ':' :: t)
  | late {a : Str} : IsName a → WrittenName true [] a ('&' :: a)

/-- What may follow a name, a number or a literal: nothing that would continue it. -/
def Ended (r : Str) : Prop := Apart r ∧ ∀ c, r.head? = some c → c ≠ ':' ∧ c ≠ '"' ∧ c ≠ '\''

/-- The inside of a literal in quotes `q`: no line end, no quote unless behind a backslash. -/
inductive Inside (q : Char) : Str → Prop where
  | nil : Inside q []
  | char {c : Char} {s : Str} : c ≠ q → c ≠ '\\' → c ≠ '\n' → Inside q s → Inside q (c :: s)
  | escape {c : Char} {s : Str} : c ≠ '\n' → Inside q s → Inside q ('\\' :: c :: s)

/-- After `($` a function written without a gap may not begin with a letter sequence that is a keyword. -/
def NoKeyword (s : Str) : Prop :=
  ¬ ['q', 'u', 'o', 't', 'e'] <+: s ∧ ¬ ['c', 'o', 'd', 'e'] <+: s ∧ ¬ ['e', 'm', 'i', 't'] <+: s ∧
  ¬ ['l', 'e', 't'] <+: s ∧ ¬ ['{', '}'] <+: s

/-- A text that does not begin with `\name` unless a dot follows: that would be a named argument. -/
def NotNamed (s : Str) : Prop :=
  ∀ a g r, s = '\\' :: (a ++ (g ++ r)) → IsName a → IsGap g → NoName (g ++ r) → NoGap r → r.head? = some '.'

/-- The places where a text may be written; they differ in how it ends. -/
inductive TextEnd where
  | file    -- the end of the file
  | lines   -- `]`, text on lines of its own, `[`
  | bracket -- `]` text `[` and the end of the application
  | square  -- `[` text `]`
  | paren   -- `($code` text `)`, `(${}` text `)`
  | comma   -- `,,` text, then `;;`, or the next `,,`, or the end of the application
  | brace   -- `{` text `}`

/-- Kinds of things that are written down: a form, a form that is no conditional, a form that may be the
    body of a function; the rest of a list, of the arguments of a function called `fn`, of parameters; a text in
    which `sq` square brackets and `pth` parentheses are open, and the rest of a text behind the plain text `w`. -/
inductive Cat where
  | form (x : Expr)
  | former (x : Expr)
  | body (x : Expr)
  | items (xs : ExprArgs)
  | args (fn : Option Str) (xs : ExprArgs) (ms : ExprNamed)
  | params (late : List Str) (ps : ExprParams)
  | text (k : TextEnd) (sq pth : Nat) (xs : ExprText)
  | run (k : TextEnd) (sq pth : Nat) (w : Str) (xs : ExprText)

/-- The end of `($let ..)`, `($emit ..)`: an optional tag and `)`. -/
inductive Closing (tag : Str) : Str → Str → Prop where
  | plain {r : Str} : Closing tag (')' :: r) r
  | tag {g r : Str} : IsGap g → Closing tag ('\\' :: (tag ++ (g ++ ')' :: r))) r

/-- The left side of a definition. -/
inductive WrittenTarget : Target → Str → Prop where
  | one {a : Str} : IsName a → WrittenTarget (.one a) a
  | many {as : List Str} {g t : Str} : IsGap g → Names as t → as ≠ [] →
      WrittenTarget (.many as) ('(' :: (g ++ (t ++ [')'])))

/-! ## Texts -/

/-- A line end. -/
def LineEnd (c : Char) : Prop := c = '\n' ∨ c = '\r'

/-- The end of an application: `)`, or `\name)`. -/
def CloseAhead (r : Str) : Prop :=
  ∃ g t, IsGap g ∧ (r = g ++ ')' :: t ∨ ∃ a g', IsName a ∧ IsGap g' ∧ r = g ++ '\\' :: (a ++ (g' ++ ')' :: t)))

/-- `EndsAt k sq pth s r`: at `s` a text ends, what follows it is `r`. -/
inductive EndsAt : TextEnd → Nat → Nat → Str → Str → Prop where
  | file {sq pth : Nat} : EndsAt .file sq pth [] []
  | lines {sq pth : Nat} {c : Char} {b r : Str} : LineEnd c → Blanks b → EndsAt .lines sq pth (c :: (b ++ '[' :: r)) r
  | lines' {sq pth : Nat} {c : Char} {b r : Str} : LineEnd c → Blanks b →
      EndsAt .lines sq pth (c :: (b ++ '\\' :: '[' :: r)) r
  | bracket {sq pth : Nat} {r : Str} : CloseAhead r → EndsAt .bracket sq pth ('[' :: r) r
  | bracket' {sq pth : Nat} {r : Str} : CloseAhead r → EndsAt .bracket sq pth ('\\' :: '[' :: r) r
  | square {pth : Nat} {r : Str} : EndsAt .square 0 pth (']' :: r) r
  | paren {sq : Nat} {r : Str} : EndsAt .paren sq 0 (')' :: r) r
  | semi {sq pth : Nat} {r : Str} : EndsAt .comma sq pth (';' :: ';' :: r) r
  | comma {sq pth : Nat} {r : Str} : EndsAt .comma sq pth (',' :: ',' :: r) (',' :: ',' :: r)
  | close {sq : Nat} {r : Str} : EndsAt .comma sq 0 (')' :: r) (')' :: r)
  | tag {sq : Nat} {a g r : Str} : IsName a → IsGap g →
      EndsAt .comma sq 0 ('\\' :: (a ++ (g ++ ')' :: r))) ('\\' :: (a ++ (g ++ ')' :: r)))
  | brace {sq pth : Nat} {r : Str} : EndsAt .brace sq pth ('}' :: r) r

/-- The number of open brackets after a character. -/
def opened (op cl : Char) (d : Nat) (c : Char) : Nat := if c = op then d + 1 else if c = cl then d - 1 else d

/-- The text is not a definition, an import, a macro or a comment. -/
def NoDirective (s : Str) : Prop :=
  ¬ ['(', '$', 's', 'e', 't'] <+: s ∧ ¬ ['(', '$', 'i', 'm', 'p', 'o', 'r', 't'] <+: s ∧
  ¬ ['(', '$', 'm', 'a', 'c', 'r', 'o'] <+: s ∧ ¬ ['(', '$', '!'] <+: s

/-- The inside of a C literal in quotes `q`; it may go over several lines. -/
inductive InsideC (q : Char) : Str → Prop where
  | nil : InsideC q []
  | char {c : Char} {s : Str} : c ≠ q → c ≠ '\\' → InsideC q s → InsideC q (c :: s)
  | escape {c : Char} {s : Str} : c ≠ '\n' → InsideC q s → InsideC q ('\\' :: c :: s)

/-- A quotation mark. -/
def QuoteMark (q : Char) : Prop := q = '"' ∨ q = '\''

/-- What may stand in front of a Python literal. -/
def LiteralPrefix (p : Str) : Prop :=
  p = [] ∨ (∃ u, (u = 'u' ∨ u = 'U') ∧ p = [u]) ∨ (∃ r, (r = 'r' ∨ r = 'R') ∧ p = [r]) ∨
  ∃ u r, (u = 'u' ∨ u = 'U') ∧ (r = 'r' ∨ r = 'R') ∧ p = [u, r]

/-- The inside of a long Python literal: it ends at the first three quotation marks `q` in a row. -/
inductive InsideLong (q : Char) : Str → Prop where
  | nil : InsideLong q []
  | char {c : Char} {s : Str} : c ≠ '\\' → (c = q → ¬ [q, q] <+: s ++ [q, q, q]) → InsideLong q s → InsideLong q (c :: s)
  | escape {c : Char} {s : Str} : InsideLong q s → InsideLong q ('\\' :: c :: s)

/-- The inside of a Python literal, each of whose lines but the last ends with a backslash. -/
inductive InsideLines (q : Char) : Str → Prop where
  | nil : InsideLines q []
  | char {c : Char} {s : Str} : c ≠ q → c ≠ '\\' → c ≠ '\n' → InsideLines q s → InsideLines q (c :: s)
  | escape {c : Char} {s : Str} : InsideLines q s → InsideLines q ('\\' :: c :: s)

/-- The mark that ends a literal continued over lines: that at its beginning `q` — but an apostrophe if there is one in
    its first line `a` (see C77). -/
def ClosingMark (q : Char) (a : Str) (z : Char) : Prop :=
  ('\'' ∈ q :: a ∧ z = '\'') ∨ ('\'' ∉ q :: a ∧ z = q)

/-- `TextLiteral m l s`: the literal `l` in a text; `s` follows it. -/
inductive TextLiteral (m : Mode) : Str → Str → Prop where
  | c {q : Char} {a s : Str} : m.python = false → QuoteMark q → InsideC q a → TextLiteral m (q :: (a ++ [q])) s
  | py {p : Str} {q : Char} {a s : Str} : m.python = true → LiteralPrefix p → QuoteMark q → Inside q a →
      a ≠ [] ∨ s.head? ≠ some q → TextLiteral m (p ++ q :: (a ++ [q])) s
  | long {p : Str} {q : Char} {a s : Str} : m.python = true → LiteralPrefix p → QuoteMark q → InsideLong q a →
      TextLiteral m (p ++ q :: q :: q :: (a ++ [q, q, q])) s
  | lines {p : Str} {q z : Char} {a b s : Str} : m.python = true → LiteralPrefix p → QuoteMark q → Inside q a →
      ClosingMark q a z → InsideLines z b → TextLiteral m (p ++ q :: (a ++ '\\' :: '\n' :: (b ++ [z]))) s

/-- A literal, possibly a long one, begins here. -/
inductive StartsLiteral (m : Mode) : Str → Prop where
  | c {q : Char} {a s : Str} : m.python = false → QuoteMark q → InsideC q a → StartsLiteral m (q :: (a ++ q :: s))
  | py {p : Str} {q : Char} {a s : Str} : m.python = true → LiteralPrefix p → QuoteMark q → Inside q a →
      StartsLiteral m (p ++ q :: (a ++ q :: s))
  | long {p : Str} {q : Char} {s : Str} : m.python = true → LiteralPrefix p → QuoteMark q →
      StartsLiteral m (p ++ q :: q :: q :: s)
  | lines {p : Str} {q : Char} {a s : Str} : m.python = true → LiteralPrefix p → QuoteMark q → Inside q a →
      StartsLiteral m (p ++ q :: (a ++ '\\' :: '\n' :: s))

/-- `TextRemark k l s`: the comment `l` of the target language; `s` follows it. -/
inductive TextRemark : Remarks → Str → Str → Prop where
  | line {w s : Str} : (∀ c ∈ w, ¬ LineEnd c) → (∀ c, s.head? = some c → LineEnd c) →
      TextRemark .c ('/' :: '/' :: w) s
  | block {w s : Str} : (∀ a b, w ++ ['*'] ≠ a ++ '*' :: '/' :: b) → TextRemark .c ('/' :: '*' :: (w ++ ['*', '/'])) s
  | python {w s : Str} : (∀ c ∈ w, ¬ LineEnd c) → (∀ c, s.head? = some c → LineEnd c) →
      TextRemark .python ('#' :: w) s

/-- A comment of the target language begins here. -/
def StartsRemark : Remarks → Str → Prop
  | .none, _ => False
  | .c, s => ['/', '/'] <+: s ∨ ['/', '*'] <+: s
  | .python, s => ['#'] <+: s

/-- The character `c` in front of `s` is plain text: it is admissible, the text does not end here, and nothing else
    begins here. -/
structure PlainAt (m : Mode) (k : TextEnd) (sq pth : Nat) (c : Char) (s : Str) : Prop where
  admissible : Admissible c
  goesOn : ∀ r, ¬ EndsAt k sq pth (c :: s) r
  form : ¬ ['(', '$'] <+: c :: s
  quote : ¬ ['(', '`'] <+: c :: s
  literal : ¬ StartsLiteral m (c :: s)
  remark : ¬ StartsRemark m.remarks (c :: s)

/-- The grammar: `Reads m k s r` means that the text `s` begins with a `k` and `r` is what follows it (after
    a form, a list item or an argument: what follows the white space behind it). -/
inductive Reads (m : Mode) : Cat → Str → Str → Prop where
  -- a form is a former or a conditional
  | one {x : Expr} {s g r : Str} : Reads m (.former x) s (g ++ r) → IsGap g → NoGap r → r.head? ≠ some '?' →
      Reads m (.form x) s r
  | cond {c x y : Expr} {s g1 g2 g3 g4 s2 s3 r : Str} :
      Reads m (.former x) s (g1 ++ '?' :: (g2 ++ s2)) → Reads m (.former c) s2 (g3 ++ '|' :: (g4 ++ s3)) →
      Reads m (.form y) s3 r → IsGap g1 → IsGap g2 → IsGap g3 → IsGap g4 → Reads m (.form (.cond c x y)) s r
  | when {c x : Expr} {s g1 g2 g3 s2 r : Str} :
      Reads m (.former x) s (g1 ++ '?' :: (g2 ++ s2)) → Reads m (.former c) s2 (g3 ++ r) →
      IsGap g1 → IsGap g2 → IsGap g3 → NoGap r → r.head? ≠ some '|' → Reads m (.form (.when c x)) s r
  -- formers
  | name {late : Bool} {rs : List Str} {a t r : Str} : WrittenName late rs a t → Ended r →
      Reads m (.former (.name late rs a)) (t ++ r) r
  | int {g b f r : Str} {n : Nat} {v : Int} : Signed g n v → Literal b n → f = [] ∨ f = ['l'] ∨ f = ['L'] →
      Ended r → Reads m (.former (.int v)) (g ++ (b ++ (f ++ r))) r
  | literal {q : Char} {s r : Str} : q = '"' ∨ q = '\'' → Inside q s → Ended r →
      Reads m (.former (.str (q :: (s ++ [q])))) (q :: (s ++ q :: r)) r
  | quote {s r : Str} : Balanced s → (∀ c ∈ s, Admissible c) →
      Reads m (.former (.str s)) ('(' :: '`' :: (s ++ ')' :: r)) r
  | quote' {s r : Str} : Balanced s → (∀ c ∈ s, Admissible c) →
      Reads m (.former (.str s)) ('(' :: '$' :: 'q' :: 'u' :: 'o' :: 't' :: 'e' :: (s ++ ')' :: r)) r
  | fn {ps : ExprParams} {x : Expr} {s s' r : Str} : Reads m (.params [] ps) s s' → Reads m (.body x) s' r →
      s.head? = some '\\' → Reads m (.former (.fn ps x)) s r
  | fnOf {late : Bool} {rs : List Str} {a t g1 g2 g3 s r : Str} {x : Expr} : WrittenName late rs a t →
      IsGap g1 → IsGap g2 → IsGap g3 → Reads m (.body x) s r →
      Reads m (.former (.fnOf late rs a x)) ('\\' :: '(' :: (g1 ++ (t ++ (g2 ++ ')' :: '.' :: (g3 ++ s))))) r
  | former {x : Expr} {s r : Str} : Reads m (.body x) s r → Reads m (.former x) s r
  -- bodies
  | list {xs : ExprArgs} {g s r : Str} : IsGap g → Reads m (.items xs) s r →
      Reads m (.body (.list xs)) ('(' :: (g ++ s)) r
  | app {f : Expr} {xs : ExprArgs} {ms : ExprNamed} {g s s' r : Str} : IsGap g → g ≠ [] ∨ NoKeyword s →
      Reads m (.form f) s s' → Reads m (.args f.fname xs ms) s' r → Reads m (.body (.app f xs ms)) ('(' :: '$' :: (g ++ s)) r
  | eval {f : Expr} {xs : ExprArgs} {ms : ExprNamed} {g s s' r : Str} : IsGap g → Reads m (.form f) s s' →
      Reads m (.args f.fname xs ms) s' r → Reads m (.body (.eval f xs ms)) ('(' :: '$' :: '$' :: (g ++ s)) r
  | letIn {t : Target} {x y : Expr} {g1 g2 u s s' s'' r : Str} : IsGap g1 → WrittenTarget t u → IsGap g2 →
      Reads m (.form x) s s' → Reads m (.form y) s' s'' → Closing ['l', 'e', 't'] s'' r →
      NoName (g2 ++ s) ∨ (∃ as, t = .many as) →
      Reads m (.body (.letIn t x y)) ('(' :: '$' :: 'l' :: 'e' :: 't' :: (g1 ++ (u ++ (g2 ++ s)))) r
  | emit {late : Bool} {rs : List Str} {a t g1 g2 r : Str} : IsGap g1 → WrittenName late rs a t → IsGap g2 →
      Reads m (.body (.emit late rs a)) ('(' :: '$' :: 'e' :: 'm' :: 'i' :: 't' :: (g1 ++ (t ++ (g2 ++ ')' :: r)))) r
  | emitWith {late : Bool} {rs : List Str} {a t g1 g2 s s' r : Str} {f : Expr} : IsGap g1 →
      WrittenName late rs a t → IsGap g2 → Ended (g2 ++ s) → Reads m (.form f) s s' →
      Closing ['e', 'm', 'i', 't'] s' r →
      Reads m (.body (.emitWith late rs a f)) ('(' :: '$' :: 'e' :: 'm' :: 'i' :: 't' :: (g1 ++ (t ++ (g2 ++ s)))) r
  -- lists
  | itemsEnd {r : Str} : Reads m (.items .nil) (')' :: r) r
  | item {x : Expr} {xs : ExprArgs} {s s' r : Str} : Reads m (.form x) s s' → Reads m (.items xs) s' r →
      Reads m (.items (.pos x xs)) s r
  | itemEmbed {x : Expr} {xs : ExprArgs} {g s s' r : Str} : IsGap g → Reads m (.form x) s s' →
      Reads m (.items xs) s' r → Reads m (.items (.embed x xs)) ('*' :: (g ++ s)) r
  -- arguments: positional and named ones in any order
  | argsEnd {fn : Option Str} {r : Str} : Reads m (.args fn .nil .nil) (')' :: r) r
  | argsTag {a g r : Str} : IsName a → IsGap g →
      Reads m (.args (some a) .nil .nil) ('\\' :: (a ++ (g ++ ')' :: r))) r
  | arg {fn : Option Str} {x : Expr} {xs : ExprArgs} {ms : ExprNamed} {s s' r : Str} : NotNamed s →
      Reads m (.form x) s s' → Reads m (.args fn xs ms) s' r → Reads m (.args fn (.pos x xs) ms) s r
  | argEmbed {fn : Option Str} {x : Expr} {xs : ExprArgs} {ms : ExprNamed} {g s s' r : Str} : IsGap g →
      Reads m (.form x) s s' → Reads m (.args fn xs ms) s' r → Reads m (.args fn (.embed x xs) ms) ('*' :: (g ++ s)) r
  | argNamed {fn : Option Str} {a : Str} {x : Expr} {xs : ExprArgs} {ms : ExprNamed} {g s s' r : Str} : IsName a →
      fn ≠ some a → IsGap g → NoName (g ++ s) → Reads m (.form x) s s' → Reads m (.args fn xs ms) s' r →
      Reads m (.args fn xs (.cons a x ms)) ('\\' :: (a ++ (g ++ s))) r
  -- parameters
  | paramsEnd {r : Str} : r.head? ≠ some '\\' → Reads m (.params [] .nil) r r
  | late {a g s r : Str} {l : List Str} {ps : ExprParams} : IsName a → IsGap g →
      Reads m (.params (l ++ [a]) ps) s r → Reads m (.params l ps) ('\\' :: (a ++ '.' :: '.' :: (g ++ s))) r
  | par {a g s r : Str} {l : List Str} {ps : ExprParams} : IsName a → IsGap g → NoGap s → s.head? ≠ some '.' →
      Reads m (.params [] ps) s r → Reads m (.params l (.par l a ps)) ('\\' :: (a ++ '.' :: (g ++ s))) r
  | dflt {a g t s r : Str} {x : Expr} {l : List Str} {ps : ExprParams} : IsName a → IsGap g → NoGap s →
      s.head? ≠ some '.' → Reads m (.form x) t ('.' :: (g ++ s)) → Reads m (.params [] ps) s r →
      Reads m (.params l (.dflt l a x ps)) ('\\' :: (a ++ ':' :: t)) r
  | dots {g s r : Str} {ps : ExprParams} : IsGap g → NoGap s → Reads m (.params [] ps) s r →
      Reads m (.params [] (.dots ps)) ('\\' :: '.' :: '.' :: '.' :: (g ++ s)) r
  -- texts as arguments
  | square {xs : ExprText} {s r : Str} : Reads m (.text .square 0 0 xs) s r → Reads m (.body (.code xs)) ('[' :: s) r
  | code {xs : ExprText} {s r : Str} : Reads m (.text .paren 0 0 xs) s r →
      Reads m (.body (.code xs)) ('(' :: '$' :: 'c' :: 'o' :: 'd' :: 'e' :: s) r
  | comma {xs : ExprText} {s r : Str} : Reads m (.text .comma 0 0 xs) s r → Reads m (.body (.code xs)) (',' :: ',' :: s) r
  | lines {xs : ExprText} {b s r : Str} {c : Char} : Blanks b → LineEnd c → Reads m (.text .lines 0 0 xs) s r →
      Reads m (.body (.code xs)) (']' :: (b ++ c :: s)) r
  | bracket {xs : ExprText} {s r : Str} : (∀ b c t, s = b ++ c :: t → Blanks b → ¬ LineEnd c) →
      Reads m (.text .bracket 0 0 xs) s r → Reads m (.body (.code xs)) (']' :: s) r
  | brace {xs : ExprText} {s r : Str} : Reads m (.text .brace 0 0 xs) s r → Reads m (.body (.python xs)) ('{' :: s) r
  | python {xs : ExprText} {s r : Str} : Reads m (.text .paren 0 0 xs) s r →
      Reads m (.body (.python xs)) ('(' :: '$' :: '{' :: '}' :: s) r
  -- texts
  | textEnd {k : TextEnd} {sq pth : Nat} {s r : Str} : EndsAt k sq pth s r → Reads m (.text k sq pth .nil) s r
  | textChar {k : TextEnd} {sq pth : Nat} {c : Char} {xs : ExprText} {s r : Str} : PlainAt m k sq pth c s →
      Reads m (.run k (opened '[' ']' sq c) (opened '(' ')' pth c) [c] xs) s r → Reads m (.text k sq pth xs) (c :: s) r
  | textExpr {k : TextEnd} {sq pth : Nat} {x : Expr} {xs : ExprText} {s s' r : Str} : Reads m (.body x) s s' →
      ['(', '$'] <+: s → NoDirective s → Reads m (.text k sq pth xs) s' r → Reads m (.text k sq pth (.expr x xs)) s r
  | textSet {k : TextEnd} {sq pth : Nat} {t : Target} {x : Expr} {xs : ExprText} {g1 g2 u s s' s'' r : Str} : IsGap g1 →
      WrittenTarget t u → IsGap g2 → Reads m (.form x) s s' → Closing ['s', 'e', 't'] s' s'' →
      NoName (g2 ++ s) ∨ (∃ as, t = .many as) → Reads m (.text k sq pth xs) s'' r →
      Reads m (.text k sq pth (.set t x xs)) ('(' :: '$' :: 's' :: 'e' :: 't' :: (g1 ++ (u ++ (g2 ++ s)))) r
  | textMacro {k : TextEnd} {sq pth : Nat} {a : Str} {as : List Str} {b : Str} {xs : ExprText} {g1 g2 g3 t s r : Str} :
      IsGap g1 → IsName a → IsGap g2 → IsGap g3 → Names as t → Balanced b → (∀ c ∈ b, Admissible c) →
      Reads m (.text k sq pth xs) s r →
      Reads m (.text k sq pth (.macro a as b xs)) ('(' :: '$' :: 'm' :: 'a' :: 'c' :: 'r' :: 'o' ::
        (g1 ++ (a ++ (g2 ++ '(' :: (g3 ++ (t ++ ')' :: (b ++ ')' :: s))))))) r
  | textComment {k : TextEnd} {sq pth : Nat} {xs : ExprText} {b s r : Str} : Balanced b → (∀ c ∈ b, Admissible c) →
      Reads m (.text k sq pth xs) s r → Reads m (.text k sq pth (.comment xs)) ('(' :: '$' :: '!' :: (b ++ ')' :: s)) r
  | textQuote {k : TextEnd} {sq pth : Nat} {xs : ExprText} {b s r : Str} : Balanced b → (∀ c ∈ b, Admissible c) →
      Reads m (.text k sq pth xs) s r → Reads m (.text k sq pth (.str b xs)) ('(' :: '`' :: (b ++ ')' :: s)) r
  | textQuote' {k : TextEnd} {sq pth : Nat} {xs : ExprText} {b s r : Str} : Balanced b → (∀ c ∈ b, Admissible c) →
      Reads m (.text k sq pth xs) s r →
      Reads m (.text k sq pth (.str b xs)) ('(' :: '$' :: 'q' :: 'u' :: 'o' :: 't' :: 'e' :: (b ++ ')' :: s)) r
  | textLiteral {k : TextEnd} {sq pth : Nat} {xs : ExprText} {l s r : Str} : TextLiteral m l s →
      Reads m (.text k sq pth xs) s r → Reads m (.text k sq pth (.str l xs)) (l ++ s) r
  | textRemark {k : TextEnd} {sq pth : Nat} {xs : ExprText} {l s r : Str} : TextRemark m.remarks l s →
      Reads m (.text k sq pth xs) s r → Reads m (.text k sq pth (.remark l xs)) (l ++ s) r
  | runChar {k : TextEnd} {sq pth : Nat} {w : Str} {c : Char} {xs : ExprText} {s r : Str} : PlainAt m k sq pth c s →
      Reads m (.run k (opened '[' ']' sq c) (opened '(' ')' pth c) (w ++ [c]) xs) s r →
      Reads m (.run k sq pth w xs) (c :: s) r
  | runEnd {k : TextEnd} {sq pth : Nat} {w : Str} {xs : ExprText} {s r : Str} : xs.startsPlain = false →
      Reads m (.text k sq pth xs) s r → Reads m (.run k sq pth w (.chars w xs)) s r

/-! ## Syntax trees -/

/-- The left side of a definition in the syntax tree. -/
inductive TargetTree : Target → LVal → Prop where
  | one {a : Src} : TargetTree (.one a.txt) (.one a)
  | many {as : List Src} : TargetTree (.many (as.map (·.txt))) (.many as)

/-- The indent of the place behind the plain text `w`: the white space the line begins with, if there is nothing
    else on the line. `first`: `w` stands at the beginning of the text. -/
inductive Indented (first : Bool) : Str → Indent → Prop where
  | first {w : Str} : first = true → Blanks w → Indented first w (.str w)
  | inside {w : Str} : first = false → Blanks w → Indented first w .none
  | line {a b : Str} {c : Char} : LineEnd c → Blanks b → Indented first (a ++ c :: b) (.str b)
  | text {a b : Str} {c : Char} : ¬ GapChar c → (∀ x ∈ b, ¬ LineEnd x) → Indented first (a ++ c :: b) .no

mutual
/-- The syntax tree of an expression. Locations are left open; they are the subject of C19. -/
inductive Tree : Expr → Node → Prop where
  | name {late : Bool} {rs : List Src} {a : Src} : Tree (.name late (rs.map (·.txt)) a.txt) (.var late rs a)
  | int {n : Int} : Tree (.int n) (.int n)
  | str {s : Src} : Tree (.str s.txt) (.str s)
  | list {xs : ExprArgs} {ns : List Node} : ArgTrees xs ns → Tree (.list xs) (.list ns)
  | app {f : Expr} {xs : ExprArgs} {ys : ExprNamed} {n : Node} {ns : List Node} {ms : List (Src × Node)}
      {l : Option Loc} : Tree f n → ArgTrees xs ns → NamedTrees ys ms → Tree (.app f xs ys) (.apply n ns ms l)
  | eval {f : Expr} {xs : ExprArgs} {ys : ExprNamed} {n : Node} {ns : List Node} {ms : List (Src × Node)}
      {l : Option Loc} {d : Src} : Tree f n → ArgTrees xs ns → NamedTrees ys ms →
      Tree (.eval f xs ys) (.eval (.apply n ns ms l) (some d) none)
  | fn {ps : ExprParams} {x : Expr} {bs : List (List Src × Src × Option Node)} {n : Node} :
      ParamTrees ps bs → Tree x n → Tree (.fn ps x) (.lambda bs n)
  | fnOf {late : Bool} {rs : List Src} {a : Src} {x : Expr} {n : Node} : Tree x n →
      Tree (.fnOf late (rs.map (·.txt)) a.txt x) (.lambdaVar late rs a n)
  | cond {c x y : Expr} {nc nx ny : Node} : Tree c nc → Tree x nx → Tree y ny →
      Tree (.cond c x y) (.cond nc nx ny)
  | when {c x : Expr} {nc nx : Node} : Tree c nc → Tree x nx → Tree (.when c x) (.cond nc nx .none)
  | letIn {t : Target} {v : LVal} {x y : Expr} {nx ny : Node} : TargetTree t v → Tree x nx → Tree y ny →
      Tree (.letIn t x y) (.letn v nx ny)
  | emit {late : Bool} {rs : List Src} {a : Src} :
      Tree (.emit late (rs.map (·.txt)) a.txt) (.emit late rs a .none)
  | emitWith {late : Bool} {rs : List Src} {a : Src} {f : Expr} {n : Node} : Tree f n →
      Tree (.emitWith late (rs.map (·.txt)) a.txt f) (.emit late rs a n)
  | code {xs : ExprText} {ns : List Node} : TextTrees true xs ns → Tree (.code xs) (.text ns)
  | python {xs : ExprText} {ns : List Node} {l : Option Loc} : TextTrees true xs ns →
      Tree (.python xs) (.infix (.text ns) l)

/-- The trees of list items and positional arguments. -/
inductive ArgTrees : ExprArgs → List Node → Prop where
  | nil : ArgTrees .nil []
  | pos {x : Expr} {xs : ExprArgs} {n : Node} {ns : List Node} : Tree x n → ArgTrees xs ns →
      ArgTrees (.pos x xs) (n :: ns)
  | embed {x : Expr} {xs : ExprArgs} {n : Node} {ns : List Node} : Tree x n → ArgTrees xs ns →
      ArgTrees (.embed x xs) (.embed n :: ns)

/-- The trees of named arguments. -/
inductive NamedTrees : ExprNamed → List (Src × Node) → Prop where
  | nil : NamedTrees .nil []
  | cons {a : Src} {x : Expr} {xs : ExprNamed} {n : Node} {ms : List (Src × Node)} : Tree x n → NamedTrees xs ms →
      NamedTrees (.cons a.txt x xs) ((a, n) :: ms)

/-- The trees of parameters; `...` stands for the remaining arguments. -/
inductive ParamTrees : ExprParams → List (List Src × Src × Option Node) → Prop where
  | nil : ParamTrees .nil []
  | par {l : List Src} {a : Src} {ps : ExprParams} {bs : List (List Src × Src × Option Node)} :
      a.txt ≠ ['.', '.', '.'] → ParamTrees ps bs → ParamTrees (.par (l.map (·.txt)) a.txt ps) ((l, a, none) :: bs)
  | dflt {l : List Src} {a : Src} {x : Expr} {n : Node} {ps : ExprParams}
      {bs : List (List Src × Src × Option Node)} : Tree x n → ParamTrees ps bs →
      ParamTrees (.dflt (l.map (·.txt)) a.txt x ps) ((l, a, some n) :: bs)
  | dots {ps : ExprParams} {bs : List (List Src × Src × Option Node)} : ParamTrees ps bs →
      ParamTrees (.dots ps) (([], { txt := ['.', '.', '.'] }, none) :: bs)

/-- The parts of a text. `first`: nothing precedes them. -/
inductive TextTrees : Bool → ExprText → List Node → Prop where
  | nil {f : Bool} : TextTrees f .nil []
  | chars {f : Bool} {w : Src} {i : Indent} {xs : ExprText} {ns : List Node} : Indented f w.txt i →
      TextTrees false xs ns → TextTrees f (.chars w.txt xs) (.plain w i false :: ns)
  | expr {f : Bool} {x : Expr} {n : Node} {xs : ExprText} {ns : List Node} : (∀ s, x ≠ .str s) → Tree x n →
      TextTrees false xs ns → TextTrees f (.expr x xs) (n :: ns)
  | set {f : Bool} {t : Target} {v : LVal} {x : Expr} {n : Node} {xs : ExprText} {ns : List Node} : TargetTree t v →
      Tree x n → TextTrees false xs ns → TextTrees f (.set t x xs) (.set v n :: ns)
  | macro {f : Bool} {a : Src} {as : List Src} {b : Src} {xs : ExprText} {ns : List Node} : TextTrees false xs ns →
      TextTrees f (.macro a.txt (as.map (·.txt)) b.txt xs) (.macro a as b :: ns)
  | comment {f : Bool} {xs : ExprText} {ns : List Node} : TextTrees false xs ns →
      TextTrees f (.comment xs) (.comment :: ns)
  | str {f : Bool} {s : Src} {xs : ExprText} {ns : List Node} : TextTrees false xs ns →
      TextTrees f (.str s.txt xs) (.str s :: ns)
  | remark {f : Bool} {s : Src} {xs : ExprText} {ns : List Node} : TextTrees false xs ns →
      TextTrees f (.remark s.txt xs) (.remark s :: ns)
end

end Yupp
