import Verif.Spec.Syntax
/-!
# What a program must look like to be accepted

Specification for C96: the grammar in the other direction. `Accepts m k s r` relates a text `s` to the syntax tree
in `k` that is made of its beginning; `r` is what follows. It has the productions of `Reads` (Spec/Syntax) without the
conditions on what follows a name or a number, and those `Reads` leaves out: floating point numbers, imports, defaults
of late parameters. Of the model only the type of syntax trees is used.
-/

namespace Yupp

/-- Parts of a text: a character of its plain text, or something else. -/
inductive TextPart where
  | char (c : Char)
  | node (x : Node)

/-- The parts of a text. -/
def textParts : List Node → List TextPart
  | [] => []
  | .plain s _ _ :: xs => s.txt.map .char ++ textParts xs
  | x :: xs => .node x :: textParts xs

/-- The name of a function that is a name. -/
def calledAs : Node → Option Str
  | .var _ _ a => some a.txt
  | _ => none

/-- The left side of a definition, as it is written. -/
inductive TargetWritten : LVal → Str → Prop where
  | one {a : Src} : IsName a.txt → TargetWritten (.one a) a.txt
  | many {as : List Src} {g t : Str} : IsGap g → Names (as.map (·.txt)) t → as ≠ [] →
      TargetWritten (.many as) ('(' :: (g ++ (t ++ [')'])))

/-- A character of a number: a letter, a digit, a sign, a point, a blank. -/
def NumeralChar (c : Char) : Prop := NameChar c ∨ c = '+' ∨ c = '.' ∨ c = ' ' ∨ c = '\t'

/-- A text in parentheses of its own: balanced, and of admissible characters. -/
def Enclosed (b : Str) : Prop := Balanced b ∧ ∀ c ∈ b, Admissible c

/-- A literal; of one continued over lines only its first line and its end are looked at (a line that ends with two
    backslashes is continued, too). -/
inductive LiteralWritten (m : Mode) : Str → Str → Prop where
  | text {l s : Str} : TextLiteral m l s → LiteralWritten m l s
  | lines {p : Str} {q z : Char} {a b s : Str} : m.python = true → LiteralPrefix p → QuoteMark q → Inside q a →
      ClosingMark q a z → LiteralWritten m (p ++ q :: (a ++ '\\' :: '\n' :: (b ++ [z]))) s

/-- What is recognised: a form, a form that is no conditional, one that may be the body of a function; the items of a
    list; the arguments of a function called `fn`; the parameters of a function, `late` being read already; a text in
    which `sq` square brackets and `pth` parentheses are open. -/
inductive Heard where
  | form (x : Node)
  | former (x : Node)
  | body (x : Node)
  | items (xs : List Node)
  | args (fn : Option Str) (xs : List Node) (ms : List (Src × Node))
  | params (late : List Src) (bs : List (List Src × Src × Option Node))
  | text (k : TextEnd) (sq pth : Nat) (xs : List TextPart)

/-- The grammar of accepted programs. -/
inductive Accepts (m : Mode) : Heard → Str → Str → Prop where
  -- a form is a former or a conditional
  | one {x : Node} {s g r : Str} : Accepts m (.former x) s (g ++ r) → IsGap g → Accepts m (.form x) s r
  | cond {c x y : Node} {s g1 g2 g3 g4 s2 s3 r : Str} :
      Accepts m (.former x) s (g1 ++ '?' :: (g2 ++ s2)) → Accepts m (.former c) s2 (g3 ++ '|' :: (g4 ++ s3)) →
      Accepts m (.form y) s3 r → IsGap g1 → IsGap g2 → IsGap g3 → IsGap g4 → Accepts m (.form (.cond c x y)) s r
  | when {c x : Node} {s g1 g2 g3 s2 r : Str} :
      Accepts m (.former x) s (g1 ++ '?' :: (g2 ++ s2)) → Accepts m (.former c) s2 (g3 ++ r) →
      IsGap g1 → IsGap g2 → IsGap g3 → Accepts m (.form (.cond c x .none)) s r
  -- formers
  | name {late : Bool} {rs : List Src} {a : Src} {t r : Str} : WrittenName late (rs.map (·.txt)) a.txt t →
      Accepts m (.former (.var late rs a)) (t ++ r) r
  | int {w r : Str} {v : Int} : w ≠ [] → (∀ c ∈ w, NumeralChar c) → Accepts m (.former (.int v)) (w ++ r) r
  | float {w r : Str} {f : PyFloat} : w ≠ [] → (∀ c ∈ w, NumeralChar c) → Accepts m (.former (.float f)) (w ++ r) r
  | literal {q : Src} {r : Str} : LiteralWritten m q.txt r → Accepts m (.former (.str q)) (q.txt ++ r) r
  | quote {q : Src} {r : Str} : Enclosed q.txt → Accepts m (.former (.str q)) ('(' :: '`' :: (q.txt ++ ')' :: r)) r
  | quote' {q : Src} {r : Str} : Enclosed q.txt →
      Accepts m (.former (.str q)) ('(' :: '$' :: 'q' :: 'u' :: 'o' :: 't' :: 'e' :: (q.txt ++ ')' :: r)) r
  | fn {bs : List (List Src × Src × Option Node)} {x : Node} {s s' r : Str} : Accepts m (.params [] bs) s s' →
      Accepts m (.body x) s' r → s.head? = some '\\' → Accepts m (.former (.lambda bs x)) s r
  | fnOf {late : Bool} {rs : List Src} {a : Src} {t g1 g2 g3 s r : Str} {x : Node} :
      WrittenName late (rs.map (·.txt)) a.txt t → IsGap g1 → IsGap g2 → IsGap g3 → Accepts m (.body x) s r →
      Accepts m (.former (.lambdaVar late rs a x)) ('\\' :: '(' :: (g1 ++ (t ++ (g2 ++ ')' :: '.' :: (g3 ++ s))))) r
  | former {x : Node} {s r : Str} : Accepts m (.body x) s r → Accepts m (.former x) s r
  -- bodies
  | list {xs : List Node} {g s r : Str} : IsGap g → Accepts m (.items xs) s r → Accepts m (.body (.list xs)) ('(' :: (g ++ s)) r
  | app {f : Node} {xs : List Node} {ms : List (Src × Node)} {l : Option Loc} {g g' s s' r : Str} : IsGap g →
      Accepts m (.form f) s s' → Accepts m (.args (calledAs f) xs ms) s' (g' ++ ')' :: r) → IsGap g' →
      Accepts m (.body (.apply f xs ms l)) ('(' :: '$' :: (g ++ s)) r
  | eval {f : Node} {xs : List Node} {ms : List (Src × Node)} {l : Option Loc} {d : Src} {g g' s s' r : Str} : IsGap g →
      Accepts m (.form f) s s' → Accepts m (.args (calledAs f) xs ms) s' (g' ++ ')' :: r) → IsGap g' →
      Accepts m (.body (.eval (.apply f xs ms l) (some d) none)) ('(' :: '$' :: '$' :: (g ++ s)) r
  | letIn {t : LVal} {x y : Node} {g1 g2 g3 g4 u s s' s'' r : Str} : IsGap g1 → TargetWritten t u → IsGap g2 →
      Accepts m (.form x) s (g3 ++ s') → IsGap g3 → Accepts m (.form y) s' (g4 ++ s'') → IsGap g4 →
      Closing ['l', 'e', 't'] s'' r →
      Accepts m (.body (.letn t x y)) ('(' :: '$' :: 'l' :: 'e' :: 't' :: (g1 ++ (u ++ (g2 ++ s)))) r
  | emit {late : Bool} {rs : List Src} {a : Src} {t g1 g2 s r : Str} : IsGap g1 →
      WrittenName late (rs.map (·.txt)) a.txt t → IsGap g2 → Closing ['e', 'm', 'i', 't'] s r →
      Accepts m (.body (.emit late rs a .none)) ('(' :: '$' :: 'e' :: 'm' :: 'i' :: 't' :: (g1 ++ (t ++ (g2 ++ s)))) r
  | emitWith {late : Bool} {rs : List Src} {a : Src} {t g1 g2 g3 s s' r : Str} {f : Node} : IsGap g1 →
      WrittenName late (rs.map (·.txt)) a.txt t → IsGap g2 → Accepts m (.form f) s (g3 ++ s') → IsGap g3 →
      Closing ['e', 'm', 'i', 't'] s' r →
      Accepts m (.body (.emit late rs a f)) ('(' :: '$' :: 'e' :: 'm' :: 'i' :: 't' :: (g1 ++ (t ++ (g2 ++ s)))) r
  -- lists
  | itemsEnd {r : Str} : Accepts m (.items []) (')' :: r) r
  | item {x : Node} {xs : List Node} {s g s' r : Str} : Accepts m (.form x) s (g ++ s') → IsGap g →
      Accepts m (.items xs) s' r → Accepts m (.items (x :: xs)) s r
  | itemEmbed {x : Node} {xs : List Node} {g g' s s' r : Str} : IsGap g → Accepts m (.form x) s (g' ++ s') → IsGap g' →
      Accepts m (.items xs) s' r → Accepts m (.items (.embed x :: xs)) ('*' :: (g ++ s)) r
  -- arguments: positional and named ones in any order
  | argsEnd {fn : Option Str} {g r : Str} : IsGap g → Accepts m (.args fn [] []) (g ++ r) r
  | argsTag {a g g' r : Str} : IsGap g → IsName a → IsGap g' →
      Accepts m (.args (some a) [] []) (g ++ '\\' :: (a ++ (g' ++ r))) r
  | arg {fn : Option Str} {x : Node} {xs : List Node} {ms : List (Src × Node)} {g s s' r : Str} : IsGap g →
      Accepts m (.form x) s s' → Accepts m (.args fn xs ms) s' r → Accepts m (.args fn (x :: xs) ms) (g ++ s) r
  | argEmbed {fn : Option Str} {x : Node} {xs : List Node} {ms : List (Src × Node)} {g g' s s' r : Str} : IsGap g → IsGap g' →
      Accepts m (.form x) s s' → Accepts m (.args fn xs ms) s' r →
      Accepts m (.args fn (.embed x :: xs) ms) (g ++ '*' :: (g' ++ s)) r
  | argNamed {fn : Option Str} {a : Src} {x : Node} {xs : List Node} {ms : List (Src × Node)} {g g' s s' r : Str} : IsGap g →
      IsName a.txt → fn ≠ some a.txt → IsGap g' → Accepts m (.form x) s s' → Accepts m (.args fn xs ms) s' r →
      Accepts m (.args fn xs ((a, x) :: ms)) (g ++ '\\' :: (a.txt ++ (g' ++ s))) r
  -- parameters; a late one may have a default, which is dropped
  | paramsEnd {l : List Src} {r : Str} : r.head? ≠ some '\\' → Accepts m (.params l []) r r
  | late {a : Src} {g s r : Str} {l : List Src} {bs : List (List Src × Src × Option Node)} : IsName a.txt → IsGap g →
      Accepts m (.params (l ++ [a]) bs) s r → Accepts m (.params l bs) ('\\' :: (a.txt ++ '.' :: '.' :: (g ++ s))) r
  | lateDflt {a : Src} {x : Node} {g t s r : Str} {l : List Src} {bs : List (List Src × Src × Option Node)} : IsName a.txt →
      Accepts m (.form x) t ('.' :: '.' :: (g ++ s)) → IsGap g → Accepts m (.params (l ++ [a]) bs) s r →
      Accepts m (.params l bs) ('\\' :: (a.txt ++ ':' :: t)) r
  | par {a : Src} {g s r : Str} {l : List Src} {bs : List (List Src × Src × Option Node)} : IsName a.txt → IsGap g →
      Accepts m (.params [] bs) s r → Accepts m (.params l ((l, a, none) :: bs)) ('\\' :: (a.txt ++ '.' :: (g ++ s))) r
  | dflt {a : Src} {x : Node} {g t s r : Str} {l : List Src} {bs : List (List Src × Src × Option Node)} : IsName a.txt →
      Accepts m (.form x) t ('.' :: (g ++ s)) → IsGap g → Accepts m (.params [] bs) s r →
      Accepts m (.params l ((l, a, some x) :: bs)) ('\\' :: (a.txt ++ ':' :: t)) r
  | dots {g s r : Str} {bs : List (List Src × Src × Option Node)} : IsGap g → Accepts m (.params [] bs) s r →
      Accepts m (.params [] (([], { txt := ['.', '.', '.'] }, none) :: bs)) ('\\' :: '.' :: '.' :: '.' :: (g ++ s)) r
  -- texts as arguments
  | square {xs : List Node} {s r : Str} : Accepts m (.text .square 0 0 (textParts xs)) s r →
      Accepts m (.body (.text xs)) ('[' :: s) r
  | code {xs : List Node} {s r : Str} : Accepts m (.text .paren 0 0 (textParts xs)) s r →
      Accepts m (.body (.text xs)) ('(' :: '$' :: 'c' :: 'o' :: 'd' :: 'e' :: s) r
  | comma {xs : List Node} {s r : Str} : Accepts m (.text .comma 0 0 (textParts xs)) s r →
      Accepts m (.body (.text xs)) (',' :: ',' :: s) r
  | lines {xs : List Node} {b s r : Str} {c : Char} : Blanks b → LineEnd c → Accepts m (.text .lines 0 0 (textParts xs)) s r →
      Accepts m (.body (.text xs)) (']' :: (b ++ c :: s)) r
  | bracket {xs : List Node} {s r : Str} : Accepts m (.text .bracket 0 0 (textParts xs)) s r →
      Accepts m (.body (.text xs)) (']' :: s) r
  | brace {xs : List Node} {l : Option Loc} {s r : Str} : Accepts m (.text .brace 0 0 (textParts xs)) s r →
      Accepts m (.body (.infix (.text xs) l)) ('{' :: s) r
  | python {xs : List Node} {l : Option Loc} {s r : Str} : Accepts m (.text .paren 0 0 (textParts xs)) s r →
      Accepts m (.body (.infix (.text xs) l)) ('(' :: '$' :: '{' :: '}' :: s) r
  -- texts
  | textEnd {k : TextEnd} {sq pth : Nat} {s r : Str} : EndsAt k sq pth s r → Accepts m (.text k sq pth []) s r
  | textChar {k : TextEnd} {sq pth : Nat} {c : Char} {xs : List TextPart} {s r : Str} : PlainAt m k sq pth c s →
      Accepts m (.text k (opened '[' ']' sq c) (opened '(' ')' pth c) xs) s r →
      Accepts m (.text k sq pth (.char c :: xs)) (c :: s) r
  | textExpr {k : TextEnd} {sq pth : Nat} {x : Node} {xs : List TextPart} {s s' r : Str} : Accepts m (.body x) s s' →
      ['(', '$'] <+: s → Accepts m (.text k sq pth xs) s' r → Accepts m (.text k sq pth (.node x :: xs)) s r
  | textSet {k : TextEnd} {sq pth : Nat} {t : LVal} {x : Node} {xs : List TextPart} {g1 g2 g3 u s s' s'' r : Str} : IsGap g1 →
      TargetWritten t u → IsGap g2 → Accepts m (.form x) s (g3 ++ s') → IsGap g3 → Closing ['s', 'e', 't'] s' s'' →
      Accepts m (.text k sq pth xs) s'' r →
      Accepts m (.text k sq pth (.node (.set t x) :: xs)) ('(' :: '$' :: 's' :: 'e' :: 't' :: (g1 ++ (u ++ (g2 ++ s)))) r
  | textMacro {k : TextEnd} {sq pth : Nat} {a : Src} {as : List Src} {b : Src} {xs : List TextPart} {g1 g2 g3 t s r : Str} :
      IsGap g1 → IsName a.txt → IsGap g2 → IsGap g3 → Names (as.map (·.txt)) t → Enclosed b.txt →
      Accepts m (.text k sq pth xs) s r →
      Accepts m (.text k sq pth (.node (.macro a as b) :: xs)) ('(' :: '$' :: 'm' :: 'a' :: 'c' :: 'r' :: 'o' ::
        (g1 ++ (a.txt ++ (g2 ++ '(' :: (g3 ++ (t ++ ')' :: (b.txt ++ ')' :: s))))))) r
  | textComment {k : TextEnd} {sq pth : Nat} {xs : List TextPart} {b s r : Str} : Enclosed b →
      Accepts m (.text k sq pth xs) s r →
      Accepts m (.text k sq pth (.node .comment :: xs)) ('(' :: '$' :: '!' :: (b ++ ')' :: s)) r
  | textStr {k : TextEnd} {sq pth : Nat} {q : Src} {xs : List TextPart} {s s' r : Str} : Accepts m (.former (.str q)) s s' →
      Accepts m (.text k sq pth xs) s' r → Accepts m (.text k sq pth (.node (.str q) :: xs)) s r
  | textRemark {k : TextEnd} {sq pth : Nat} {q : Src} {xs : List TextPart} {s r : Str} : TextRemark m.remarks q.txt s →
      Accepts m (.text k sq pth xs) s r → Accepts m (.text k sq pth (.node (.remark q) :: xs)) (q.txt ++ s) r
  -- imports: by a name, a literal or a Python expression; which nodes `ys` they bring is not said here
  | importName {k : TextEnd} {sq pth : Nat} {a : Str} {ys : List Node} {xs : List TextPart} {g1 g2 s s' r : Str} : IsGap g1 →
      IsName a → IsGap g2 → Closing ['i', 'm', 'p', 'o', 'r', 't'] s s' → Accepts m (.text k sq pth xs) s' r →
      Accepts m (.text k sq pth (textParts ys ++ xs))
        ('(' :: '$' :: 'i' :: 'm' :: 'p' :: 'o' :: 'r' :: 't' :: (g1 ++ (a ++ (g2 ++ s)))) r
  | importFile {k : TextEnd} {sq pth : Nat} {x : Node} {ys : List Node} {xs : List TextPart} {g1 g2 s s' s'' r : Str} :
      IsGap g1 → Accepts m (.former x) s (g2 ++ s') → (∃ q, x = .str q) ∨ (∃ zs l, x = .infix (.text zs) l) → IsGap g2 →
      Closing ['i', 'm', 'p', 'o', 'r', 't'] s' s'' → Accepts m (.text k sq pth xs) s'' r →
      Accepts m (.text k sq pth (textParts ys ++ xs))
        ('(' :: '$' :: 'i' :: 'm' :: 'p' :: 'o' :: 'r' :: 't' :: (g1 ++ s)) r

end Yupp
