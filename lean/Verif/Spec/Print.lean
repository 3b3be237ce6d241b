import Verif.Spec.Syntax
/-!
# Writing expressions down

Specification for C20: a printer for expressions and the expressions it is meant for. Of the model only the
type of syntax trees is used (by `Spec/Syntax`).
-/

namespace Yupp

/-- The decimal digits of a number. -/
def decimal (n : Nat) : Str := if n < 10 then [n.digitChar] else decimal (n / 10) ++ [(n % 10).digitChar]
decreasing_by omega

/-- An integer. -/
def printInt : Int → Str
  | .ofNat n => decimal n
  | .negSucc n => '-' :: decimal (n + 1)

/-- A name with its regions; `&` in front of a late one. -/
def printName (late : Bool) (regions : List Str) (a : Str) : Str :=
  (if late then ['&'] else []) ++ (regions.flatMap (· ++ [':', ':']) ++ a)

/-- Whether the parentheses of the text match, `d` of them being open before it. -/
def closes : Nat → Str → Bool
  | d, [] => d == 0
  | d, c :: s =>
    if c = '(' then closes (d + 1) s
    else if c = ')' then (match d with | 0 => false | d + 1 => closes d s)
    else closes d s

/-- A text: quoted if its parentheses match and all characters are admissible, else it is a literal. -/
def printText (s : Str) : Str :=
  if closes 0 s && s.all (fun c => decide (c = '\t' ∨ c = '\n' ∨ c = '\r' ∨ (' ' ≤ c ∧ c ≤ 'ÿ')))
  then ['(', '`'] ++ (s ++ [')']) else s

/-- The left side of a definition. -/
def Target.print : Target → Str
  | .one a => a
  | .many as => '(' :: (as.flatMap (' ' :: ·) ++ [')'])

mutual
/-- An expression. -/
def Expr.print : Expr → Str
  | .name late rs a => printName late rs a
  | .int n => printInt n
  | .str s => printText s
  | .list xs => ['('] ++ (xs.print ++ [')'])
  | .app f xs ms => ['(', '$', ' '] ++ (f.print ++ (xs.print ++ (ms.print ++ [')'])))
  | .eval f xs ms => ['(', '$', '$', ' '] ++ (f.print ++ (xs.print ++ (ms.print ++ [')'])))
  | .fn ps x => ps.print ++ x.print
  | .fnOf late rs a x => ['\\', '('] ++ (printName late rs a ++ ([')', '.'] ++ x.print))
  | .cond c x y => x.print ++ ([' ', '?', ' '] ++ (c.print ++ ([' ', '|', ' '] ++ y.print)))
  | .when c x => x.print ++ ([' ', '?', ' '] ++ c.print)
  | .letIn t x y => ['(', '$', 'l', 'e', 't', ' '] ++ (t.print ++ ([' '] ++ (x.print ++ ([' '] ++ (y.print ++ [')'])))))
  | .emit late rs a => ['(', '$', 'e', 'm', 'i', 't', ' '] ++ (printName late rs a ++ [')'])
  | .emitWith late rs a f =>
      ['(', '$', 'e', 'm', 'i', 't', ' '] ++ (printName late rs a ++ ([' '] ++ (f.print ++ [')'])))
  | .code xs => ['(', '$', 'c', 'o', 'd', 'e'] ++ (xs.print ++ [')'])
  | .python xs => ['(', '$', '{', '}'] ++ (xs.print ++ [')'])

/-- List items or positional arguments, each with a space in front. -/
def ExprArgs.print : ExprArgs → Str
  | .nil => []
  | .pos x xs => [' '] ++ (x.print ++ xs.print)
  | .embed x xs => [' ', '*'] ++ (x.print ++ xs.print)

/-- Named arguments, each with a space in front. -/
def ExprNamed.print : ExprNamed → Str
  | .nil => []
  | .cons a x ms => [' ', '\\'] ++ (a ++ ([' '] ++ (x.print ++ ms.print)))

/-- Parameters. -/
def ExprParams.print : ExprParams → Str
  | .nil => []
  | .par late a ps => late.flatMap (fun l => '\\' :: (l ++ ['.', '.'])) ++ (['\\'] ++ (a ++ (['.'] ++ ps.print)))
  | .dflt late a x ps => late.flatMap (fun l => '\\' :: (l ++ ['.', '.'])) ++
      (['\\'] ++ (a ++ ([':'] ++ (x.print ++ (['.'] ++ ps.print)))))
  | .dots ps => ['\\', '.', '.', '.'] ++ ps.print

/-- A text. -/
def ExprText.print : ExprText → Str
  | .nil => []
  | .chars w xs => w ++ xs.print
  | .expr x xs => x.print ++ xs.print
  | .set t x xs => ['(', '$', 's', 'e', 't', ' '] ++ (t.print ++ ([' '] ++ (x.print ++ ([')'] ++ xs.print))))
  | .macro a ps b xs => ['(', '$', 'm', 'a', 'c', 'r', 'o', ' '] ++
      (a ++ (['('] ++ (ps.flatMap (' ' :: ·) ++ ([')'] ++ (b ++ ([')'] ++ xs.print))))))
  | .comment xs => ['(', '$', '!', ')'] ++ xs.print
  | .str s xs => ['(', '`'] ++ (s ++ ([')'] ++ xs.print))
  | .remark s xs => s ++ xs.print
end

/-! ## What can be written -/

/-- A conditional. -/
def Expr.isCond : Expr → Bool
  | .cond .. => true
  | .when .. => true
  | _ => false

/-- What may be the body of a function. -/
def Expr.isBody : Expr → Bool
  | .list _ | .app .. | .eval .. | .letIn .. | .emit .. | .emitWith .. | .code .. | .python .. => true
  | _ => false

/-- What may stand in a text. -/
def Expr.isText : Expr → Bool
  | .app .. | .eval .. | .letIn .. | .emit .. | .emitWith .. | .code .. | .python .. => true
  | _ => false

/-- What begins with `\name:`: a function whose first parameter has a default, or a conditional that begins
    with one. -/
def Expr.startsNamed : Expr → Bool
  | .fn (.dflt [] ..) _ => true
  | .cond _ x _ => x.startsNamed
  | .when _ x => x.startsNamed
  | _ => false

/-- A name with its regions: only names without regions can be late. -/
def NameOk (late : Bool) (rs : List Str) (a : Str) : Prop :=
  IsName a ∧ (∀ r ∈ rs, IsName r) ∧ (late = true → rs = [])

/-- A text: one with matching parentheses, or a literal in quotes. -/
def TextOk (s : Str) : Prop :=
  (Balanced s ∧ ∀ c ∈ s, Admissible c) ∨ ∃ q t, (q = '"' ∨ q = '\'') ∧ s = q :: (t ++ [q]) ∧ Inside q t

/-- The left side of a definition. -/
def Target.Ok : Target → Prop
  | .one a => IsName a
  | .many as => as ≠ [] ∧ ∀ a ∈ as, IsName a

/-- The number of open parentheses behind a text, `d` of them being open before it. A closing parenthesis
    without an opening one is possible at the top of a file only. -/
def walk (top : Bool) : Nat → Str → Option Nat
  | d, [] => some d
  | d, c :: s => if c = ')' ∧ d = 0 ∧ top = false then none else walk top (opened '(' ')' d c) s

/-- Plain text: admissible characters, no quotation marks, and nothing that begins a form, a quote or a comment
    of the target language. -/
def PlainOk (m : Mode) (w : Str) : Prop :=
  w ≠ [] ∧ (∀ c ∈ w, Admissible c ∧ ¬ QuoteMark c) ∧
  ∀ a b, w = a ++ b → ¬ ['(', '$'] <+: b ∧ ¬ ['(', '`'] <+: b ∧ ¬ StartsRemark m.remarks b

mutual
/-- The expressions that can be written down. -/
def Expr.Ok (m : Mode) : Expr → Prop
  | .name late rs a => NameOk late rs a
  | .int _ => True
  | .str s => TextOk s
  | .list xs => xs.ItemsOk m
  | .app f xs ms => f.Ok m ∧ xs.Ok m ∧ ms.Ok m f.fname
  | .eval f xs ms => f.Ok m ∧ xs.Ok m ∧ ms.Ok m f.fname
  | .fn ps x => ps.Ok m ∧ (∀ h : ps = .nil, False) ∧ x.Ok m ∧ x.isBody = true
  | .fnOf late rs a x => NameOk late rs a ∧ x.Ok m ∧ x.isBody = true
  | .cond c x y => c.Ok m ∧ c.isCond = false ∧ x.Ok m ∧ x.isCond = false ∧ y.Ok m
  | .when c x => c.Ok m ∧ c.isCond = false ∧ x.Ok m ∧ x.isCond = false
  | .letIn t x y => t.Ok ∧ x.Ok m ∧ y.Ok m
  | .emit late rs a => NameOk late rs a
  | .emitWith late rs a f => NameOk late rs a ∧ f.Ok m
  | .code xs => xs.Ok m false 0
  | .python xs => xs.Ok m false 0

/-- The items of a list. -/
def ExprArgs.ItemsOk (m : Mode) : ExprArgs → Prop
  | .nil => True
  | .pos x xs => x.Ok m ∧ xs.ItemsOk m
  | .embed x xs => x.Ok m ∧ xs.ItemsOk m

/-- Positional arguments: none looks like a named one. -/
def ExprArgs.Ok (m : Mode) : ExprArgs → Prop
  | .nil => True
  | .pos x xs => x.Ok m ∧ x.startsNamed = false ∧ xs.Ok m
  | .embed x xs => x.Ok m ∧ xs.Ok m

/-- Named arguments of a function called `fn`: none has that name. -/
def ExprNamed.Ok (m : Mode) (fn : Option Str) : ExprNamed → Prop
  | .nil => True
  | .cons a x ms => IsName a ∧ fn ≠ some a ∧ x.Ok m ∧ ms.Ok m fn

/-- The parameters of a function. -/
def ExprParams.Ok (m : Mode) : ExprParams → Prop
  | .nil => True
  | .par late a ps => (∀ l ∈ late, IsName l) ∧ IsName a ∧ ps.Ok m
  | .dflt late a x ps => (∀ l ∈ late, IsName l) ∧ IsName a ∧ x.Ok m ∧ ps.Ok m
  | .dots ps => ps.Ok m

/-- The texts: plain text is not divided, and parentheses in it match unless it is at the top of a file. Literals
    with parentheses that do not match and comments of the target language are left out. -/
def ExprText.Ok (m : Mode) (top : Bool) (d : Nat) : ExprText → Prop
  | .nil => top = true ∨ d = 0
  | .chars w xs => PlainOk m w ∧ xs.startsPlain = false ∧ ∃ d', walk top d w = some d' ∧ xs.Ok m top d'
  | .expr x xs => x.Ok m ∧ x.isText = true ∧ xs.Ok m top d
  | .set t x xs => t.Ok ∧ x.Ok m ∧ xs.Ok m top d
  | .macro a ps b xs => IsName a ∧ (∀ p ∈ ps, IsName p) ∧ Balanced b ∧ (∀ c ∈ b, Admissible c) ∧ xs.Ok m top d
  | .comment xs => xs.Ok m top d
  | .str s xs => Balanced s ∧ (∀ c ∈ s, Admissible c) ∧ xs.Ok m top d
  | .remark _ _ => False
end

end Yupp
