import Verif.Spec.Lexeme
/-!
# The header of a Python source

Specification: what a magic comment is and on which line it stands. Nothing of the model is used.
-/

namespace Yupp

/-- White space inside a line. -/
def Blanks (t : Str) : Prop := ∀ c ∈ t, c = ' ' ∨ c = '\t'

/-- A Python comment filling a line. -/
def CommentLine (l : Str) : Prop := ∃ ind t, l = ind ++ '#' :: t ∧ Blanks ind

/-- No word goes on here; `word` tells the word characters outside ASCII. -/
def WordEnd (word : Char → Bool) (t : Str) : Prop :=
  ∀ c, t.head? = some c → ¬ NameStart c ∧ ¬ ('0' ≤ c ∧ c ≤ '9') ∧ ¬ (128 ≤ c.toNat ∧ word c = true)

/-- The line declares the encoding `yupp`: it has `coding`, then `:` or `=`, blanks, and the whole word
    `yupp`, in any letter case. -/
def Declares (word : Char → Bool) (l : Str) : Prop :=
  ∃ pre kw sep sp y post, l = pre ++ (kw ++ (sep :: (sp ++ (y ++ post)))) ∧
    kw.map Char.toLower = ['c', 'o', 'd', 'i', 'n', 'g'] ∧ (sep = ':' ∨ sep = '=') ∧ Blanks sp ∧
    y.map Char.toLower = ['y', 'u', 'p', 'p'] ∧ WordEnd word post

/-- `l` is the first line of the text, without its line end. -/
def FirstLine (l text : Str) : Prop := '\n' ∉ l ∧ ∃ t, text = l ++ t ∧ (t = [] ∨ ∃ t', t = '\n' :: t')

/-- `l` is the second line of the text, without its line end. -/
def SecondLine (l text : Str) : Prop := ∃ l₁ t, '\n' ∉ l₁ ∧ text = l₁ ++ '\n' :: t ∧ FirstLine l t

/-- The magic comment is on the first line. -/
def MagicFirst (word : Char → Bool) (text : Str) : Prop :=
  ∃ l, FirstLine l text ∧ CommentLine l ∧ Declares word l

/-- The magic comment is on the second line, after a blank line or another comment. -/
def MagicSecond (word : Char → Bool) (text : Str) : Prop :=
  ∃ l₁ l₂, FirstLine l₁ text ∧ SecondLine l₂ text ∧ (Blanks l₁ ∨ (CommentLine l₁ ∧ ¬ Declares word l₁)) ∧
    CommentLine l₂ ∧ Declares word l₂

/-- The first line has the literal text `coding:`. -/
def ColonFirst (text : Str) : Prop := ∃ l a b, FirstLine l text ∧ l = a ++ (lit "coding:" ++ b)

/-- The part of a file that Python reads itself, and the rest: one line with `coding:`, or two lines the first of which has it not. -/
inductive HeaderRead : Str → Str → Prop where
  | first {l data : Str} : '\n' ∉ l → ColonFirst (l ++ '\n' :: data) → HeaderRead (l ++ '\n' :: data) data
  | second {l₁ l₂ data : Str} : '\n' ∉ l₁ → '\n' ∉ l₂ → ¬ ColonFirst (l₁ ++ '\n' :: (l₂ ++ '\n' :: data)) →
      HeaderRead (l₁ ++ '\n' :: (l₂ ++ '\n' :: data)) data

end Yupp
