import Verif.Spec.Header
/-!
# What becomes of the header of a Python source, for C79

Nothing of the model is used.
-/

namespace Yupp.Spec

/-- `s` begins with a declaration of the encoding `yupp`; `u` is what follows the word `yupp`. -/
def DeclaredAt (word : Char → Bool) (s u : Str) : Prop :=
  ∃ kw sep sp y, s = kw ++ (sep :: (sp ++ (y ++ u))) ∧ kw.map Char.toLower = ['c', 'o', 'd', 'i', 'n', 'g'] ∧
    (sep = ':' ∨ sep = '=') ∧ Blanks sp ∧ y.map Char.toLower = ['y', 'u', 'p', 'p'] ∧ WordEnd word u

/-- `u` follows the first declaration in the comment `c`. -/
def FirstDeclared (word : Char → Bool) (c u : Str) : Prop :=
  ∃ pre s, c = pre ++ s ∧ DeclaredAt word s u ∧ ∀ a b v, c = a ++ b → a.length < pre.length → ¬ DeclaredAt word b v

/-- Behind `yupp` a base encoding is named: a dot and its name. -/
def BaseNamed (word : Char → Bool) (u : Str) : Prop :=
  ∃ enc post, u = '.' :: (enc ++ post) ∧ enc ≠ [] ∧ (∀ c ∈ enc, NameStart c ∨ ('0' ≤ c ∧ c ≤ '9') ∨ c = '-') ∧ WordEnd word post

/-- The text `yupp.`. -/
def dotted : Str := ['y', 'u', 'p', 'p', '.']

/-- `Cleared word c k`: what is left of the magic comment `c` in the output is `k`. Without a base encoding nothing; with
    one, the comment without the first `yupp.` in it. If `yupp.` is only there in capitals, characters are lost and
    doubled. -/
inductive Cleared (word : Char → Bool) : Str → Str → Prop where
  | gone {c u} : FirstDeclared word c u → ¬ BaseNamed word u → Cleared word c []
  | base {a b u} : FirstDeclared word (a ++ (dotted ++ b)) u → BaseNamed word u →
      (∀ p q, a ++ (dotted ++ b) = p ++ (dotted ++ q) → a.length ≤ p.length) → Cleared word (a ++ (dotted ++ b)) (a ++ b)
  | capitals {c u} : FirstDeclared word c u → BaseNamed word u → (∀ p q, c ≠ p ++ (dotted ++ q)) →
      Cleared word c (c.dropLast ++ c.drop 4)

/-- A comment without its line end. -/
def CommentText (c : Str) : Prop := ∃ t, c = '#' :: t ∧ '\n' ∉ t

/-- The end of a line, and of the text or not. -/
def LineRest (t : Str) : Prop := t = [] ∨ ∃ u, t = '\n' :: u

/-- `Header word text k rest n`: the source `text` begins with a header whose magic comment is in line `n`; `k` is what is
    left of the header in the output and `rest` is the text that follows it. A comment in the first line, such as a
    shebang line, is kept, a blank first line is not. -/
inductive Header (word : Char → Bool) : Str → Str → Str → Nat → Prop where
  | first {ind c k rest} : Blanks ind → CommentText c → Cleared word c k → LineRest rest →
      Header word (ind ++ (c ++ rest)) k rest 1
  | second {ind c ind' c' k rest} : Blanks ind → CommentText c → ¬ Declares word c → Blanks ind' → CommentText c' →
      Cleared word c' k → LineRest rest → Header word (ind ++ (c ++ '\n' :: (ind' ++ (c' ++ rest)))) (c ++ '\n' :: k) rest 2
  | blank {ind ind' c' k rest} : Blanks ind → Blanks ind' → CommentText c' → Cleared word c' k → LineRest rest →
      Header word (ind ++ '\n' :: (ind' ++ (c' ++ rest))) k rest 2

end Yupp.Spec
