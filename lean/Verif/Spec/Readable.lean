import Verif.Model.Plain
/-!
# Texts broken into lines, for C74
-/

namespace Yupp.Spec

/-- The depth after reading a text at depth `d`; a closing bracket without partner does not count. -/
def nest (d : Nat) (s : Str) : Nat :=
  s.foldl (fun d c => if c = ')' || c = ']' || c = '}' then d - 1 else if c = '(' || c = '[' || c = '{' then d + 1 else d) d

def Closing (s : Str) : Prop := s = [')'] ∨ s = [']'] ∨ s = ['}']

/-- `out` is the text `s`, which begins at depth `d`, broken into lines. Only line ends and indents are added: two spaces for
    each open bracket, one step less before a closing bracket that has a line for itself. -/
inductive Broken : Nat → Str → Str → Prop
  | rest {d s} : Broken d s s
  | line {d piece s out} : piece ≠ [] → ¬ Closing piece → Broken (nest d piece) s out →
      Broken d (piece ++ s) (List.replicate (2 * d) ' ' ++ piece ++ ['\n'] ++ out)
  | close {d piece s out} : Closing piece → Broken (nest d piece) s out →
      Broken d (piece ++ s) (List.replicate (2 * (d - 1)) ' ' ++ piece ++ ['\n'] ++ out)

/-- The same without saying how far lines are indented. -/
inductive Wrapped : Str → Str → Prop
  | rest {s} : Wrapped s s
  | line {indent piece s out} : piece ≠ [] → (∀ c ∈ indent, c = ' ') → Wrapped s out →
      Wrapped (piece ++ s) (indent ++ piece ++ ['\n'] ++ out)

/-- Values that are text already: made of texts and numbers. -/
inductive Textual : Node → Prop
  | atom {s} : Textual (.atom s)
  | remark {s} : Textual (.remark s)
  | str {s} : Textual (.str s)
  | plain {s i tr} : Textual (.plain s i tr)
  | pstr {s} : Textual (.pstr s)
  | result {r} : Textual (.result r)
  | int {n} : Textual (.int n)
  | bool {b} : Textual (.bool b)
  | float {f} : Textual (.float f)
  | list {xs} : (∀ x ∈ xs, Textual x) → Textual (.list xs)
  | t {xs i} : (∀ x ∈ xs, Textual x) → Textual (.t xs i)
  | lazy {x} : Textual x → Textual (.lazy x)
  | trim {x i} : Textual x → Textual (.trim x i)

end Yupp.Spec
