import Verif.Model.Parse
/-!
# The fragments of a tree that come from the source text

Specification for C19: which pieces of text a syntax tree holds, and what it means that a piece is
found at its location. Only the shape of the tree is used.
-/

namespace Yupp

def LVal.srcs : LVal → List Src
  | .one a => [a]
  | .many as => as

mutual
/-- The names, quotes, remarks and plain fragments of a tree; an application counts as the `$` of its
    opening mark. The text of a macro (read as a whole, `pp/yugen.py:1264`) does not count. -/
def Node.srcs : Node → List Src
  | .atom s => [s]
  | .remark s => [s]
  | .str s => [s]
  | .plain s _ _ => [s]
  | .list xs => srcsList xs
  | .t xs _ => srcsList xs
  | .text xs => srcsList xs
  | .var _ reg a => reg ++ [a]
  | .apply fn args named loc =>
    { txt := ['$'], loc := loc } :: (fn.srcs ++ (srcsList args ++ srcsNamed named))
  | .set lval ast => lval.srcs ++ ast.srcs
  | .letn lval ast form => lval.srcs ++ (ast.srcs ++ form.srcs)
  | .macro name pars _ => name :: pars
  | .emit _ reg a ast => reg ++ (a :: ast.srcs)
  | .lambda bound form => srcsBound bound ++ form.srcs
  | .lambdaVar _ reg a form => reg ++ (a :: form.srcs)
  | .cond c l1 l0 => c.srcs ++ (l1.srcs ++ l0.srcs)
  | .infix ast _ => ast.srcs
  | .eval ast _ _ => ast.srcs
  | .embed ast => ast.srcs
  | _ => []
def srcsList : List Node → List Src
  | [] => []
  | n :: ns => n.srcs ++ srcsList ns
def srcsNamed : List (Src × Node) → List Src
  | [] => []
  | (a, n) :: r => a :: (n.srcs ++ srcsNamed r)
def srcsBound : List (List Src × Src × Option Node) → List Src
  | [] => []
  | (late, a, some d) :: r => late ++ (a :: (d.srcs ++ srcsBound r))
  | (late, a, none) :: r => late ++ (a :: srcsBound r)
end

/-- The registered texts agree with the files; numbers are names of evaluated texts only; so a name has
    one text. -/
structure Agree (e : PEnv) (st : PSt) : Prop where
  same : ∀ f d t, (f, d, t) ∈ st.world.source → ∀ p t', e.readLib f = some (p, t') → t = unifyEol t'
  num : ∀ f d t, (f, d, t) ∈ st.world.source → ∀ m, f = natStr m → m < st.world.inclusion.length
  lib : ∀ m, e.readLib (natStr m) = none
  uniq : ∀ f d t d' t', (f, d, t) ∈ st.world.source → (f, d', t') ∈ st.world.source → t = t'

/-- The only fragments that may be without a place: empty quotes, C literals (`pp/yugen.py:2063-2072`) and the `...` of
    a function with any number of arguments. -/
inductive Unplaced : Str → Prop
  | empty : Unplaced []
  | dots : Unplaced ['.', '.', '.']
  | literal {q : Char} {t : Str} : q = '"' ∨ q = '\'' → Unplaced (q :: t)

/-- A fragment is literally what the registered text of its file holds at its position; it has a position unless it is one
    of the exceptions. -/
def Src.Found (source : List (Str × Decl × Str)) (s : Src) : Prop :=
  (∀ l, s.loc = some l → ∃ d txt, (l.file, d, txt) ∈ source ∧
    ∃ k : Nat, l.pos = k ∧ k + s.txt.length ≤ txt.length ∧ s.txt = (txt.drop k).take s.txt.length) ∧
  (s.loc = none → Unplaced s.txt)

end Yupp
