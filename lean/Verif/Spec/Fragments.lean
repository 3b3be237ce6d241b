import Verif.Model.Eval
import Verif.Spec.Leaves
/-!
# What a tree is made of

Specification for C11 and C62: the fragments of text, the indents and the generated texts in a tree or value, those in
the scopes of closures included. Only the shape of the tree is used.
-/

namespace Yupp

/-- A fragment of text, an indent, a generated text, the place of a declaration or call; `lost` stands for the place of a
    declaration that is not known. -/
inductive Leaf where
  | src (s : Src)
  | ind (s : Str)
  | res (r : Res)
  | at (l : Loc)
  | lost

def Indent.leaves : Indent → List Leaf
  | .str s => [.ind s]
  | _ => []

/-- The place of a declaration. -/
def declLeaf (s : Option Src) : List Leaf :=
  match s.bind (·.loc) with
  | some l => [.at l]
  | none => [.lost]

/-- The place of a call, if it is known. -/
def placeLeaf (s : Option Src) : List Leaf :=
  match s.bind (·.loc) with
  | some l => [.at l]
  | none => []

mutual
def Node.leaves : Node → List Leaf
  | .atom s => [.src s]
  | .remark s => [.src s]
  | .str s => [.src s]
  | .plain s i _ => .src s :: i.leaves
  | .result r => [.res r]
  | .list xs => leavesL xs
  | .t xs i => i.leaves ++ leavesL xs
  | .text xs => leavesL xs
  | .var _ reg a => .src a :: reg.map .src
  | .apply fn args named _ => fn.leaves ++ (leavesL args ++ leavesN named)
  | .set lval ast => lval.srcs.map .src ++ ast.leaves
  | .letn lval ast form => lval.srcs.map .src ++ (ast.leaves ++ form.leaves)
  | .macro name pars text => declLeaf (some name) ++ (.src name :: .src text :: pars.map .src)
  | .emit _ reg a ast => .src a :: (reg.map .src ++ ast.leaves)
  | .lambda bound form => leavesB bound ++ form.leaves
  | .lambdaVar _ reg a form => .src a :: (reg.map .src ++ form.leaves)
  | .cond c l1 l0 => c.leaves ++ (l1.leaves ++ l0.leaves)
  | .infix ast _ => ast.leaves
  | .eval ast decl call => declLeaf decl ++ (placeLeaf call ++ ast.leaves)
  | .embed ast => ast.leaves
  | .lclosure form frame _ dflt => form.leaves ++ (leavesF frame ++ leavesF dflt)
  | .mclosure _ frame decl call => declLeaf (some decl) ++ (placeLeaf call ++ leavesF frame)
  | .infixClosure _ frame _ => leavesF frame
  | .condClosure c l1 l0 => c.leaves ++ (l1.leaves ++ l0.leaves)
  | .setClosure form frame => form.leaves ++ leavesF frame
  | .builtin a _ => [.src a]
  | .trim ast indent => .ind indent :: ast.leaves
  | .lazy ast => ast.leaves
  | .env frame => leavesF frame
  | _ => []
def leavesL : List Node → List Leaf
  | [] => []
  | n :: ns => n.leaves ++ leavesL ns
def leavesN : List (Src × Node) → List Leaf
  | [] => []
  | (a, n) :: r => .src a :: (n.leaves ++ leavesN r)
def leavesB : List (List Src × Src × Option Node) → List Leaf
  | [] => []
  | (late, a, some d) :: r => .src a :: (late.map .src ++ (d.leaves ++ leavesB r))
  | (late, a, none) :: r => .src a :: (late.map .src ++ leavesB r)
def leavesF : List (Str × Node) → List Leaf
  | [] => []
  | (_, n) :: r => n.leaves ++ leavesF r
end

/-- What is in the scopes and in the memory of `unique`. -/
def ESt.leaves (s : ESt) : List Leaf := s.env.flatMap leavesF ++ leavesL s.seen

/-- The tables of `yushell` only grow. -/
structure World.Le (w w' : World) : Prop where
  source : ∃ pre, w'.source = pre ++ w.source
  incl : ∃ post, w'.inclusion = w.inclusion ++ post

/-- A part of what Python code returns: a part of what it was given, new text without a location, or a slice of a
    fragment it was given. -/
inductive MadeOf (given : List Leaf) : Leaf → Prop
  | old {l} : l ∈ given → MadeOf given l
  | new (t : Str) : MadeOf given (.src { txt := t })
  | slice (x : Src) (k n : Nat) : .src x ∈ given → MadeOf given (.src ((x.drop k).take n))

/-- Python code makes no trees, indents or places in the source of its own. (A slice that starts before the beginning,
    `s[ -2: ]`, is not a `slice` here: the code gives it a place it does not come from, `pp/yugen.py:263-265`.) -/
structure Honest (e : EEnv) : Prop where
  const : ∀ sc a v, e.builtin sc a = some (.const v) → ∀ l ∈ v.leaves, MadeOf [] l
  call : ∀ sc a args seen v seen', e.call sc a args seen = some (v, seen') →
    ∀ l ∈ v.leaves ++ leavesL seen', MadeOf (leavesL args ++ leavesL seen) l
  pyEval : ∀ sc code f v, e.pyEval sc code f = some v → ∀ l ∈ v.leaves, MadeOf (leavesF f) l
  reduce : ∀ sc f xs v, e.reduce sc f xs = some v → ∀ l ∈ v.leaves, MadeOf (f.leaves ++ leavesL xs) l

end Yupp
