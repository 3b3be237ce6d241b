import Verif.Spec.Syntax
/-!
# The trees of given expressions and texts
-/

namespace Yupp

theorem tree_name {late : Bool} {rs : List Str} {a : Str} {n : Node} (h : Tree (.name late rs a) n) :
    ∃ (r : List Src) (b : Src), n = .var late r b ∧ r.map (·.txt) = rs ∧ b.txt = a := by
  generalize he : Expr.name late rs a = x at h
  cases h <;> cases he
  exact ⟨_, _, rfl, rfl, rfl⟩

theorem tree_name0 {late : Bool} {a : Str} {n : Node} (h : Tree (.name late [] a) n) : ∃ b : Src, n = .var late [] b ∧ b.txt = a := by
  obtain ⟨r, b, rfl, h1, h2⟩ := tree_name h
  cases r with
  | nil => exact ⟨b, rfl, h2⟩
  | cons => cases h1

theorem tree_int {i : Int} {n : Node} (h : Tree (.int i) n) : n = .int i := by cases h; rfl

theorem tree_str {s : Str} {n : Node} (h : Tree (.str s) n) : ∃ b : Src, n = .str b ∧ b.txt = s := by
  generalize he : Expr.str s = x at h
  cases h <;> cases he
  exact ⟨_, rfl, rfl⟩

theorem tree_list {xs : ExprArgs} {n : Node} (h : Tree (.list xs) n) : ∃ ns, n = .list ns ∧ ArgTrees xs ns := by
  cases h with
  | list h => exact ⟨_, rfl, h⟩

theorem args_nil {ns : List Node} (h : ArgTrees .nil ns) : ns = [] := by cases h; rfl

theorem args_pos {x : Expr} {xs : ExprArgs} {ns : List Node} (h : ArgTrees (.pos x xs) ns) :
    ∃ n ms, ns = n :: ms ∧ Tree x n ∧ ArgTrees xs ms := by
  cases h with
  | pos h1 h2 => exact ⟨_, _, rfl, h1, h2⟩

theorem named_nil {ns : List (Src × Node)} (h : NamedTrees .nil ns) : ns = [] := by cases h; rfl

theorem tree_app {f : Expr} {xs : ExprArgs} {n : Node} (h : Tree (.app f xs .nil) n) :
    ∃ g ns l, n = .apply g ns [] l ∧ Tree f g ∧ ArgTrees xs ns := by
  cases h with
  | app h1 h2 h3 => cases named_nil h3; exact ⟨_, _, _, rfl, h1, h2⟩

theorem tree_fn1 {a : Str} {x : Expr} {n : Node} (h : Tree (.fn (.par [] a .nil) x) n) :
    ∃ (b : Src) (y : Node), n = .lambda [([], b, none)] y ∧ b.txt = a ∧ Tree x y := by
  cases h with
  | fn h1 h2 =>
    generalize he : ExprParams.par [] a .nil = p at h1
    cases h1 with
    | nil => cases he
    | @par l b ps bs hb hp =>
      injection he with h3 h4 h5
      subst h5
      cases hp
      cases l with
      | nil => exact ⟨_, _, rfl, h4.symm, h2⟩
      | cons => cases h3
    | dflt => cases he
    | dots => cases he

theorem target_one {a : Str} {v : LVal} (h : TargetTree (.one a) v) : ∃ b : Src, v = .one b ∧ b.txt = a := by
  generalize he : Target.one a = x at h
  cases h <;> cases he
  exact ⟨_, rfl, rfl⟩

theorem target_many {as : List Str} {v : LVal} (h : TargetTree (.many as) v) : ∃ bs : List Src, v = .many bs ∧ bs.map (·.txt) = as := by
  generalize he : Target.many as = x at h
  cases h <;> cases he
  exact ⟨_, rfl, rfl⟩

theorem text_nil {f : Bool} {ns : List Node} (h : TextTrees f .nil ns) : ns = [] := by cases h; rfl

theorem text_chars {f : Bool} {w : Str} {xs : ExprText} {ns : List Node} (h : TextTrees f (.chars w xs) ns) :
    ∃ (s : Src) (i : Indent) (ms : List Node), ns = .plain s i false :: ms ∧ s.txt = w ∧ Indented f w i ∧ TextTrees false xs ms := by
  generalize he : ExprText.chars w xs = x at h
  cases h <;> cases he
  rename_i h1 h2
  exact ⟨_, _, _, rfl, rfl, h1, h2⟩

theorem text_expr {f : Bool} {x : Expr} {xs : ExprText} {ns : List Node} (h : TextTrees f (.expr x xs) ns) :
    ∃ n ms, ns = n :: ms ∧ Tree x n ∧ TextTrees false xs ms := by
  cases h with
  | expr _ h1 h2 => exact ⟨_, _, rfl, h1, h2⟩

theorem text_set {f : Bool} {t : Target} {x : Expr} {xs : ExprText} {ns : List Node} (h : TextTrees f (.set t x xs) ns) :
    ∃ v n ms, ns = .set v n :: ms ∧ TargetTree t v ∧ Tree x n ∧ TextTrees false xs ms := by
  cases h with
  | set h1 h2 h3 => exact ⟨_, _, _, rfl, h1, h2, h3⟩

end Yupp
