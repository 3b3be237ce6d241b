import Verif.Props.StdMacro
import Verif.Props.Sequence
import Verif.Spec.Dict
/-!
# C87 — `$dict` of the library
-/

namespace Yupp

open Spec

variable {e : EEnv}

/-! ## TableCells -/

theorem bare_eval {s : ESt} {a : Src} (h : Bare e s a.txt) : Evaluates e (.var false [] a) s (.atom a) s := by
  rw [evaluates_iff, ev_at]
  change evalVar e false [] a s = _
  unfold evalVar
  have hs' : isSpecial a.txt = false := by unfold isSpecial; simpa using h.notSpecial
  rw [h.unbound, h.notBuiltin, hs']
  simp [h.noHyphen]

theorem bare_push {s : ESt} {a : Str} {F : Frame} (h : Bare e s a) (hF : ∀ b ∈ F, b.1 ≠ a) : Bare e (push s F) a := by
  refine ⟨?_, h.notBuiltin, h.notSpecial, h.noHyphen⟩
  have hg : Frame.get F a = none := by
    unfold Frame.get
    have : F.find? (fun b => b.1 == a) = none := by
      rw [List.find?_eq_none]
      intro b hb
      simpa using hF b hb
    rw [this]; rfl
  simp only [push, Scopes.lookup, hg]
  exact h.unbound

mutual
theorem cell_tree : ∀ {x : Expr} {v : Node} {n : Node}, TableCell x v → Tree x n → ∃ w, TableCell x w ∧
    ∀ s, (∀ a ∈ cellNames x, Bare e s a) → Evaluates e n s w s
  | _, _, n, .name a, h => by
    obtain ⟨b, rfl, hb⟩ := tree_name0 h
    refine ⟨.atom b, hb ▸ .name b, fun s hs => bare_eval (hs _ ?_)⟩
    simp [cellNames, hb]
  | _, _, n, .int k, h => by
    cases tree_int h
    exact ⟨.int k, .int k, fun s _ => ⟨1, rfl⟩⟩
  | _, _, n, .str t, h => by
    obtain ⟨b, rfl, hb⟩ := tree_str h
    exact ⟨.str b, hb ▸ .str b, fun s _ => ⟨1, rfl⟩⟩
  | _, _, n, .list hc, h => by
    obtain ⟨ns, rfl, hns⟩ := tree_list h
    obtain ⟨ws, hw, hev⟩ := cells_tree hc hns
    exact ⟨.list ws, .list hw, fun s hs => C60_list e _ _ _ _ (hev s (by simpa [cellNames] using hs))⟩
theorem cells_tree : ∀ {xs : ExprArgs} {vs : List Node} {ns : List Node}, TableCells xs vs → ArgTrees xs ns → ∃ ws, TableCells xs ws ∧
    ∀ s, (∀ a ∈ cellsNames xs, Bare e s a) → Args e ns s ws s
  | _, _, ns, .nil, h => by
    cases args_nil h
    exact ⟨[], .nil, fun s _ => .nil s⟩
  | _, _, ns, .cons hx hxs, h => by
    obtain ⟨n, ms, rfl, h1, h2⟩ := args_pos h
    obtain ⟨w, hw, hev⟩ := cell_tree hx h1
    obtain ⟨ws, hws, hevs⟩ := cells_tree hxs h2
    refine ⟨w :: ws, .cons hw hws, fun s hs => ?_⟩
    simp only [cellsNames, List.mem_append] at hs
    refine .one (hev s fun a ha => hs a (.inl ha)) ?_ ?_ (hevs s fun a ha => hs a (.inr ha))
    · cases hw <;> simp
    · cases hw <;> simp
end

mutual
theorem cell_value : ∀ {x : Expr} {v : Node}, TableCell x v → Value v ∧ v ≠ .none
  | _, _, .name a => ⟨.atom a, by simp⟩
  | _, _, .int k => ⟨.int k, by simp⟩
  | _, _, .str t => ⟨.str t, by simp⟩
  | _, _, .list h => ⟨.list _ (fun v hv => (cells_value h v hv).1) (fun v hv => (cells_value h v hv).2), by simp⟩
theorem cells_value : ∀ {xs : ExprArgs} {vs : List Node}, TableCells xs vs → ∀ v ∈ vs, Value v ∧ v ≠ .none
  | _, _, .nil, v, hv => by cases hv
  | _, _, .cons hx hxs, v, hv => by
    rcases List.mem_cons.1 hv with rfl | hv
    · exact cell_value hx
    · exact cells_value hxs v hv
end

theorem rows_cells {ys : ExprArgs} {rows : List (List Node)} (h : Rows ys rows) : TableCells ys (rows.map .list) := by
  induction h with
  | nil => exact .nil
  | cons h _ ih => exact .cons (.list h) ih

theorem cells_rows {ys : ExprArgs} {rows : List (List Node)} (h : Rows ys rows) : ∀ {ws : List Node}, TableCells ys ws →
    ∃ rows', ws = rows'.map .list ∧ Rows ys rows' ∧ rows'.length = rows.length := by
  induction h with
  | nil => intro ws hw; cases hw; exact ⟨[], rfl, .nil, rfl⟩
  | cons _ _ ih =>
    intro ws hw
    cases hw with
    | cons h1 h2 =>
      cases h1 with
      | list h1 =>
        obtain ⟨r, rfl, hr, hl⟩ := ih h2
        exact ⟨_ :: r, rfl, .cons h1 hr, by simp [hl]⟩

/-! ## Columns -/

theorem var_open {v : Src} {s : ESt} (h : Scopes.lookup s.env v.txt = some .bound) : ev e (.var false [] v) s = .ok (.var false [] v, s) := by
  rw [ev_at]
  change evalVar e false [] v s = _
  unfold evalVar
  rw [h]; rfl

theorem var_value {v : Src} {s : ESt} {w : Node} (h : Scopes.lookup s.env v.txt = some w) (hb : w ≠ .bound) :
    ev e (.var false [] v) s = .ok (w, s) := by
  rw [ev_at]
  change evalVar e false [] v s = _
  unfold evalVar
  rw [h]
  have : w.isBound = false := by
    cases hw : w.isBound with
    | false => rfl
    | true => exact absurd (isBound_iff.1 hw) hb
  simp only [this]; rfl

/-- A function of one parameter is applied. -/
theorem call_one {fn x a v y : Node} {p : Str} {loc : Option Loc} {s : ESt} (hf : Evaluates e fn s (.lclosure x [(p, .bound)] [] []) s)
    (ha : Args e [a] s [v] s) (hp : p ≠ vaArgs) (hv : Value v) (hy : ev e x (push s [(p, v)]) = .ok (y, push s [(p, v)])) :
    Evaluates e (.apply fn [a] [] loc) s y s := by
  have hb : v ≠ .bound := by rintro rfl; cases hv
  have hun : Frame.unassigned [(p, v)] = none := by rw [un_known hb]; rfl
  rw [evaluates_iff, closure_step hf ha (un_bound _ _) hp (evaluates_iff.2 (ev_value e hv s)) (by rintro a rfl; cases hv)]
  rw [show Frame.set [(p, Node.bound)] p v = [(p, v)] by simp [Frame.set, Frame.del], applyNext_end (by rw [hun]; rfl), setFrame_closure,
    closure_value hy, hun]

/-- A function of one parameter, its body evaluated with the parameter open. -/
theorem lambda_one {x y : Node} {b : Src} {s : ESt} (hb : b.txt ≠ lit "...") (h : ev e x (push s [(b.txt, .bound)]) = .ok (y, push s [(b.txt, .bound)])) :
    Evaluates e (.lambda [([], b, none)] x) s (.lclosure y [(b.txt, .bound)] [] []) s := by
  have hpar : Params e s [([], b, none)] [b.txt] [] := .cons hb .nil
  rw [evaluates_iff, ev_lambda _ _ hpar (by simp)]
  exact evaluates_iff.1 (closure_waits h (un_bound _ _))

section columns

variable {i i' v v' : Src} {l l' : Option Loc} (hi : i.txt = lit "__i") (hi' : i'.txt = lit "__i") (hv : v.txt = lit "__var") (hv' : v'.txt = lit "__var")

/-- The cell of a row, the number of the column left open. -/
def cellOf (i' : Src) (l : Option Loc) (row : List Node) : Node := .apply (.var false [] i') [.list row] [] l

include hi hi' hv hv'

/-- The rows, each with the number of the column left open. -/
theorem rows_open {ns : List Node} {rows : List (List Node)} {s : ESt} (hr : ∀ row ∈ rows, Value (.list row))
    (hns : Args e ns (push s [(i.txt, .bound)]) (rows.map .list) (push s [(i.txt, .bound)])) :
    Evaluates e (.apply (.list ns) [.lambda [([], v, none)] (.apply (.var false [] i') [.var false [] v'] [] l)] [] l') (push s [(i.txt, .bound)])
      (.list (rows.map (cellOf i' l))) (push s [(i.txt, .bound)]) := by
  have hopen : ∀ w : Node, Scopes.lookup (push (push s [(i.txt, .bound)]) [(v.txt, w)]).env i'.txt = some .bound := by
    intro w
    rw [hi, hi', hv]
    have h1 : Frame.get [(lit "__var", w)] (lit "__i") = none := rfl
    have h2 : Frame.get [(lit "__i", Node.bound)] (lit "__i") = some .bound := rfl
    simp only [push, Scopes.lookup, h1, h2]
  have hvar : ∀ w : Node, Scopes.lookup (push (push s [(i.txt, .bound)]) [(v.txt, w)]).env v'.txt = some w := by
    intro w
    rw [hv, hv']
    have h1 : Frame.get [(lit "__var", w)] (lit "__var") = some w := by simp [Frame.get]
    simp only [push, Scopes.lookup, h1]
  have hbody : ∀ w w' : Node, ev e (.var false [] v') (push (push s [(i.txt, .bound)]) [(v.txt, w)]) = .ok (w', push (push s [(i.txt, .bound)]) [(v.txt, w)]) →
      w' ≠ .none → (∀ a, w' ≠ .embed a) →
      ev e (.apply (.var false [] i') [.var false [] v'] [] l) (push (push s [(i.txt, .bound)]) [(v.txt, w)]) =
      .ok (.apply (.var false [] i') [w'] [] l, push (push s [(i.txt, .bound)]) [(v.txt, w)]) := by
    intro w w' h h1 h2
    rw [ev_apply (evaluates_iff.2 (var_open (hopen w))) (.one (evaluates_iff.2 h) h1 h2 (.nil _))]
    rfl
  have hclosure := fun s' : ESt => fun h => closure_waits (e := e) (x := .apply (.var false [] i') [.var false [] v'] [] l)
    (y := .apply (.var false [] i') [.var false [] v'] [] l) (F := [(v.txt, .bound)]) (dflt := []) (s := s') h (un_bound _ _)
  have hlam : Evaluates e (.lambda [([], v, none)] (.apply (.var false [] i') [.var false [] v'] [] l)) (push s [(i.txt, .bound)])
      (.lclosure (.apply (.var false [] i') [.var false [] v'] [] l) [(v.txt, .bound)] [] []) (push s [(i.txt, .bound)]) :=
    lambda_one (by rw [hv]; decide) (hbody _ _ (var_open (hvar _)) (by simp) (by simp))
  have heach : Each e [.lclosure (.apply (.var false [] i') [.var false [] v'] [] l) [(v.txt, .bound)] [] []] (rows.map .list) (push s [(i.txt, .bound)])
      (rows.map (cellOf i' l)) (push s [(i.txt, .bound)]) := by
    clear hns
    induction rows with
    | nil => exact .nil _
    | cons row rows ih =>
      refine .keep (.cons ?_ (.nil _ _)) (by simp [cellOf]) (ih fun r h => hr r (by simp [h]))
      have hrow := hr row (by simp)
      refine call_one (hclosure _ (hbody _ _ (var_open (hvar _)) (by simp) (by simp))) (.one (evaluates_iff.2 (ev_value e hrow _)) (by simp) (by simp) (.nil _))
        (by rw [hv]; decide) hrow (hbody _ _ (var_value (hvar _) (by simp)) (by simp) (by simp))
  exact (C26_list_application_is_map e _ _ _ _ _ _ _ _ (C60_list e _ _ _ _ hns) (.one hlam (by simp) (by simp) (.nil _)) _ _).2 ⟨_, rfl, heach⟩

omit hv hv' in
theorem cells_open {rows : List (List Node)} {s : ESt} (hr : ∀ row ∈ rows, Value (.list row)) :
    Args e (rows.map (cellOf i' l)) (push s [(i.txt, .bound)]) (rows.map (cellOf i' l)) (push s [(i.txt, .bound)]) := by
  induction rows with
  | nil => exact .nil _
  | cons row rows ih =>
    refine .one ?_ (by simp [cellOf]) (by simp [cellOf]) (ih fun r h => hr r (by simp [h]))
    have hopen : Scopes.lookup (push s [(i.txt, .bound)]).env i'.txt = some .bound := by
      rw [hi, hi']
      have h2 : Frame.get [(lit "__i", Node.bound)] (lit "__i") = some .bound := rfl
      simp only [push, Scopes.lookup, h2]
    rw [evaluates_iff]
    exact (ev_apply (evaluates_iff.2 (var_open hopen)) (.one (evaluates_iff.2 (ev_value e (hr row (by simp)) _)) (by simp) (by simp) (.nil _))).trans rfl

omit hv hv' in
theorem cells_taken {rows : List (List Node)} {s : ESt} (hr : ∀ row ∈ rows, Value (.list row)) (j : Nat) :
    Args e (rows.map (cellOf i' l)) (push s [(i.txt, .int j)]) (rows.filterMap (·[j]?)) (push s [(i.txt, .int j)]) := by
  induction rows with
  | nil => exact .nil _
  | cons row rows ih =>
    have hopen : Scopes.lookup (push s [(i.txt, .int j)]).env i'.txt = some (.int j) := by
      rw [hi, hi']
      have h2 : Frame.get [(lit "__i", Node.int j)] (lit "__i") = some (.int j) := by simp [Frame.get]
      simp only [push, Scopes.lookup, h2]
    have hrow := hr row (by simp)
    have hval : ∀ v ∈ row, Value v ∧ v ≠ .none := by
      cases hrow with
      | list _ h1 h2 => exact fun v h => ⟨h1 v h, h2 v h⟩
    have hsub := C27_subscript e (.var false [] i') (.int j) j [.list row] [.list row] row l _ _ _ (evaluates_iff.2 (var_value hopen (by simp))) (.int _)
      (.one (evaluates_iff.2 (ev_value e hrow _)) (by simp) (by simp) (.nil (push s [(i.txt, .int j)]))) (by simpa using hrow) (by simp) (.items _)
    have ih := ih fun r h => hr r (by simp [h])
    by_cases hj : j < row.length
    · have hg : row[j]? = some row[j] := List.getElem?_eq_getElem hj
      rw [List.map_cons, List.filterMap_cons]
      simp only [hg]
      have hm := hval row[j] (List.getElem_mem hj)
      exact .one (hsub.1 j hj rfl) hm.2 (by intro a h; rw [h] at hm; cases hm.1) ih
    · have hg : row[j]? = none := List.getElem?_eq_none (by omega)
      rw [List.map_cons, List.filterMap_cons]
      simp only [hg]
      exact .drop (hsub.2.1 (by omega)) ih

/-- The columns of a table. -/
theorem columns_taken {c : Src} {ns : List Node} {rows : List (List Node)} {s : ESt} {k : Nat} {l'' : Option Loc} (hr : ∀ row ∈ rows, Value (.list row))
    (hc : Evaluates e (.var false [] c) s (numbersBelow k) s)
    (hns : Args e ns (push s [(i.txt, .bound)]) (rows.map .list) (push s [(i.txt, .bound)])) :
    Evaluates e (.apply (.var false [] c) [.lambda [([], i, none)]
      (.apply (.list ns) [.lambda [([], v, none)] (.apply (.var false [] i') [.var false [] v'] [] l)] [] l')] [] l'') s
      (.list ((List.range k).map (tableColumn rows))) s := by
  have hlam := lambda_one (b := i) (by rw [hi]; decide) (evaluates_iff.1 (rows_open hi hi' hv hv' (l := l) (l' := l') hr hns))
  have heach : ∀ js : List Nat, Each e [.lclosure (.list (rows.map (cellOf i' l))) [(i.txt, .bound)] [] []] (js.map fun k : Nat => .int k) s
      (js.map (tableColumn rows)) s := by
    intro js
    induction js with
    | nil => exact .nil _
    | cons j js ih =>
      refine .keep (.cons ?_ (.nil _ _)) (by simp [tableColumn]) ih
      refine call_one (closure_waits (evaluates_iff.1 (C60_list e _ _ _ _ (cells_open hi hi' hr))) (un_bound _ _)) (.one ⟨1, rfl⟩ (by simp) (by simp) (.nil _))
        (by rw [hi]; decide) (.int _) (evaluates_iff.1 (C60_list e _ _ _ _ (cells_taken hi hi' hr j)))
  exact (C26_list_application_is_map e _ _ _ _ _ _ _ _ hc (.one hlam (by simp) (by simp) (.nil _)) _ _).2 ⟨_, rfl, heach _⟩

end columns

/-! ## Reading -/

variable {m : Mode}

/-- Names as the items of a list. -/
def nameArgs : List Str → ExprArgs
  | [] => .nil
  | a :: as => .pos (.name false [] a) (nameArgs as)

theorem ended_gap {c : Char} (h : GapChar c) (r : Str) : Ended (c :: r) := by
  rcases h with rfl | rfl | rfl | rfl <;> exact ended_of (by unfold NameChar NameStart; decide) (by decide)

theorem names_items {as : List Str} {t : Str} (h : Names as t) (r : Str) : Reads m (.items (nameArgs as)) (t ++ ')' :: r) r := by
  induction h with
  | nil => exact .itemsEnd
  | @cons a g t as ha hg ht hn ih =>
    rw [List.append_assoc, List.append_assoc]
    have hstart : NoGap (t ++ ')' :: r) ∧ (t ++ ')' :: r).head? ≠ some '?' := by
      cases ht with
      | nil => exact ⟨noGap_close r, by simp⟩
      | @cons b g' t' _ hb _ _ _ =>
        obtain ⟨c, u, rfl, hc, -⟩ := hb
        refine ⟨noGap_cons (nameChar_plain (.inl hc)).2.1 _, ?_⟩
        simp only [List.cons_append, List.head?_cons, ne_eq, Option.some.injEq]
        rintro rfl
        revert hc; unfold NameStart; decide
    refine .item (.one (.name (.plain ha) ?_) hg hstart.1 hstart.2) ih
    cases g with
    | nil =>
      rcases hn with rfl | hn
      · exact ended_close r
      · exact absurd rfl hn
    | cons c g => exact ended_gap (hg c (by simp)) _

/-- `($range ($len x))`. -/
def rangeExpr (xs : ExprArgs) : Expr :=
  .app (.name false [] ['r', 'a', 'n', 'g', 'e']) (.pos (.app (.name false [] ['l', 'e', 'n']) (.pos (.list xs) .nil) .nil) .nil) .nil

theorem range_reads {xs : ExprArgs} {u : Str} (h : ∀ r, Reads m (.body (.list xs)) ('(' :: (u ++ ')' :: r)) r) (r : Str) :
    Reads m (.form (rangeExpr xs)) ('(' :: '$' :: 'r' :: 'a' :: 'n' :: 'g' :: 'e' :: ' ' :: '(' :: '$' :: 'l' :: 'e' :: 'n' :: ' ' ::
      '(' :: (u ++ ')' :: ' ' :: ')' :: ')' :: ')' :: r)) (')' :: r) := by
  have hname : ∀ {a : Str}, (∀ x ∈ a, NameStart x) → a ≠ [] → IsName a := by
    intro a h hne
    cases a with
    | nil => exact absurd rfl hne
    | cons c t => exact ⟨c, t, rfl, h c (by simp), fun x hx => .inl (h x (by simp [hx]))⟩
  refine form_shut (.former (.app (g := []) isGap_nil (.inr ?_)
    (form_space (.name (t := ['r', 'a', 'n', 'g', 'e']) (.plain (hname (by unfold NameStart; decide) (by simp))) (ended_space _)) (by decide) (by decide))
    (.arg (notNamed_of_head (by simp)) (form_shut (.former (.app (g := []) isGap_nil (.inr ?_)
      (form_space (.name (t := ['l', 'e', 'n']) (.plain (hname (by unfold NameStart; decide) (by simp))) (ended_space _)) (by decide) (by decide))
      (.arg (notNamed_of_head (by simp)) (form_space (.former (h _)) (by decide) (by decide)) .argsEnd)))) .argsEnd)))
  · simp [NoKeyword]
  · simp [NoKeyword]

def colsName (d : Str) : Str := ['c', 'o', 'l', 's', '-'] ++ d
def eachName (d : Str) : Str := ['e', 'a', 'c', 'h', '-'] ++ d

/-- `($cols-ID \__i.($ (BODY) \__var.($__i __var)))`. -/
def tableExpr (d : Str) (ys : ExprArgs) : Expr :=
  .app (.name false [] (colsName d)) (.pos (.fn (.par [] ['_', '_', 'i'] .nil) (.app (.list ys) (.pos (.fn (.par [] ['_', '_', 'v', 'a', 'r'] .nil)
    (.app (.name false [] ['_', '_', 'i']) (.pos (.name false [] ['_', '_', 'v', 'a', 'r']) .nil) .nil)) .nil) .nil)) .nil) .nil

theorem isName_i : IsName ['_', '_', 'i'] := ⟨'_', ['_', 'i'], rfl, by unfold NameStart; decide, by unfold NameChar NameStart; decide⟩
theorem isName_var : IsName ['_', '_', 'v', 'a', 'r'] :=
  ⟨'_', ['_', 'v', 'a', 'r'], rfl, by unfold NameStart; decide, by unfold NameChar NameStart; decide⟩

theorem isName_cols {d : Str} (hd : ∀ c ∈ d, NameChar c) : IsName (colsName d) := by
  refine ⟨'c', ['o', 'l', 's', '-'] ++ d, rfl, by unfold NameStart; decide, fun x hx => ?_⟩
  rcases List.mem_append.1 hx with h | h
  · clear hx; revert x h; unfold NameChar NameStart; decide
  · exact hd x h

theorem isName_each {d : Str} (hd : ∀ c ∈ d, NameChar c) : IsName (eachName d) := by
  refine ⟨'e', ['a', 'c', 'h', '-'] ++ d, rfl, by unfold NameStart; decide, fun x hx => ?_⟩
  rcases List.mem_append.1 hx with h | h
  · clear hx; revert x h; unfold NameChar NameStart; decide
  · exact hd x h

theorem table_reads {d : Str} (hd : ∀ c ∈ d, NameChar c) {ys : ExprArgs} {u : Str} (h : ∀ r, Reads m (.body (.list ys)) ('(' :: (u ++ ')' :: r)) r) (r : Str) :
    Reads m (.form (tableExpr d ys)) ('(' :: '$' :: (colsName d ++ ' ' :: '\\' :: '_' :: '_' :: 'i' :: '.' :: '(' :: '$' :: ' ' :: '(' :: (u ++ ')' :: ' ' ::
      '\\' :: '_' :: '_' :: 'v' :: 'a' :: 'r' :: '.' :: '(' :: '$' :: '_' :: '_' :: 'i' :: ' ' :: '_' :: '_' :: 'v' :: 'a' :: 'r' :: ')' :: ')' :: ')' ::
      '\n' :: '\t' :: ')' :: r))) (')' :: r) := by
  have hinner : ∀ r, Reads m (.body (.app (.name false [] ['_', '_', 'i']) (.pos (.name false [] ['_', '_', 'v', 'a', 'r']) .nil) .nil))
      ('(' :: '$' :: '_' :: '_' :: 'i' :: ' ' :: '_' :: '_' :: 'v' :: 'a' :: 'r' :: ')' :: r) r := by
    intro r
    refine .app (g := []) isGap_nil (.inr ?_) (form_space (.name (t := ['_', '_', 'i']) (.plain isName_i) (ended_space _)) (by decide) (by decide))
      (.arg (notNamed_of_head (by simp)) (form_shut (.name (t := ['_', '_', 'v', 'a', 'r']) (.plain isName_var) (ended_close _))) .argsEnd)
    simp [NoKeyword]
  refine .one (g := ['\n', '\t']) (.former (.app (g := []) isGap_nil (.inr ?_)
    (form_space (.name (.plain (isName_cols hd)) (ended_space _)) (by decide) (by decide))
    (.arg (notNamed_param (a := ['_', '_', 'i']) rfl isName_i) (form_shut (.fn (.par (a := ['_', '_', 'i']) (g := []) isName_i isGap_nil (noGap_paren _) (by simp) (.paramsEnd (by simp)))
      (.app (g := [' ']) isGap_space (.inl (by simp)) (form_space (.former (h _)) (by decide) (by decide))
        (.arg (notNamed_param (a := ['_', '_', 'v', 'a', 'r']) rfl isName_var) (form_shut (.fn (.par (a := ['_', '_', 'v', 'a', 'r']) (g := []) isName_var isGap_nil (noGap_paren _) (by simp) (.paramsEnd (by simp)))
          (hinner _) rfl)) .argsEnd)) rfl)) .argsEnd))) ?_ (noGap_close r) (by simp)
  · simp [NoKeyword]
  · unfold IsGap GapChar; decide

/-- What `$dict` is replaced by. -/
def dictText (d c b : Str) : Str :=
  '\n' :: '\t' :: '(' :: '$' :: 's' :: 'e' :: 't' :: ' ' :: (colsName d ++ ' ' :: '(' :: '$' :: 'r' :: 'a' :: 'n' :: 'g' :: 'e' :: ' ' :: '(' :: '$' :: 'l' :: 'e' :: 'n' :: ' ' ::
    '(' :: (c ++ ')' :: ' ' :: ')' :: ')' :: ')' ::
  '\n' :: '\t' :: '(' :: '$' :: 's' :: 'e' :: 't' :: ' ' :: (eachName d ++ ' ' :: '(' :: '$' :: 'r' :: 'a' :: 'n' :: 'g' :: 'e' :: ' ' :: '(' :: '$' :: 'l' :: 'e' :: 'n' :: ' ' ::
    '(' :: (b ++ ')' :: ' ' :: ')' :: ')' :: ')' ::
  '\n' :: '\t' :: '(' :: '$' :: 's' :: 'e' :: 't' :: ' ' :: '(' :: (c ++ ')' ::
    '\n' :: '\t' :: '\t' :: '(' :: '$' :: (colsName d ++ ' ' :: '\\' :: '_' :: '_' :: 'i' :: '.' :: '(' :: '$' :: ' ' :: '(' :: (b ++ ')' :: ' ' ::
      '\\' :: '_' :: '_' :: 'v' :: 'a' :: 'r' :: '.' :: '(' :: '$' :: '_' :: '_' :: 'i' :: ' ' :: '_' :: '_' :: 'v' :: 'a' :: 'r' :: ')' :: ')' :: ')' ::
      '\n' :: '\t' :: ')' :: ['\n'])))))))

set_option maxRecDepth 10000 in
theorem dict_text (d c b : Str) : substitute [(['i', 'd'], d), (['c', 'o', 'l', 's'], c), (['b', 'o', 'd', 'y'], b)] dictBody = dictText d c b := rfl

def dictExpr (d : Str) (as : List Str) (ys : ExprArgs) : ExprText :=
  .chars ['\n', '\t'] (.set (.one (colsName d)) (rangeExpr (nameArgs as)) (.chars ['\n', '\t'] (.set (.one (eachName d)) (rangeExpr ys)
    (.chars ['\n', '\t'] (.set (.many as) (tableExpr d ys) (.chars ['\n'] .nil))))))

theorem dict_reads {d c b t g : Str} {as : List Str} {ys : ExprArgs} (hd : ∀ c ∈ d, NameChar c) (hg : IsGap g) (hc : c = g ++ t) (ht : Names as t)
    (has : as ≠ []) (hb : ∀ r, Reads m (.body (.list ys)) ('(' :: (b ++ ')' :: r)) r) :
    Reads m (.text .file 0 0 (dictExpr d as ys)) (dictText d c b) [] := by
  have hcols : ∀ r, Reads m (.body (.list (nameArgs as))) ('(' :: (c ++ ')' :: r)) r := by
    intro r
    rw [hc, List.append_assoc]
    exact .list hg (names_items ht r)
  have hline : ∀ {xs : ExprText} {s r : Str} {sq : Nat}, xs.startsPlain = false → (∀ sq, Reads m (.text .file sq 0 xs) ('(' :: s) r) →
      Reads m (.text .file sq 0 (.chars ['\n', '\t'] xs)) ('\n' :: '\t' :: '(' :: s) r := by
    intro xs s r sq hx h
    exact chars_reads (top := true) (w := ['\n', '\t']) (plainOk_of_check m (by simp) (by decide)) hx
      (by intro c hc; cases hc; exact .inl rfl) rfl h
  have hpar : ∀ r : Str, NoName (' ' :: r) := fun r => noName_cons (by unfold NameChar NameStart; decide) r
  refine hline rfl fun sq => .textSet (g1 := [' ']) (g2 := [' ']) isGap_space (.one (isName_cols hd)) isGap_space (range_reads hcols _) .plain (.inl (hpar _)) ?_
  refine hline rfl fun sq => .textSet (g1 := [' ']) (g2 := [' ']) isGap_space (.one (isName_each hd)) isGap_space (range_reads hb _) .plain (.inl (hpar _)) ?_
  refine hline rfl fun sq => ?_
  have hlast : ∀ sq, Reads m (.text .file sq 0 (.chars ['\n'] .nil)) ['\n'] [] := fun sq =>
    chars_reads (top := true) (w := ['\n']) (s := []) (plainOk_of_check m (by simp) (by decide)) rfl (by intro c hc; cases hc) rfl (fun _ => .textEnd .file)
  have := Reads.textSet (k := .file) (sq := sq) (pth := 0) (g1 := [' ']) (g2 := ['\n', '\t', '\t']) isGap_space (.many hg ht has)
    (by unfold IsGap GapChar; decide) (table_reads hd hb ['\n']) .plain (.inr ⟨as, rfl⟩) (hlast sq)
  rw [hc]
  simpa using this

/-! ## The marks -/

theorem infix_stop {u x y : Str} (hu : ')' ∉ u) (h : (u ++ [')']) <:+: x ++ ')' :: y) : (u ++ [')']) <:+: x ++ [')'] ∨ (u ++ [')']) <:+: y := by
  obtain ⟨a, b, h⟩ := h
  rw [List.append_assoc, List.append_assoc] at h
  have h : (a ++ u) ++ ')' :: b = x ++ ')' :: y := by simpa using h
  rcases List.append_eq_append_iff.1 h with ⟨w, h1, h2⟩ | ⟨w, h1, h2⟩
  · left
    cases w with
    | nil => exact ⟨a, [], by rw [h1]; simp⟩
    | cons c w =>
      simp at h2
      exact ⟨a, w ++ [')'], by rw [h1, ← h2.1]; simp⟩
  · cases w with
    | nil =>
      left
      exact ⟨a, [], by rw [List.append_nil] at h1; rw [← h1]; simp⟩
    | cons c w =>
      right
      simp at h2
      obtain ⟨rfl, rfl⟩ := h2
      have h1 : a ++ u = (x ++ [')']) ++ w := by simpa using h1
      rcases List.append_eq_append_iff.1 h1 with ⟨z, h3, h4⟩ | ⟨z, h3, h4⟩
      · rcases List.eq_nil_or_concat z with rfl | ⟨z, d, rfl⟩
        · exact ⟨[], b, by simp at h4; rw [h4]; simp⟩
        · rw [List.concat_eq_append, ← List.append_assoc] at h3
          have := List.append_inj_right' h3 rfl
          cases this
          exact absurd (by rw [h4]; simp) hu
      · exact ⟨z, b, by rw [h4]; simp⟩

/-- No mark of the macro is left. -/
theorem dict_unmarked {d c b u : Str} (hu : u ∈ [['i', 'd'], ['c', 'o', 'l', 's'], ['b', 'o', 'd', 'y']]) (hd : ∀ x ∈ d, NameChar x)
    (hc : '(' ∉ c) (hc' : '$' ∉ c) (hb : ¬ ('(' :: '$' :: (u ++ [')'])) <:+: '(' :: (b ++ [')'])) : ¬ ('(' :: '$' :: (u ++ [')'])) <:+: dictText d c b := by
  intro h
  have hd : '(' ∉ d := fun h => (nameChar_plain (hd _ h)).2.2.2.2.2.2.1 rfl
  have hstop : ')' ∉ ('(' :: '$' :: u) := by
    clear h hb
    revert u; decide
  have step : ∀ {x : Str}, (¬ ('(' :: '$' :: (u ++ [')'])) <+: '(' :: x) → ('(' :: '$' :: (u ++ [')'])) <:+: '(' :: x → ('(' :: '$' :: (u ++ [')'])) <:+: x := by
    intro x hx h
    rw [List.infix_cons_iff] at h
    exact h.resolve_left hx
  have plain : ∀ {x : Str} {k : Char}, (∀ v ∈ [['i', 'd'], ['c', 'o', 'l', 's'], ['b', 'o', 'd', 'y']], v.head? ≠ some k) → ¬ ('(' :: '$' :: (u ++ [')'])) <+: '(' :: '$' :: k :: x := by
    intro x k hk h
    have := hk u hu
    obtain ⟨w, h⟩ := h
    cases u with
    | nil => simp at hu
    | cons k' u =>
      simp at h
      exact this (by simp [h.1])
  have body : ∀ {y : Str}, ('(' :: '$' :: (u ++ [')'])) <:+: '(' :: (b ++ ')' :: y) → ('(' :: '$' :: (u ++ [')'])) <:+: y := by
    intro y h
    exact (infix_stop (u := '(' :: '$' :: u) (x := '(' :: b) hstop h).resolve_left hb
  have cols : ∀ {y : Str}, ('(' :: '$' :: (u ++ [')'])) <:+: '(' :: (c ++ ')' :: y) → ('(' :: '$' :: (u ++ [')'])) <:+: y := by
    intro y h
    have h := infix_past hc (step (x := c ++ ')' :: y) ?_ h)
    · exact infix_past (a := [')']) (by decide) h
    · rintro ⟨w, h⟩
      simp only [List.cons_append, List.cons.injEq, true_and] at h
      cases c with
      | nil => cases h
      | cons k c =>
        simp only [List.cons_append, List.cons.injEq] at h
        exact hc' (by rw [h.1]; simp)
  have colsD : ∀ {y : Str}, ('(' :: '$' :: (u ++ [')'])) <:+: colsName d ++ y → ('(' :: '$' :: (u ++ [')'])) <:+: y := by
    intro y h
    unfold colsName at h
    rw [List.append_assoc] at h
    exact infix_past hd (infix_past (by decide) h)
  have eachD : ∀ {y : Str}, ('(' :: '$' :: (u ++ [')'])) <:+: eachName d ++ y → ('(' :: '$' :: (u ++ [')'])) <:+: y := by
    intro y h
    unfold eachName at h
    rw [List.append_assoc] at h
    exact infix_past hd (infix_past (by decide) h)
  unfold dictText at h
  have h := step (plain (by decide)) (infix_past (a := ['\n', '\t']) (by decide) h)
  have h := colsD (infix_past (a := ['$', 's', 'e', 't', ' ']) (by decide) h)
  have h := step (plain (by decide)) (infix_past (a := [' ']) (by decide) h)
  have h := step (plain (by decide)) (infix_past (a := ['$', 'r', 'a', 'n', 'g', 'e', ' ']) (by decide) h)
  have h := cols (infix_past (a := ['$', 'l', 'e', 'n', ' ']) (by decide) h)
  have h := step (plain (by decide)) (infix_past (a := [' ', ')', ')', ')', '\n', '\t']) (by decide) h)
  have h := eachD (infix_past (a := ['$', 's', 'e', 't', ' ']) (by decide) h)
  have h := step (plain (by decide)) (infix_past (a := [' ']) (by decide) h)
  have h := step (plain (by decide)) (infix_past (a := ['$', 'r', 'a', 'n', 'g', 'e', ' ']) (by decide) h)
  have h := body (infix_past (a := ['$', 'l', 'e', 'n', ' ']) (by decide) h)
  have h := step (plain (by decide)) (infix_past (a := [' ', ')', ')', ')', '\n', '\t']) (by decide) h)
  have h := cols (infix_past (a := ['$', 's', 'e', 't', ' ']) (by decide) h)
  have h := step ?_ (infix_past (a := ['\n', '\t', '\t']) (by decide) h)
  have h := colsD (infix_past (a := ['$']) (by decide) h)
  have h := step (plain (by decide)) (infix_past (a := [' ', '\\', '_', '_', 'i', '.']) (by decide) h)
  have h := body (infix_past (a := ['$', ' ']) (by decide) h)
  have h := step (plain (by decide)) (infix_past (a := [' ', '\\', '_', '_', 'v', 'a', 'r', '.']) (by decide) h)
  have h := infix_past (r := []) (a := ['$', '_', '_', 'i', ' ', '_', '_', 'v', 'a', 'r', ')', ')', ')', '\n', '\t', ')', '\n']) (by decide) h
  · simp at h
  · rintro ⟨w, h⟩
    clear hb step plain body cols colsD eachD hstop
    unfold colsName at h
    simp only [List.mem_cons, List.not_mem_nil, or_false] at hu
    rcases hu with rfl | rfl | rfl <;> cases h

/-! ## The pieces -/

theorem names_plain {as : List Str} {t : Str} (h : Names as t) : ∀ c ∈ t, NameChar c ∨ GapChar c := by
  induction h with
  | nil => intro c hc; cases hc
  | cons ha hg _ _ ih =>
    intro c hc
    rcases List.mem_append.1 hc with hc | hc
    · exact .inl (isName_chars ha c hc)
    · rcases List.mem_append.1 hc with hc | hc
      · exact .inr (hg c hc)
      · exact ih c hc

/-- `($range ($len (..)))`, as a tree. -/
def rangeTree (l1 l2 l3 l4 : Option Loc) (ns : List Node) : Node := fnCall ['r', 'a', 'n', 'g', 'e'] l1 l2 [fnCall ['l', 'e', 'n'] l3 l4 [.list ns]]

theorem range_tree {xs : ExprArgs} {n : Node} (h : Tree (rangeExpr xs) n) : ∃ l1 l2 l3 l4 ns, n = rangeTree l1 l2 l3 l4 ns ∧ ArgTrees xs ns := by
  obtain ⟨g, ns, l2, rfl, h1, h2⟩ := tree_app h
  obtain ⟨⟨_, l1⟩, rfl, rfl⟩ := tree_name0 h1
  obtain ⟨n1, ns, rfl, h3, h4⟩ := args_pos h2
  cases args_nil h4
  obtain ⟨g, ns, l4, rfl, h5, h6⟩ := tree_app h3
  obtain ⟨⟨_, l3⟩, rfl, rfl⟩ := tree_name0 h5
  obtain ⟨n1, ns, rfl, h7, h8⟩ := args_pos h6
  cases args_nil h8
  obtain ⟨ns, rfl, h9⟩ := tree_list h7
  exact ⟨l1, l2, l3, l4, ns, rfl, h9⟩

theorem dict_pieces {d : Str} {as : List Str} {ys : ExprArgs} {nodes : List Node} (h : TextTrees true (dictExpr d as ys) nodes) :
    ∃ (p1 p2 p3 p4 n1 n2 c i i' v v' : Src) (bs : List Src) (r1 r2 t : Node) (ns : List Node) (l l' l'' : Option Loc),
      p1.txt = ['\n', '\t'] ∧ p2.txt = ['\n', '\t'] ∧ p3.txt = ['\n', '\t'] ∧ p4.txt = ['\n'] ∧ n1.txt = colsName d ∧ n2.txt = eachName d ∧
      bs.map (·.txt) = as ∧ Tree (rangeExpr (nameArgs as)) r1 ∧ Tree (rangeExpr ys) r2 ∧ c.txt = colsName d ∧ i.txt = lit "__i" ∧ i'.txt = lit "__i" ∧
      v.txt = lit "__var" ∧ v'.txt = lit "__var" ∧ ArgTrees ys ns ∧
      t = .apply (.var false [] c) [.lambda [([], i, none)] (.apply (.list ns) [.lambda [([], v, none)] (.apply (.var false [] i') [.var false [] v'] [] l)] [] l')] [] l'' ∧
      nodes = [.plain p1 (.str ['\t']) false, .set (.one n1) r1, .plain p2 (.str ['\t']) false, .set (.one n2) r2, .plain p3 (.str ['\t']) false,
        .set (.many bs) t, .plain p4 (.str []) false] := by
  have hind : ∀ {f : Bool} {i : Indent}, Indented f ['\n', '\t'] i → i = .str ['\t'] := fun h =>
    indented_det h (Indented.line (a := []) (b := ['\t']) (c := '\n') (.inl rfl) (by intro c hc; cases hc with | head => exact .inr rfl | tail _ h => cases h))
  have hind' : ∀ {f : Bool} {i : Indent}, Indented f ['\n'] i → i = .str [] := fun h =>
    indented_det h (Indented.line (a := []) (b := []) (c := '\n') (.inl rfl) (by intro c hc; cases hc))
  obtain ⟨p1, i1, ms, rfl, hp1, hi1, h1⟩ := text_chars h
  cases hind hi1
  obtain ⟨w1, r1, ms, rfl, ht1, hr1, h2⟩ := text_set h1
  obtain ⟨n1, rfl, hn1⟩ := target_one ht1
  obtain ⟨p2, i2, ms, rfl, hp2, hi2, h3⟩ := text_chars h2
  cases hind hi2
  obtain ⟨w2, r2, ms, rfl, ht2, hr2, h4⟩ := text_set h3
  obtain ⟨n2, rfl, hn2⟩ := target_one ht2
  obtain ⟨p3, i3, ms, rfl, hp3, hi3, h5⟩ := text_chars h4
  cases hind hi3
  obtain ⟨w3, t, ms, rfl, ht3, hr3, h6⟩ := text_set h5
  obtain ⟨bs, rfl, hbs⟩ := target_many ht3
  obtain ⟨p4, i4, ms, rfl, hp4, hi4, h7⟩ := text_chars h6
  cases hind' hi4
  cases text_nil h7
  obtain ⟨g, ks, l'', rfl, k1, k2⟩ := tree_app hr3
  obtain ⟨c, rfl, hc⟩ := tree_name0 k1
  obtain ⟨f1, ks, rfl, k3, k4⟩ := args_pos k2
  cases args_nil k4
  obtain ⟨i, y, rfl, hi, k5⟩ := tree_fn1 k3
  obtain ⟨g, ks, l', rfl, k6, k7⟩ := tree_app k5
  obtain ⟨ns, rfl, hns⟩ := tree_list k6
  obtain ⟨f1, ks, rfl, k8, k9⟩ := args_pos k7
  cases args_nil k9
  obtain ⟨v, y, rfl, hv, k10⟩ := tree_fn1 k8
  obtain ⟨g, ks, l, rfl, k11, k12⟩ := tree_app k10
  obtain ⟨i', rfl, hi'⟩ := tree_name0 k11
  obtain ⟨f1, ks, rfl, k13, k14⟩ := args_pos k12
  cases args_nil k14
  obtain ⟨v', rfl, hv'⟩ := tree_name0 k13
  exact ⟨p1, p2, p3, p4, n1, n2, c, i, i', v, v', bs, r1, r2, _, ns, l, l', l'', hp1, hp2, hp3, hp4, hn1, hn2, hbs, hr1, hr2, hc, hi, hi', hv, hv', hns, rfl, rfl⟩

/-! ## The values -/

theorem names_trees {as : List Str} : ∀ {ns : List Node}, ArgTrees (nameArgs as) ns → ∃ bs : List Src, ns = bs.map (fun b => .var false [] b) ∧ bs.map (·.txt) = as := by
  induction as with
  | nil => intro ns h; cases args_nil h; exact ⟨[], rfl, rfl⟩
  | cons a as ih =>
    intro ns h
    obtain ⟨n, ms, rfl, h1, h2⟩ := args_pos h
    obtain ⟨b, rfl, hb⟩ := tree_name0 h1
    obtain ⟨bs, rfl, hbs⟩ := ih h2
    exact ⟨b :: bs, rfl, by simp [hb, hbs]⟩

theorem names_eval {s : ESt} {bs : List Src} (h : ∀ b ∈ bs, Settled e s b.txt) :
    ∃ vs, Args e (bs.map (fun b => .var false [] b)) s vs s ∧ (∀ v ∈ vs, Value v ∧ v ≠ .none) ∧ vs.length = bs.length := by
  induction bs with
  | nil => exact ⟨[], .nil _, by simp, rfl⟩
  | cons b bs ih =>
    obtain ⟨vs, h1, h2, h3⟩ := ih fun b hb => h b (by simp [hb])
    have : ∃ v, Evaluates e (.var false [] b) s v s ∧ Value v ∧ v ≠ .none := by
      rcases h b (by simp) with hb | ⟨v, hl, hv, hn⟩
      · exact ⟨_, bare_eval hb, .atom _, by simp⟩
      · exact ⟨v, evaluates_iff.2 (var_value hl (by rintro rfl; cases hv)), hv, hn⟩
    obtain ⟨v, hv, hv1, hv2⟩ := this
    refine ⟨v :: vs, .one hv hv2 (by rintro a rfl; cases hv1) h1, ?_, by simp [h3]⟩
    intro w hw
    rcases List.mem_cons.1 hw with rfl | hw
    · exact ⟨hv1, hv2⟩
    · exact h2 w hw

theorem range_eval {x : BExt} (hr : Standard e x (lit "range")) (hl : Standard e x (lit "len")) {s : ESt} (hu : Unbound (lit "range") s)
    (hu' : Unbound (lit "len") s) {l1 l2 l3 l4 : Option Loc} {ns vs : List Node} (ha : Args e ns s vs s) (hv : ∀ v ∈ vs, Value v ∧ v ≠ .none) :
    Evaluates e (rangeTree l1 l2 l3 l4 ns) s (numbersBelow vs.length) s := by
  have hval : Value (.list vs) := .list _ (fun v h => (hv v h).1) (fun v h => (hv v h).2)
  have h1 := C85_len (l := l3) (loc := l4) hl hu' (.one (C60_list e _ _ _ _ ha) (by simp) (by simp) (.nil _)) hval
  have h2 := (C47_range_short (l := l1) (loc := l2) hr hu 0 vs.length [.int 0, .int vs.length] s (.one h1 (by simp) (by simp) (.nil _))
    (.one ⟨1, rfl⟩ (by simp) (by simp) (.one ⟨1, rfl⟩ (by simp) (by simp) (.nil _)))).1
  exact h2

theorem distribute_columns (as : List Str) (rows : List (List Node)) :
    distribute as ((List.range as.length).map (tableColumn rows)) = tableColumns as rows := by
  have key : ∀ (as : List Str) (k : Nat), distribute as ((List.range' k as.length).map (tableColumn rows)) = (as.zipIdx k).map fun (a, j) => (a, tableColumn rows j) := by
    intro as
    induction as with
    | nil => intro k; rfl
    | cons a as ih =>
      intro k
      simp only [List.length_cons, List.range'_succ, List.map_cons, distribute, List.zipIdx_cons]
      rw [ih]
  rw [List.range_eq_range']
  exact key as 0

/-! ## C87 -/

theorem putIn_dict {p1 p2 p3 p4 : Src} {a b c : LVal} {x y z : Node} (hp1 : p1.txt = ['\n', '\t']) (hp2 : p2.txt = ['\n', '\t']) (hp3 : p3.txt = ['\n', '\t'])
    (hp4 : p4.txt = ['\n']) (ind : Indent) :
    ∃ q1 q2 q3 q4 : Src, q1.txt = '\n' :: (marginOf ind ++ ['\t']) ∧ q2.txt = '\n' :: (marginOf ind ++ ['\t']) ∧ q3.txt = '\n' :: (marginOf ind ++ ['\t']) ∧
      q4.txt = '\n' :: marginOf ind ∧
      putIn ind [.plain p1 (.str ['\t']) false, .set a x, .plain p2 (.str ['\t']) false, .set b y, .plain p3 (.str ['\t']) false, .set c z, .plain p4 (.str []) false] =
        [.plain q1 (.str (marginOf ind ++ ['\t'])) false, .set a x, .plain q2 (.str (marginOf ind ++ ['\t'])) false, .set b y,
          .plain q3 (.str (marginOf ind ++ ['\t'])) false, .set c z, .plain q4 (.str (marginOf ind)) false] := by
  match ind with
  | .no => exact ⟨p1, p2, p3, p4, hp1, hp2, hp3, hp4, rfl⟩
  | .none => exact ⟨p1, p2, p3, p4, hp1, hp2, hp3, hp4, rfl⟩
  | .str [] => exact ⟨p1, p2, p3, p4, hp1, hp2, hp3, hp4, rfl⟩
  | .str (c :: i) =>
    refine ⟨⟨afterLines (c :: i) p1.txt, none⟩, ⟨afterLines (c :: i) p2.txt, none⟩, ⟨afterLines (c :: i) p3.txt, none⟩, ⟨afterLines (c :: i) p4.txt, none⟩, ?_, ?_, ?_, ?_, ?_⟩
    · rw [hp1]; simp [afterLines, lineEnds, marginOf]
    · rw [hp2]; simp [afterLines, lineEnds, marginOf]
    · rw [hp3]; simp [afterLines, lineEnds, marginOf]
    · rw [hp4]; simp [afterLines, lineEnds, marginOf]
    · simp only [putIn, atIndent, List.map_cons, List.map_nil, marginOf, List.append_nil]

theorem lookup_push_none {s : ESt} {F : Frame} {a : Str} (h : ∀ b ∈ F, b.1 ≠ a) : Scopes.lookup (push s F).env a = Scopes.lookup s.env a := by
  have hg : Frame.get F a = none := by
    unfold Frame.get
    have : F.find? (fun b => b.1 == a) = none := by
      rw [List.find?_eq_none]
      intro b hb
      simpa using h b hb
    rw [this]; rfl
  simp only [push, Scopes.lookup, hg]

theorem settled_push {s : ESt} {F : Frame} {a : Str} (h : Settled e s a) (hF : ∀ b ∈ F, b.1 ≠ a) : Settled e (push s F) a := by
  rcases h with h | ⟨v, h1, h2⟩
  · exact .inl (bare_push h hF)
  · exact .inr ⟨v, by rw [lookup_push_none hF]; exact h1, h2⟩

theorem pop_push (s : ESt) (F : Frame) : pop (push s F) = s := rfl

theorem dict_generates {x : BExt} (hr : Standard e x (lit "range")) (hl : Standard e x (lit "len")) {d : Str} {as : List Str} {ys : ExprArgs}
    {rows : List (List Node)} (hys : Rows ys rows) {nodes : List Node} (h : TextTrees true (dictExpr d as ys) nodes) {s : ESt}
    (hu : Unbound (lit "range") s) (hu' : Unbound (lit "len") s) (hnd : as.Nodup) (hset : ∀ a ∈ as, Settled e s a ∧ a ≠ colsName d)
    (hbare : ∀ a ∈ cellsNames ys, Bare e s a ∧ a ∉ as ∧ a ≠ lit "__i") :
    ∃ rows', Rows ys rows' ∧ ∀ ind rest o,
      Generates e (.str (marginOf ind)) false rest (push (push (push s [(colsName d, numbersBelow as.length)]) [(eachName d, numbersBelow rows'.length)])
        (tableColumns as rows')) o →
      Generates e ind false (putIn ind nodes ++ rest) s (o.after (dictSpace e.cfg ind)).leave.leave.leave := by
  obtain ⟨p1, p2, p3, p4, n1, n2, c, i, i', v, v', bs, r1, r2, t, ns, l, l', l'', hp1, hp2, hp3, hp4, hn1, hn2, hbs, hr1, hr2, hc, hi, hi', hv, hv', hns, rfl, rfl⟩ :=
    dict_pieces h
  obtain ⟨ws, hws, hcell⟩ := cells_tree (e := e) (rows_cells hys) hns
  obtain ⟨rows', rfl, hrows, -⟩ := cells_rows hys hws
  refine ⟨rows', hrows, fun ind rest o ho => ?_⟩
  have hcolsHyphen : ∀ {a : Str}, '-' ∉ a → colsName d ≠ a := by rintro a h rfl; exact h (by simp [colsName])
  have heachHyphen : ∀ {a : Str}, '-' ∉ a → eachName d ≠ a := by rintro a h rfl; exact h (by simp [eachName])
  -- the first definition
  have hset1 : Evaluates e (.set (.one n1) r1) s (.env [(colsName d, numbersBelow as.length)]) s := by
    obtain ⟨l1, l2, l3, l4, ms, rfl, hms⟩ := range_tree hr1
    obtain ⟨cs, rfl, hcs⟩ := names_trees hms
    obtain ⟨vs, hvs1, hvs2, hvs3⟩ := names_eval (e := e) (s := push s [(colsName d, .bound)]) (bs := cs) (by
      intro b hb
      have hba : b.txt ∈ as := by rw [← hcs]; exact List.mem_map_of_mem hb
      refine settled_push (hset _ hba).1 ?_
      intro f hf; simp at hf; subst hf; exact fun hh => (hset _ hba).2 hh.symm)
    have hlen : vs.length = as.length := by rw [hvs3, ← hcs, List.length_map]
    have hev := range_eval (l1 := l1) (l2 := l2) (l3 := l3) (l4 := l4) hr hl (s := push s [(colsName d, .bound)])
      (by unfold Unbound; rw [lookup_push_none (by intro f hf; simp at hf; subst hf; exact hcolsHyphen (by decide))]; exact hu)
      (by unfold Unbound; rw [lookup_push_none (by intro f hf; simp at hf; subst hf; exact hcolsHyphen (by decide))]; exact hu') hvs1 hvs2
    rw [hlen] at hev
    have := evaluates_set (e := e) (lval := .one n1) (s := s) (by simp [lvalNames])
      (by simp only [LVal.isOutput, hn1, beq_eq_false_iff_ne]; exact hcolsHyphen (by decide)) (by simpa only [lvalNames, List.map_cons, List.map_nil, hn1] using hev)
    simpa only [bindings, hn1, pop_push] using this
  -- the second
  have hset2 : Evaluates e (.set (.one n2) r2) (push s [(colsName d, numbersBelow as.length)]) (.env [(eachName d, numbersBelow rows'.length)])
      (push s [(colsName d, numbersBelow as.length)]) := by
    obtain ⟨l1, l2, l3, l4, ms, rfl, hms⟩ := range_tree hr2
    obtain ⟨ws2, hws2, hcell2⟩ := cells_tree (e := e) (rows_cells hys) hms
    obtain ⟨rows2, rfl, hrows2, hlen2⟩ := cells_rows hrows hws2
    have hev := range_eval (l1 := l1) (l2 := l2) (l3 := l3) (l4 := l4) hr hl (s := push (push s [(colsName d, numbersBelow as.length)]) [(eachName d, .bound)])
      (by
        unfold Unbound
        rw [lookup_push_none (by intro f hf; simp at hf; subst hf; exact heachHyphen (by decide)),
          lookup_push_none (by intro f hf; simp at hf; subst hf; exact hcolsHyphen (by decide))]
        exact hu)
      (by
        unfold Unbound
        rw [lookup_push_none (by intro f hf; simp at hf; subst hf; exact heachHyphen (by decide)),
          lookup_push_none (by intro f hf; simp at hf; subst hf; exact hcolsHyphen (by decide))]
        exact hu')
      (hcell2 _ (by
        intro a ha
        have hb := (hbare a ha).1
        exact bare_push (bare_push hb (by intro f hf; simp at hf; subst hf; exact hcolsHyphen hb.noHyphen))
          (by intro f hf; simp at hf; subst hf; exact heachHyphen hb.noHyphen)))
      (cells_value hws2)
    rw [List.length_map, hlen2] at hev
    have := evaluates_set (e := e) (lval := .one n2) (s := push s [(colsName d, numbersBelow as.length)]) (by simp [lvalNames])
      (by simp only [LVal.isOutput, hn2, beq_eq_false_iff_ne]; exact heachHyphen (by decide)) (by simpa only [lvalNames, List.map_cons, List.map_nil, hn2] using hev)
    simpa only [bindings, hn2, pop_push] using this
  -- the third
  have hset3 : ∀ w : Node, Evaluates e (.set (.many bs) (.apply (.var false [] c) [.lambda [([], i, none)]
      (.apply (.list ns) [.lambda [([], v, none)] (.apply (.var false [] i') [.var false [] v'] [] l)] [] l')] [] l''))
      (push (push s [(colsName d, numbersBelow as.length)]) [(eachName d, w)]) (.env (tableColumns as rows'))
      (push (push s [(colsName d, numbersBelow as.length)]) [(eachName d, w)]) := by
    intro w
    have hval : ∀ row ∈ rows', Value (.list row) := by
      intro row hrow
      exact (cells_value hws (.list row) (List.mem_map_of_mem hrow)).1
    have hnames : lvalNames (.many bs) = as := hbs
    have hbound : ∀ f ∈ as.map (fun a => ((a, Node.bound) : Str × Node)), f.1 ∈ as := by
      intro f hf
      obtain ⟨a, ha, rfl⟩ := List.mem_map.1 hf
      exact ha
    have hvar : Evaluates e (.var false [] c) (push (push (push s [(colsName d, numbersBelow as.length)]) [(eachName d, w)]) (as.map fun a => (a, .bound)))
        (numbersBelow as.length) (push (push (push s [(colsName d, numbersBelow as.length)]) [(eachName d, w)]) (as.map fun a => (a, .bound))) := by
      refine evaluates_iff.2 (var_value ?_ (by simp [numbersBelow]))
      rw [hc, lookup_push_none (by intro f hf; exact (hset _ (hbound f hf)).2), lookup_push_none (by intro f hf; simp at hf; subst hf; simp [eachName, colsName])]
      have : Frame.get [(colsName d, numbersBelow as.length)] (colsName d) = some (numbersBelow as.length) := by simp [Frame.get]
      simp only [push, Scopes.lookup, this]
    have hev := columns_taken hi hi' hv hv' (l := l) (l' := l') (l'' := l'') hval hvar (hcell _ (by
      intro a ha
      have hb := hbare a ha
      refine bare_push (bare_push (bare_push (bare_push hb.1 ?_) ?_) ?_) ?_
      · intro f hf; simp at hf; subst hf; exact hcolsHyphen hb.1.noHyphen
      · intro f hf; simp at hf; subst hf; exact heachHyphen hb.1.noHyphen
      · intro f hf hh; exact hb.2.1 (hh ▸ hbound f hf)
      · intro f hf; simp at hf; subst hf; rw [hi]; exact fun hh => hb.2.2 hh.symm))
    have := evaluates_set (e := e) (lval := .many bs) (s := push (push s [(colsName d, numbersBelow as.length)]) [(eachName d, w)]) (by rw [hnames]; exact hnd) rfl
      (by rw [hnames]; exact hev)
    simp only [bindings, hbs, pop_push, distribute_columns] at this
    exact this
  obtain ⟨q1, q2, q3, q4, hq1, hq2, hq3, hq4, he⟩ := putIn_dict (a := .one n1) (b := .one n2) (c := .many bs) (x := r1) (y := r2)
    (z := .apply (.var false [] c) [.lambda [([], i, none)] (.apply (.list ns) [.lambda [([], v, none)] (.apply (.var false [] i') [.var false [] v'] [] l)] [] l')] [] l'')
    hp1 hp2 hp3 hp4 ind
  rw [he]
  have hform : ∀ {a : LVal} {y : Node}, Form (.set a y) := fun {a y} => ⟨(by rintro ⟨_, _, _, h⟩; cases h), (by intro h; cases h)⟩
  have g4 := Generates.plain (e := e) (ind := .str (marginOf ind ++ ['\t'])) (cut := true) (w := q4) (i := .str (marginOf ind)) (c := false) ho
  have g3 := Generates.definition (cut := false) hform (hset3 (numbersBelow rows'.length)) (by simp) g4
  have g3 := Generates.plain (e := e) (ind := .str (marginOf ind ++ ['\t'])) (cut := true) (w := q3) (i := .str (marginOf ind ++ ['\t'])) (c := false) g3
  have g2 := Generates.definition (cut := false) hform hset2 (by simp) g3
  have g2 := Generates.plain (e := e) (ind := .str (marginOf ind ++ ['\t'])) (cut := true) (w := q2) (i := .str (marginOf ind ++ ['\t'])) (c := false) g2
  have g1 := Generates.definition (cut := false) hform hset1 (by simp) g2
  have g1 := Generates.plain (e := e) (ind := ind) (cut := false) (w := q1) (i := .str (marginOf ind ++ ['\t'])) (c := false) g1
  rw [hq1, hq2, hq3, hq4] at g1
  have hy : (o.after (dictSpace e.cfg ind)).leave.leave.leave = ((((o.after (fragment e.cfg ('\n' :: marginOf ind) (true || false))).leave.after
      (fragment e.cfg ('\n' :: (marginOf ind ++ ['\t'])) (true || false))).leave.after (fragment e.cfg ('\n' :: (marginOf ind ++ ['\t'])) (true || false))).leave.after
      (fragment e.cfg ('\n' :: (marginOf ind ++ ['\t'])) (false || false))) := by
    have hf : fragment e.cfg ('\n' :: (marginOf ind ++ ['\t'])) (false || false) = '\n' :: (marginOf ind ++ ['\t']) := by simp [fragment]
    rw [hf]
    cases o <;> simp [Yield.after, Yield.leave, dictSpace]
  rw [hy]
  exact g1

/-- **C87**. `($dict ID COLS BODY)` of the library, where the text of `ID` is `d`, that of `COLS` names `as`, that of `BODY` lists `ys`
    the cells of which are names that stand for themselves, numbers, texts and lists of such cells: what follows the call finds
    `cols-ID` bound to the numbers of the columns, `each-ID` bound to the numbers of the rows, and each of the names `as` bound
    to a list, its column. In place of the call there are only line ends and tabs. -/
theorem C87_dict (e : EEnv) (x : BExt) (hr : Standard e x (lit "range")) (hl : Standard e x (lit "len")) (fn : Node) (text decl : Src) (c0 : Option Src)
    (args : List Node) (vi vc vb : Node) (d c b g t : Str) (as : List Str) (ys : ExprArgs) (rows : List (List Node)) (loc : Option Loc) (s s1 s2 : ESt)
    (hf : Evaluates e fn s (.mclosure text [(lit "id", .bound), (lit "cols", .bound), (lit "body", .bound)] decl c0) s1) (htext : text.txt = dictBody)
    (harg : Args e args s1 [vi, vc, vb] s2) (hv : ∀ v ∈ [vi, vc, vb], Value v ∧ v ≠ .none)
    (hti : ArgText vi d) (htc : ArgText vc c) (htb : ArgText vb b)
    (hd : ∀ k ∈ d, NameChar k) (hg : IsGap g) (hc : c = g ++ t) (has : Names as t) (hne : as ≠ []) (hnd : as.Nodup)
    (hb : ∀ r, Reads (modeOf e.pe) (.body (.list ys)) ('(' :: (b ++ ')' :: r)) r) (hys : Rows ys rows)
    (hclean : Unmarked [(lit "id", d), (lit "cols", c), (lit "body", b)] ('(' :: (b ++ [')'])))
    (hset : ∀ a ∈ as, Settled e s2 a ∧ a ≠ lit "cols-" ++ d)
    (hbare : ∀ a ∈ cellsNames ys, Bare e s2 a ∧ a ∉ as ∧ a ≠ lit "__i")
    (hu : Unbound (lit "range") s2) (hu' : Unbound (lit "len") s2)
    (hk : e.pe.outputPython = true → e.pe.inputFile ≠ natStr s2.p.world.inclusion.length) :
    ∃ s3 rows, s3 = (record s2 (substitute [(lit "id", d), (lit "cols", c), (lit "body", b)] dictBody) decl.loc none).2 ∧ Rows ys rows ∧
      ∀ ind cut rest o, Generates e (.str (marginOf ind)) false rest
          (push (push (push s3 [(lit "cols-" ++ d, numbersBelow as.length)]) [(lit "each-" ++ d, numbersBelow rows.length)]) (tableColumns as rows)) o →
        Generates e ind cut (.apply fn args [] loc :: rest) s (o.after (dictSpace e.cfg ind)).leave.leave.leave := by
  have hl1 : lit "id" = ['i', 'd'] := by decide
  have hl2 : lit "cols" = ['c', 'o', 'l', 's'] := by decide
  have hl3 : lit "body" = ['b', 'o', 'd', 'y'] := by decide
  have hl4 : lit "cols-" ++ d = colsName d := by rw [show lit "cols-" = ['c', 'o', 'l', 's', '-'] by decide]; rfl
  have hl5 : lit "each-" ++ d = eachName d := by rw [show lit "each-" = ['e', 'a', 'c', 'h', '-'] by decide]; rfl
  rw [hl1, hl2, hl3] at hf hclean ⊢
  rw [hl4] at hset ⊢
  rw [hl5]
  have hcc : ∀ k ∈ c, NameChar k ∨ GapChar k := by
    intro k hk
    rw [hc] at hk
    rcases List.mem_append.1 hk with hk | hk
    · exact .inr (hg k hk)
    · exact names_plain has k hk
  have hc1 : '(' ∉ c := by
    intro h
    rcases hcc _ h with h | h
    · exact (nameChar_plain h).2.2.2.2.2.2.1 rfl
    · revert h; unfold GapChar; decide
  have hc2 : '$' ∉ c := by
    intro h
    rcases hcc _ h with h | h
    · revert h; unfold NameChar NameStart; decide
    · revert h; unfold GapChar; decide
  have hsub : substitute ([['i', 'd'], ['c', 'o', 'l', 's'], ['b', 'o', 'd', 'y']].zip [d, c, b]) text.txt = dictText d c b := by
    rw [htext]; exact dict_text d c b
  have hmac := C82_macro e fn text decl c0 [['i', 'd'], ['c', 'o', 'l', 's'], ['b', 'o', 'd', 'y']] args [vi, vc, vb] [d, c, b] loc s s1 s2 hf harg (by simp) rfl
    (by decide) (by decide) (fun v h => (hv v h).1) (fun v h => (hv v h).2) (.cons hti (.cons htc (.cons htb .nil)))
    (by
      intro p hp
      simp only [List.zip_cons_cons, List.zip_nil_left, List.mem_cons, List.not_mem_nil, or_false] at hp
      rcases hp with rfl | rfl | rfl
      · exact (by decide : '(' ∉ (['i', 'd'] : Str) ∧ ')' ∉ (['i', 'd'] : Str))
      · exact (by decide : '(' ∉ (['c', 'o', 'l', 's'] : Str) ∧ ')' ∉ (['c', 'o', 'l', 's'] : Str))
      · exact (by decide : '(' ∉ (['b', 'o', 'd', 'y'] : Str) ∧ ')' ∉ (['b', 'o', 'd', 'y'] : Str)))
    (by
      rw [hsub]
      intro p hp a y h
      have hu : p.1 ∈ [['i', 'd'], ['c', 'o', 'l', 's'], ['b', 'o', 'd', 'y']] := by
        simp only [List.zip_cons_cons, List.zip_nil_left, List.mem_cons, List.not_mem_nil, or_false] at hp
        rcases hp with rfl | rfl | rfl <;> simp
      refine dict_unmarked hu hd hc1 hc2 ?_ ⟨a, y, by rw [h]; simp⟩
      rintro ⟨a', y', h'⟩
      exact hclean p hp a' y' (by rw [← h']; simp))
    (xs := dictExpr d as ys) (by rw [hsub]; exact dict_reads hd hg hc has hne hb) (by rw [hsub]; simp [dictText]) hk
  rw [hsub] at hmac
  obtain ⟨nodes, s3, h1, h2, h3, -, -⟩ := hmac
  have hsub' : substitute [(['i', 'd'], d), (['c', 'o', 'l', 's'], c), (['b', 'o', 'd', 'y'], b)] dictBody = dictText d c b := dict_text d c b
  have henv : s3.env = s2.env := by rw [h2]; rfl
  have hscr : s3.p.scripts = s2.p.scripts := by rw [h2]; rfl
  have hbare3 : ∀ {a : Str}, Bare e s2 a → Bare e s3 a := fun h => ⟨by rw [henv]; exact h.unbound, by rw [hscr]; exact h.notBuiltin, h.notSpecial, h.noHyphen⟩
  obtain ⟨rows', hrows, hgen⟩ := dict_generates hr hl hys h1 (s := s3) (by unfold Unbound; rw [henv]; exact hu) (by unfold Unbound; rw [henv]; exact hu') hnd
    (by
      intro a ha
      refine ⟨?_, (hset a ha).2⟩
      rcases (hset a ha).1 with h | ⟨v, h, hh⟩
      · exact .inl (hbare3 h)
      · exact .inr ⟨v, by rw [henv]; exact h, hh⟩)
    (fun a ha => ⟨hbare3 (hbare a ha).1, (hbare a ha).2⟩)
  refine ⟨s3, rows', by rw [hsub', h2]; rfl, hrows, fun ind cut rest o ho => ?_⟩
  have hdef : ∃ y ∈ nodes, Defines y := by
    obtain ⟨p1, p2, p3, p4, n1, n2, c, i, i', v, v', bs, r1, r2, t, ns, l, l', l'', -, -, -, -, -, -, -, -, -, -, -, -, -, -, -, rfl, rfl⟩ := dict_pieces h1
    exact ⟨.set (.one n1) r1, by simp, _, _, rfl⟩
  exact (h3 hdef ind cut rest _).2 (hgen ind rest o ho)

/-! ## Using the table -/

theorem columns_get {as : List Str} (hnd : as.Nodup) (rows : List (List Node)) {j : Nat} {a : Str} (ha : as[j]? = some a) :
    Frame.get (tableColumns as rows) a = some (tableColumn rows j) := by
  have key : ∀ (as : List Str) (k j : Nat), as.Nodup → as[j]? = some a →
      (((as.zipIdx k).map fun (a, j) => ((a, tableColumn rows j) : Str × Node)).find? (fun b => b.1 == a)).map (·.2) = some (tableColumn rows (k + j)) := by
    intro as
    induction as with
    | nil => intro k j _ h; cases h
    | cons b as ih =>
      intro k j hn h
      cases j with
      | zero => cases h; simp
      | succ j =>
        have hab : b ≠ a := by
          rintro rfl
          exact (List.nodup_cons.1 hn).1 (List.mem_of_getElem? (by simpa using h))
        rw [List.zipIdx_cons, List.map_cons, List.find?_cons_of_neg (by simpa using hab), ih (k + 1) j (List.nodup_cons.1 hn).2 (by simpa using h)]
        congr 2; omega
  have := key as 0 j hnd ha
  rwa [Nat.zero_add] at this

/-- **C87**. `($each-ID \i.($i COL))` behind the table: the column `COL`. -/
theorem C87_each (e : EEnv) (d : Str) (as : List Str) (hnd : as.Nodup) (rows : List (List Node)) (hv : ∀ row ∈ rows, ∀ v ∈ row, Value v ∧ v ≠ .none)
    (n : Node) (s : ESt) (f i i' a : Src) (l l' : Option Loc) (j : Nat) (ha : as[j]? = some a.txt) (hf : f.txt = lit "each-" ++ d)
    (hfa : f.txt ∉ as) (hi : i'.txt = i.txt) (hia : i.txt ≠ a.txt) (hi1 : i.txt ≠ lit "...") (hi2 : i.txt ≠ vaArgs) :
    let s' := push (push (push s [(lit "cols-" ++ d, n)]) [(lit "each-" ++ d, numbersBelow rows.length)]) (tableColumns as rows)
    Evaluates e (.apply (.var false [] f) [.lambda [([], i, none)] (.apply (.var false [] i') [.var false [] a] [] l)] [] l') s' (tableColumn rows j) s' := by
  intro s'
  have hfn : Evaluates e (.var false [] f) s' (numbersBelow rows.length) s' := by
    refine evaluates_iff.2 (var_value ?_ (by simp [numbersBelow]))
    have h1 : ∀ b ∈ tableColumns as rows, b.1 ≠ f.txt := by
      intro b hb hh
      have hm : b.1 ∈ (tableColumns as rows).map (·.1) := List.mem_map_of_mem hb
      rw [← distribute_columns, distribute_names] at hm
      exact hfa (hh ▸ hm)
    rw [lookup_push_none h1]
    have : Frame.get [(lit "each-" ++ d, numbersBelow rows.length)] f.txt = some (numbersBelow rows.length) := by simp [Frame.get, hf]
    simp only [push, Scopes.lookup, this]
  have hcol : ∀ w : Node, Scopes.lookup (push s' [(i.txt, w)]).env a.txt = some (tableColumn rows j) := by
    intro w
    rw [lookup_push_none (by intro b hb; simp at hb; subst hb; exact hia)]
    simp only [s', push, Scopes.lookup, columns_get hnd rows ha]
  have hget : ∀ w : Node, Scopes.lookup (push s' [(i.txt, w)]).env i'.txt = some w := by
    intro w
    have : Frame.get [(i.txt, w)] i'.txt = some w := by simp [Frame.get, hi]
    simp only [push, Scopes.lookup, this]
  generalize hcv : rows.filterMap (·[j]?) = cs at *
  have hcv' : tableColumn rows j = .list cs := by rw [tableColumn, hcv]
  rw [hcv'] at hcol ⊢
  have hlen : cs.length ≤ rows.length := by rw [← hcv]; exact List.length_filterMap_le ..
  have hval : ∀ v ∈ cs, Value v ∧ v ≠ .none := by
    intro v h
    rw [← hcv] at h
    obtain ⟨row, hrow, hg⟩ := List.mem_filterMap.1 h
    exact hv row hrow v (List.mem_of_getElem? hg)
  have hlist : Value (.list cs) := .list _ (fun v h => (hval v h).1) (fun v h => (hval v h).2)
  have hlam : Evaluates e (.lambda [([], i, none)] (.apply (.var false [] i') [.var false [] a] [] l)) s' (.lclosure (cellOf i' l cs) [(i.txt, .bound)] [] []) s' := by
    refine lambda_one hi1 ?_
    rw [ev_apply (evaluates_iff.2 (var_open (hget .bound))) (.one (evaluates_iff.2 (var_value (hcol .bound) (by simp))) (by simp) (by simp) (.nil _))]
    rfl
  have hclo : Evaluates e (.lclosure (cellOf i' l cs) [(i.txt, .bound)] [] []) s' (.lclosure (cellOf i' l cs) [(i.txt, .bound)] [] []) s' := by
    refine closure_waits ?_ (un_bound _ _)
    unfold cellOf
    rw [ev_apply (evaluates_iff.2 (var_open (hget .bound))) (.one (evaluates_iff.2 (ev_value e hlist _)) (by simp) (by simp) (.nil _))]
    rfl
  have hone : ∀ k : Nat, ∀ y, (∀ h : k < cs.length, y = cs[k]) → (cs.length ≤ k → y = .none) →
      Evaluates e (.apply (.lclosure (cellOf i' l cs) [(i.txt, .bound)] [] []) [.int k] [] none) s' y s' := by
    intro k y h1 h2
    refine call_one hclo (.one ⟨1, rfl⟩ (by simp) (by simp) (.nil _)) hi2 (.int _) (evaluates_iff.1 ?_)
    have hsub := C27_subscript e (.var false [] i') (.int k) k [.list cs] [.list cs] cs l _ _ _ (evaluates_iff.2 (var_value (hget (.int k)) (by simp))) (.int _)
      (.one (evaluates_iff.2 (ev_value e hlist _)) (by simp) (by simp) (.nil (push s' [(i.txt, .int k)]))) (by simpa using hlist) (by simp) (.items _)
    by_cases hk : k < cs.length
    · rw [h1 hk]; exact hsub.1 k hk rfl
    · rw [h2 (by omega)]; exact hsub.2.1 (by omega)
  have heach : ∀ m k, Each e [.lclosure (cellOf i' l cs) [(i.txt, .bound)] [] []] ((List.range' k m).map fun k : Nat => .int k) s' ((cs.drop k).take m) s' := by
    intro m
    induction m with
    | zero => intro k; simp only [List.range'_zero, List.map_nil, List.take_zero]; exact .nil _
    | succ m ih =>
      intro k
      rw [List.range'_succ, List.map_cons]
      by_cases hk : k < cs.length
      · rw [List.drop_eq_getElem_cons hk, List.take_succ_cons]
        exact .keep (.cons (hone k cs[k] (fun _ => rfl) (by omega)) (.nil _ _)) (hval _ (List.getElem_mem hk)).2 (ih (k + 1))
      · rw [List.drop_eq_nil_of_le (by omega), List.take_nil]
        have := ih (k + 1)
        rw [List.drop_eq_nil_of_le (by omega), List.take_nil] at this
        exact .drop (.cons (hone k .none (by omega) (fun _ => rfl)) (.nil _ _)) this
  have hfin := heach rows.length 0
  rw [List.drop_zero, List.take_of_length_le hlen, ← List.range_eq_range'] at hfin
  exact (C26_list_application_is_map e _ _ _ _ _ _ _ _ hfn (.one hlam (by simp) (by simp) (.nil _)) _ _).2 ⟨_, rfl, hfin⟩

/-- **C87**. In a table without gaps the item `k` of the column `j` is the cell `j` of the row `k`. -/
theorem C87_cell (rows : List (List Node)) (j : Nat) (h : ∀ row ∈ rows, j < row.length) :
    ∃ cs, tableColumn rows j = .list cs ∧ cs.length = rows.length ∧ ∀ (k : Nat) (row : List Node), rows[k]? = some row → cs[k]? = row[j]? := by
  refine ⟨_, rfl, ?_, ?_⟩
  · induction rows with
    | nil => rfl
    | cons row rows ih =>
      have hj := h row (by simp)
      rw [List.filterMap_cons, List.getElem?_eq_getElem hj]
      simp [ih fun r hr => h r (by simp [hr])]
  · induction rows with
    | nil => intro k row hk; cases hk
    | cons r rows ih =>
      have hj := h r (by simp)
      intro k row hk
      rw [List.filterMap_cons, List.getElem?_eq_getElem hj]
      cases k with
      | zero => cases hk; simp [List.getElem?_eq_getElem hj]
      | succ k => simpa using ih (fun r hr => h r (by simp [hr])) k row (by simpa using hk)

/-- **C87**. A row that is too short moves the cells of the rows below up: the item `k` of the column `j` is then not the cell of the row `k`
    but of a row further down. -/
theorem C87_gap (above below : List (List Node)) (short row : List Node) (j : Nat) (v : Node) (h : ∀ r ∈ above, j < r.length) (hs : short.length ≤ j)
    (hv : row[j]? = some v) :
    ∃ cs, tableColumn (above ++ short :: row :: below) j = .list cs ∧ cs[above.length]? = some v := by
  refine ⟨_, rfl, ?_⟩
  rw [List.filterMap_append, List.filterMap_cons]
  have h1 : short[j]? = none := List.getElem?_eq_none hs
  have h2 : (above.filterMap (·[j]?)).length = above.length := by
    obtain ⟨cs, hc, hl, -⟩ := C87_cell above j h
    cases hc; exact hl
  simp only [h1]
  rw [List.getElem?_append_right (by omega), h2, Nat.sub_self, List.filterMap_cons]
  simp [hv]

/-! ## The library -/

/-- A macro `dict` with the parameters of the library and this text. -/
def isDict (body : Str) : Node → Bool
  | .macro v [p, q, r] t => decide (v.txt = lit "dict") && decide (p.txt = lit "id") && decide (q.txt = lit "cols") && decide (r.txt = lit "body") && decide (t.txt = body)
  | _ => false

theorem isDict_sound {body : Str} {d : Node} (h : isDict body d = true) :
    ∃ v p q r t, d = .macro v [p, q, r] t ∧ v.txt = lit "dict" ∧ p.txt = lit "id" ∧ q.txt = lit "cols" ∧ r.txt = lit "body" ∧ t.txt = body := by
  unfold isDict at h
  split at h
  · simp only [Bool.and_eq_true, decide_eq_true_eq] at h
    exact ⟨_, _, _, _, _, rfl, h.1.1.1.1, h.1.1.1.2, h.1.1.2, h.1.2, h.2⟩
  · cases h

/-- The lines of the library with the macro. -/
def dictLines : Str := joinStr ['\n'] ((stdlibLines.drop 12).take 7)

set_option maxRecDepth 100000 in
theorem dict_parsed : parsedAlone 100 dictLines (isDict dictBody) = true := by decide +kernel

/-- **C87**. The macro that the theorems are about is that of the library file: seven lines of it, parsed, are one such definition. -/
theorem C87_library : ∃ n v p q r t st,
    (P { inputFile := ['a'] } n).parse ['a'] (PSt.start { inputFile := ['a'] } none (joinStr ['\n'] ((stdlibLines.drop 12).take 7))) = .ok ([.macro v [p, q, r] t], st) ∧
      v.txt = lit "dict" ∧ p.txt = lit "id" ∧ q.txt = lit "cols" ∧ r.txt = lit "body" ∧ t.txt = dictBody := by
  obtain ⟨m, st, h1, h2⟩ := parsedAlone_sound dict_parsed
  obtain ⟨v, p, q, r, t, rfl, h⟩ := isDict_sound h2
  exact ⟨100, v, p, q, r, t, st, h1, h⟩

/-! An example: `($dict X (`A B) (`(p 1)(q 2)))`, then `($each-X \i.($i B))`: the text is `12`. -/

theorem example_rows (m : Mode) (r : Str) :
    Reads m (.body (.list (.pos (.list (.pos (.name false [] ['p']) (.pos (.int 1) .nil))) (.pos (.list (.pos (.name false [] ['q']) (.pos (.int 2) .nil))) .nil))))
      ('(' :: (['(', 'p', ' ', '1', ')', '(', 'q', ' ', '2', ')'] ++ ')' :: r)) r := by
  have hrow : ∀ (a k : Char) (n : Int), NameStart a → printInt n = [k] → NoGap (k :: []) → k ≠ '?' → ∀ r,
      Reads m (.body (.list (.pos (.name false [] [a]) (.pos (.int n) .nil)))) ('(' :: a :: ' ' :: k :: ')' :: r) r := by
    intro a k n ha hk hk1 hk2 r
    have h2 := printInt_reads (m := m) n (ended_close r)
    rw [hk] at h2
    refine .list (g := []) isGap_nil (.item (.one (g := [' ']) (.name (t := [a]) (.plain ⟨a, [], rfl, ha, by simp⟩) (ended_space _)) isGap_space ?_ (by simpa using hk2))
      (.item (.one (g := []) h2 isGap_nil (noGap_close r) (by simp)) .itemsEnd))
    exact noGap_cons (hk1 k (by simp)) _
  have hg1 : NoGap ['1'] := noGap_cons (by unfold GapChar; decide) []
  have hg2 : NoGap ['2'] := noGap_cons (by unfold GapChar; decide) []
  exact .list (g := []) isGap_nil (.item (.one (g := []) (.former (hrow 'p' '1' 1 (by unfold NameStart; decide) (by decide +kernel) hg1 (by decide) _)) isGap_nil (noGap_paren _) (by simp))
    (.item (.one (g := []) (.former (hrow 'q' '2' 2 (by unfold NameStart; decide) (by decide +kernel) hg2 (by decide) _)) isGap_nil (noGap_close r) (by simp)) .itemsEnd))

example (e : EEnv) (x : BExt) (hr : Standard e x (lit "range")) (hl : Standard e x (lit "len")) (hc : e.cfg.trimAppIndent = true) (decl m : Src) (s : ESt)
    (hm : Scopes.lookup s.env m.txt = some (.mclosure ⟨dictBody, none⟩ [(lit "id", .bound), (lit "cols", .bound), (lit "body", .bound)] decl none))
    (hb : ∀ a ∈ [['A'], ['B'], ['p'], ['q']], Bare e s a) (hu : Unbound (lit "range") s) (hu' : Unbound (lit "len") s) (hk : e.pe.outputPython = false) :
    ∃ s', Generates e .no false [.apply (.var false [] m) [.atom ⟨['X'], none⟩, .str ⟨['A', ' ', 'B'], none⟩, .str ⟨['(', 'p', ' ', '1', ')', '(', 'q', ' ', '2', ')'], none⟩] [] none,
      .apply (.var false [] ⟨lit "each-X", none⟩) [.lambda [([], ⟨['i'], none⟩, none)] (.apply (.var false [] ⟨['i'], none⟩) [.var false [] ⟨['B'], none⟩] [] none)] [] none] s
      (.text ('\n' :: '\t' :: reindent e.cfg [] ['1', '2']) s') := by
  have hf : Evaluates e (.var false [] m) s (.mclosure ⟨dictBody, none⟩ [(lit "id", .bound), (lit "cols", .bound), (lit "body", .bound)] decl none) s :=
    evaluates_iff.2 (var_value hm (by simp))
  have hA : IsName ['A'] := ⟨'A', [], rfl, by unfold NameStart; decide, by simp⟩
  have hB : IsName ['B'] := ⟨'B', [], rfl, by unfold NameStart; decide, by simp⟩
  obtain ⟨s3, rows, -, hrows, h⟩ := C87_dict e x hr hl (.var false [] m) ⟨dictBody, none⟩ decl none
    [.atom ⟨['X'], none⟩, .str ⟨['A', ' ', 'B'], none⟩, .str ⟨['(', 'p', ' ', '1', ')', '(', 'q', ' ', '2', ')'], none⟩] _ _ _
    ['X'] ['A', ' ', 'B'] ['(', 'p', ' ', '1', ')', '(', 'q', ' ', '2', ')'] [] ['A', ' ', 'B'] [['A'], ['B']] _
    [[.atom ⟨['p'], none⟩, .int 1], [.atom ⟨['q'], none⟩, .int 2]] none s s s hf rfl
    (.one (evaluates_iff.2 (ev_value e (.atom _) s)) (by simp) (by simp) (.one (evaluates_iff.2 (ev_value e (.str _) s)) (by simp) (by simp)
      (.one (evaluates_iff.2 (ev_value e (.str _) s)) (by simp) (by simp) (.nil s))))
    (by
      intro v hv
      simp only [List.mem_cons, List.not_mem_nil, or_false] at hv
      rcases hv with rfl | rfl | rfl
      · exact ⟨.atom _, by simp⟩
      · exact ⟨.str _, by simp⟩
      · exact ⟨.str _, by simp⟩)
    (.atom _) (.str _) (.str _) (by unfold NameChar NameStart; decide) isGap_nil rfl (.cons (g := [' ']) hA isGap_space (.cons (g := []) hB isGap_nil .nil (.inl rfl)) (.inr (by simp)))
    (by simp) (by decide) (example_rows _)
    (.cons (.cons (.name ⟨['p'], none⟩) (.cons (.int 1) .nil)) (.cons (.cons (.name ⟨['q'], none⟩) (.cons (.int 2) .nil)) .nil))
    (by
      intro p _ a b h
      have : '$' ∈ ('(' :: (['(', 'p', ' ', '1', ')', '(', 'q', ' ', '2', ')'] ++ [')'])) := by rw [h]; simp
      revert this; decide)
    (by
      intro a ha
      simp only [List.mem_cons, List.not_mem_nil, or_false] at ha
      rcases ha with rfl | rfl
      · exact ⟨.inl (hb _ (by simp)), by decide⟩
      · exact ⟨.inl (hb _ (by simp)), by decide⟩)
    (by
      intro a ha
      simp only [cellsNames, cellNames, List.append_nil, List.nil_append, List.cons_append, List.mem_cons, List.not_mem_nil, or_false] at ha
      rcases ha with rfl | rfl
      · exact ⟨hb _ (by simp), by decide, by decide⟩
      · exact ⟨hb _ (by simp), by decide, by decide⟩)
    hu hu' (by simp [hk])
  cases hrows with
  | cons h1 h2 =>
  cases h2 with
  | cons h2 h3 =>
  cases h3
  cases h1 with
  | cons k1 h1 =>
  cases h1 with
  | cons k2 h1 =>
  cases h1; cases k2
  cases h2 with
  | cons k3 h2 =>
  cases h2 with
  | cons k4 h2 =>
  cases h2; cases k4
  rename_i v1 v2
  have heach := C87_each e ['X'] [['A'], ['B']] (by decide) [[v1, .int 1], [v2, .int 2]]
    (by
      intro row hrow v hv
      simp only [List.mem_cons, List.not_mem_nil, or_false] at hrow
      rcases hrow with rfl | rfl <;> (simp only [List.mem_cons, List.not_mem_nil, or_false] at hv; rcases hv with rfl | rfl)
      · exact cell_value k1
      · exact ⟨.int _, by simp⟩
      · exact cell_value k3
      · exact ⟨.int _, by simp⟩)
    (numbersBelow 2) s3 ⟨lit "each-X", none⟩ ⟨['i'], none⟩ ⟨['i'], none⟩ ⟨['B'], none⟩ none none 1 rfl (by decide) (by decide) rfl (by decide) (by decide) (by decide)
  have hout : Final (tableColumn [[v1, .int 1], [v2, .int 2]] 1) := .list (by
    intro y hy
    simp only [List.filterMap_cons, List.filterMap_nil, List.getElem?_cons_succ, List.getElem?_cons_zero, List.mem_cons, List.not_mem_nil, or_false] at hy
    rcases hy with rfl | rfl <;> exact .int _)
  have hgen := Generates.item (e := e) (ind := .str (marginOf .no)) (cut := false) ⟨(by rintro ⟨_, _, _, h⟩; cases h), (by intro h; cases h)⟩ heach
    (.value (by simp [tableColumn]) (by simp [tableColumn]) (by simp [tableColumn]) (by simp [tableColumn]) (by simp [tableColumn]) (by simp [tableColumn])) hout (.nil ..)
  have := h .no false _ _ hgen
  have hsp : dictSpace e.cfg .no = ['\n', '\t'] := by
    unfold dictSpace fragment
    simp only [hc]
    decide
  rw [hsp] at this
  have hshow : ∀ f l a, itemText e (.str (marginOf .no)) (.apply f [l] [] a) (tableColumn [[v1, .int 1], [v2, .int 2]] 1) = reindent e.cfg [] ['1', '2'] := by
    intro f l a
    have : shown e.cfg e.repr (tableColumn [[v1, .int 1], [v2, .int 2]] 1) = ['1', '2'] := by
      simp only [tableColumn, List.filterMap_cons, List.filterMap_nil, List.getElem?_cons_succ, List.getElem?_cons_zero, shown, showns]
      decide +kernel
    simp only [itemText, marginOf, this]
  rw [hshow] at this
  simp only [Yield.after, Yield.leave, List.append_nil, List.cons_append, List.nil_append] at this
  exact ⟨_, this⟩

end Yupp
