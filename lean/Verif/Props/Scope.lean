import Verif.Lemmas.EvalRel
import Verif.Spec.Scope
/-!
# Scopes and modules: C28, C30
-/

namespace Yupp

open Spec

/-! ## Names in scope -/

theorem frame_put_names (f : Frame) (k : Str) (v : Node) : (Frame.put f k v).map (·.1) = f.map (·.1) := by
  unfold Frame.put
  induction f with
  | nil => rfl
  | cons a f ih =>
    simp only [List.map_cons]
    rw [ih]
    split <;> rfl

theorem update_names : ∀ {env : Scopes} {k : Str} {v : Node} {env' : Scopes}, Scopes.update env k v = some env' →
    names env' = names env := by
  intro env
  induction env with
  | nil => intro k v env' h; cases h
  | cons f fs ih =>
    intro k v env' h
    unfold Scopes.update at h
    split at h
    · cases h
      simp only [names, List.map_cons, frame_put_names]
    · cases hu : Scopes.update fs k v with
      | none => rw [hu] at h; cases h
      | some env1 =>
        rw [hu] at h
        cases h
        have := ih hu
        simp only [names, List.map_cons] at *
        rw [this]

theorem names_stable (e : EEnv) : Stable e (fun s s' => names s'.env = names s.env) where
  refl _ := rfl
  trans _ _ _ h h' := h'.trans h
  frame f s s1 f' env' h he := by
    simp only [he, names, List.map_cons, List.cons.injEq] at h
    exact h.2
  upd _ _ _ _ h := update_names h
  other _ _ _ _ := rfl
  reg _ _ _ _ _ _ h := by unfold register at h; cases h; rfl
  parse _ _ _ _ _ _ := rfl

/-- Whatever is evaluated, no name is added to the scopes around it and none is removed. -/
theorem C28_nothing_leaks (e : EEnv) (x v : Node) (s s' : ESt) (h : Evaluates e x s v s') :
    names s'.env = names s.env := evaluates_rel (names_stable e) h

/-! ## `$set` and `$let` -/

theorem set_fresh {f : Frame} {k : Str} {v : Node} (h : k ∉ f.map (·.1)) : Frame.set f k v = f ++ [(k, v)] := by
  unfold Frame.set Frame.del
  rw [List.filter_eq_self.2]
  intro a ha
  have : a.1 ≠ k := by rintro rfl; exact h (List.mem_map_of_mem ha)
  simpa using this

theorem ofList_nodup : ∀ (l : List Str) (f : Frame), (f.map (·.1) ++ l).Nodup →
    (l.map (fun a => (a, Node.bound))).foldl (fun f e => Frame.set f e.1 e.2) f = f ++ l.map (fun a => (a, Node.bound)) := by
  intro l
  induction l with
  | nil => intro f _; simp
  | cons a l ih =>
    intro f h
    simp only [List.map_cons, List.foldl_cons]
    have hf : a ∉ f.map (·.1) := by
      intro hm
      exact (List.nodup_append.1 h).2.2 a hm a (by simp) rfl
    rw [set_fresh hf, ih]
    · simp
    · simpa using h

theorem lval_frame {lval : LVal} (h : (lvalNames lval).Nodup) :
    lval.frame = (lvalNames lval).map (fun a => (a, Node.bound)) := by
  cases lval with
  | one a => rfl
  | many as =>
    have := ofList_nodup (as.map (·.txt)) [] (by simpa [lvalNames] using h)
    simpa [LVal.frame, Frame.ofList, lvalNames, List.map_map, Function.comp_def] using this

/-- Removing the first of the remaining names. -/
theorem del_head {a : Str} {w : Node} {f g : Frame} (hg : a ∉ g.map (·.1)) (hf : a ∉ f.map (·.1)) :
    Frame.del ((a, w) :: f ++ g) a = f ++ g := by
  unfold Frame.del
  simp only [List.cons_append, List.filter_cons, beq_self_eq_true, Bool.not_true, Bool.false_eq_true, if_false]
  rw [List.filter_eq_self]
  intro b hb
  have : b.1 ≠ a := by
    rintro rfl
    rcases List.mem_append.1 hb with h | h
    · exact hf (List.mem_map_of_mem h)
    · exact hg (List.mem_map_of_mem h)
  simpa using this

theorem distribute_names : ∀ (as : List Str) (vs : List Node), (distribute as vs).map (·.1) = as := by
  intro as
  induction as with
  | nil => intro vs; simp [distribute]
  | cons a as ih => intro vs; cases vs <;> simp [distribute, ih]

theorem assignMany_eq : ∀ (as : List Src) (vs : List Node) (f g : Frame), f.map (·.1) = as.map (·.txt) →
    (g.map (·.1) ++ as.map (·.txt)).Nodup →
    assignMany (f ++ g) as vs = g ++ distribute (as.map (·.txt)) vs := by
  intro as
  induction as with
  | nil => intro vs f g hf _; simp at hf; subst hf; cases vs <;> simp [assignMany, distribute]
  | cons a as ih =>
    intro vs f g hf hn
    cases f with
    | nil => simp at hf
    | cons p f =>
      obtain ⟨k, w⟩ := p
      simp only [List.map_cons, List.cons.injEq] at hf
      obtain ⟨rfl, hf⟩ := hf
      have hn' := List.nodup_append.1 hn
      have hg : a.txt ∉ g.map (·.1) := fun hm => hn'.2.2 _ hm _ (by simp) rfl
      have hf' : a.txt ∉ f.map (·.1) := by
        rw [hf]
        have := hn'.2.1
        simp only [List.map_cons, List.nodup_cons] at this
        exact this.1
      have step : ∀ v, Frame.set ((a.txt, w) :: f ++ g) a.txt v = f ++ (g ++ [(a.txt, v)]) := by
        intro v
        unfold Frame.set
        rw [del_head hg hf']; simp
      have hnn : ∀ v : Node, ((g ++ [(a.txt, v)]).map (·.1) ++ as.map (·.txt)).Nodup := by
        intro v; simpa using hn
      cases vs with
      | nil =>
        simp only [assignMany, step, List.map_cons, distribute]
        rw [ih [] f _ hf (hnn _)]; simp
      | cons v vs =>
        simp only [assignMany, step, List.map_cons, distribute]
        rw [ih vs f _ hf (hnn _)]; simp

theorem assignAll_eq : ∀ (as : List Src) (v : Node) (f g : Frame), f.map (·.1) = as.map (·.txt) →
    (g.map (·.1) ++ as.map (·.txt)).Nodup →
    as.foldl (fun f a => Frame.set f a.txt v) (f ++ g) = g ++ as.map (fun a => (a.txt, v)) := by
  intro as
  induction as with
  | nil => intro v f g hf _; simp at hf; subst hf; simp
  | cons a as ih =>
    intro v f g hf hn
    cases f with
    | nil => simp at hf
    | cons p f =>
      obtain ⟨k, w⟩ := p
      simp only [List.map_cons, List.cons.injEq] at hf
      obtain ⟨rfl, hf⟩ := hf
      have hn' := List.nodup_append.1 hn
      have hg : a.txt ∉ g.map (·.1) := fun hm => hn'.2.2 _ hm _ (by simp) rfl
      have hf' : a.txt ∉ f.map (·.1) := by
        rw [hf]
        have := hn'.2.1
        simp only [List.map_cons, List.nodup_cons] at this
        exact this.1
      have step : Frame.set ((a.txt, w) :: f ++ g) a.txt v = f ++ (g ++ [(a.txt, v)]) := by
        unfold Frame.set
        rw [del_head hg hf']; simp
      simp only [List.foldl_cons, step, List.map_cons]
      rw [ih v f _ hf (by simpa using hn)]; simp

theorem assign_eq {f : Frame} {lval : LVal} (hf : f.map (·.1) = lvalNames lval) (hn : (lvalNames lval).Nodup) (v : Node) :
    assign f lval v = bindings lval v := by
  cases lval with
  | one a =>
    simp only [lvalNames] at hf
    match f, hf with
    | [(k, w)], hf =>
      simp at hf
      subst hf
      simp [assign, bindings, Frame.set, Frame.del]
  | many as =>
    simp only [lvalNames] at hf hn
    have hm := fun vs => assignMany_eq as vs f [] hf (by simpa using hn)
    have ha := assignAll_eq as v f [] hf (by simpa using hn)
    simp only [List.append_nil, List.nil_append] at hm ha
    cases v <;> first | exact hm _ | exact ha

/-- The scope an assignment makes, and the state after. -/
theorem evalAssign_eq {e : EEnv} {lval : LVal} {ast v : Node} {s s1 : ESt} (hn : (lvalNames lval).Nodup)
    (hv : Evaluates e ast (push s ((lvalNames lval).map (fun a => (a, .bound)))) v s1) :
    evalAssign (ev e) lval ast s = .ok (bindings lval v, pop s1) ∧ ∃ f env, s1.env = f :: env := by
  have hk := C28_nothing_leaks e _ _ _ _ hv
  have he := evaluates_iff.1 hv
  cases hs : s1.env with
  | nil => rw [hs] at hk; simp [names, push] at hk
  | cons f env =>
    refine ⟨?_, f, env, rfl⟩
    rw [hs] at hk
    simp only [names, push, List.map_cons, List.map_map, List.cons.injEq] at hk
    have hf : f.map (·.1) = lvalNames lval := by
      rw [hk.1]
      exact (List.map_congr_left (fun a _ => rfl)).trans (List.map_id _)
    unfold evalAssign
    have hi : EM.inFrame lval.frame (ev e ast) s = .ok ((v, f), pop s1) := by
      rw [lval_frame hn]
      have := inFrame_ok he hs
      simpa only [pop, hs, List.tail_cons] using this
    rw [em_bind_ok hi]
    change PRes.ok (assign f lval v, pop s1) = _
    rw [assign_eq hf hn]

/-- `($set names expr) rest`: the expression is evaluated with the names unassigned; then the rest of the
    text block is evaluated with the names bound to its value, and its text is the result. After the block
    the scopes are as before. (`rest'` is the rest with the spacing after `$set` marked for deletion.) -/
theorem C28_set_scope (e : EEnv) (lval : LVal) (ast v w : Node) (rest : List Node) (indent : Indent) (s s1 s2 : ESt)
    (hn : (lvalNames lval).Nodup) (ho : ∀ a, lval = .one a → a.txt ≠ lit "__OUTPUT_FILE__") (hr : rest ≠ [])
    (hv : Evaluates e ast (push s ((lvalNames lval).map (fun a => (a, .bound)))) v s1)
    (hw : Evaluates e (.t (trimNext indent rest) indent) (rebind s1 (bindings lval v)) w s2) (ht : IsText w) :
    ∃ w', IsText w' ∧ (∀ x, strOf x w' = strOf x w) ∧
      Evaluates e (.t (.set lval ast :: rest) indent) s w' (pop s2) := by
  obtain ⟨ha, f, env, hs⟩ := evalAssign_eq hn hv
  have ho : lval.isOutput = false := by
    cases lval with
    | one a => exact beq_eq_false_iff_ne.2 (ho a rfl)
    | many as => rfl
  have hset : ev e (.set lval ast) s = .ok (.env (bindings lval v), pop s1) := by
    rw [ev_at]
    change evalSet e (ev e) lval ast s = _
    unfold evalSet
    rw [ho]
    simp only [Bool.false_eq_true, if_false]
    rw [em_bind_ok ha]; rfl
  have hpush : push (pop s1) (bindings lval v) = rebind s1 (bindings lval v) := by
    unfold push pop rebind; rfl
  have hk := C28_nothing_leaks e _ _ _ _ hw
  obtain ⟨f2, env2, hs2⟩ : ∃ f2 env2, s2.env = f2 :: env2 := by
    cases hs2 : s2.env with
    | nil => rw [hs2] at hk; simp [names, rebind] at hk
    | cons f2 env2 => exact ⟨f2, env2, rfl⟩
  have hterm : isTerm w = true := by cases ht <;> rfl
  have hclo : ev e (.setClosure (.t (trimNext indent rest) indent) (bindings lval v)) (pop s1) = .ok (w, pop s2) := by
    rw [ev_at]
    change evalSetClosure (ev e) _ _ _ = _
    unfold evalSetClosure
    have hi : EM.inFrame (bindings lval v) (ev e (.t (trimNext indent rest) indent)) (pop s1) = .ok ((w, f2), pop s2) := by
      have := inFrame_ok (s := pop s1) (evaluates_iff.1 hw) hs2
      simpa only [pop, hs2, List.tail_cons] using this
    rw [em_bind_ok hi]
    simp only [hterm, if_true]
    rfl
  have hT : evalT (ev e) indent 0 false (.set lval ast :: rest) s = .ok ([w], pop s2) := by
    simp only [evalT, Bool.false_eq_true, if_false]
    rw [em_bind_ok hset]
    simp only [pieceOf]
    have : rest.isEmpty = false := by cases rest <;> simp_all
    simp only [this, Bool.false_eq_true, if_false]
    rw [em_bind_ok hclo]; rfl
  have hfin : ∀ t : ESt, ∃ w', IsText w' ∧ (∀ x, strOf x w' = strOf x w) ∧ finishT e indent [w] t = .ok (w', t) := by
    intro t
    unfold finishT
    have : areTerms [w] = true := by unfold areTerms; rw [hterm]; rfl
    rw [this]
    simp only [if_true]
    by_cases hb : e.cfg.browse = true
    · rw [if_pos hb]
      refine ⟨_, .result _, fun x => ?_, rfl⟩
      cases ht <;> rfl
    · rw [if_neg hb]
      refine ⟨_, .pstr _, fun x => ?_, rfl⟩
      cases ht with
      | pstr s => simp [plainStr, plainStrs, strOf]
      | result r => simp [plainStr, plainStrs, strOf]
  obtain ⟨w', h1, h2, h3⟩ := hfin (pop s2)
  refine ⟨w', h1, h2, ?_⟩
  rw [evaluates_iff, ev_at]
  change (evalT (ev e) indent 0 false (.set lval ast :: rest) >>= fun ys => finishT e indent ys) s = _
  rw [em_bind_ok hT, h3]

/-- `($let names expr form)`: the outcome is that of the form with the names bound to the value of the
    expression; after it the scopes are as before. -/
theorem C28_let_scope (e : EEnv) (lval : LVal) (ast form v : Node) (s s1 : ESt) (hn : (lvalNames lval).Nodup)
    (hv : Evaluates e ast (push s ((lvalNames lval).map (fun a => (a, .bound)))) v s1) (w : Node) (s' : ESt) :
    Evaluates e (.letn lval ast form) s w s' ↔
      ∃ s2, Evaluates e form (rebind s1 (bindings lval v)) w s2 ∧ s' = pop s2 := by
  obtain ⟨ha, f, env, hs⟩ := evalAssign_eq hn hv
  have heq : ev e (.letn lval ast form) s =
      (EM.inFrame (bindings lval v) (ev e form) >>= fun p => pure p.1) (pop s1) := by
    rw [ev_at]
    change evalLet (ev e) lval ast form s = _
    unfold evalLet
    rw [em_bind_ok ha]
  rw [evaluates_iff, heq]
  have hpush : push (pop s1) (bindings lval v) = rebind s1 (bindings lval v) := rfl
  constructor
  · intro h
    obtain ⟨p, s2, h1, h2⟩ := em_bind_inv h
    cases h2
    obtain ⟨s3, h3, _, h4⟩ := inFrame_inv h1
    exact ⟨s3, evaluates_iff.2 h3, h4⟩
  · rintro ⟨s2, h, rfl⟩
    have hk := C28_nothing_leaks e _ _ _ _ h
    have hi : ∃ f2, EM.inFrame (bindings lval v) (ev e form) (pop s1) = .ok ((w, f2), pop s2) := by
      cases hs2 : s2.env with
      | nil => rw [hs2] at hk; simp [names, rebind] at hk
      | cons f2 env2 =>
        refine ⟨f2, ?_⟩
        have := inFrame_ok (s := pop s1) (evaluates_iff.1 h) hs2
        simpa only [pop, hs2, List.tail_cons] using this
    obtain ⟨f2, hi⟩ := hi
    rw [em_bind_ok hi]; rfl

/-- The value of a name is the innermost one, whatever the outer scopes say; a name no scope holds any more
    is unbound again. -/
theorem C28_innermost (e : EEnv) (a : Src) (late : Bool) (reg : List Src) (v : Node) (f : Frame) (s : ESt)
    (hv : v ≠ .bound) (h : Frame.get f a.txt = some v) :
    Evaluates e (.var late reg a) (push s f) v (push s f) := by
  rw [evaluates_iff, ev_at]
  change evalVar e late reg a _ = _
  unfold evalVar
  simp only [push, Scopes.lookup, h]
  have : v.isBound = false := by cases v <;> first | rfl | exact absurd rfl hv
  rw [this]; rfl

/-- `($set a 5)($a)` in a scope where `a` was 1: the text is `5`, and `a` is 1 afterwards. -/
example : ∃ w, IsText w ∧ Evaluates { pe := { readLib := fun _ => none, inputFile := [] } }
    (.t [.set (.one { txt := ['a'] }) (.int 5), .apply (.var false [] { txt := ['a'] }) [] [] none] (.str []))
    { env := [[(['a'], .int 1)]] } w { env := [[(['a'], .int 1)]] } ∧ ∀ x, strOf x w = ['5'] := by
  obtain ⟨w, h1, h2, h3⟩ := C28_set_scope { pe := { readLib := fun _ => none, inputFile := [] } }
    (.one { txt := ['a'] }) (.int 5) (.int 5) (.pstr ['5'])
    [.apply (.var false [] { txt := ['a'] }) [] [] none] (.str []) { env := [[(['a'], .int 1)]] }
    { env := [[(['a'], .bound)], [(['a'], .int 1)]] } { env := [[(['a'], .int 5)], [(['a'], .int 1)]] }
    (by decide) (by rintro a h; cases h; decide) (by simp) ⟨1, rfl⟩ ⟨8, rfl⟩ (.pstr _)
  exact ⟨w, h1, h3, fun x => by rw [h2]; rfl⟩

/-! ## C30 — `$skip` -/

/-- Skipping passes over paired modules. -/
theorem evalT_skip_paired (rec : Node → EM Node) (indent : Indent) : ∀ {body : List Node}, Paired body →
    ∀ (level : Nat) (tr : Bool) (tail : List Node),
      evalT rec indent (level + 1) tr (body ++ tail) = evalT rec indent (level + 1) (if body = [] then tr else false) tail := by
  intro body hb
  induction hb with
  | nil => intro level tr tail; simp
  | @node x xs h1 h2 _ ih =>
    intro level tr tail
    have : skipStep (level + 1) x = level + 1 := by
      cases x <;> first | rfl | exact absurd rfl h1 | exact absurd rfl h2
    simp only [List.cons_append, evalT, this]
    rw [ih]
    simp
  | @module xs ys _ _ ih1 ih2 =>
    intro level tr tail
    simp only [List.cons_append, evalT, skipStep, List.append_assoc]
    rw [ih1]
    simp only [evalT, skipStep, Nat.add_sub_cancel]
    rw [ih2]
    simp

theorem evalT_skip_flag (rec : Node → EM Node) (indent : Indent) (level : Nat) (tr tr' : Bool) (xs : List Node) :
    evalT rec indent (level + 1) tr xs = evalT rec indent (level + 1) tr' xs := by
  cases xs <;> rfl

/-- Plain fragments are kept as they are. -/
theorem evalT_plains (e : EEnv) : ∀ (pre : List Node), (∀ x ∈ pre, IsPlain x) → ∀ (indent : Indent), ∃ indent',
    ∀ (rest : List Node) (s : ESt), evalT (ev e) indent 0 false (pre ++ rest) s =
      (evalT (ev e) indent' 0 false rest >>= fun ys => pure (pre ++ ys)) s := by
  intro pre
  induction pre with
  | nil =>
    intro _ indent
    refine ⟨indent, fun rest s => ?_⟩
    rw [em_bind]
    simp only [List.nil_append]
    cases evalT (ev e) indent 0 false rest s <;> rfl
  | cons x pre ih =>
    intro h indent
    obtain ⟨p, i, t, rfl⟩ := h x (by simp)
    obtain ⟨indent', hi⟩ := ih (fun y hy => h y (by simp [hy])) (nextIndent indent (.plain p i t))
    refine ⟨indent', fun rest s => ?_⟩
    simp only [List.cons_append, evalT, Bool.false_eq_true, if_false]
    rw [em_bind_ok (ev_value e (.plain p i t) s)]
    simp only [pieceOf]
    rw [em_bind, hi rest s, em_bind, em_bind]
    cases evalT (ev e) indent' 0 false rest s <;> rfl

/-- A node that evaluates to `SKIP` starts skipping. -/
theorem evalT_skip {e : EEnv} {x : Node} {s s1 : ESt} (hx : Evaluates e x s .skip s1) (indent : Indent) (rest : List Node) :
    evalT (ev e) indent 0 false (x :: rest) s = evalT (ev e) indent 1 false rest s1 := by
  simp only [evalT, Bool.false_eq_true, if_false]
  split
  · exfalso
    have h : Evaluates e .comment s .comment s := ⟨1, rfl⟩
    exact absurd (evaluates_det hx h).1 (by simp)
  · rw [em_bind_ok (evaluates_iff.1 hx)]
    simp only [pieceOf]

/-- `$skip` after some plain text inside an imported module: nothing up to the end of that module is produced
    or evaluated, modules it imports included; what follows is treated as if the skipped part were not there. -/
theorem C30_rest_of_module (e : EEnv) (x : Node) (pre body tail : List Node) (indent : Indent) (s : ESt)
    (hp : ∀ y ∈ pre, IsPlain y) (hx : Evaluates e x s .skip s) (hb : Paired body) :
    SameOutcome e (.t (pre ++ x :: (body ++ .importEnd :: tail)) indent) s (.t (pre ++ tail) indent) s := by
  apply sameOutcome_of
  rw [ev_at, ev_at]
  change (evalT (ev e) indent 0 false (pre ++ x :: (body ++ .importEnd :: tail)) >>= fun ys => finishT e indent ys) s =
    (evalT (ev e) indent 0 false (pre ++ tail) >>= fun ys => finishT e indent ys) s
  obtain ⟨indent', hi⟩ := evalT_plains e pre hp indent
  have : evalT (ev e) indent 0 false (pre ++ x :: (body ++ .importEnd :: tail)) s =
      evalT (ev e) indent 0 false (pre ++ tail) s := by
    rw [hi, hi, em_bind, em_bind, evalT_skip hx, evalT_skip_paired _ _ hb 0,
      evalT_skip_flag _ _ 0 _ false]
    simp only [evalT, skipStep, Nat.zero_add, Nat.sub_self]
  rw [em_bind, em_bind, this]

/-- In the outermost file: nothing after `$skip` is produced or evaluated. -/
theorem C30_rest_of_file (e : EEnv) (x : Node) (pre body : List Node) (indent : Indent) (s : ESt)
    (hp : ∀ y ∈ pre, IsPlain y) (hx : Evaluates e x s .skip s) (hb : Paired body) :
    SameOutcome e (.t (pre ++ x :: body) indent) s (.t pre indent) s := by
  apply sameOutcome_of
  rw [ev_at, ev_at]
  change (evalT (ev e) indent 0 false (pre ++ x :: body) >>= fun ys => finishT e indent ys) s =
    (evalT (ev e) indent 0 false pre >>= fun ys => finishT e indent ys) s
  obtain ⟨indent', hi⟩ := evalT_plains e pre hp indent
  have : evalT (ev e) indent 0 false (pre ++ x :: body) s = evalT (ev e) indent 0 false pre s := by
    have h0 := hi [] s
    rw [List.append_nil] at h0
    have hk := evalT_skip_paired (ev e) indent' hb 0 false []
    rw [List.append_nil] at hk
    rw [hi, h0, em_bind, em_bind, evalT_skip hx, hk]
    rfl
  rw [em_bind, em_bind, this]

/-- `$skip` itself, unless the name was redefined, is such a node. -/
theorem C30_skip_form (e : EEnv) (a : Src) (loc : Option Loc) (s : ESt) (ha : a.txt = lit "skip")
    (hb : Scopes.lookup s.env a.txt = none) (ht : e.builtin s.p.scripts a.txt = none) :
    Evaluates e (.apply (.var false [] a) [] [] loc) s .skip s := by
  have h1 : Evaluates e (.var false [] a) s (.builtin a true) s := by
    rw [evaluates_iff, ev_at]
    change evalVar e false [] a s = _
    unfold evalVar
    have : isSpecial a.txt = true := by rw [ha]; decide
    rw [hb, ht, this]; rfl
  rw [evaluates_iff, ev_apply h1 (.nil s)]
  change applyBuiltin e a true [] [] loc s = _
  unfold applyBuiltin applySpecial
  rw [ha]
  rfl

example : Paired [.comment, .importBegin, .importBegin, .skip, .importEnd, .importEnd, .int 3] :=
  .node (by simp) (by simp) (.module (xs := [.importBegin, .skip, .importEnd])
    (.module (xs := [.skip]) (.node (by simp) (by simp) .nil) .nil) (.node (by simp) (by simp) .nil))

end Yupp
