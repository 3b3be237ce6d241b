import Verif.Lemmas.Eval
import Verif.Spec.Fragments
/-!
# What every part of a value satisfies

A condition on the fragments, indents and generated texts that holds of a tree and of the scopes, and that the
elementary steps respect, holds of every value the tree is reduced to.
-/

namespace Yupp

theorem World.Le.refl (w : World) : w.Le w := ⟨⟨[], rfl⟩, ⟨[], by simp⟩⟩

theorem World.Le.trans {a b c : World} (h1 : a.Le b) (h2 : b.Le c) : a.Le c := by
  obtain ⟨⟨p, hp⟩, q, hq⟩ := h1
  obtain ⟨⟨p', hp'⟩, q', hq'⟩ := h2
  exact ⟨⟨p' ++ p, by rw [hp', hp, List.append_assoc]⟩, ⟨q ++ q', by rw [hq', hq, List.append_assoc]⟩⟩

/-! ## Fragments of composed trees -/

theorem mem_leavesL {xs : List Node} {l : Leaf} : l ∈ leavesL xs ↔ ∃ x ∈ xs, l ∈ x.leaves := by
  induction xs with
  | nil => simp [leavesL]
  | cons x xs ih => simp [leavesL, ih]

theorem mem_leavesN {xs : List (Src × Node)} {l : Leaf} :
    l ∈ leavesN xs ↔ ∃ p ∈ xs, l = .src p.1 ∨ l ∈ p.2.leaves := by
  induction xs with
  | nil => simp [leavesN]
  | cons x xs ih => obtain ⟨a, n⟩ := x; simp [leavesN, ih, or_assoc]

theorem mem_leavesF {f : Frame} {l : Leaf} : l ∈ leavesF f ↔ ∃ p ∈ f, l ∈ p.2.leaves := by
  induction f with
  | nil => simp [leavesF]
  | cons x xs ih => obtain ⟨a, n⟩ := x; simp [leavesF, ih]

theorem leavesL_append (a b : List Node) : leavesL (a ++ b) = leavesL a ++ leavesL b := by
  induction a with
  | nil => simp [leavesL]
  | cons x xs ih => simp [leavesL, ih]

theorem leavesF_append (a b : Frame) : leavesF (a ++ b) = leavesF a ++ leavesF b := by
  induction a with
  | nil => simp [leavesF]
  | cons x xs ih => obtain ⟨k, v⟩ := x; simp [leavesF, ih]

theorem get_some_mem {f : Frame} {k : Str} {v : Node} (h : Frame.get f k = some v) : ∃ k', (k', v) ∈ f := by
  unfold Frame.get at h
  obtain ⟨p, h1, rfl⟩ := Option.map_eq_some_iff.mp h
  exact ⟨p.1, List.mem_of_find?_eq_some h1⟩

theorem get_leaves {f : Frame} {k : Str} {v : Node} (h : Frame.get f k = some v) {l : Leaf} (hl : l ∈ v.leaves) :
    l ∈ leavesF f := by
  obtain ⟨k', hk⟩ := get_some_mem h
  exact mem_leavesF.2 ⟨_, hk, hl⟩

theorem set_leaves {f : Frame} {k : Str} {v : Node} {l : Leaf} (h : l ∈ leavesF (Frame.set f k v)) :
    l ∈ v.leaves ∨ l ∈ leavesF f := by
  obtain ⟨p, hp, hl⟩ := mem_leavesF.1 h
  unfold Frame.set Frame.del at hp
  rcases List.mem_append.mp hp with hp | hp
  · exact .inr (mem_leavesF.2 ⟨p, (List.mem_filter.mp hp).1, hl⟩)
  · rw [List.mem_singleton.mp hp] at hl; exact .inl hl

theorem put_leaves {f : Frame} {k : Str} {v : Node} {l : Leaf} (h : l ∈ leavesF (Frame.put f k v)) :
    l ∈ v.leaves ∨ l ∈ leavesF f := by
  obtain ⟨p, hp, hl⟩ := mem_leavesF.1 h
  unfold Frame.put at hp
  obtain ⟨q, hq, rfl⟩ := List.mem_map.mp hp
  split at hl
  · exact .inl hl
  · exact .inr (mem_leavesF.2 ⟨q, hq, hl⟩)

theorem foldl_set_leaves (xs : Frame) : ∀ (f : Frame) (l : Leaf),
    l ∈ leavesF (xs.foldl (fun f e => Frame.set f e.1 e.2) f) → l ∈ leavesF xs ∨ l ∈ leavesF f := by
  induction xs with
  | nil => intro f l h; exact .inr h
  | cons x xs ih =>
    obtain ⟨k, v⟩ := x
    intro f l h
    rw [List.foldl_cons] at h
    rcases ih _ l h with h | h
    · exact .inl (by simp [leavesF, h])
    · rcases set_leaves h with h | h
      · exact .inl (by simp [leavesF, h])
      · exact .inr h

theorem ofList_leaves {xs : Frame} {l : Leaf} (h : l ∈ leavesF (Frame.ofList xs)) : l ∈ leavesF xs := by
  rcases foldl_set_leaves xs [] l h with h | h
  · exact h
  · cases h

theorem lookup_leaves {env : Scopes} {k : Str} {v : Node} (h : Scopes.lookup env k = some v) {l : Leaf}
    (hl : l ∈ v.leaves) : l ∈ env.flatMap leavesF := by
  induction env with
  | nil => cases h
  | cons f fs ih =>
    unfold Scopes.lookup at h
    split at h
    · next v' hv => cases h; simp [get_leaves hv hl]
    · rw [List.flatMap_cons]; exact List.mem_append_right _ (ih h)

theorem update_leaves {env env' : Scopes} {k : Str} {v : Node} (h : Scopes.update env k v = some env') {l : Leaf}
    (hl : l ∈ env'.flatMap leavesF) : l ∈ v.leaves ∨ l ∈ env.flatMap leavesF := by
  induction env generalizing env' with
  | nil => cases h
  | cons f fs ih =>
    unfold Scopes.update at h
    rw [List.flatMap_cons, List.mem_append]
    split at h
    · cases h
      rw [List.flatMap_cons, List.mem_append] at hl
      rcases hl with hl | hl
      · rcases put_leaves hl with h | h
        · exact .inl h
        · exact .inr (.inl h)
      · exact .inr (.inr hl)
    · obtain ⟨fs', h1, rfl⟩ := Option.map_eq_some_iff.mp h
      rw [List.flatMap_cons, List.mem_append] at hl
      rcases hl with hl | hl
      · exact .inr (.inl hl)
      · rcases ih h1 hl with h | h
        · exact .inl h
        · exact .inr (.inr h)

theorem setTrim_leaves (x : Node) : (setTrim x).leaves = x.leaves := by
  cases x <;> simp [setTrim, Node.leaves]

theorem trimNext_leaves (i : Indent) (xs : List Node) : leavesL (trimNext i xs) = leavesL xs := by
  cases xs with
  | nil => rfl
  | cons x xs => simp only [trimNext, leavesL]; split <;> simp [setTrim_leaves]

theorem asItems_leaves (x : Node) {l : Leaf} (h : l ∈ leavesL (asItems x)) : l ∈ x.leaves := by
  cases x <;> simp [asItems, leavesL, Node.leaves] at h ⊢ <;> first | exact h | exact .inr h

theorem nextIndent_leaves (i : Indent) (x : Node) {l : Leaf} (h : l ∈ (nextIndent i x).leaves) :
    l ∈ i.leaves ∨ l ∈ x.leaves := by
  cases x <;> first | (simp [nextIndent, Indent.leaves] at h; done) | skip
  rename_i s j tr
  cases j <;> simp [nextIndent, Indent.leaves, Node.leaves] at h ⊢
  · exact .inl h
  · exact .inr (.inr h)

theorem spread_leaves (x : Node) {l : Leaf} (h : l ∈ leavesL (spread x)) : l ∈ x.leaves := by
  unfold spread at h
  split at h <;> simp only [leavesL, List.append_nil, Node.leaves] at h ⊢ <;>
    first | exact h | exact List.mem_append_right _ h | cases h

theorem setFrame_leaves (f : Frame) (x : Node) {l : Leaf} (h : l ∈ (x.setFrame f).leaves) :
    l ∈ leavesF f ∨ l ∈ x.leaves := by
  cases x <;> first | exact .inr h | skip
  · simp only [Node.setFrame, Node.leaves, List.mem_append] at h ⊢
    rcases h with h | h | h
    · exact .inr (.inl h)
    · exact .inl h
    · exact .inr (.inr (.inr h))
  · simp only [Node.setFrame, Node.leaves, List.mem_append] at h ⊢
    rcases h with h | h | h
    · exact .inr (.inl h)
    · exact .inr (.inr (.inl h))
    · exact .inl h

theorem setCall_leaves (c : Option Src) (x : Node) {l : Leaf} (h : l ∈ (x.setCall c).leaves) : l ∈ placeLeaf c ∨ l ∈ x.leaves := by
  cases x <;> first | exact .inr h | skip
  simp only [Node.setCall, Node.leaves, List.mem_append] at h ⊢
  rcases h with h | h | h
  · exact .inr (.inl h)
  · exact .inl h
  · exact .inr (.inr (.inr h))

theorem strResult_leaves (x : Node) {l : Leaf} (h : l ∈ (strResult x).leaves) : l ∈ x.leaves := by
  cases x <;> first | exact h | cases h

theorem callResult_leaves (x : Node) {l : Leaf} (h : l ∈ (callResult x).leaves) : l ∈ x.leaves := by
  cases x <;> first | exact h | cases h

theorem asList_leaves {x : Node} {xs : List Node} (h : x.asList = some xs) {l : Leaf} (hl : l ∈ leavesL xs) :
    l ∈ x.leaves := by
  cases x <;> cases h <;> simp only [Node.leaves, List.mem_append] <;> first | exact hl | exact .inr hl

theorem lazyOf_leaves (x : Node) {l : Leaf} (h : l ∈ (lazyOf x).leaves) : l ∈ x.leaves := by
  unfold lazyOf at h
  split at h
  · next xs hx =>
    refine asList_leaves hx ?_
    rw [Node.leaves] at h
    obtain ⟨y, hy, hl⟩ := mem_leavesL.1 h
    obtain ⟨z, hz, rfl⟩ := List.mem_map.mp hy
    rw [Node.leaves] at hl
    exact mem_leavesL.2 ⟨z, hz, hl⟩
  · rw [Node.leaves] at h; exact h

theorem getElem_leaves {xs : List Node} {i : Nat} {x : Node} (h : xs[i]? = some x) {l : Leaf} (hl : l ∈ x.leaves) :
    l ∈ leavesL xs := mem_leavesL.2 ⟨x, List.mem_of_getElem? h, hl⟩

theorem subscript_leaves {xs : List Node} {i : Int} {x : Node} (h : subscript xs i = some x) {l : Leaf}
    (hl : l ∈ x.leaves) : l ∈ leavesL xs := by
  unfold subscript at h
  repeat' split at h
  · cases h; cases hl
  · exact getElem_leaves h hl
  · exact getElem_leaves h hl
  · cases h

theorem takeFirst_leaves (x : Node) {l : Leaf} (h : l ∈ (takeFirst x).1.leaves ∨ l ∈ (takeFirst x).2.leaves) :
    l ∈ x.leaves := by
  unfold takeFirst at h
  split at h <;> simp_all [Node.leaves, leavesL] <;> grind

theorem assignMany_leaves (as : List Src) : ∀ (f : Frame) (vs : List Node) {l : Leaf},
    l ∈ leavesF (assignMany f as vs) → l ∈ leavesL vs ∨ l ∈ leavesF f := by
  induction as with
  | nil => intro f vs l h; exact .inr h
  | cons a as ih =>
    intro f vs l h
    cases vs with
    | nil =>
      rcases ih _ _ h with h | h
      · cases h
      · rcases set_leaves h with h | h
        · cases h
        · exact .inr h
    | cons v vs =>
      rcases ih _ _ h with h | h
      · exact .inl (by simp [leavesL, h])
      · rcases set_leaves h with h | h
        · exact .inl (by simp [leavesL, h])
        · exact .inr h

theorem assign_leaves (f : Frame) (lval : LVal) (v : Node) {l : Leaf} (h : l ∈ leavesF (assign f lval v)) :
    l ∈ v.leaves ∨ l ∈ leavesF f := by
  unfold assign at h
  split at h
  · exact set_leaves h
  · next as =>
    split at h
    · next vs hv =>
      rcases assignMany_leaves as f vs h with h | h
      · exact .inl (asList_leaves hv h)
      · exact .inr h
    · next hv =>
      clear hv
      induction as generalizing f with
      | nil => exact .inr h
      | cons a as ih =>
        rcases ih _ h with h | h
        · exact .inl h
        · exact set_leaves h

theorem listToBound_leaves : ∀ (xs : List Node) {b} (_ : listToBound xs = some b) {l : Leaf}, l ∈ leavesB b → l ∈ leavesL xs
  | [], _, h, _, hl => by cases h; cases hl
  | x :: xs, b, h, l, hl => by
    unfold listToBound at h
    split at h
    · cases h; cases hl
    · next a ys he =>
      cases he
      obtain ⟨c, h1, rfl⟩ := Option.map_eq_some_iff.mp h
      simp only [leavesB, List.map_nil, List.nil_append, List.mem_cons] at hl
      simp only [leavesL, Node.leaves, List.mem_append, List.mem_singleton]
      rcases hl with hl | hl
      · exact .inl hl
      · exact .inr (listToBound_leaves _ h1 hl)
    · cases h

/-! ## The condition -/

/-- A condition `I` on the tables and a condition `L` on the parts of values the elementary steps respect. `w` are the
    tables at the time. -/
structure Keeps (e : EEnv) (I : World → Prop) (L : World → Leaf → Prop) : Prop where
  mono : ∀ {w w' l}, World.Le w w' → L w l → L w' l
  free : ∀ w t, L w (.src { txt := t })
  place : ∀ w s l, L w (.src s) → s.loc = some l → L w (.at l)
  indNil : ∀ w, L w (.ind [])
  indApp : ∀ w a b, L w (.ind a) → L w (.ind b) → L w (.ind (a ++ b))
  fin : ∀ (s : ESt) ys indent, I s.p.world → (∀ l ∈ leavesL ys, L s.p.world l) →
    L s.p.world (.res (plainBrowse e.cfg (textExt e s) (.t ys indent)))
  parse : ∀ n a p xs t, I p.world → (P e.pe n).parse a p = .ok (xs, t) →
    I t.world ∧ World.Le p.world t.world ∧ ∀ l ∈ leavesL xs, L t.world l
  reg : ∀ (w : World) (decl call : Option Loc) (text : Str), I w → (∀ l, decl = some l → L w (.at l)) →
    (decl = none → L w .lost) → (∀ l, call = some l → L w (.at l)) →
    I { source := (natStr w.inclusion.length, (match decl with
          | some l => Decl.at l
          | none => Decl.path none), text) :: w.source
        inclusion := w.inclusion ++ [call] }
  const : ∀ sc a v, e.builtin sc a = some (.const v) → ∀ w, ∀ l ∈ v.leaves, L w l
  call : ∀ sc a args seen v seen', e.call sc a args seen = some (v, seen') → ∀ w,
    (∀ l ∈ leavesL args ++ leavesL seen, L w l) → ∀ l ∈ v.leaves ++ leavesL seen', L w l
  pyEval : ∀ sc code f v, e.pyEval sc code f = some v → ∀ w, (∀ l ∈ leavesF f, L w l) → ∀ l ∈ v.leaves, L w l
  reduce : ∀ sc f xs v, e.reduce sc f xs = some v → ∀ w, (∀ l ∈ f.leaves ++ leavesL xs, L w l) → ∀ l ∈ v.leaves, L w l

variable {e : EEnv} {I : World → Prop} {L : World → Leaf → Prop}

/-- If the condition holds of the scopes and of `Γ`, it holds of the scopes and of the result afterwards. -/
def Keep (I : World → Prop) (L : World → Leaf → Prop) (Γ : List Leaf) (m : EM α) (lv : α → List Leaf) : Prop :=
  ∀ s a s', (I s.p.world ∧ ∀ l ∈ s.leaves, L s.p.world l) → (∀ l ∈ Γ, L s.p.world l) → m s = .ok (a, s') →
    (I s'.p.world ∧ ∀ l ∈ s'.leaves, L s'.p.world l) ∧ World.Le s.p.world s'.p.world ∧ ∀ l ∈ lv a, L s'.p.world l

namespace Keeps

theorem weaken {Γ Γ' : List Leaf} {m : EM α} {lv : α → List Leaf} (h : Keep I L Γ' m lv) (hs : ∀ l ∈ Γ', l ∈ Γ) :
    Keep I L Γ m lv := fun s a s' h0 hg hm => h s a s' h0 (fun l hl => hg l (hs l hl)) hm

theorem pure' {Γ : List Leaf} {a : α} {lv : α → List Leaf} (h : ∀ s : ESt, (∀ l ∈ Γ, L s.p.world l) → ∀ l ∈ lv a, L s.p.world l) :
    Keep I L Γ (Pure.pure a : EM α) lv := by
  intro s b s' h0 hg hm
  cases hm
  exact ⟨h0, World.Le.refl _, h s hg⟩

theorem pure {Γ : List Leaf} {a : α} {lv : α → List Leaf} (h : ∀ l ∈ lv a, l ∈ Γ) :
    Keep I L Γ (Pure.pure a : EM α) lv := pure' (fun _ hg l hl => hg l (h l hl))

theorem err {Γ : List Leaf} {lv : α → List Leaf} : Keep I L Γ (EM.err : EM α) lv := by
  intro s a s' _ _ h; cases h

theorem get {Γ : List Leaf} : Keep I L Γ EM.get ESt.leaves := by
  intro s a s' h0 hg hm
  cases hm
  exact ⟨h0, World.Le.refl _, h0.2⟩

theorem bind (hk : Keeps e I L) {Γ : List Leaf} {m : EM α} {lv : α → List Leaf} {f : α → EM β} {lv' : β → List Leaf}
    (h : Keep I L Γ m lv) (hf : ∀ a, Keep I L (lv a ++ Γ) (f a) lv') : Keep I L Γ (m >>= f) lv' := by
  intro s b s' h0 hg hm
  obtain ⟨a, s1, h1, h2⟩ := em_bind_inv hm
  obtain ⟨k1, k2, k3⟩ := h s a s1 h0 hg h1
  obtain ⟨j1, j2, j3⟩ := hf a s1 b s' k1 (by
    intro l hl
    rcases List.mem_append.mp hl with hl | hl
    · exact k3 l hl
    · exact hk.mono k2 (hg l hl)) h2
  exact ⟨j1, k2.trans j2, j3⟩

theorem ofOption {Γ : List Leaf} {o : Option α} {lv : α → List Leaf}
    (h : ∀ a, o = some a → ∀ w, (∀ l ∈ Γ, L w l) → ∀ l ∈ lv a, L w l) : Keep I L Γ (EM.ofOption o) lv := by
  cases o with
  | none => exact err
  | some a => exact pure' (fun s hg l hl => h a rfl s.p.world hg l hl)

theorem inFrame {Γ : List Leaf} {f : Frame} {m : EM α} {lv : α → List Leaf} (h : Keep I L Γ m lv)
    (hf : ∀ l ∈ leavesF f, l ∈ Γ) : Keep I L Γ (EM.inFrame f m) (fun r => lv r.1 ++ leavesF r.2) := by
  intro s a s' h0 hg hm
  obtain ⟨a, f'⟩ := a
  obtain ⟨s1, h1, h2, h3⟩ := inFrame_inv hm
  have := h { s with env := f :: s.env } a s1 (by
    refine ⟨h0.1, ?_⟩
    intro l hl
    simp only [ESt.leaves, List.flatMap_cons, List.mem_append] at hl
    rcases hl with (hl | hl) | hl
    · exact hg l (hf l hl)
    · exact h0.2 l (by simp only [ESt.leaves, List.mem_append]; exact .inl hl)
    · exact h0.2 l (by simp only [ESt.leaves, List.mem_append]; exact .inr hl)) hg h1
  obtain ⟨k1, k2, k3⟩ := this
  have hw : s'.p = s1.p := by rw [h3]
  have hse : s'.seen = s1.seen := by rw [h3]
  rw [hw]
  refine ⟨⟨k1.1, ?_⟩, k2, ?_⟩
  · intro l hl
    refine k1.2 l ?_
    simp only [ESt.leaves, h2, List.flatMap_cons, List.mem_append] at hl ⊢
    rw [hse] at hl
    rcases hl with hl | hl
    · exact .inl (.inr hl)
    · exact .inr hl
  · intro l hl
    rcases List.mem_append.mp hl with hl | hl
    · exact k3 l hl
    · exact k1.2 l (by simp only [ESt.leaves, h2, List.flatMap_cons, List.mem_append]; exact .inl (.inl hl))

theorem update {Γ : List Leaf} {a : Str} {v : Node} (h : ∀ l ∈ v.leaves, l ∈ Γ) :
    Keep I L Γ (EM.update a v) (fun _ => []) := by
  intro s b s' h0 hg hm
  unfold EM.update at hm
  cases hm
  refine ⟨⟨h0.1, ?_⟩, World.Le.refl _, by simp⟩
  intro l hl
  cases hu : Scopes.update s.env a v with
  | none =>
    rw [hu] at hl
    exact h0.2 l hl
  | some env =>
    rw [hu] at hl
    simp only [ESt.leaves, Option.getD_some, List.mem_append] at hl
    rcases hl with hl | hl
    · rcases update_leaves hu hl with hl | hl
      · exact hg l (h l hl)
      · exact h0.2 l (by simp only [ESt.leaves, List.mem_append]; exact .inl hl)
    · exact h0.2 l (by simp only [ESt.leaves, List.mem_append]; exact .inr hl)

theorem setOutput {Γ : List Leaf} (v : Node) : Keep I L Γ (setOutput e v) (fun _ => []) := by
  intro s b s' h0 hg hm
  unfold Yupp.setOutput at hm
  cases hm
  split
  · exact ⟨h0, World.Le.refl _, by simp⟩
  · exact ⟨h0, World.Le.refl _, by simp⟩

theorem finishT (hk : Keeps e I L) {Γ : List Leaf} {indent : Indent} {ys : List Node}
    (h : ∀ l ∈ indent.leaves ++ leavesL ys, l ∈ Γ) : Keep I L Γ (finishT e indent ys) Node.leaves := by
  intro s b s' h0 hg hm
  unfold Yupp.finishT at hm
  cases hm
  refine ⟨h0, World.Le.refl _, ?_⟩
  intro l hl
  split at hl
  · split at hl
    · simp only [Node.leaves, List.mem_singleton] at hl
      subst hl
      exact hk.fin s ys indent h0.1 (fun l hl => hg l (h l (List.mem_append_right _ hl)))
    · cases hl
  · exact hg l (h l hl)

theorem evalVar {Γ : List Leaf} {late reg a} (h : ∀ l ∈ (Node.var late reg a).leaves, l ∈ Γ) :
    Keep I L Γ (evalVar e late reg a) Node.leaves := by
  intro s b s' h0 hg hm
  have ha : L s.p.world (.src a) := hg _ (h _ (by simp [Node.leaves]))
  unfold Yupp.evalVar at hm
  repeat' split at hm
  all_goals first | (cases hm; done) | skip
  all_goals cases hm; refine ⟨h0, World.Le.refl _, ?_⟩; intro l hl
  all_goals first
    | exact hg l (h l hl)
    | (simp only [Node.leaves, List.mem_singleton, List.map_nil] at hl; subst hl; exact ha)
    | skip
  next v hv _ => exact h0.2 l (by simp only [ESt.leaves, List.mem_append]; exact .inl (lookup_leaves hv hl))

theorem applyFunction (hk : Keeps e I L) {Γ : List Leaf} {a sp args loc}
    (h : ∀ l ∈ .src a :: leavesL args, l ∈ Γ) : Keep I L Γ (applyFunction e a sp args loc) Node.leaves := by
  intro s b s' h0 hg hm
  unfold Yupp.applyFunction at hm
  repeat' split at hm
  · next v seen hc =>
    cases hm
    have := hk.call _ _ _ _ _ _ hc s.p.world (by
      intro l hl
      rcases List.mem_append.mp hl with hl | hl
      · exact hg l (h l (by simp [hl]))
      · exact h0.2 l (by simp only [ESt.leaves, List.mem_append]; exact .inr hl))
    refine ⟨⟨h0.1, ?_⟩, World.Le.refl _, ?_⟩
    · intro l hl
      simp only [ESt.leaves, List.mem_append] at hl
      rcases hl with hl | hl
      · exact h0.2 l (by simp only [ESt.leaves, List.mem_append]; exact .inl hl)
      · exact this l (List.mem_append_right _ hl)
    · intro l hl
      exact this l (List.mem_append_left _ (callResult_leaves _ hl))
  · cases hm
  · cases hm
  · cases hm
    refine ⟨h0, World.Le.refl _, fun l hl => hg l (h l ?_)⟩
    simpa [Node.leaves, leavesN] using hl

theorem applyPassage {Γ : List Leaf} {xs} (h : ∀ l ∈ leavesL xs, l ∈ Γ) : Keep I L Γ (applyPassage e xs) Node.leaves := by
  intro s b s' h0 hg hm
  unfold Yupp.applyPassage at hm
  cases hm
  refine ⟨h0, World.Le.refl _, fun l hl => hg l (h l ?_)⟩
  cases hx : xs[e.passage]? with
  | none => rw [hx] at hl; cases hl
  | some x => rw [hx] at hl; exact getElem_leaves hx hl

theorem applyConst (h0 : ∀ w, ∀ l ∈ v.leaves, L w l) {Γ : List Leaf} {args} : Keep I L Γ (applyConst v args) Node.leaves := by
  unfold Yupp.applyConst
  split
  · exact pure' (fun s _ l hl => h0 s.p.world l (strResult_leaves _ hl))
  · exact err

theorem applySpecial (hk : Keeps e I L) {Γ : List Leaf} {a args loc} (h : ∀ l ∈ .src a :: leavesL args, l ∈ Γ) :
    Keep I L Γ (applySpecial e a args loc) Node.leaves := by
  have hs : Keep I L Γ (Pure.pure (.apply (.builtin a true) args [] loc) : EM Node) Node.leaves :=
    pure (fun l hl => h l (by simpa [Node.leaves, leavesN] using hl))
  unfold Yupp.applySpecial
  simp only []
  repeat' split
  all_goals first
    | exact err
    | exact hs
    | exact pure (fun l hl => by cases hl)
    | exact applyConst (fun w l hl => by cases hl)
    | skip
  · next x _ => exact pure (fun l hl => h l (by simp [leavesL, lazyOf_leaves _ hl]))
  · next f xs _ _ =>
    refine hk.bind get (fun s => ofOption ?_)
    intro v hv w hw l hl
    exact hk.reduce _ _ _ _ hv w (fun l hl => hw l (List.mem_append_right _ (h l (by
      simp only [leavesL, List.mem_cons]; exact .inr hl)))) l hl
  · next x _ xs hx => exact applyPassage (fun l hl => h l (by simp [leavesL, asList_leaves hx hl]))

theorem applyBuiltin (hk : Keeps e I L) {Γ : List Leaf} {a sp args named loc} (h : ∀ l ∈ .src a :: leavesL args, l ∈ Γ) :
    Keep I L Γ (applyBuiltin e a sp args named loc) Node.leaves := by
  unfold Yupp.applyBuiltin
  split
  · exact err
  · split
    · exact hk.applySpecial h
    · refine hk.bind get (fun s => ?_)
      split
      · next v hv => exact applyConst (hk.const _ _ _ hv)
      · exact hk.applyFunction (fun l hl => List.mem_append_right _ (h l hl))

theorem applyNumber {Γ : List Leaf} {fn pos args named loc}
    (h : ∀ l ∈ (Node.apply fn args named loc).leaves, l ∈ Γ) : Keep I L Γ (applyNumber fn pos args named loc) Node.leaves := by
  have ha : ∀ l ∈ leavesL args, l ∈ Γ := fun l hl => h l (by simp [Node.leaves, hl])
  unfold Yupp.applyNumber
  repeat' split
  all_goals first
    | exact err
    | exact pure h
    | exact pure (fun l hl => h l (by simp [Node.leaves, hl]))
    | skip
  · next x _ xs hx =>
    exact ofOption (fun v hv w hw l hl => hw l (ha l (by simp [leavesL, asList_leaves hx (subscript_leaves hv hl)])))
  · exact ofOption (fun v hv w hw l hl => hw l (ha l (subscript_leaves hv hl)))
  · exact ofOption (fun v hv w hw l hl => hw l (ha l (subscript_leaves hv hl)))

theorem _root_.Yupp.placeLeaf_mem {s : Option Src} {l : Loc} (h : s.bind (·.loc) = some l) : Leaf.at l ∈ placeLeaf s := by
  simp [placeLeaf, h]

theorem _root_.Yupp.declLeaf_mem {s : Option Src} {l : Loc} (h : s.bind (·.loc) = some l) : Leaf.at l ∈ declLeaf s := by
  simp [declLeaf, h]

theorem _root_.Yupp.declLeaf_lost {s : Option Src} (h : s.bind (·.loc) = none) : Leaf.lost ∈ declLeaf s := by
  simp [declLeaf, h]

theorem register {Γ : List Leaf} (hk : Keeps e I L) {decl call text} (hd : ∀ l ∈ declLeaf decl ++ placeLeaf call, l ∈ Γ) :
    Keep I L Γ (register decl call text) (fun _ => []) := by
  intro s b s' h0 hg hm
  unfold Yupp.register at hm
  cases hm
  have hle : World.Le s.p.world { source := (natStr s.p.world.inclusion.length, (match decl.bind (·.loc) with
        | some l => Decl.at l
        | none => Decl.path none), text) :: s.p.world.source
                                  inclusion := s.p.world.inclusion ++ [call.bind (·.loc)] } :=
    ⟨⟨[_], rfl⟩, ⟨_, rfl⟩⟩
  refine ⟨⟨hk.reg _ _ _ _ h0.1 (fun l hl => hg _ (hd _ ?_)) (fun hl => hg _ (hd _ ?_)) (fun l hl => hg _ (hd _ ?_)),
    fun l hl => hk.mono hle (h0.2 l hl)⟩, hle, by simp⟩
  · exact List.mem_append_left _ (declLeaf_mem hl)
  · exact List.mem_append_left _ (declLeaf_lost hl)
  · exact List.mem_append_right _ (placeLeaf_mem hl)

/-- What holds of `Γ` holds of `Γ'`. -/
def _root_.Yupp.Entails (L : World → Leaf → Prop) (Γ Γ' : List Leaf) : Prop := ∀ w, (∀ l ∈ Γ, L w l) → ∀ l ∈ Γ', L w l

theorem weaken' {Γ Γ' : List Leaf} {m : EM α} {lv : α → List Leaf} (h : Keep I L Γ' m lv) (hs : Entails L Γ Γ') :
    Keep I L Γ m lv := fun s a s' h0 hg hm => h s a s' h0 (hs _ hg) hm

theorem _root_.Yupp.Entails.sub {Γ Γ' : List Leaf} (h : ∀ l ∈ Γ', l ∈ Γ) : Entails L Γ Γ' := fun _ hw l hl => hw l (h l hl)

theorem addIndent_leaves (hk : Keeps e I L) (i : Str) (s : Src) (ind : Indent) (tr : Bool) :
    Entails L (.ind i :: (Node.plain s ind tr).leaves) (addIndent i s ind tr).leaves := by
  intro w hw l hl
  unfold addIndent at hl
  split at hl
  · exact hw l (List.mem_cons_of_mem _ hl)
  · simp only [Node.leaves, List.mem_cons] at hl
    rcases hl with rfl | hl
    · exact hk.free _ _
    · cases ind with
      | none => cases hl
      | no => cases hl
      | str j =>
        simp only [Indent.leaves, List.mem_singleton] at hl
        subst hl
        exact hk.indApp _ _ _ (hw _ (by simp)) (hw _ (by simp [Node.leaves, Indent.leaves]))

theorem addIndents_leaves (hk : Keeps e I L) (i : Indent) (xs : List Node) :
    Entails L (i.leaves ++ leavesL xs) (leavesL (addIndents i xs)) := by
  intro w hw l hl
  unfold addIndents at hl
  split at hl
  · exact hw l (List.mem_append_right _ hl)
  · next i _ =>
    obtain ⟨y, hy, hl⟩ := mem_leavesL.1 hl
    obtain ⟨z, hz, rfl⟩ := List.mem_map.mp hy
    split at hl
    · next s ind tr =>
      refine addIndent_leaves hk i s ind tr w ?_ l hl
      intro k hk'
      rcases List.mem_cons.mp hk' with rfl | hk'
      · exact hw _ (by simp [Indent.leaves])
      · exact hw _ (List.mem_append_right _ (mem_leavesL.2 ⟨_, hz, hk'⟩))
    · exact hw _ (List.mem_append_right _ (mem_leavesL.2 ⟨_, hz, hl⟩))
  · exact hw l (List.mem_append_right _ hl)

theorem orEmpty_leaves (hk : Keeps e I L) (i : Indent) : Entails L i.leaves [.ind i.orEmpty] := by
  intro w hw l hl
  rw [List.mem_singleton.mp hl]
  cases i with
  | str s => exact hw _ (by simp [Indent.leaves, Indent.orEmpty])
  | none => exact hk.indNil _
  | no => exact hk.indNil _

end Keeps

/-- Shows that parts of a node are parts of the context. -/
macro "parts" : tactic => `(tactic| (intro l hl; simp only [Node.leaves, leavesL, leavesN, leavesF, leavesB, Indent.leaves, LVal.srcs, leavesL_append,
  List.mem_append, List.mem_cons, List.not_mem_nil, or_false, false_or, List.map_nil, List.append_nil, List.nil_append, implies_true] at hl ⊢ <;> grind))

section
variable {r : Node → EM Node}

theorem rec_keep (h : ∀ x, Keep I L x.leaves (r x) Node.leaves) {Γ : List Leaf} (x : Node) (hs : ∀ l ∈ x.leaves, l ∈ Γ) :
    Keep I L Γ (r x) Node.leaves := Keeps.weaken (h x) hs

theorem pieceOf_leaves (y : Node) : match pieceOf y with
    | .nothing => True
    | .skip => True
    | .scope f => leavesF f = y.leaves
    | .splice xs => ∀ l ∈ leavesL xs, l ∈ y.leaves
    | .item x => x.leaves = y.leaves := by
  cases y with
  | embed a =>
    cases a <;> simp [pieceOf, Node.leaves]
    intro l hl; exact .inr hl
  | _ => simp [pieceOf, Node.leaves]

theorem evalT_keep (hk : Keeps e I L) (h : ∀ x, Keep I L x.leaves (r x) Node.leaves) : ∀ xs indent level tr,
    Keep I L (indent.leaves ++ leavesL xs) (evalT r indent level tr xs) leavesL := by
  intro xs
  induction xs with
  | nil => intro indent level tr; cases level <;> exact Keeps.pure (by intro l hl; cases hl)
  | cons x rest ih =>
    intro indent level tr
    cases level with
    | succ level => simp only [evalT]; exact Keeps.weaken (ih _ _ _) (by parts)
    | zero =>
      simp only [evalT]
      have hx : ((if tr then setTrim x else x) : Node).leaves = x.leaves := by split <;> simp [setTrim_leaves]
      revert hx
      generalize (if tr then setTrim x else x) = z
      intro hx
      have hΓ : ∀ l, l ∈ indent.leaves ++ leavesL (x :: rest) ↔ l ∈ indent.leaves ++ (z.leaves ++ leavesL rest) := by
        intro l; rw [leavesL, hx]
      refine Keeps.weaken (Γ' := indent.leaves ++ (z.leaves ++ leavesL rest)) ?_ (fun l hl => (hΓ l).2 hl)
      split
      · exact Keeps.weaken (ih _ _ _) (by parts)
      · refine hk.bind (rec_keep h _ (by parts)) (fun y => ?_)
        have hp := pieceOf_leaves y
        split <;> rename_i heq <;> rw [heq] at hp <;> simp only at hp
        · exact Keeps.weaken (ih _ _ _) (by parts)
        · exact Keeps.weaken (ih _ _ _) (by parts)
        · split
          · exact Keeps.pure (by intro l hl; cases hl)
          · refine hk.bind (rec_keep h _ ?_) (fun z => Keeps.pure (by parts))
            intro l hl
            simp only [Node.leaves, trimNext_leaves, List.mem_append] at hl ⊢
            rw [hp] at hl
            grind
        · refine hk.bind (Keeps.weaken' (h _) ?_) (fun z => Keeps.pure ?_)
          · intro w hw l hl
            simp only [Node.leaves, leavesL_append, List.mem_append] at hl
            rcases hl with hl | hl | hl
            · exact hw l (by simp [hl])
            · refine hk.addIndents_leaves _ _ w ?_ l hl
              intro k hk'
              rcases List.mem_append.mp hk' with hk' | hk'
              · exact hw k (by simp [hk'])
              · exact hw k (by simp [hp k hk'])
            · exact hw l (by simp [hl])
          · intro l hl; simp [asItems_leaves _ hl]
        · refine hk.bind (Keeps.weaken (ih _ _ _) ?_) (fun ys => Keeps.pure' ?_)
          · intro l hl
            rcases List.mem_append.mp hl with hl | hl
            · rcases nextIndent_leaves _ _ hl with hl | hl <;> simp [hl]
            · simp [hl]
          · intro s hw l hl
            rw [leavesL] at hl
            rcases List.mem_append.mp hl with hl | hl
            · split at hl
              · simp only [Node.leaves, List.mem_cons] at hl
                rcases hl with rfl | hl
                · exact hk.orEmpty_leaves indent _ (fun l hl => hw l (by simp [hl])) _ (by simp)
                · rw [hp] at hl; exact hw l (by simp [hl])
              · rw [hp] at hl; exact hw l (by simp [hl])
            · exact hw l (by simp [hl])

theorem evalList_keep (hk : Keeps e I L) (h : ∀ x, Keep I L x.leaves (r x) Node.leaves) : ∀ xs,
    Keep I L (leavesL xs) (evalList r xs) leavesL := by
  intro xs
  induction xs with
  | nil => exact Keeps.pure (by parts)
  | cons x xs ih =>
    unfold evalList
    refine hk.bind (rec_keep h _ (by parts)) (fun y => hk.bind (Keeps.weaken ih (by parts)) (fun ys => Keeps.pure ?_))
    intro l hl
    rw [leavesL_append] at hl
    rcases List.mem_append.mp hl with hl | hl
    · simp [spread_leaves _ hl]
    · simp [hl]

/-- Parts of a value that may be missing. -/
def optLeaves : Option Node → List Leaf
  | some x => x.leaves
  | none => []

theorem listEval1_keep (hk : Keeps e I L) (h : ∀ x, Keep I L x.leaves (r x) Node.leaves) : ∀ xs,
    Keep I L (leavesL xs) (listEval1 r xs) (fun p => optLeaves p.1 ++ leavesL p.2) := by
  intro xs
  induction xs with
  | nil => exact Keeps.pure (by intro l hl; cases hl)
  | cons x xs ih =>
    unfold listEval1
    refine hk.bind (rec_keep h _ (by parts)) (fun y => ?_)
    split
    all_goals first
      | exact Keeps.weaken ih (by parts)
      | exact Keeps.pure (by simp only [optLeaves]; parts)

theorem evalLocal_keep (hk : Keeps e I L) (h : ∀ x, Keep I L x.leaves (r x) Node.leaves) : ∀ f,
    Keep I L (leavesF f) (evalLocal r f) leavesF := by
  intro f
  induction f with
  | nil => exact Keeps.pure (by parts)
  | cons p f ih =>
    obtain ⟨k, v⟩ := p
    unfold evalLocal
    exact hk.bind (rec_keep h _ (by parts)) (fun _ => hk.bind (Keeps.weaken ih (by parts)) (fun _ => Keeps.pure (by parts)))

theorem evalNamed_keep (hk : Keeps e I L) (h : ∀ x, Keep I L x.leaves (r x) Node.leaves) : ∀ f,
    Keep I L (leavesN f) (evalNamed r f) leavesN := by
  intro f
  induction f with
  | nil => exact Keeps.pure (by parts)
  | cons p f ih =>
    obtain ⟨k, v⟩ := p
    unfold evalNamed
    exact hk.bind (rec_keep h _ (by parts)) (fun _ => hk.bind (Keeps.weaken ih (by parts)) (fun _ => Keeps.pure (by parts)))

theorem applyEach_keep (hk : Keeps e I L) (h : ∀ x, Keep I L x.leaves (r x) Node.leaves) : ∀ fs x,
    Keep I L (leavesL fs ++ x.leaves) (applyEach r fs x) Node.leaves := by
  intro fs
  induction fs with
  | nil => intro x; exact Keeps.pure (by parts)
  | cons f fs ih =>
    intro x
    unfold applyEach
    exact hk.bind (rec_keep h _ (by parts)) (fun _ => Keeps.weaken (ih _) (by parts))

theorem foreach_keep (hk : Keeps e I L) (h : ∀ x, Keep I L x.leaves (r x) Node.leaves) (fs : List Node) : ∀ xs,
    Keep I L (leavesL fs ++ leavesL xs) (foreach r fs xs) leavesL := by
  intro xs
  induction xs with
  | nil => exact Keeps.pure (by parts)
  | cons x xs ih =>
    unfold foreach
    refine hk.bind (Keeps.weaken (applyEach_keep hk h _ _) (by parts)) (fun y =>
      hk.bind (Keeps.weaken ih (by parts)) (fun ys => Keeps.pure ?_))
    unfold consSome
    split <;> parts

theorem bindArg_keep (hk : Keeps e I L) (h : ∀ x, Keep I L x.leaves (r x) Node.leaves) {Γ} (fn frame late dflt var val args named loc)
    (hs : ∀ l ∈ fn.leaves ++ (leavesF frame ++ (leavesF dflt ++ (val.leaves ++ (leavesL args ++ leavesN named)))), l ∈ Γ) :
    Keep I L Γ (bindArg r fn frame late dflt var val args named loc) Node.leaves := by
  refine Keeps.weaken (Γ' := fn.leaves ++ (leavesF frame ++ (leavesF dflt ++ (val.leaves ++ (leavesL args ++ leavesN named))))) ?_ hs
  unfold bindArg
  refine hk.bind (lv := Node.leaves) ?_ (fun v => ?_)
  · unfold lateVal
    split
    · refine rec_keep h _ ?_
      intro l hl
      simp only [Node.leaves, leavesF, List.append_nil, List.mem_append] at hl
      rcases hl with hl | hl
      · simp [hl]
      · obtain ⟨p, hp, hl⟩ := mem_leavesF.1 (ofList_leaves hl)
        obtain ⟨k, _, rfl⟩ := List.mem_map.mp hp
        cases hl
    · exact Keeps.pure (by parts)
  · have hsf : ∀ l ∈ (fn.setFrame (Frame.set frame var v)).leaves, l ∈ v.leaves ++ (fn.leaves ++ leavesF frame) := by
      intro l hl
      rcases setFrame_leaves _ _ hl with hl | hl
      · rcases set_leaves hl with hl | hl <;> simp [hl]
      · simp [hl]
    unfold applyNext
    split
    · exact rec_keep h _ (fun l hl => by have := hsf l hl; simp only [List.mem_append] at this ⊢; grind)
    · refine rec_keep h _ ?_
      intro l hl
      simp only [Node.leaves, List.mem_append] at hl
      rcases hl with hl | hl
      · have := hsf l hl; simp only [List.mem_append] at this ⊢; grind
      · simp only [List.mem_append]; grind

theorem applyClosure_keep (hk : Keeps e I L) (h : ∀ x, Keep I L x.leaves (r x) Node.leaves) {Γ} (fn frame late dflt args named loc)
    (hs : ∀ l ∈ fn.leaves ++ (leavesF frame ++ (leavesF dflt ++ (leavesL args ++ leavesN named))), l ∈ Γ) :
    Keep I L Γ (applyClosure r fn frame late dflt args named loc) Node.leaves := by
  refine Keeps.weaken (Γ' := fn.leaves ++ (leavesF frame ++ (leavesF dflt ++ (leavesL args ++ leavesN named)))) ?_ hs
  unfold applyClosure
  split
  · split
    · exact hk.bind (rec_keep h _ (by parts)) (fun v => bindArg_keep hk h _ _ _ _ _ _ _ _ _ (by parts))
    · exact Keeps.err
  · split
    · exact rec_keep h _ (by parts)
    · split
      · exact bindArg_keep hk h _ _ _ _ _ _ _ _ _ (by parts)
      · refine hk.bind (Keeps.weaken (listEval1_keep hk h _) (by parts)) (fun a => ?_)
        obtain ⟨v, as⟩ := a
        cases v
        · exact Keeps.pure (by simp only [optLeaves]; parts)
        · exact bindArg_keep hk h _ _ _ _ _ _ _ _ _ (by simp only [optLeaves]; parts)
    · exact rec_keep h _ (by parts)
    · split
      · exact Keeps.pure (by parts)
      · next d hd =>
        refine hk.bind (rec_keep h _ (fun l hl => ?_)) (fun v => bindArg_keep hk h _ _ _ _ _ _ _ _ _ (by parts))
        have := get_leaves hd hl
        simp [this]

theorem applyStr_keep (hk : Keeps e I L) (h : ∀ x, Keep I L x.leaves (r x) Node.leaves) (fn args named loc) :
    Keep I L (fn.leaves ++ (leavesL args ++ leavesN named)) (applyStr e r fn args named loc) Node.leaves := by
  unfold applyStr
  split
  · exact Keeps.pure (by parts)
  · refine hk.bind (Keeps.weaken (evalNamed_keep hk h _) (by parts)) (fun nm => ?_)
    split
    · refine hk.bind Keeps.get (fun s => Keeps.pure' ?_)
      intro s hw l hl
      simp only [Node.leaves, List.mem_singleton] at hl
      subst hl
      exact hk.free _ _
    · exact Keeps.pure (by parts)

theorem applyTo_keep (hk : Keeps e I L) (h : ∀ x, Keep I L x.leaves (r x) Node.leaves) (fn args named loc) :
    Keep I L (fn.leaves ++ (leavesL args ++ leavesN named)) (applyTo e r fn args named loc) Node.leaves := by
  unfold applyTo
  split
  all_goals first
    | exact applyStr_keep hk h _ _ _ _
    | exact Keeps.pure (by parts)
    | exact Keeps.err
    | exact Keeps.applyNumber (by parts)
    | exact hk.applyBuiltin (by parts)
    | exact applyClosure_keep hk h _ _ _ _ _ _ _ (by parts)
    | exact rec_keep h _ (by parts)
    | (split <;> first | exact Keeps.err | exact rec_keep h _ (by parts) | exact Keeps.pure (by parts))
    | skip
  · split
    · exact hk.bind (Keeps.weaken (foreach_keep hk h _ _) (by parts)) (fun _ => Keeps.pure (by parts))
    · exact Keeps.err

theorem evalApply_keep (hk : Keeps e I L) (h : ∀ x, Keep I L x.leaves (r x) Node.leaves) (fn args named loc) :
    Keep I L (fn.leaves ++ (leavesL args ++ leavesN named)) (evalApply e r fn args named loc) Node.leaves := by
  unfold evalApply
  refine hk.bind (rec_keep h _ (by parts)) (fun f => hk.bind (Keeps.weaken (evalList_keep hk h _) (by parts)) (fun as =>
    Keeps.weaken' (applyTo_keep hk h _ _ _ _) ?_))
  intro w hw l hl
  simp only [List.mem_append] at hl
  rcases hl with hl | hl | hl
  · rcases setCall_leaves _ _ hl with hl | hl
    · cases fn <;> simp only [callOf, placeLeaf, Option.bind_none, Option.bind_some, List.not_mem_nil] at hl
      split at hl
      · next l' hl' =>
        cases List.mem_singleton.mp hl
        exact hk.place _ _ _ (hw _ (by simp [Node.leaves])) hl'
      · cases hl
    · exact hw _ (by simp [hl])
  · exact hw _ (by simp [hl])
  · exact hw _ (by simp [hl])

theorem evalBound_keep (hk : Keeps e I L) (h : ∀ x, Keep I L x.leaves (r x) Node.leaves) : ∀ bound env late dflt,
    Keep I L (leavesB bound ++ (leavesF env ++ leavesF dflt)) (evalBound r bound env late dflt)
      (fun x => leavesF x.1 ++ leavesF x.2.2) := by
  intro bound
  induction bound with
  | nil => intro env late dflt; exact Keeps.pure (by parts)
  | cons b bound ih =>
    intro env late dflt
    obtain ⟨ls, a, d⟩ := b
    unfold evalBound
    refine hk.bind (lv := leavesF) ?_ (fun dflt' => Keeps.weaken (ih _ _ _) ?_)
    · cases d with
      | none => exact Keeps.pure (by parts)
      | some d =>
        refine hk.bind (rec_keep h _ (by parts)) (fun v => Keeps.pure ?_)
        intro l hl
        rcases set_leaves hl with hl | hl <;> simp [hl]
    · intro l hl
      have hb : ∀ l ∈ leavesB bound, l ∈ leavesB ((ls, a, d) :: bound) := by
        intro l hl; cases d <;> simp [leavesB, hl]
      simp only [List.mem_append] at hl ⊢
      rcases hl with hl | hl | hl
      · exact .inr (.inl (hb l hl))
      · rcases set_leaves hl with hl | hl
        · cases hl
        · exact .inr (.inr (.inl hl))
      · exact .inl hl

theorem evalLambda_keep (hk : Keeps e I L) (h : ∀ x, Keep I L x.leaves (r x) Node.leaves) (bound form) :
    Keep I L (leavesB bound ++ form.leaves) (evalLambda r bound form) Node.leaves := by
  unfold evalLambda
  refine hk.bind (Keeps.weaken (evalBound_keep hk h _ _ _ _) (by parts)) (fun a => ?_)
  obtain ⟨env, late, dflt⟩ := a
  exact rec_keep h _ (by parts)

theorem evalLambdaVar_keep (hk : Keeps e I L) (h : ∀ x, Keep I L x.leaves (r x) Node.leaves) (late reg a form) :
    Keep I L (Node.lambdaVar late reg a form).leaves (evalLambdaVar r late reg a form) Node.leaves := by
  unfold evalLambdaVar
  refine hk.bind Keeps.get (fun s => ?_)
  split
  · exact Keeps.err
  · next v hv =>
    split
    · exact Keeps.pure (by parts)
    · split
      · next bound hb =>
        refine Keeps.weaken (evalLambda_keep hk h _ _) ?_
        intro l hl
        simp only [Node.leaves, List.mem_append, List.mem_cons, ESt.leaves] at hl ⊢
        rcases hl with hl | hl
        · obtain ⟨xs, hx, hb⟩ := Option.bind_eq_some_iff.mp hb
          exact .inl (.inl (lookup_leaves hv (asList_leaves hx (listToBound_leaves _ hb hl))))
        · exact .inr (.inr (.inr hl))
      · exact Keeps.err

theorem evalClosure_keep (hk : Keeps e I L) (h : ∀ x, Keep I L x.leaves (r x) Node.leaves) (form frame late dflt) :
    Keep I L (Node.lclosure form frame late dflt).leaves (evalClosure r form frame late dflt) Node.leaves := by
  unfold evalClosure
  refine hk.bind (Keeps.inFrame (rec_keep h _ (by parts)) (by parts)) (fun a => ?_)
  obtain ⟨v, f⟩ := a
  dsimp only
  split
  · exact Keeps.pure (by parts)
  · exact Keeps.pure (by parts)

theorem lval_leaves (lval : LVal) : leavesF lval.frame = [] := by
  cases lval with
  | one a => rfl
  | many as =>
    refine List.eq_nil_iff_forall_not_mem.mpr (fun l hl => ?_)
    obtain ⟨p, hp, hl⟩ := mem_leavesF.1 (ofList_leaves hl)
    obtain ⟨k, _, rfl⟩ := List.mem_map.mp hp
    cases hl

theorem evalAssign_keep (hk : Keeps e I L) (h : ∀ x, Keep I L x.leaves (r x) Node.leaves) (lval ast) :
    Keep I L ast.leaves (evalAssign r lval ast) leavesF := by
  unfold evalAssign
  refine hk.bind (Keeps.inFrame (h _) (by rw [lval_leaves]; intro l hl; cases hl)) (fun a => ?_)
  obtain ⟨v, f⟩ := a
  refine Keeps.pure ?_
  intro l hl
  rcases assign_leaves _ _ _ hl with hl | hl <;> simp [hl]

theorem evalSet_keep (hk : Keeps e I L) (h : ∀ x, Keep I L x.leaves (r x) Node.leaves) (lval ast) :
    Keep I L ast.leaves (evalSet e r lval ast) Node.leaves := by
  unfold evalSet
  split
  · exact hk.bind (h _) (fun v => hk.bind (Keeps.setOutput v) (fun _ => Keeps.pure (by parts)))
  · exact hk.bind (evalAssign_keep hk h _ _) (fun f => Keeps.pure (by parts))

theorem evalLet_keep (hk : Keeps e I L) (h : ∀ x, Keep I L x.leaves (r x) Node.leaves) (lval ast form) :
    Keep I L (ast.leaves ++ form.leaves) (evalLet r lval ast form) Node.leaves := by
  unfold evalLet
  refine hk.bind (Keeps.weaken (evalAssign_keep hk h _ _) (by parts)) (fun f =>
    hk.bind (Keeps.inFrame (rec_keep h _ (by parts)) (by parts)) (fun a => Keeps.pure ?_))
  parts

theorem evalSetClosure_keep (hk : Keeps e I L) (h : ∀ x, Keep I L x.leaves (r x) Node.leaves) (form frame) :
    Keep I L (form.leaves ++ leavesF frame) (evalSetClosure r form frame) Node.leaves := by
  unfold evalSetClosure
  refine hk.bind (Keeps.inFrame (rec_keep h _ (by parts)) (by parts)) (fun a => ?_)
  obtain ⟨v, f⟩ := a
  dsimp only
  split <;> exact Keeps.pure (by parts)

theorem macroEnv_leaves (hk : Keeps e I L) (name pars text) :
    Entails L (Node.macro name pars text).leaves (macroEnv name pars text).leaves := by
  intro w hw l hl
  simp only [macroEnv, Node.leaves, leavesF, List.append_nil, List.mem_append] at hl
  rcases hl with hl | hl | hl
  · exact hw _ (by simp [Node.leaves, hl])
  · cases hl
  · obtain ⟨p, hp, hl⟩ := mem_leavesF.1 (ofList_leaves hl)
    obtain ⟨k, _, rfl⟩ := List.mem_map.mp hp
    cases hl

theorem evalMacro_keep (hk : Keeps e I L) (h : ∀ x, Keep I L x.leaves (r x) Node.leaves) (text frame decl call) :
    Keep I L (Node.mclosure text frame decl call).leaves (evalMacro e r text frame decl call) Node.leaves := by
  unfold evalMacro
  refine hk.bind (Keeps.weaken (evalLocal_keep hk h _) (by parts)) (fun f => ?_)
  split
  · exact hk.bind Keeps.get (fun s => rec_keep h _ (by parts))
  · exact Keeps.pure (by parts)

theorem parse_keep (hk : Keeps e I L) {Γ} (n : Nat) (a : Str) : Keep I L Γ (EM.parse ((P e.pe n).parse a)) leavesL := by
  intro s b s' h0 _ hm
  unfold EM.parse at hm
  split at hm
  · next hp =>
    cases hm
    obtain ⟨hi, h1, h2⟩ := hk.parse _ _ _ _ _ h0.1 hp
    exact ⟨⟨hi, fun l hl => hk.mono h1 (h0.2 l hl)⟩, h1, h2⟩
  · cases hm
  · cases hm

theorem evalEval_keep (hk : Keeps e I L) (h : ∀ x, Keep I L x.leaves (r x) Node.leaves) (n) (ast decl call) :
    Keep I L (Node.eval ast decl call).leaves (evalEval e (P e.pe n) r ast decl call) Node.leaves := by
  unfold evalEval
  refine hk.bind (rec_keep h _ (by parts)) (fun v => ?_)
  split
  · exact Keeps.pure (by parts)
  · refine hk.bind Keeps.get (fun s => hk.bind (hk.register (by parts)) (fun key => hk.bind (parse_keep hk _ _) (fun xs => ?_)))
    split
    · exact Keeps.pure (by parts)
    · split
      · refine Keeps.pure' ?_
        intro s hg l hl
        simp only [Node.leaves, Indent.leaves, List.mem_append, List.mem_singleton] at hl
        rcases hl with rfl | hl
        · exact hk.indNil _
        · exact hg l (by simp [hl])
      · split
        · exact rec_keep h _ (by parts)
        · refine Keeps.weaken' (h _) ?_
          intro w hg l hl
          simp only [Node.leaves, Indent.leaves, List.mem_append, List.mem_singleton] at hl
          rcases hl with rfl | hl
          · exact hk.indNil _
          · exact hg l (by simp [hl])

theorem evalCond_keep (hk : Keeps e I L) (h : ∀ x, Keep I L x.leaves (r x) Node.leaves) (c l1 l0) :
    Keep I L (c.leaves ++ (l1.leaves ++ l0.leaves)) (evalCond r c l1 l0) Node.leaves := by
  unfold evalCond
  refine hk.bind (rec_keep h _ (by parts)) (fun c' => ?_)
  split
  · exact rec_keep h _ (by split <;> parts)
  · exact Keeps.pure (by parts)

theorem evalCondClosure_keep (hk : Keeps e I L) (h : ∀ x, Keep I L x.leaves (r x) Node.leaves) (c l1 l0) :
    Keep I L (c.leaves ++ (l1.leaves ++ l0.leaves)) (evalCondClosure r c l1 l0) Node.leaves := by
  unfold evalCondClosure
  refine hk.bind (rec_keep h _ (by parts)) (fun c' => ?_)
  split
  · exact hk.bind (rec_keep h _ (by split <;> parts)) (fun v => rec_keep h _ (by parts))
  · exact hk.bind (rec_keep h _ (by parts)) (fun a => hk.bind (rec_keep h _ (by parts)) (fun b => Keeps.pure (by parts)))

theorem evalInfix_keep (hk : Keeps e I L) (h : ∀ x, Keep I L x.leaves (r x) Node.leaves) (ast loc) :
    Keep I L ast.leaves (evalInfix e r ast loc) Node.leaves := by
  unfold evalInfix
  refine hk.bind (h _) (fun v => ?_)
  split
  · exact Keeps.pure (by parts)
  · refine hk.bind Keeps.get (fun s => hk.bind (Keeps.ofOption (lv := fun _ => []) (by intro _ _ _ _ l hl; cases hl)) (fun code =>
      Keeps.weaken' (h _) ?_))
    intro w _ l hl
    obtain ⟨p, hp, hl⟩ := mem_leavesF.1 (ofList_leaves hl)
    obtain ⟨k, _, rfl⟩ := List.mem_map.mp hp
    simp only [Node.leaves, List.map_nil, List.mem_singleton] at hl
    subst hl
    exact hk.free _ _

theorem evalInfixClosure_keep (hk : Keeps e I L) (h : ∀ x, Keep I L x.leaves (r x) Node.leaves) (code frame loc) :
    Keep I L (leavesF frame) (evalInfixClosure e r code frame loc) Node.leaves := by
  unfold evalInfixClosure
  refine hk.bind (evalLocal_keep hk h _) (fun f => ?_)
  split
  · refine hk.bind Keeps.get (fun s => Keeps.ofOption ?_)
    intro v hv w hg l hl
    exact hk.pyEval _ _ _ _ hv w (fun l hl => hg l (by simp [hl])) l hl
  · exact Keeps.pure (by parts)

theorem evalEmit_keep (hk : Keeps e I L) (h : ∀ x, Keep I L x.leaves (r x) Node.leaves) (late reg a ast) :
    Keep I L (Node.emit late reg a ast).leaves (evalEmit r late reg a ast) Node.leaves := by
  unfold evalEmit
  refine hk.bind Keeps.get (fun s => ?_)
  split
  · exact Keeps.err
  · next v hv =>
    split
    · exact Keeps.pure (by parts)
    · have h1 : ∀ l ∈ (takeFirst v).1.leaves, l ∈ s.leaves := fun l hl => by
        simp only [ESt.leaves, List.mem_append]
        exact .inl (lookup_leaves hv (takeFirst_leaves _ (.inl hl)))
      have h2 : ∀ l ∈ (takeFirst v).2.leaves, l ∈ s.leaves := fun l hl => by
        simp only [ESt.leaves, List.mem_append]
        exact .inl (lookup_leaves hv (takeFirst_leaves _ (.inr hl)))
      refine hk.bind (lv := fun _ => []) (Keeps.update (by intro l hl; simp [h2 l hl])) (fun _ => ?_)
      dsimp only
      split
      · refine hk.bind (rec_keep h _ ?_) (fun v => hk.bind (lv := fun _ => []) (Keeps.update (by parts)) (fun _ =>
          Keeps.pure (by intro l hl; simp [h1 l hl])))
        intro l hl
        simp only [Node.leaves, leavesL, leavesN, List.append_nil, List.mem_append] at hl
        rcases hl with hl | hl
        · simp [Node.leaves, hl]
        · simp [h2 l hl]
      · exact Keeps.pure (by intro l hl; simp [h1 l hl])

theorem evalStep_keep (hk : Keeps e I L) (h : ∀ x, Keep I L x.leaves (r x) Node.leaves) (n : Nat) (x : Node) :
    Keep I L x.leaves (evalStep e (P e.pe n) r x) Node.leaves := by
  unfold evalStep
  split
  case h_1 =>
    refine Keeps.weaken' (h _) ?_
    intro w hg l hl
    simp only [Node.leaves, Indent.leaves, List.mem_append, List.mem_singleton] at hl
    rcases hl with rfl | hl
    · exact hk.indNil _
    · exact hg l (by simp [Node.leaves, hl])
  case h_2 => exact hk.bind (evalT_keep hk h _ _ _ _) (fun ys => hk.finishT (by parts))
  case h_3 => exact evalApply_keep hk h _ _ _ _
  case h_4 => exact Keeps.evalVar (by parts)
  case h_5 => exact evalLambda_keep hk h _ _
  case h_6 => exact evalLambdaVar_keep hk h _ _ _ _
  case h_7 => exact evalClosure_keep hk h _ _ _ _
  case h_8 => exact Keeps.weaken (evalSet_keep hk h _ _) (by parts)
  case h_9 => exact Keeps.weaken (evalLet_keep hk h _ _ _) (by parts)
  case h_10 => exact evalSetClosure_keep hk h _ _
  case h_11 => exact Keeps.pure' (fun s hw => macroEnv_leaves hk _ _ _ _ hw)
  case h_12 => exact evalMacro_keep hk h _ _ _ _
  case h_13 => exact Keeps.weaken (evalEval_keep hk h _ _ _ _) (by parts)
  case h_14 => exact evalCond_keep hk h _ _ _
  case h_15 => exact evalCondClosure_keep hk h _ _ _
  case h_16 => exact Keeps.weaken (evalInfix_keep hk h _ _) (by parts)
  case h_17 => exact evalInfixClosure_keep hk h _ _ _
  case h_18 => exact evalEmit_keep hk h _ _ _ _
  case h_19 => exact hk.bind (evalList_keep hk h _) (fun _ => Keeps.pure (by parts))
  case h_20 => exact hk.bind (rec_keep h _ (by parts)) (fun _ => Keeps.pure (by parts))
  case h_21 => exact hk.bind (rec_keep h _ (by parts)) (fun _ => Keeps.pure (by parts))
  case h_22 => exact Keeps.pure (fun _ h => h)

end

/-- Evaluation keeps the condition. -/
theorem E_keep (hk : Keeps e I L) : ∀ n x, Keep I L x.leaves (E e n x) Node.leaves
  | 0, _ => by intro s a s' _ _ h; cases h
  | n + 1, x => evalStep_keep hk (E_keep hk n) n x

end Yupp
