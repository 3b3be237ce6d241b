import Verif.Spec.Meaning
import Verif.Lemmas.Twin
import Verif.Props.Generate
/-!
# C102 — The meaning of a program depends on the values of its names only
-/

namespace Yupp
open Spec

section
variable {e : EEnv} {W : Str → Bool} {s t : ESt}

theorem beneath_of (h : SameMeaning W s t) : Beneath (.agree W) s.env.length 0 s t :=
  ⟨⟨[], s.env, t.env, rfl, rfl, rfl, rfl, h.names⟩, h.rest⟩

theorem meaning_of {B : Base} {d n : Nat} (h : Beneath B d n s t) : SameMeaning B.W s t := by
  obtain ⟨⟨pre, s0, t0, h1, h2, _, _, h3⟩, hr⟩ := h
  refine ⟨fun k hk => ?_, hr⟩
  rw [h1, h2, lookup_append, lookup_append, B.look h3 k hk]

theorem looksOut_noName (d : Nat) (x : Node) (s : ESt) : looksOut noName d x s = false := by
  cases x <;> first | rfl | (unfold looksOut; simp [outerName, noName])

theorem untilIn_noName (d : Nat) : ∀ n x, untilIn e (looksOut noName d) n x = E e n x := by
  intro n
  induction n with
  | zero => intro x; rfl
  | succ n ih =>
    intro x
    funext s
    unfold untilIn E
    rw [looksOut_noName, show untilIn e (looksOut noName d) n = E e n from funext ih]
    simp

theorem ev_beneath {B : Base} (hB : B.W = noName) {d n : Nat} {x v : Node} {s' : ESt} (h : Beneath B d n s t) (hx : Evaluates e x s v s') :
    ∃ t', Evaluates e x t v t' ∧ Beneath B d n s' t' := by
  obtain ⟨N, hN⟩ := hx
  have := (untilIn_twin e B d N n x).run s t h
  rw [hB, untilIn_noName, hN] at this
  obtain ⟨t', h1, h2⟩ := this
  exact ⟨t', ⟨N, h1⟩, h2⟩

theorem raises_beneath {B : Base} (hB : B.W = noName) {d n : Nat} {x : Node} (h : Beneath B d n s t) (hx : Raises e x s) : Raises e x t := by
  obtain ⟨N, hN⟩ := hx
  have := (untilIn_twin e B d N n x).run s t h
  rw [hB, untilIn_noName, hN] at this
  exact ⟨N, this⟩

theorem meaning_symm (h : SameMeaning W s t) : SameMeaning W t s := by
  refine ⟨fun k hk => (h.names k hk).symm, ?_⟩
  conv => rhs; rw [h.rest]

/-- **C102.** What is reduced to a value is reduced to it wherever its names have the same values, and the names have the same
    values then. -/
theorem C102_value (h : SameMeaning noName s t) {x v : Node} {s' : ESt} (hx : Evaluates e x s v s') :
    ∃ t', Evaluates e x t v t' ∧ SameMeaning noName s' t' := by
  obtain ⟨t', h1, h2⟩ := ev_beneath rfl (beneath_of h) hx
  exact ⟨t', h1, meaning_of h2⟩

/-- **C102.** And what raises an exception raises one there. -/
theorem C102_raises (h : SameMeaning noName s t) (x : Node) : Raises e x s ↔ Raises e x t :=
  ⟨raises_beneath rfl (beneath_of h), raises_beneath rfl (beneath_of (meaning_symm h))⟩

/-- **C102.** Names that are not looked at do not matter at all. -/
theorem C102_unused (h : SameMeaning W s t) {x v : Node} {s' : ESt} (hx : AvoidsIn e (looksOut W s.env.length) x s v s') :
    ∃ t', Evaluates e x t v t' ∧ SameMeaning W s' t' := by
  obtain ⟨N, hN⟩ := hx
  have := (untilIn_twin e (.agree W) s.env.length N 0 x).run s t (beneath_of h)
  rw [show (Base.agree W).W = W from rfl, hN] at this
  obtain ⟨t', h1, h2⟩ := this
  exact ⟨t', ⟨N, h1⟩, meaning_of h2⟩

theorem without_frame (s : ESt) (f : Frame) : SameMeaning (definesName f) (push s f) s := by
  refine ⟨fun k hk => ?_, rfl⟩
  unfold definesName at hk
  show Scopes.lookup (f :: s.env) k = _
  conv => lhs; unfold Scopes.lookup
  cases hf : Frame.get f k with
  | none => rfl
  | some v => rw [hf] at hk; cases hk

/-- **C102.** A text that does not look at the names of a definition before it is the same without the definition. -/
theorem C102_dropped (f : Frame) {ind : Indent} {xs : List Node} {w : Node} {s' : ESt}
    (hx : AvoidsIn e (looksOut (definesName f) (s.env.length + 1)) (.t xs ind) (push s f) w s') :
    ∃ t', Evaluates e (.t xs ind) s w t' ∧ SameMeaning (definesName f) s' t' := C102_unused (without_frame s f) hx

/-! ## Texts -/

/-- The same outcome, with scopes to be left. -/
def BeneathYield (W : Base) (d n : Nat) : Yield → Yield → Prop
  | .text t s, o => ∃ s', o = .text t s' ∧ Beneath W d n s s'
  | .unfinished s, o => ∃ s', o = .unfinished s' ∧ Beneath W d n s s'
  | .fails, o => o = .fails

theorem BeneathYield.after {W : Base} {d n : Nat} {o o' : Yield} (u : Str) (h : BeneathYield W d n o o') :
    BeneathYield W d n (o.after u) (o'.after u) := by
  cases o with
  | text t s => obtain ⟨s', rfl, h⟩ := h; exact ⟨s', rfl, h⟩
  | unfinished s => obtain ⟨s', rfl, h⟩ := h; exact ⟨s', rfl, h⟩
  | fails => cases h; rfl

theorem BeneathYield.open {W : Base} {d n : Nat} {o o' : Yield} (h : BeneathYield W d n o o') : BeneathYield W d n o.open o'.open := by
  cases o with
  | text t s => obtain ⟨s', rfl, h⟩ := h; exact ⟨s', rfl, h⟩
  | unfinished s => obtain ⟨s', rfl, h⟩ := h; exact ⟨s', rfl, h⟩
  | fails => cases h; rfl

theorem beneath_pop {W : Base} {d n : Nat} (h : Beneath W d (n + 1) s t) : Beneath W d n (pop s) (pop t) := by
  obtain ⟨⟨pre, s0, t0, h1, h2, h3, h4⟩, hr⟩ := h
  cases pre with
  | nil => cases h3
  | cons g pre =>
    refine ⟨⟨pre, s0, t0, by unfold pop; rw [h1]; rfl, by unfold pop; rw [h2]; rfl, by simpa using h3, h4⟩, ?_⟩
    unfold pop
    rw [hr]

theorem BeneathYield.leave {W : Base} {d n : Nat} {o o' : Yield} (h : BeneathYield W d (n + 1) o o') : BeneathYield W d n o.leave o'.leave := by
  cases o with
  | text t s => obtain ⟨s', rfl, h⟩ := h; exact ⟨_, rfl, beneath_pop h⟩
  | unfinished s => obtain ⟨s', rfl, h⟩ := h; exact ⟨_, rfl, beneath_pop h⟩
  | fails => cases h; rfl

theorem generates_beneath {B : Base} (hB : B.W = noName) {d : Nat} {ind : Indent} {cut : Bool} {xs : List Node} {o : Yield} (hg : Generates e ind cut xs s o) :
    ∀ n t, Beneath B d n s t → ∃ o', Generates e ind cut xs t o' ∧ BeneathYield B d n o o' := by
  induction hg with
  | nil => intro n t h; exact ⟨_, .nil, t, rfl, h⟩
  | plain _ ih => intro n t h; obtain ⟨o', h1, h2⟩ := ih n t h; exact ⟨_, .plain h1, h2.after _⟩
  | comment _ ih => intro n t h; obtain ⟨o', h1, h2⟩ := ih n t h; exact ⟨_, .comment h1, h2⟩
  | nothing hf hx hv _ ih =>
    intro n t h
    obtain ⟨t1, hx', h1⟩ := ev_beneath hB h hx
    obtain ⟨o', h2, h3⟩ := ih n t1 h1
    exact ⟨_, .nothing hf hx' hv h2, h3⟩
  | item hf hx hi ha _ ih =>
    intro n t h
    obtain ⟨t1, hx', h1⟩ := ev_beneath hB h hx
    obtain ⟨o', h2, h3⟩ := ih n t1 h1
    exact ⟨_, .item hf hx' hi ha h2, h3.after _⟩
  | waits hf hx hi ha _ ih =>
    intro n t h
    obtain ⟨t1, hx', h1⟩ := ev_beneath hB h hx
    obtain ⟨o', h2, h3⟩ := ih n t1 h1
    exact ⟨_, .waits hf hx' hi ha h2, h3.open⟩
  | definition hf hx hne _ ih =>
    intro n t h
    obtain ⟨t1, hx', h1⟩ := ev_beneath hB h hx
    obtain ⟨o', h2, h3⟩ := ih (n + 1) _ (h1.push _)
    exact ⟨_, .definition hf hx' hne h2, h3.leave⟩
  | lastDefinition hf hx =>
    intro n t h
    obtain ⟨t1, hx', h1⟩ := ev_beneath hB h hx
    exact ⟨_, .lastDefinition hf hx', t1, rfl, h1⟩
  | block hf hx _ ih =>
    intro n t h
    obtain ⟨t1, hx', h1⟩ := ev_beneath hB h hx
    obtain ⟨o', h2, h3⟩ := ih n t1 h1
    exact ⟨_, .block hf hx' h2, h3⟩
  | skip hf hx _ ih =>
    intro n t h
    obtain ⟨t1, hx', h1⟩ := ev_beneath hB h hx
    obtain ⟨o', h2, h3⟩ := ih n t1 h1
    exact ⟨_, .skip hf hx' h2, h3⟩
  | fails hf hx => intro n t h; exact ⟨_, .fails hf (raises_beneath hB h hx), rfl⟩

theorem sameYield_of {B : Base} {d n : Nat} {o o' : Yield} (h : BeneathYield B d n o o') : SameYield B.W o o' := by
  cases o with
  | text t s => obtain ⟨s', rfl, h⟩ := h; exact ⟨rfl, meaning_of h⟩
  | unfinished s => obtain ⟨s', rfl, h⟩ := h; exact meaning_of h
  | fails => cases h; trivial

/-- **C102.** A program generates the same text wherever its names have the same values. -/
theorem C102_text (h : SameMeaning noName s t) {ind : Indent} {cut : Bool} {xs : List Node} {o : Yield}
    (hg : Generates e ind cut xs s o) : ∃ o', Generates e ind cut xs t o' ∧ SameYield noName o o' := by
  obtain ⟨o', h1, h2⟩ := generates_beneath rfl hg _ _ (beneath_of h)
  exact ⟨o', h1, sameYield_of h2⟩

theorem one_value {x v w : Node} {s1 s2 : ESt} (h : Evaluates e x s v s1) (h' : Evaluates e x s w s2) : v = w ∧ s1 = s2 := by
  rw [evaluates_iff] at h h'
  rw [h] at h'
  injection h' with h'
  injection h' with h1 h2
  exact ⟨h1, h2⟩

/-- The text behind a definition. -/
theorem behind_definition {ind : Indent} {cut : Bool} {x : Node} {xs : List Node} {f : Frame} {s1 : ESt} {o : Yield} (hf : Form x)
    (hx : Evaluates e x s (.env f) s1) (hne : xs ≠ []) (h : Generates e ind cut (x :: xs) s o) :
    ∃ o', o = o'.leave ∧ Generates e ind (atLineStart ind) xs (push s1 f) o' := by
  cases h with
  | plain => exact absurd (by simp [IsPlain]) hf.1
  | comment => exact absurd rfl hf.2
  | nothing _ hx' hv => obtain ⟨rfl, _⟩ := one_value hx hx'; rcases hv with h | h | h <;> cases h
  | item _ hx' hi => 
    obtain ⟨rfl, _⟩ := one_value hx hx'
    cases hi with
    | value _ _ _ _ h => exact absurd rfl (h f)
  | waits _ hx' hi =>
    obtain ⟨rfl, _⟩ := one_value hx hx'
    cases hi with
    | value _ _ _ _ h => exact absurd rfl (h f)
  | definition _ hx' _ hg =>
    obtain ⟨h1, rfl⟩ := one_value hx hx'
    injection h1 with h1
    subst h1
    exact ⟨_, rfl, hg⟩
  | lastDefinition => exact absurd rfl hne
  | block _ hx' => cases (one_value hx hx').1
  | skip _ hx' => cases (one_value hx hx').1
  | fails _ hx' => rw [raises_iff] at hx'; rw [evaluates_iff, hx'] at hx; cases hx

/-- Behind two definitions in either order, and when their scopes are left. -/
theorem leave_swapped {d : Nat} {o o' : Yield} (h : BeneathYield .swap d 0 o o') : o.leave.leave = o'.leave.leave := by
  have key : ∀ {s t : ESt}, Beneath .swap d 0 s t → pop (pop s) = pop (pop t) := by
    rintro s t ⟨⟨pre, s0, t0, h1, h2, h3, _, f, g, r, rfl, rfl, _⟩, hr⟩
    cases pre with
    | cons _ _ => cases h3
    | nil =>
      unfold pop
      rw [hr]
      dsimp only
      rw [h1, h2]
      rfl
  cases o with
  | text t s => obtain ⟨s', rfl, h⟩ := h; simp only [Yield.leave, key h]
  | unfinished s => obtain ⟨s', rfl, h⟩ := h; simp only [Yield.leave, key h]
  | fails => cases h; rfl

theorem order_step {ind : Indent} {cut : Bool} {x y : Node} {xs : List Node} {f g : Frame} {o : Yield} (hx : Form x) (hy : Form y)
    (hfg : ∀ k, definesName f k = true → definesName g k = false)
    (hx0 : Evaluates e x s (.env f) s) (hx1 : Evaluates e x (push s g) (.env f) (push s g))
    (hy0 : Evaluates e y s (.env g) s) (hy1 : Evaluates e y (push s f) (.env g) (push s f)) (hne : xs ≠ [])
    (h : Generates e ind cut (x :: y :: xs) s o) : Generates e ind cut (y :: x :: xs) s o := by
  obtain ⟨o1, rfl, h1⟩ := behind_definition hx hx0 (by simp) h
  obtain ⟨o2, rfl, h2⟩ := behind_definition hy hy1 hne h1
  have hb : Beneath .swap (s.env.length + 2) 0 (push (push s f) g) (push (push s g) f) :=
    ⟨⟨[], _, _, rfl, rfl, rfl, by simp [push], f, g, s.env, rfl, rfl, hfg⟩, rfl⟩
  obtain ⟨o3, h3, h4⟩ := generates_beneath rfl h2 _ _ hb
  rw [leave_swapped h4]
  exact .definition hy hy0 (by simp) (.definition hx hx1 hne h3)

/-- **C102.** The order of two definitions of different names does not matter, if each of them gives the same before and
    behind the other one. -/
theorem C102_order {ind : Indent} {cut : Bool} {x y : Node} {xs : List Node} {f g : Frame} {o : Yield} (hx : Form x) (hy : Form y)
    (hfg : ∀ k, ¬ (definesName f k = true ∧ definesName g k = true))
    (hx0 : Evaluates e x s (.env f) s) (hx1 : Evaluates e x (push s g) (.env f) (push s g))
    (hy0 : Evaluates e y s (.env g) s) (hy1 : Evaluates e y (push s f) (.env g) (push s f)) (hne : xs ≠ []) :
    Generates e ind cut (x :: y :: xs) s o ↔ Generates e ind cut (y :: x :: xs) s o :=
  ⟨order_step hx hy (fun k h => by rw [Bool.eq_false_iff]; exact fun hg => hfg k ⟨h, hg⟩) hx0 hx1 hy0 hy1 hne,
   order_step hy hx (fun k h => by rw [Bool.eq_false_iff]; exact fun hg => hfg k ⟨hg, h⟩) hy0 hy1 hx0 hx1 hne⟩

end

/-! ## Cases -/

/-- `($set a 1)` -/
def setTo (a : Str) (k : Int) : Node := .set (.one ⟨a, none⟩) (.int k)

theorem setTo_form (a : Str) (k : Int) : Form (setTo a k) := ⟨by simp [setTo, IsPlain], by simp [setTo]⟩

theorem setTo_env (e : EEnv) {a : Str} (ha : a ≠ lit "__OUTPUT_FILE__") (k : Int) (s : ESt) : Evaluates e (setTo a k) s (.env [(a, .int k)]) s := by
  refine ⟨2, ?_⟩
  have : (LVal.one ⟨a, none⟩).isOutput = false := by simpa [LVal.isOutput] using ha
  change evalSet e (E e 1) (.one ⟨a, none⟩) (.int k) s = _
  unfold evalSet
  rw [this, if_neg (by simp)]
  have hl : evalAssign (E e 1) (.one ⟨a, none⟩) (.int k) s = .ok ([(a, .int k)], s) := by
    show PRes.ok (Frame.set [(a, Node.bound)] a (.int k), s) = _
    simp [Frame.set, Frame.del]
  rw [em_bind_ok hl]
  rfl

/-- Two variables may be set in either order, whatever comes then. -/
theorem C102_set {e : EEnv} {s : ESt} {ind : Indent} {cut : Bool} {xs : List Node} {o : Yield} {a b : Str} (hab : a ≠ b)
    (ha : a ≠ lit "__OUTPUT_FILE__") (hb : b ≠ lit "__OUTPUT_FILE__") (j k : Int) (hne : xs ≠ []) :
    Generates e ind cut (setTo a j :: setTo b k :: xs) s o ↔ Generates e ind cut (setTo b k :: setTo a j :: xs) s o := by
  refine C102_order (setTo_form _ _) (setTo_form _ _) (fun n h => ?_) (setTo_env e ha _ _) (setTo_env e ha _ _) (setTo_env e hb _ _)
    (setTo_env e hb _ _) hne
  have key : ∀ (c : Str) (i : Int), definesName [(c, Node.int i)] n = true → c = n := by
    intro c i h
    by_cases hc : c = n
    · exact hc
    · simp [definesName, Frame.get, hc] at h
  exact hab ((key _ _ h.1).trans (key _ _ h.2).symm)

/-- `($a)`, where there is an unused `b`, comes to the same without it, or with another value of it. -/
example (x : BExt) (pe : PEnv) : let e := stdEnv x pe
    let s : ESt := { env := [[(lit "b", .int 2)], [(lit "a", .int 1)]] }
    let t : ESt := { env := [[(lit "a", .int 1), (lit "b", .int 7)]] }
    SameMeaning (· == lit "b") s t ∧
      AvoidsIn e (looksOut (· == lit "b") 2) (.list [.var false [] ⟨lit "a", none⟩]) s (.list [.int 1]) s ∧
      ∃ t', Evaluates e (.list [.var false [] ⟨lit "a", none⟩]) t (.list [.int 1]) t' := by
  intro e s t
  have h : SameMeaning (· == lit "b") s t := by
    refine ⟨fun k hk => ?_, rfl⟩
    have hk : (lit "b" == k) = false := by rw [Bool.eq_false_iff] at hk ⊢; intro h; exact hk (by simp at h; simp [h])
    simp only [s, t, Scopes.lookup, Frame.get, List.find?]
    simp [hk]
  have h1 : AvoidsIn e (looksOut (· == lit "b") 2) (.list [.var false [] ⟨lit "a", none⟩]) s (.list [.int 1]) s := ⟨3, by rfl⟩
  obtain ⟨t', h2, _⟩ := C102_unused h h1
  exact ⟨h, h1, t', h2⟩

/-- A name that is looked at matters. -/
example (e : EEnv) : MeetsIn e (looksOut (· == lit "b") 1) (.var false [] ⟨lit "b", none⟩) { env := [[(lit "b", .int 2)]] } := by
  intro n
  cases n <;> rfl

/-- But not if it is the parameter of a function, or another variable, of this name. -/
example (e : EEnv) : let s : ESt := { env := [[(lit "b", .int 2)]] }
    AvoidsIn e (looksOut (· == lit "b") 1) (.letn (.one ⟨lit "b", none⟩) (.int 3) (.var false [] ⟨lit "b", none⟩)) s (.int 3) s :=
  ⟨4, by rfl⟩

end Yupp
