import Verif.Lemmas.Effects
/-!
# C95. What an evaluation may change, and by what
-/

namespace Yupp
open Spec

/-- **C95.** A scope is left as it was found: after a tree was evaluated there are the same scopes with the same names
    in the same order, and a parameter that waits for a value still does. -/
theorem C95_scopes {e : EEnv} {x v : Node} {s s' : ESt} (h : Evaluates e x s v s') :
    SameScopes (fun _ => true) s.env s'.env := by
  obtain ⟨n, hn⟩ := h
  rw [← until_never] at hn
  exact until_scopes e _ (fun _ => true) (fun _ _ _ _ ha => by cases ha) n x _ _ _ hn

/-- **C95.** What is evaluated without meeting some forms is evaluated. -/
theorem C95_avoids {e : EEnv} {stop : Node → Bool} {x v : Node} {s s' : ESt} (h : Avoids e stop x s v s') :
    Evaluates e x s v s' := by
  obtain ⟨n, hn⟩ := h
  rcases until_le e stop n x s with h | h
  · rw [h] at hn; cases hn
  · exact ⟨n, by rw [← h]; exact hn⟩

/-- **C95.** An evaluation that ends either meets one of the forms or avoids all of them. -/
theorem C95_meets_iff {e : EEnv} {x v : Node} {s s' : ESt} (stop : Node → Bool) (h : Evaluates e x s v s') :
    Meets e stop x s ↔ ¬ Avoids e stop x s v s' := by
  refine ⟨fun hm ⟨n, hn⟩ => ?_, fun ha m => ?_⟩
  · rw [hm n] at hn; cases hn
  · rcases until_le e stop m x s with hu | hu
    · exact hu
    · cases hm : E e m x s with
      | timeout => rw [hu, hm]
      | err => exact absurd ⟨m, hm⟩ (not_raises h)
      | ok r =>
        obtain ⟨w, t⟩ := r
        obtain ⟨rfl, rfl⟩ := evaluates_det h ⟨m, hm⟩
        exact absurd ⟨m, hu.trans hm⟩ ha

theorem same_lookup {W : Str → Bool} {a b : Scopes} (h : SameScopes W a b) {k : Str} (hk : W k = false) :
    Scopes.lookup b k = Scopes.lookup a k := by
  have hf : ∀ f : Frame, Frame.get (f.filter (fun p => !W p.1)) k = Frame.get f k := by
    intro f
    induction f with
    | nil => rfl
    | cons p f ih =>
      rw [List.filter_cons]
      by_cases hp : p.1 = k
      · rw [hp, hk]; simp only [Bool.not_false, if_true]; rw [get_cons, get_cons, ih]
      · split
        · rw [get_cons, get_cons, ih]
        · rw [get_cons, ih, if_neg hp]
  unfold SameScopes at h
  induction h with
  | nil => rfl
  | @cons f g fs gs hx hr ih =>
    unfold Scopes.lookup
    rw [ih, ← hf g, ← hf f, hx.others]

/-- **C95.** While no `($emit a ..)` is met, the variable `a` keeps its value in every scope. -/
theorem C95_variable {e : EEnv} {a : Str} {x v : Node} {s s' : ESt} (h : Avoids e (emitsOf a) x s v s') :
    SameScopes (fun b => b != a) s.env s'.env ∧ Scopes.lookup s'.env a = Scopes.lookup s.env a := by
  obtain ⟨n, hn⟩ := h
  have := until_scopes e (emitsOf a) (fun b => b != a) (fun _ _ b _ hb => by
    have : b.txt = a := by simpa using hb
    simp [emitsOf, this]) n x _ _ _ hn
  exact ⟨this, same_lookup this (by simp)⟩

/-- **C95.** If a variable has another value after an evaluation, an `$emit` of that variable was met. -/
theorem C95_emit {e : EEnv} {a : Str} {x v : Node} {s s' : ESt} (h : Evaluates e x s v s')
    (hne : Scopes.lookup s'.env a ≠ Scopes.lookup s.env a) : Meets e (emitsOf a) x s :=
  (C95_meets_iff _ h).2 fun ha => hne (C95_variable ha).2

/-- **C95.** While no `$emit` is met, the scopes do not change at all. -/
theorem C95_no_emit {e : EEnv} {x v : Node} {s s' : ESt} (h : Avoids e emits x s v s') : s'.env = s.env := by
  obtain ⟨n, hn⟩ := h
  have := until_scopes e emits (fun _ => false) (fun _ _ _ _ _ => rfl) n x _ _ _ hn
  unfold SameScopes at this
  revert this
  generalize s.env = a
  generalize s'.env = b
  intro h
  induction h with
  | nil => rfl
  | cons hx hr ih =>
    have := hx.others
    have hid : ∀ f : Frame, f.filter (fun p => !(fun _ => false) p.1) = f := fun f => by simp
    rw [hid, hid] at this
    rw [this, ih]

/-- **C95.** If the name of the output file has changed, a `($set __OUTPUT_FILE__ ..)` was met. -/
theorem C95_output {e : EEnv} {x v : Node} {s s' : ESt} (h : Evaluates e x s v s')
    (hne : s'.outputFile ≠ s.outputFile) : Meets e setsOutput x s := by
  refine (C95_meets_iff _ h).2 fun ⟨n, hn⟩ => hne ?_
  refine until_output e setsOutput (fun l ast hl => ?_) n x _ _ _ hn
  cases l with
  | one a => exact hl
  | many as => cases hl

/-- **C95.** If a text was registered, a file imported or a script loaded, a text was evaluated. -/
theorem C95_tables {e : EEnv} {x v : Node} {s s' : ESt} (h : Evaluates e x s v s') (hne : s'.p ≠ s.p) :
    Meets e evals x s := by
  refine (C95_meets_iff _ h).2 fun ⟨n, hn⟩ => hne ?_
  exact until_tables e evals (fun _ _ _ => rfl) n x _ _ _ hn

/-! ## Cases -/

/-- `i` holds the list `1 2`. -/
def twoItems : ESt := { env := [[(lit "i", .list [.int 1, .int 2])]] }

/-- `($emit i)` takes the first item off the list: by `C95_emit` it was met. -/
example (e : EEnv) : ∃ s', Evaluates e (.emit false [] { txt := lit "i" } .none) twoItems (.int 1) s' ∧
    Meets e (emitsOf (lit "i")) (.emit false [] { txt := lit "i" } .none) twoItems := by
  have h : Evaluates e (.emit false [] { txt := lit "i" } .none) twoItems (.int 1)
      { env := [[(lit "i", .list [.int 2])]] } := ⟨1, rfl⟩
  refine ⟨_, h, C95_emit h ?_⟩
  intro hh
  injection hh with hh
  injection hh with hh
  injection hh with h1 h2
  cases h2

/-- `($let j ($i) (j j))` meets no `$emit`: `C95_no_emit` applies. -/
example (e : EEnv) : Avoids e emits (.letn (.one { txt := lit "j" }) (.var false [] { txt := lit "i" })
    (.list [.var false [] { txt := lit "j" }])) twoItems (.list [.list [.int 1, .int 2]]) twoItems := ⟨3, rfl⟩

/-- `($set __OUTPUT_FILE__ "f")`. -/
example (e : EEnv) : Meets e setsOutput (.set (.one { txt := lit "__OUTPUT_FILE__" }) (.pstr (lit "f"))) {} := by
  have h : Evaluates e (.set (.one { txt := lit "__OUTPUT_FILE__" }) (.pstr (lit "f"))) {} .none
      { outputFile := some (e.pe.unq (lit "f")) } := ⟨2, rfl⟩
  exact C95_output h (by intro hh; cases hh)

end Yupp
