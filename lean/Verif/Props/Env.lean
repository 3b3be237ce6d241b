import Verif.Model.Env
/-!
# Environments: C14 – C16
-/

namespace Yupp

namespace Spec

/-- What can be done to one scope: `e[k] = v`, `del e[k]`, and `update_variable` reaching it. -/
inductive EnvOp (α : Type)
  | set (k : Str) (v : α)
  | del (k : Str)
  | upd (k : Str) (v : α)

/-- The value a name has after a history (latest operation first). -/
def valueAfter {α} : List (EnvOp α) → Str → Option α
  | [], _ => none
  | .set k v :: h, x => if x = k then some v else valueAfter h x
  | .del k :: h, x => if x = k then none else valueAfter h x
  | .upd k v :: h, x => if x = k then (valueAfter h x).map (fun _ => v) else valueAfter h x

/-- The names a history (latest first) leaves, in the order of their last `e[k] = v`. -/
def namesAfter {α} : List (EnvOp α) → List Str
  | [] => []
  | .set k _ :: h => (namesAfter h).filter (· ≠ k) ++ [k]
  | .del k :: h => (namesAfter h).filter (· ≠ k)
  | .upd _ _ :: h => namesAfter h

end Spec

open Spec

section
variable {α : Type}

/-- Run one operation on the literal environment. A failing `del` raises; the scope is unchanged. -/
def PyEnv.run (e : PyEnv α) : EnvOp α → PyEnv α
  | .set k v => e.setItem k v
  | .del k => (e.delItem k).getD e
  | .upd k v => match (PyEnv.updateVariable [e] k v).1 with
    | [e'] => e'
    | _ => e

/-- The scope after a history (latest first). -/
def PyEnv.after : List (EnvOp α) → PyEnv α
  | [] => PyEnv.empty
  | o :: h => (PyEnv.after h).run o

theorem erase_eq_filter (l : List Str) (k : Str) (h : l.Nodup) : l.erase k = l.filter (· ≠ k) := by
  rw [List.Nodup.erase_eq_filter h]
  apply List.filter_congr
  intro x _
  by_cases hx : x = k <;> simp [hx]

/-- Invariant: `order` has no duplicates and lists exactly the keys of the dictionary. -/
theorem env_inv (h : List (EnvOp α)) :
    (PyEnv.after h).order.Nodup ∧ (∀ k, k ∈ (PyEnv.after h).order ↔ ((PyEnv.after h).dict k).isSome) ∧
    (PyEnv.after h).order = namesAfter h ∧ ∀ k, (PyEnv.after h).dict k = valueAfter h k := by
  induction h with
  | nil => exact ⟨List.nodup_nil, by simp [PyEnv.after, PyEnv.empty], rfl, fun k => rfl⟩
  | cons o h ih =>
    obtain ⟨h1, h2, h3, h4⟩ := ih
    simp only [PyEnv.after]
    generalize PyEnv.after h = e at *
    cases o with
    | set k v =>
      have hord : (e.setItem k v).order = e.order.filter (· ≠ k) ++ [k] := by
        simp only [PyEnv.setItem, PyEnv.dictSet]
        by_cases hk : k ∈ e.order
        · rw [if_pos hk, erase_eq_filter _ _ h1]
        · rw [if_neg hk, List.filter_eq_self.mpr]
          intro a ha
          have : a ≠ k := by rintro rfl; exact hk ha
          simpa using this
      have hdict : ∀ x, (e.setItem k v).dict x = if x = k then some v else e.dict x := fun x => rfl
      refine ⟨?_, ?_, ?_, ?_⟩
      · simp only [PyEnv.run, hord]
        refine List.nodup_append.mpr ⟨h1.filter _, by simp, ?_⟩
        intro a ha b hb
        simp at ha hb
        rw [hb]; exact ha.2
      · intro x
        simp only [PyEnv.run, hord, hdict, List.mem_append, List.mem_filter, List.mem_singleton]
        by_cases hx : x = k
        · simp [hx]
        · simp [hx, h2 x]
      · simp only [PyEnv.run, hord, namesAfter, h3]
      · intro x
        simp only [PyEnv.run, hdict, valueAfter, h4]
    | del k =>
      by_cases hk : k ∈ e.order
      · have hs := (h2 k).mp hk
        obtain ⟨v, hv⟩ := Option.isSome_iff_exists.mp hs
        have hr : e.run (.del k) = { dict := fun x => if x = k then none else e.dict x, order := e.order.erase k } := by
          simp [PyEnv.run, PyEnv.delItem, hk, hv]
        refine ⟨?_, ?_, ?_, ?_⟩
        · rw [hr]; exact h1.erase _
        · intro x
          rw [hr]
          simp only [erase_eq_filter _ _ h1, List.mem_filter]
          by_cases hx : x = k
          · simp [hx]
          · simp [hx, h2 x]
        · rw [hr]; simp only [namesAfter]; rw [erase_eq_filter _ _ h1, h3]
        · intro x; rw [hr]; simp only [valueAfter, h4]
      · have hr : e.run (.del k) = e := by simp [PyEnv.run, PyEnv.delItem, hk]
        have hn : e.dict k = none := by
          cases hd : e.dict k with
          | none => rfl
          | some v => exact absurd ((h2 k).mpr (by simp [hd])) hk
        refine ⟨by rw [hr]; exact h1, by rw [hr]; exact h2, ?_, ?_⟩
        · rw [hr]
          simp only [namesAfter, ← h3]
          rw [List.filter_eq_self.mpr]
          intro a ha
          have : a ≠ k := by rintro rfl; exact hk ha
          simpa using this
        · intro x; rw [hr]
          simp only [valueAfter]
          by_cases hx : x = k
          · simp [hx, hn]
          · simp [hx, h4]
    | upd k v =>
      cases hd : e.dict k with
      | none =>
        have hr : e.run (.upd k v) = e := by simp [PyEnv.run, PyEnv.updateVariable, hd]
        refine ⟨by rw [hr]; exact h1, by rw [hr]; exact h2, by rw [hr]; exact h3, ?_⟩
        intro x; rw [hr]
        simp only [valueAfter]
        by_cases hx : x = k
        · subst hx; rw [if_pos rfl, ← h4, hd]; rfl
        · simp [hx, h4]
      | some w =>
        have hr : e.run (.upd k v) = e.dictSet k v := by simp [PyEnv.run, PyEnv.updateVariable, hd]
        refine ⟨by rw [hr]; exact h1, ?_, by rw [hr]; exact h3, ?_⟩
        · intro x; rw [hr]
          simp only [PyEnv.dictSet]
          by_cases hx : x = k
          · subst hx; simp [h2, hd]
          · simp [hx, h2 x]
        · intro x; rw [hr]
          simp only [valueAfter, PyEnv.dictSet]
          by_cases hx : x = k
          · subst hx; rw [if_pos rfl, if_pos rfl, ← h4, hd]; rfl
          · simp [hx, h4]

/-- **C16**, order. Whatever was done to a scope, each name occurs once and the iteration order is
    the order of last assignment; the values are the last ones assigned. -/
theorem C16_order_of_last_assignment (h : List (EnvOp α)) :
    (PyEnv.after h).order.Nodup ∧
    (PyEnv.after h).xlocal = (namesAfter h).map (fun k => (k, valueAfter h k)) := by
  obtain ⟨h1, _, h3, h4⟩ := env_inv h
  refine ⟨h1, ?_⟩
  unfold PyEnv.xlocal
  rw [h3]
  exact List.map_congr_left (fun k _ => by rw [h4])

/-- **C16**, positional arguments. The next one goes to the first name, in that order, whose value
    is still `BOUND`. -/
theorem C16_unassigned (isBound : α → Bool) (h : List (EnvOp α)) (k : Str) :
    PyEnv.unassigned isBound (PyEnv.after h) = some k ↔
      ∃ pre post, namesAfter h = pre ++ k :: post ∧
        (∃ v, valueAfter h k = some v ∧ isBound v = true) ∧
        ∀ a ∈ pre, ∀ v, valueAfter h a = some v → isBound v = false := by
  obtain ⟨_, _, h3, h4⟩ := env_inv h
  unfold PyEnv.unassigned
  rw [h3, List.find?_eq_some_iff_append]
  simp only [PyEnv.boundAt, h4]
  constructor
  · rintro ⟨hk, pre, post, hpp, hall⟩
    refine ⟨pre, post, hpp, ?_, ?_⟩
    · cases hv : valueAfter h k with
      | none => simp [hv] at hk
      | some v => exact ⟨v, rfl, by simpa [hv] using hk⟩
    · intro a ha v hv
      have := hall a ha
      simpa [hv] using this
  · rintro ⟨pre, post, hpp, ⟨v, hv, hb⟩, hall⟩
    refine ⟨by simp [hv, hb], pre, post, hpp, ?_⟩
    intro a ha
    cases hv : valueAfter h a with
    | none => rfl
    | some w => simpa [hv] using hall a ha w hv

/-- Nothing is unassigned iff no name is `BOUND`. -/
theorem C16_all_assigned (isBound : α → Bool) (h : List (EnvOp α)) :
    PyEnv.unassigned isBound (PyEnv.after h) = none ↔
      ∀ k v, valueAfter h k = some v → isBound v = false := by
  obtain ⟨_, h2, h3, h4⟩ := env_inv h
  unfold PyEnv.unassigned
  rw [List.find?_eq_none]
  constructor
  · intro hh k v hv
    have hk : k ∈ (PyEnv.after h).order := (h2 k).mpr (by rw [h4, hv]; rfl)
    have := hh k hk
    rw [PyEnv.boundAt, h4, hv] at this
    simpa using this
  · intro hh k _
    rw [PyEnv.boundAt, h4]
    cases hv : valueAfter h k with
    | none => simp
    | some v => simpa using hh k v hv

example : namesAfter [.set ['a'] 3, .upd ['b'] 9, .set ['c'] 1, .set ['b'] 2, .set ['a'] (1 : Nat)]
    = [['b'], ['c'], ['a']] := by decide

/-- **C14**. A lookup gives the value in the innermost scope that binds the name. -/
theorem C14_innermost (es : List (PyEnv α)) (x : Str) (v : α) :
    PyEnv.lookup es x = some v ↔
      ∃ inner e outer, es = inner ++ e :: outer ∧ (∀ g ∈ inner, g.dict x = none) ∧ e.dict x = some v := by
  induction es with
  | nil => simp [PyEnv.lookup]
  | cons e es ih =>
    simp only [PyEnv.lookup]
    cases hd : e.dict x with
    | some w =>
      constructor
      · intro h
        cases h
        exact ⟨[], e, es, rfl, by simp, hd⟩
      · rintro ⟨inner, e', outer, heq, hin, hv⟩
        cases inner with
        | nil => simp at heq; rw [← heq.1, hd] at hv; exact hv
        | cons g inner =>
          simp at heq
          have := hin g (by simp)
          rw [← heq.1, hd] at this; cases this
    | none =>
      constructor
      · intro h
        obtain ⟨inner, e', outer, rfl, hin, hv⟩ := ih.mp h
        refine ⟨e :: inner, e', outer, rfl, ?_, hv⟩
        intro g hg
        rcases List.mem_cons.mp hg with rfl | hg
        · exact hd
        · exact hin g hg
      · rintro ⟨inner, e', outer, heq, hin, hv⟩
        apply ih.mpr
        cases inner with
        | nil => simp at heq; rw [← heq.1, hd] at hv; cases hv
        | cons g inner =>
          simp at heq
          exact ⟨inner, e', outer, heq.2, fun g hg => hin g (List.mem_cons_of_mem _ hg), hv⟩

/-- **C14**, unbound names. -/
theorem C14_unbound (es : List (PyEnv α)) (x : Str) :
    PyEnv.lookup es x = none ↔ ∀ e ∈ es, e.dict x = none := by
  induction es with
  | nil => simp [PyEnv.lookup]
  | cons e es ih =>
    simp only [PyEnv.lookup]
    cases hd : e.dict x with
    | some w => simp [hd]
    | none => simp [hd, ih]

/-- **C14**, hiding: inside an inner scope with any history of operations, a name has the value of
    that history if it is bound there, else the outer value; the outer scopes are as before when the
    inner scope ends. -/
theorem C14_hiding (es : List (PyEnv α)) (h : List (EnvOp α)) (x : Str) :
    PyEnv.lookup (PyEnv.after h :: es) x = (valueAfter h x).or (PyEnv.lookup es x) ∧
    PyEnv.lookup (PyEnv.after h :: es).tail x = PyEnv.lookup es x := by
  refine ⟨?_, rfl⟩
  simp only [PyEnv.lookup, (env_inv h).2.2.2]
  cases valueAfter h x <;> rfl

example : PyEnv.lookup [PyEnv.after [.set ['a'] 2], PyEnv.after [.set ['b'] 5, .set ['a'] (1 : Nat)]] ['a'] = some 2 := by
  decide

/-- **C15**. Updating changes the innermost binding and nothing else: neither other scopes, nor other
    names, nor the order; without a binding it fails and changes nothing. -/
theorem C15_update (es : List (PyEnv α)) (x : Str) (v : α) :
    match PyEnv.updateVariable es x v with
    | (es', true) => ∃ inner e outer e', es = inner ++ e :: outer ∧ es' = inner ++ e' :: outer ∧
        (∀ g ∈ inner, g.dict x = none) ∧ (e.dict x).isSome ∧ e'.dict x = some v ∧
        e'.order = e.order ∧ ∀ y, y ≠ x → e'.dict y = e.dict y
    | (es', false) => es' = es ∧ ∀ e ∈ es, e.dict x = none := by
  induction es with
  | nil => simp [PyEnv.updateVariable]
  | cons e es ih =>
    simp only [PyEnv.updateVariable]
    cases hd : e.dict x with
    | some w =>
      refine ⟨[], e, es, e.dictSet x v, rfl, rfl, by simp, by simp [hd], by simp [PyEnv.dictSet], rfl, ?_⟩
      intro y hy; simp [PyEnv.dictSet, hy]
    | none =>
      simp only
      generalize PyEnv.updateVariable es x v = r at ih ⊢
      obtain ⟨es', b⟩ := r
      cases b with
      | true =>
        obtain ⟨inner, e0, outer, e1, h1, h2, h3, h4⟩ := ih
        refine ⟨e :: inner, e0, outer, e1, by simp [h1], by simp [h2], ?_, h4⟩
        intro g hg
        rcases List.mem_cons.mp hg with rfl | hg
        · exact hd
        · exact h3 g hg
      | false =>
        simp only at ih ⊢
        refine ⟨by rw [ih.1], ?_⟩
        intro g hg
        rcases List.mem_cons.mp hg with rfl | hg
        · exact hd
        · exact ih.2 g hg

/-- **C15**, effect on lookups. -/
theorem C15_update_lookup (es es' : List (PyEnv α)) (x : Str) (v : α)
    (h : PyEnv.updateVariable es x v = (es', true)) (y : Str) :
    PyEnv.lookup es' y = if y = x then some v else PyEnv.lookup es y := by
  induction es generalizing es' with
  | nil => simp [PyEnv.updateVariable] at h
  | cons e es ih =>
    simp only [PyEnv.updateVariable] at h
    cases hd : e.dict x with
    | some w =>
      simp [hd] at h
      subst h
      simp only [PyEnv.lookup, PyEnv.dictSet]
      by_cases hy : y = x <;> simp [hy]
    | none =>
      simp [hd] at h
      obtain ⟨rfl, hb⟩ := h
      have := ih (PyEnv.updateVariable es x v).1 (by rw [← hb])
      simp only [PyEnv.lookup, this]
      by_cases hy : y = x
      · subst hy; simp [hd]
      · simp [hy]

example : (PyEnv.updateVariable [PyEnv.after [.set ['b'] 0], PyEnv.after [.set ['a'] (1 : Nat)]] ['a'] 7).2 = true := by
  decide

/-! ### The association lists of the evaluator model are an exact abstraction -/

/-- The pairs of a scope, as the evaluator model keeps them. -/
def PyEnv.abs (e : PyEnv α) : List (Str × α) := e.order.filterMap (fun k => (e.dict k).map (fun v => (k, v)))

/-- A scope as it is reachable: `order` lists the keys of the dictionary once. -/
def PyEnv.OK (e : PyEnv α) : Prop := e.order.Nodup ∧ ∀ k, k ∈ e.order ↔ (e.dict k).isSome

theorem PyEnv.after_ok (h : List (EnvOp α)) : (PyEnv.after h).OK := ⟨(env_inv h).1, (env_inv h).2.1⟩

theorem PyEnv.get_abs (e : PyEnv α) (he : e.OK) (k : Str) : Frame.get e.abs k = e.dict k := by
  obtain ⟨h1, h2⟩ := he
  have gen : ∀ l : List Str, Frame.get (l.filterMap (fun k => (e.dict k).map (fun v => (k, v)))) k
      = if k ∈ l then e.dict k else none := by
    intro l
    induction l with
    | nil => rfl
    | cons a l ih =>
      rw [List.filterMap_cons]
      cases hd : e.dict a with
      | none =>
        simp only [Option.map_none, ih, List.mem_cons]
        by_cases hk : k = a
        · subst hk; simp [hd]
        · simp [hk]
      | some v =>
        simp only [Option.map_some]
        by_cases hk : k = a
        · subst hk; simp [Frame.get, hd]
        · have hne : (a == k) = false := by simpa using fun h => hk h.symm
          unfold Frame.get at ih ⊢
          rw [List.find?_cons, hne]
          simp only [ih, List.mem_cons, hk, false_or]
  unfold PyEnv.abs
  rw [gen]
  by_cases hk : k ∈ e.order
  · rw [if_pos hk]
  · rw [if_neg hk]
    cases hd : e.dict k with
    | none => rfl
    | some v => exact absurd ((h2 k).mpr (by simp [hd])) hk

theorem PyEnv.setItem_abs (e : PyEnv α) (he : e.OK) (k : Str) (v : α) :
    (e.setItem k v).abs = Frame.set e.abs k v := by
  obtain ⟨h1, h2⟩ := he
  have hord : (e.setItem k v).order = e.order.filter (· ≠ k) ++ [k] := by
    simp only [PyEnv.setItem, PyEnv.dictSet]
    by_cases hk : k ∈ e.order
    · rw [if_pos hk, erase_eq_filter _ _ h1]
    · rw [if_neg hk, List.filter_eq_self.mpr]
      intro a ha
      have : a ≠ k := by rintro rfl; exact hk ha
      simpa using this
  have hdict : (e.setItem k v).dict = fun x => if x = k then some v else e.dict x := rfl
  unfold PyEnv.abs Frame.set Frame.del
  rw [hord, List.filterMap_append, hdict]
  congr 1
  · generalize e.order = l
    induction l with
    | nil => rfl
    | cons a l ih =>
      rw [List.filter_cons, List.filterMap_cons]
      by_cases ha : a = k
      · subst ha
        cases hd : e.dict a with
        | none => simpa using ih
        | some w => simpa using ih
      · cases hd : e.dict a with
        | none => simpa [ha, hd] using ih
        | some w => simpa [ha, hd] using ih
  · simp

theorem PyEnv.dictSet_abs (e : PyEnv α) (k : Str) (v w : α) (hk : e.dict k = some w) :
    (e.dictSet k v).abs = Frame.put e.abs k v := by
  unfold PyEnv.abs Frame.put PyEnv.dictSet
  simp only
  generalize e.order = l
  induction l with
  | nil => rfl
  | cons a l ih =>
    rw [List.filterMap_cons, List.filterMap_cons]
    by_cases ha : a = k
    · subst ha; simp [hk, ih]
    · cases hd : e.dict a with
      | none => simpa [ha, hd] using ih
      | some w => simp [ha, ih]

/-- The lookup of the evaluator model is that of the class. -/
theorem C14_abstraction (es : List (PyEnv α)) (h : ∀ e ∈ es, e.OK) (x : Str) :
    Scopes.lookup (es.map PyEnv.abs) x = PyEnv.lookup es x := by
  induction es with
  | nil => rfl
  | cons e es ih =>
    simp only [List.map_cons, Scopes.lookup, PyEnv.lookup, PyEnv.get_abs e (h e (by simp))]
    rw [ih (fun e he => h e (List.mem_cons_of_mem _ he))]

/-- The update of the evaluator model is that of the class. -/
theorem C15_abstraction (es : List (PyEnv α)) (h : ∀ e ∈ es, e.OK) (x : Str) (v : α) :
    Scopes.update (es.map PyEnv.abs) x v =
      if (PyEnv.updateVariable es x v).2 then some ((PyEnv.updateVariable es x v).1.map PyEnv.abs) else none := by
  induction es with
  | nil => rfl
  | cons e es ih =>
    simp only [List.map_cons, Scopes.update, PyEnv.get_abs e (h e (by simp))]
    cases hd : e.dict x with
    | some w =>
      have hu : PyEnv.updateVariable (e :: es) x v = (e.dictSet x v :: es, true) := by
        simp [PyEnv.updateVariable, hd]
      rw [hu]; simp [PyEnv.dictSet_abs e x v w hd]
    | none =>
      have hu : PyEnv.updateVariable (e :: es) x v
          = (e :: (PyEnv.updateVariable es x v).1, (PyEnv.updateVariable es x v).2) := by
        simp [PyEnv.updateVariable, hd]
      rw [hu]
      simp only
      rw [ih (fun e he => h e (List.mem_cons_of_mem _ he))]
      by_cases hb : (PyEnv.updateVariable es x v).2 = true
      · simp [hb]
      · simp [hb]

end

/-- The choice of the next parameter of the evaluator model is that of the class. -/
theorem C16_abstraction (e : PyEnv Node) (he : e.OK) :
    Frame.unassigned e.abs = PyEnv.unassigned Node.isBound e := by
  unfold Frame.unassigned PyEnv.unassigned PyEnv.abs
  obtain ⟨_, h2⟩ := he
  have : ∀ l : List Str, (∀ k ∈ l, (e.dict k).isSome) →
      ((l.filterMap (fun k => (e.dict k).map (fun v => (k, v)))).find? (fun e => e.2.isBound)).map (·.1)
      = l.find? (e.boundAt Node.isBound) := by
    intro l
    induction l with
    | nil => intro _; rfl
    | cons a l ih =>
      intro hl
      obtain ⟨v, hv⟩ := Option.isSome_iff_exists.mp (hl a (by simp))
      rw [List.filterMap_cons, hv]
      simp only [Option.map_some, List.find?_cons, PyEnv.boundAt, hv]
      cases hb : v.isBound
      · exact ih (fun k hk => hl k (List.mem_cons_of_mem _ hk))
      · rfl
  exact this e.order (fun k hk => (h2 k).mp hk)

end Yupp
