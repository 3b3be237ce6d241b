import Verif.Spec.Emit
import Verif.Props.Scope
/-!
# C55 — `$emit`
-/

namespace Yupp

open Spec

/-! ## Assignment -/

theorem frame_get_mem {f : Frame} {k : Str} : (Frame.get f k).isSome = true ↔ k ∈ f.map (·.1) := by
  unfold Frame.get
  rw [Option.isSome_map, List.find?_isSome]
  simp only [beq_iff_eq, List.mem_map]

theorem frame_get_none {f : Frame} {k : Str} : Frame.get f k = none ↔ k ∉ f.map (·.1) := by
  rw [← frame_get_mem]; cases Frame.get f k <;> simp

theorem put_get (f : Frame) (a : Str) (v : Node) (k : Str) :
    Frame.get (Frame.put f a v) k = if k = a then (Frame.get f k).map (fun _ => v) else Frame.get f k := by
  unfold Frame.get Frame.put
  induction f with
  | nil => simp
  | cons p f ih =>
    obtain ⟨q, w⟩ := p
    simp only [List.map_cons, List.find?_cons]
    by_cases hq : q = k
    · subst hq
      by_cases ha : q = a
      · subst ha; simp
      · have : (q == a) = false := by simpa using ha
        simp [this, ha]
    · have h1 : (q == k) = false := by simpa using hq
      by_cases ha : q = a
      · simp only [ha, beq_self_eq_true, if_true]
        have h2 : (a == k) = false := by rw [← ha]; exact h1
        simp only [h2]
        exact ih
      · have h3 : (q == a) = false := by simpa using ha
        simp only [h3, Bool.false_eq_true, if_false, h1]
        exact ih

theorem put_put (f : Frame) (a : Str) (v w : Node) : Frame.put (Frame.put f a v) a w = Frame.put f a w := by
  unfold Frame.put
  rw [List.map_map]
  apply List.map_congr_left
  rintro ⟨q, x⟩ _
  simp only [Function.comp]
  by_cases h : q = a
  · simp [h]
  · have : (q == a) = false := by simpa using h
    simp [this]

theorem put_same {f : Frame} {a : Str} {v : Node} (hn : (f.map (·.1)).Nodup) (hg : Frame.get f a = some v) : Frame.put f a v = f := by
  unfold Frame.put
  induction f with
  | nil => rfl
  | cons p f ih =>
    obtain ⟨q, w⟩ := p
    simp only [List.map_cons, List.nodup_cons] at hn
    unfold Frame.get at hg
    rw [List.find?_cons] at hg
    by_cases h : q = a
    · subst h
      simp only [beq_self_eq_true, Option.map_some, Option.some.injEq] at hg
      subst hg
      have : f.map (fun e => if e.1 == q then (e.1, w) else e) = f := by
        conv => rhs; rw [← List.map_id f]
        apply List.map_congr_left
        intro x hx
        have : ¬ x.1 = q := fun h => hn.1 (h ▸ List.mem_map_of_mem hx)
        simp [this]
      rw [List.map_cons, this]
      simp
    · have hq : (q == a) = false := by simpa using h
      simp only [hq] at hg
      rw [List.map_cons, ih hn.2 hg]
      simp [h]

theorem lookup_split {env : Scopes} {a : Str} {v : Node} (h : Scopes.lookup env a = some v) :
    ∃ pre f post, env = pre ++ f :: post ∧ (∀ g ∈ pre, Frame.get g a = none) ∧ Frame.get f a = some v := by
  induction env with
  | nil => cases h
  | cons f fs ih =>
    unfold Scopes.lookup at h
    cases hg : Frame.get f a with
    | some w => rw [hg] at h; cases h; exact ⟨[], f, fs, rfl, by simp, hg⟩
    | none =>
      rw [hg] at h
      obtain ⟨pre, f', post, rfl, hp, hf⟩ := ih h
      exact ⟨f :: pre, f', post, rfl, by simpa [hg] using hp, hf⟩

theorem lookup_at {pre post : Scopes} {f : Frame} {a : Str} {v : Node} (hp : ∀ g ∈ pre, Frame.get g a = none) (hf : Frame.get f a = some v) :
    Scopes.lookup (pre ++ f :: post) a = some v := by
  induction pre with
  | nil => simp [Scopes.lookup, hf]
  | cons g pre ih =>
    simp only [List.cons_append, Scopes.lookup, hp g (by simp)]
    exact ih (fun g hg => hp g (by simp [hg]))

theorem update_at {pre post : Scopes} {f : Frame} {a : Str} {v w : Node} (hp : ∀ g ∈ pre, Frame.get g a = none) (hf : Frame.get f a = some v) :
    Scopes.update (pre ++ f :: post) a w = some (pre ++ Frame.put f a w :: post) := by
  induction pre with
  | nil => simp [Scopes.update, hf]
  | cons g pre ih =>
    simp only [List.cons_append, Scopes.update, hp g (by simp)]
    rw [ih (fun g hg => hp g (by simp [hg]))]; rfl

theorem lookup_other {pre post : Scopes} {f : Frame} {a k : Str} {w : Node} (hk : k ≠ a) :
    Scopes.lookup (pre ++ Frame.put f a w :: post) k = Scopes.lookup (pre ++ f :: post) k := by
  induction pre with
  | nil => simp [Scopes.lookup, put_get, hk]
  | cons g pre ih => simp only [List.cons_append, Scopes.lookup, ih]

theorem em_update {s : ESt} {pre post : Scopes} {f : Frame} {a : Str} {v w : Node} (hs : s.env = pre ++ f :: post)
    (hp : ∀ g ∈ pre, Frame.get g a = none) (hf : Frame.get f a = some v) :
    EM.update a w s = .ok ((), { s with env := pre ++ Frame.put f a w :: post }) := by
  unfold EM.update
  rw [hs, update_at hp hf]; rfl

theorem assigned_put {s : ESt} {pre post : Scopes} {f : Frame} {a : Str} {v w : Node} (hs : s.env = pre ++ f :: post)
    (hp : ∀ g ∈ pre, Frame.get g a = none) (hf : Frame.get f a = some v) :
    Assigned s a w { s with env := pre ++ Frame.put f a w :: post } where
  value := lookup_at hp (by rw [put_get]; simp [hf])
  others k hk := by rw [lookup_other hk, hs]
  names := by simp only [Spec.names, hs, List.map_append, List.map_cons, frame_put_names]
  scopes := ⟨pre, f, _, post, hs, rfl, fun g hg => frame_get_none.1 (hp g hg), frame_get_mem.1 (by rw [hf]; rfl)⟩
  state := rfl

/-! ## The form -/

theorem ev_emit {e : EEnv} {late : Bool} {reg : List Src} {a : Src} {s : ESt} {pre post : Scopes} {f : Frame} {v : Node}
    (hs : s.env = pre ++ f :: post) (hp : ∀ g ∈ pre, Frame.get g a.txt = none) (hf : Frame.get f a.txt = some v) (hb : v.isBound = false) :
    ev e (.emit late reg a .none) s = .ok ((takeFirst v).1, { s with env := pre ++ Frame.put f a.txt (takeFirst v).2 :: post }) := by
  rw [ev_at]
  change evalEmit (ev e) late reg a .none s = _
  unfold evalEmit
  rw [em_bind, em_get]
  simp only [hs, lookup_at hp hf, hb, Bool.false_eq_true, if_false]
  rw [em_bind_ok (em_update hs hp hf)]
  rfl

theorem ev_emit_fn {e : EEnv} {late : Bool} {reg : List Src} {a : Src} {s : ESt} {pre post : Scopes} {f : Frame} {v ast : Node}
    (hs : s.env = pre ++ f :: post) (hp : ∀ g ∈ pre, Frame.get g a.txt = none) (hf : Frame.get f a.txt = some v) (hb : v.isBound = false)
    (ht : truthy ast = true) :
    ev e (.emit late reg a ast) s = (do
      let w ← ev e (.apply ast [(takeFirst v).2] [] none)
      EM.update a.txt w
      pure (takeFirst v).1 : EM Node) { s with env := pre ++ Frame.put f a.txt (takeFirst v).2 :: post } := by
  rw [ev_at]
  change evalEmit (ev e) late reg a ast s = _
  unfold evalEmit
  rw [em_bind, em_get]
  simp only [hs, lookup_at hp hf, hb, Bool.false_eq_true, if_false]
  rw [em_bind_ok (em_update hs hp hf)]
  simp only [ht, if_true]

/-- `($emit a)` again and again, where `a` holds a list: the items in order, then nothing; `a` keeps the rest of the list. -/
theorem C55_emit_list (e : EEnv) (late : Bool) (reg : List Src) (a : Src) (s : ESt) (xs : List Node)
    (ha : Scopes.lookup s.env a.txt = some (.list xs)) (n : Nat) :
    ∃ s', Successive e (.emit late reg a .none) s (xs.take n ++ List.replicate (n - xs.length) .none) s' ∧
      Assigned s a.txt (.list (xs.drop n)) s' := by
  obtain ⟨pre, f, post, hs, hp, hf⟩ := lookup_split ha
  have hput : ∀ (n : Nat) (xs : List Node) (f : Frame) (s : ESt), s.env = pre ++ f :: post → Frame.get f a.txt = some (.list xs) →
      Successive e (.emit late reg a .none) s (xs.take n ++ List.replicate (n - xs.length) .none)
        { s with env := pre ++ (if n = 0 then f else Frame.put f a.txt (.list (xs.drop n))) :: post } := by
    intro n
    induction n with
    | zero => intro xs f s hs hf; simp; rw [← hs]; exact .nil s
    | succ n ih =>
      intro xs f s hs hf
      have hev := ev_emit (e := e) (late := late) (reg := reg) hs hp hf rfl
      have hget : ∀ w, Frame.get (Frame.put f a.txt w) a.txt = some w := by intro w; rw [put_get]; simp [hf]
      cases xs with
      | nil =>
        have := ih [] _ { s with env := pre ++ Frame.put f a.txt (.list []) :: post } rfl (hget _)
        simp only [List.take_nil, List.length_nil, Nat.sub_zero, List.nil_append, List.drop_nil, put_put, if_neg (Nat.succ_ne_zero n)] at *
        rw [List.replicate_succ]
        refine .cons (evaluates_iff.2 hev) ?_
        have hite : (if n = 0 then Frame.put f a.txt (.list []) else Frame.put f a.txt (.list [])) = Frame.put f a.txt (.list []) := by split <;> rfl
        rw [hite] at this
        exact this
      | cons x xs =>
        have := ih xs _ { s with env := pre ++ Frame.put f a.txt (.list xs) :: post } rfl (hget _)
        simp only [List.take_succ_cons, List.length_cons, Nat.add_sub_add_right, List.drop_succ_cons, put_put, if_neg (Nat.succ_ne_zero n), List.cons_append] at *
        refine .cons (evaluates_iff.2 hev) ?_
        have hite : (if n = 0 then Frame.put f a.txt (.list xs) else Frame.put f a.txt (.list (xs.drop n))) = Frame.put f a.txt (.list (xs.drop n)) := by
          split
          · rename_i h; subst h; rfl
          · rfl
        rw [hite] at this
        exact this
  refine ⟨_, hput n xs f s hs hf, ?_⟩
  split
  · rename_i h
    subst h
    rw [List.drop_zero]
    exact ⟨lookup_at hp hf, fun k _ => by rw [hs], by rw [hs], ⟨pre, f, f, post, hs, rfl, fun g hg => frame_get_none.1 (hp g hg),
      frame_get_mem.1 (by rw [hf]; rfl)⟩, rfl⟩
  · exact assigned_put hs hp hf

/-- `($emit a)` where `a` holds anything else: its value, and nothing changes. -/
theorem C55_emit_value (e : EEnv) (late : Bool) (reg : List Src) (a : Src) (s : ESt) (v : Node)
    (ha : Scopes.lookup s.env a.txt = some v) (hb : v ≠ .bound) (hl : ∀ xs, v ≠ .list xs) (ht : ∀ xs i, v ≠ .t xs i) (hd : Dictionaries s) :
    Evaluates e (.emit late reg a .none) s v s := by
  obtain ⟨pre, f, post, hs, hp, hf⟩ := lookup_split ha
  have htf : takeFirst v = (v, v) := by
    cases v <;> first | rfl | exact absurd rfl (hl _) | exact absurd rfl (ht _ _)
  have hb' : v.isBound = false := by cases v <;> first | rfl | exact absurd rfl hb
  have := ev_emit (e := e) (late := late) (reg := reg) hs hp hf hb'
  rw [htf, put_same (hd f (by rw [hs]; simp)) hf, ← hs] at this
  exact evaluates_iff.2 this

/-- `($emit a f)`: the value of `a`, which then holds the value of `($f a)`; what the call itself changes stays changed. -/
theorem C55_emit_function (e : EEnv) (late : Bool) (reg : List Src) (a : Src) (ast v w : Node) (s s1 : ESt)
    (ha : Scopes.lookup s.env a.txt = some v) (hb : v ≠ .bound) (hl : ∀ xs, v ≠ .list xs) (ht : ∀ xs i, v ≠ .t xs i) (hd : Dictionaries s)
    (hast : ¬ False' ast) (hw : Evaluates e (.apply ast [v] [] none) s w s1) :
    ∃ s', Evaluates e (.emit late reg a ast) s v s' ∧ Assigned s1 a.txt w s' := by
  obtain ⟨pre, f, post, hs, hp, hf⟩ := lookup_split ha
  have htf : takeFirst v = (v, v) := by
    cases v <;> first | rfl | exact absurd rfl (hl _) | exact absurd rfl (ht _ _)
  have hb' : v.isBound = false := by cases v <;> first | rfl | exact absurd rfl hb
  have htr : truthy ast = true := by
    cases h : truthy ast with
    | true => rfl
    | false => exact absurd ((falsy_iff ast).1 h) hast
  have hev := ev_emit_fn (e := e) (late := late) (reg := reg) hs hp hf hb' htr
  simp only [htf] at hev
  rw [put_same (hd f (by rw [hs]; simp)) hf, ← hs] at hev
  have hs' : ({ s with env := s.env } : ESt) = s := rfl
  rw [hs', em_bind_ok (evaluates_iff.1 hw)] at hev
  have hn := C28_nothing_leaks e _ _ _ _ hw
  have hmem : ∃ u, Scopes.lookup s1.env a.txt = some u := by
    have key : ∀ (e1 e2 : Scopes), Spec.names e1 = Spec.names e2 → ∀ u, Scopes.lookup e2 a.txt = some u → ∃ u, Scopes.lookup e1 a.txt = some u := by
      intro e1
      induction e1 with
      | nil => intro e2 h u hu; cases e2 with
        | nil => cases hu
        | cons => simp [Spec.names] at h
      | cons g e1 ih =>
        intro e2 h u hu
        cases e2 with
        | nil => simp [Spec.names] at h
        | cons g2 e2 =>
          simp only [Spec.names, List.map_cons, List.cons.injEq] at h
          simp only [Scopes.lookup] at hu ⊢
          cases hg : Frame.get g a.txt with
          | some w => exact ⟨w, rfl⟩
          | none =>
            have : Frame.get g2 a.txt = none := by rw [frame_get_none, ← h.1, ← frame_get_none]; exact hg
            rw [this] at hu
            exact ih e2 h.2 u hu
    exact key _ _ hn _ ha
  obtain ⟨u, hu⟩ := hmem
  obtain ⟨pre1, f1, post1, hs1, hp1, hf1⟩ := lookup_split hu
  rw [em_bind_ok (em_update hs1 hp1 hf1)] at hev
  exact ⟨_, evaluates_iff.2 hev, assigned_put hs1 hp1 hf1⟩

/-- A variable that does not exist is an error. -/
theorem C55_unknown_variable (e : EEnv) (late : Bool) (reg : List Src) (a : Src) (ast : Node) (s : ESt)
    (ha : Scopes.lookup s.env a.txt = none) : Raises e (.emit late reg a ast) s := by
  rw [raises_iff, ev_at]
  change evalEmit (ev e) late reg a ast s = _
  unfold evalEmit
  rw [em_bind, em_get]
  simp only [ha]; rfl

/-- `($set a (1 2)) ($emit a) ($emit a) ($emit a)` and `($set i 0) ($emit i \\x.($0 7 x))`, in an inner scope. -/
example (e : EEnv) : ∃ s', Successive e (.emit false [] { txt := ['a'] } .none) { env := [[(['b'], .int 0)], [(['a'], .list [.int 1, .int 2])]] }
    [.int 1, .int 2, .none] s' ∧ Scopes.lookup s'.env ['a'] = some (.list []) := by
  obtain ⟨s', h, h'⟩ := C55_emit_list e false [] { txt := ['a'] } { env := [[(['b'], .int 0)], [(['a'], .list [.int 1, .int 2])]] }
    [.int 1, .int 2] rfl 3
  exact ⟨s', h, h'.value⟩

example (e : EEnv) : ∃ s', Evaluates e (.emit false [] { txt := ['i'] }
      (.lambda [([], { txt := ['x'] }, none)] (.apply (.int 0) [.int 7, .var false [] { txt := ['x'] }] [] none))) { env := [[(['i'], .int 0)]] } (.int 0) s' ∧
    Scopes.lookup s'.env ['i'] = some (.int 7) := by
  obtain ⟨s', h, h'⟩ := C55_emit_function e false [] { txt := ['i'] }
      (.lambda [([], { txt := ['x'] }, none)] (.apply (.int 0) [.int 7, .var false [] { txt := ['x'] }] [] none)) (.int 0) (.int 7)
      { env := [[(['i'], .int 0)]] } _ rfl (by simp) (by simp) (by simp) (by simp [Dictionaries]) (by intro h; cases h) ⟨6, rfl⟩
  exact ⟨s', h, h'.value⟩

end Yupp
