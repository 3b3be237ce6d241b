import Verif.Lemmas.Follows
import Verif.Props.Emit
import Verif.Props.Effects
import Verif.Props.Arith
import Verif.Props.StdDefine
/-!
# Counters
-/

namespace Yupp
open Spec

/-! ## The evaluator that gives up -/

theorem untilIn_le (e : EEnv) (stop : Node → ESt → Bool) : ∀ n x, (untilIn e stop n x).Le (E e n x) := by
  intro n
  induction n with
  | zero => intro x; exact EM.le_refl _
  | succ n ih =>
    intro x s
    unfold untilIn E
    split
    · exact .inl rfl
    · exact evalStep_le e (P_le e.pe (Nat.le_refl n)) ih x s

theorem untilIn_evaluates {e : EEnv} {stop : Node → ESt → Bool} {n : Nat} {x v : Node} {s s' : ESt}
    (h : untilIn e stop n x s = .ok (v, s')) : Evaluates e x s v s' := by
  rcases untilIn_le e stop n x s with h1 | h1
  · rw [h1] at h; cases h
  · exact ⟨n, by rw [← h1]; exact h⟩

/-! ## The scope of the counter -/

section
variable {a : Str} {d : Nat}

theorem valueAt_lt : ∀ {env : Scopes} {v : Node}, valueAt a d env = some v → d < env.length := by
  intro env
  induction env with
  | nil => intro v h; cases h
  | cons f fs ih =>
    intro v h
    unfold valueAt at h
    split at h
    · next hd => rw [List.length_cons, hd]; omega
    · have := ih h; rw [List.length_cons]; omega

theorem valueAt_push {env : Scopes} {v : Node} (h : valueAt a d env = some v) (f : Frame) : valueAt a d (f :: env) = some v := by
  have := valueAt_lt h
  unfold valueAt
  rw [if_neg (by omega)]
  exact h

theorem reaches_lookup : ∀ {env : Scopes}, reaches a d env = true → Scopes.lookup env a = valueAt a d env := by
  intro env
  induction env with
  | nil => intro h; cases h
  | cons f fs ih =>
    intro h
    unfold reaches at h
    unfold valueAt Scopes.lookup
    cases hf : Frame.get f a with
    | none =>
      rw [hf] at h
      simp only [Option.isSome_none, Bool.false_eq_true, if_false] at h
      dsimp only
      rw [ih h]
      split
      · next hd =>
        cases hv : valueAt a d fs with
        | none => rfl
        | some v => have := valueAt_lt hv; omega
      · rfl
    | some v =>
      rw [hf] at h
      simp only [Option.isSome_some, if_true, beq_iff_eq] at h
      rw [if_pos h]

theorem reaches_same {W : Str → Bool} {x y : Scopes} (h : SameScopes W x y) : reaches a d y = reaches a d x ∧ y.length = x.length := by
  unfold SameScopes at h
  induction h with
  | nil => exact ⟨rfl, rfl⟩
  | @cons f g fs gs hx hr ih =>
    unfold reaches
    rw [get_names hx.names, ih.1, ih.2, List.length_cons, List.length_cons, ih.2]
    exact ⟨rfl, rfl⟩

/-- What an assignment does to the counter. -/
theorem valueAt_update (b : Str) (w : Node) : ∀ {env : Scopes}, (Scopes.lookup env b).isSome = true →
    valueAt a d ((Scopes.update env b w).getD env) = if b = a ∧ reaches a d env = true then some w else valueAt a d env := by
  intro env
  induction env with
  | nil => intro h; cases h
  | cons f fs ih =>
    intro h
    unfold Scopes.lookup at h
    unfold Scopes.update
    cases hf : Frame.get f b with
    | some v =>
      dsimp only [Option.getD_some]
      unfold valueAt reaches
      rw [put_get]
      by_cases hb : b = a
      · subst hb
        rw [hf]
        simp only [if_true, Option.isSome_some, beq_iff_eq, true_and, Option.map_some]
        split <;> rfl
      · simp only [if_neg (fun h : a = b => hb h.symm), if_neg (fun h : b = a ∧ _ => hb h.1)]
    | none =>
      rw [hf] at h
      have ih := ih h
      cases hu : Scopes.update fs b w with
      | none =>
        rw [hu] at ih
        simp only [Option.getD_none, Option.map_none] at ih ⊢
        -- the name is there, so there is an assignment
        exfalso
        clear ih
        revert h hu
        generalize fs = gs
        intro h hu
        induction gs with
        | nil => cases h
        | cons g gs ih' =>
          unfold Scopes.lookup at h
          unfold Scopes.update at hu
          cases hg : Frame.get g b with
          | some u => rw [hg] at hu; cases hu
          | none =>
            rw [hg] at h hu
            cases hu' : Scopes.update gs b w with
            | none => exact ih' h hu'
            | some z => rw [hu'] at hu; cases hu
      | some gs =>
        rw [hu] at ih
        simp only [Option.getD_some, Option.map_some] at ih ⊢
        have hlen : gs.length = fs.length := by
          clear ih h
          revert hu
          generalize fs = xs
          intro hu
          induction xs generalizing gs with
          | nil => cases hu
          | cons g xs ih' =>
            unfold Scopes.update at hu
            cases hg : Frame.get g b with
            | some u => rw [hg] at hu; cases hu; rfl
            | none =>
              rw [hg] at hu
              cases hu' : Scopes.update xs b w with
              | none => rw [hu'] at hu; cases hu
              | some z => rw [hu'] at hu; cases hu; simp [ih' _ hu']
        unfold valueAt reaches
        rw [hlen, ih]
        by_cases hb : b = a
        · subst hb
          rw [hf]
          simp only [Option.isSome_none, Bool.false_eq_true, if_false, true_and]
          by_cases hd : fs.length = d
          · rw [if_pos hd, if_pos hd]
            have hr : reaches b d fs = false := by
              rw [Bool.eq_false_iff]
              intro hr
              have h1 := reaches_lookup hr
              cases hv : valueAt b d fs with
              | none => rw [hv] at h1; rw [h1] at h; cases h
              | some v => have := valueAt_lt hv; omega
            rw [hr]
            simp
          · rw [if_neg hd, if_neg hd]
        · simp only [if_neg (fun h : b = a ∧ _ => hb h.1)]

end

/-! ## One `$emit` -/

/-- The parts of a run of `$emit`; the same run with another evaluator. -/
theorem emit_run {r : Node → EM Node} {late : Bool} {reg : List Src} {b : Src} {ast v : Node} {s s' : ESt}
    (h : evalEmit r late reg b ast s = .ok (v, s')) : ∃ v0, Scopes.lookup s.env b.txt = some v0 ∧
      ((v0.isBound = true ∧ s' = s ∧ ∀ r', evalEmit r' late reg b ast s = .ok (v, s')) ∨
       (v0.isBound = false ∧ ∃ s2, s2 = { s with env := (Scopes.update s.env b.txt (takeFirst v0).2).getD s.env } ∧
        ((truthy ast = false ∧ s' = s2 ∧ ∀ r', evalEmit r' late reg b ast s = .ok (v, s')) ∨
         (truthy ast = true ∧ ∃ w s3, r (.apply ast [(takeFirst v0).2] [] none) s2 = .ok (w, s3) ∧
          s' = { s3 with env := (Scopes.update s3.env b.txt w).getD s3.env } ∧
          ∀ r' : Node → EM Node, r' (.apply ast [(takeFirst v0).2] [] none) s2 = .ok (w, s3) → evalEmit r' late reg b ast s = .ok (v, s'))))) := by
  unfold evalEmit at h
  obtain ⟨s0, s1, h0, hx⟩ := em_bind_inv h
  cases h0
  cases hl : Scopes.lookup s.env b.txt with
  | none => rw [hl] at hx; cases hx
  | some v0 =>
    refine ⟨v0, rfl, ?_⟩
    rw [hl] at hx
    cases hb : v0.isBound with
    | true =>
      simp only [hb, if_true] at hx
      refine .inl ⟨rfl, by cases hx; rfl, fun r' => ?_⟩
      unfold evalEmit
      rw [em_bind, em_get]
      simp only [hl, hb, if_true]
      exact hx
    | false =>
      simp only [hb] at hx
      obtain ⟨u, s2, h2, hx⟩ := em_bind_inv hx
      have e2 : s2 = { s with env := (Scopes.update s.env b.txt (takeFirst v0).2).getD s.env } := by cases h2; rfl
      refine .inr ⟨rfl, s2, e2, ?_⟩
      cases ht : truthy ast with
      | false =>
        simp only [ht] at hx
        refine .inl ⟨rfl, by cases hx; rfl, fun r' => ?_⟩
        unfold evalEmit
        rw [em_bind, em_get]
        simp only [hl, hb, ht]
        exact (em_bind_ok h2).trans hx
      | true =>
        simp only [ht, if_true] at hx
        obtain ⟨y, s3, h3, hx⟩ := em_bind_inv hx
        obtain ⟨w, s4, h4, hx⟩ := em_bind_inv hx
        refine .inr ⟨rfl, y, s3, h3, by cases hx; cases h4; rfl, fun r' hr => ?_⟩
        unfold evalEmit
        rw [em_bind, em_get]
        simp only [hl, hb, ht, if_true]
        exact (em_bind_ok h2).trans ((em_bind_ok hr).trans ((em_bind_ok h4).trans hx))

/-! ## The law of a counter -/

/-- The scopes remain; the counter does not go back, and does not pass the numbers `J`. -/
def CountLaw (a : Str) (d : Nat) (J : Int → Bool) (s s' : ESt) : Prop :=
  SameScopes (fun _ => true) s.env s'.env ∧
    ∀ k, CounterIs a d k s → ∃ k', CounterIs a d k' s' ∧ k ≤ k' ∧ ∀ j, J j = true → k ≤ j → k' ≤ j

theorem count_law (a : Str) (d : Nat) (J : Int → Bool) : Law (CountLaw a d J) where
  refl s := ⟨SameScopes.refl _ _, fun k hk => ⟨k, hk, Int.le_refl _, fun _ _ h => h⟩⟩
  trans h h' := ⟨SameScopes.trans h.1 h'.1, fun k hk => by
    obtain ⟨k1, h1, h2, h3⟩ := h.2 k hk
    obtain ⟨k2, h4, h5, h6⟩ := h'.2 k1 h1
    exact ⟨k2, h4, Int.le_trans h2 h5, fun j hj hkj => h6 j hj (h3 j hj hkj)⟩⟩
  pop := by
    intro s s' f f' env h he
    obtain ⟨h1, h2⟩ := h
    have h1' := (scopes_law (fun _ => true)).pop h1 he
    refine ⟨h1', fun k hk => ?_⟩
    obtain ⟨k', h3, h4⟩ := h2 k (valueAt_push hk f)
    refine ⟨k', ?_, h4⟩
    unfold CounterIs at hk h3 ⊢
    rw [he] at h3
    unfold valueAt at h3
    have := valueAt_lt hk
    have hl := (reaches_same (a := a) (d := d) h1').2
    dsimp only at hl ⊢
    rw [if_neg (by omega)] at h3
    exact h3
  seen s x := ⟨SameScopes.refl _ _, fun k hk => ⟨k, hk, Int.le_refl _, fun _ _ h => h⟩⟩
  rept s x := ⟨SameScopes.refl _ _, fun k hk => ⟨k, hk, Int.le_refl _, fun _ _ h => h⟩⟩

section
variable {e : EEnv} {x : BExt} {a : Str} {d : Nat} {J : Int → Bool} {r : Node → EM Node}

theorem lookup_same {W : Str → Bool} {x y : Scopes} (h : SameScopes W x y) (k : Str) :
    (Scopes.lookup y k).isSome = (Scopes.lookup x k).isSome := by
  unfold SameScopes at h
  induction h with
  | nil => rfl
  | @cons f g fs gs hx hr ih =>
    have hn := get_names hx.names k
    unfold Scopes.lookup
    cases hf : Frame.get f k <;> cases hg : Frame.get g k <;> rw [hf, hg] at hn <;> first | exact ih | rfl | cases hn

/-- A run of `$emit` where the counter is not misused. -/
theorem emit_count (hi : Standard e x (lit "inc")) (hr : ∀ q, (r q).Le (ev e q)) (ih : ∀ q, Orderly (CountLaw a d J) (r q))
    {late : Bool} {reg : List Src} {b : Src} {ast v : Node} {s s' : ESt} {k : Int}
    (hm : misuses a d (.emit late reg b ast) s = false) (hk : CounterIs a d k s)
    (h : evalEmit r late reg b ast s = .ok (v, s')) :
    ∃ k', CounterIs a d k' s' ∧
      (((b.txt == a && reaches a d s.env) = true ∧ k' = k + 1) ∨
        ((b.txt == a && reaches a d s.env) = false ∧ k ≤ k' ∧ ∀ j, J j = true → k ≤ j → k' ≤ j)) ∧
      ((∀ r', evalEmit r' late reg b ast s = .ok (v, s')) ∨
        ∃ q w s2 s3 k2, CounterIs a d k s2 ∧ CounterIs a d k2 s3 ∧ (k2 = k ∨ k2 = k') ∧ r q s2 = .ok (w, s3) ∧
          ∀ r' : Node → EM Node, r' q s2 = .ok (w, s3) → evalEmit r' late reg b ast s = .ok (v, s')) := by
  obtain ⟨v0, hl, hx⟩ := emit_run h
  have hls : (Scopes.lookup s.env b.txt).isSome = true := by rw [hl]; rfl
  cases hh : (b.txt == a && reaches a d s.env) with
  | true =>
    obtain ⟨hb, hre⟩ := (Bool.and_eq_true _ _).mp hh
    have hb : b.txt = a := by simpa using hb
    have hv0 : v0 = .int k := by
      rw [hb, reaches_lookup hre] at hl
      exact Option.some.inj (hl.symm.trans hk)
    subst hv0
    unfold misuses at hm
    dsimp only at hm
    rw [hh] at hm
    simp only [Bool.true_and, Bool.not_eq_false', Bool.and_eq_true] at hm
    obtain ⟨ha, hun⟩ := hm
    unfold isInc at ha
    split at ha
    · next i =>
      have hi' : i.txt = lit "inc" := by simpa using ha
      rcases hx with ⟨hb', _⟩ | ⟨hbb, s2, e2, ⟨ht, _⟩ | ⟨ht, w, s3, h3, e3, h4⟩⟩
      · cases hb'
      · cases ht
      · have hne : (lit "inc" == b.txt) = false := by
          rw [Bool.eq_false_iff]
          intro hc
          rw [← (by simpa using hc : lit "inc" = b.txt)] at hls
          rw [Option.isNone_iff_eq_none] at hun
          rw [hun] at hls
          cases hls
        have hsame : SameScopes (fun n => n == b.txt) s.env s2.env := by
          rw [e2]
          exact update_sameScopes (SameScopes.refl _ _) (by simp) _ hl hbb
        have hu2 : Unbound (lit "inc") s2 := by
          unfold Unbound
          rw [same_lookup hsame (k := lit "inc") hne]
          exact Option.isNone_iff_eq_none.1 hun
        have hk2 : CounterIs a d k s2 := by
          unfold CounterIs
          rw [e2, valueAt_update _ _ hls, if_pos ⟨hb, hre⟩]
          rfl
        have hev : ev e (.apply (.var false [] i) [.int k] [] none) s2 = .ok (.int (k + 1), s2) := by
          obtain ⟨it, il⟩ := i
          cases hi'
          exact evaluates_iff.1 (C54_unary (l := il) (loc := none) (.inr (.inl ⟨rfl, rfl⟩)) hi hu2
            (data_arg (.int k) (by simp) (.nil _)) rfl)
        have hw : (w, s3) = (.int (k + 1), s2) := by
          rcases hr (.apply (.var false [] i) [.int k] [] none) s2 with h5 | h5
          · rw [show (takeFirst (.int k)).2 = .int k from rfl, h5] at h3; cases h3
          · rw [show (takeFirst (.int k)).2 = .int k from rfl, h5, hev] at h3; exact (PRes.ok.inj h3).symm
        obtain ⟨rfl, rfl⟩ := Prod.mk.inj hw
        have hr2 := (reaches_same (a := a) (d := d) hsame).1
        refine ⟨k + 1, ?_, .inl ⟨rfl, rfl⟩, .inr ⟨_, _, _, _, k, hk2, hk2, .inl rfl, h3, h4⟩⟩
        unfold CounterIs
        rw [e3]
        dsimp only
        rw [valueAt_update _ _ (by rw [lookup_same hsame]; exact hls), if_pos ⟨hb, by rw [hr2]; exact hre⟩]
    · cases ha
  | false =>
    have hno : ¬ (b.txt = a ∧ reaches a d s.env = true) := by
      rintro ⟨h1, h2⟩
      rw [h2, h1] at hh
      simp at hh
    rcases hx with ⟨_, e1, h4⟩ | ⟨hbb, s2, e2, hx⟩
    · rw [e1]
      rw [e1] at h4
      exact ⟨k, hk, .inr ⟨rfl, Int.le_refl _, fun _ _ h => h⟩, .inl h4⟩
    · have hsame : SameScopes (fun _ => true) s.env s2.env := by
        rw [e2]
        exact update_sameScopes (SameScopes.refl _ _) rfl _ hl hbb
      have hk2 : CounterIs a d k s2 := by
        unfold CounterIs
        rw [e2, valueAt_update _ _ hls, if_neg hno]
        exact hk
      rcases hx with ⟨_, e1, h4⟩ | ⟨_, w, s3, h3, e3, h4⟩
      · rw [e1]
        rw [e1] at h4
        exact ⟨k, hk2, .inr ⟨rfl, Int.le_refl _, fun _ _ h => h⟩, .inl h4⟩
      · obtain ⟨hs3, hc⟩ := ih _ _ _ _ h3
        obtain ⟨k', hk3, hle, hJ⟩ := hc k hk2
        have hs := SameScopes.trans hsame hs3
        have hk' : CounterIs a d k' s' := by
          unfold CounterIs
          rw [e3]
          dsimp only
          rw [valueAt_update _ _ (by rw [lookup_same hs]; exact hls), (reaches_same hs).1, if_neg hno]
          exact hk3
        exact ⟨k', hk', .inr ⟨rfl, hle, hJ⟩, .inr ⟨_, _, _, _, k', hk2, hk3, .inr rfl, h3, h4⟩⟩

theorem stop_other {y : Node} (h : ∀ late reg b ast, y ≠ .emit late reg b ast) (s : ESt) :
    misuses a d y s = false ∧ draws a d J y s = false := by
  constructor
  · unfold misuses; split
    · exact absurd rfl (h _ _ _ _)
    · rfl
  · unfold draws; split
    · exact absurd rfl (h _ _ _ _)
    · rfl

theorem untilIn_ev (e : EEnv) (stop : Node → ESt → Bool) (n : Nat) (q : Node) : (untilIn e stop n q).Le (ev e q) := by
  intro s
  rcases untilIn_le e stop n q s with h1 | h1
  · exact .inl h1
  · rw [h1]
    rcases h : E e n q s with ⟨v, s'⟩ | _ | _
    · exact .inr (evaluates_iff.1 ⟨n, h⟩).symm
    · exact .inr (raises_iff.1 ⟨n, h⟩).symm
    · exact .inl rfl

theorem plain_count (a : Str) (d : Nat) (J : Int → Bool) {s s' : ESt} (h : s'.env = s.env) : CountLaw a d J s s' := by
  unfold CountLaw CounterIs
  rw [h]
  exact ⟨SameScopes.refl _ _, fun k hk => ⟨k, hk, Int.le_refl _, fun _ _ h => h⟩⟩

/-- The counter does not go back, and does not pass a number that is not drawn. -/
theorem untilIn_count (hi : Standard e x (lit "inc")) (a : Str) (d : Nat) (J : Int → Bool) :
    ∀ n q, Orderly (CountLaw a d J) (untilIn e (either (misuses a d) (draws a d J)) n q) := by
  intro n
  induction n with
  | zero => intro q s v s' h; cases h
  | succ n ih =>
    intro q s v s' h
    unfold untilIn at h
    by_cases he : ∃ late reg b ast, q = .emit late reg b ast
    · obtain ⟨late, reg, b, ast, rfl⟩ := he
      split at h
      · cases h
      · next hst =>
        have hst := (Bool.eq_false_iff (b := either (misuses a d) (draws a d J) (.emit late reg b ast) s)).2 (by simpa using hst)
        unfold either at hst
        rw [Bool.or_eq_false_iff] at hst
        have h : evalEmit (untilIn e (either (misuses a d) (draws a d J)) n) late reg b ast s = .ok (v, s') := h
        refine ⟨emit_scopes (fun q s v s' h => (ih q s v s' h).1) late reg ast rfl _ _ _ h, fun k hk => ?_⟩
        obtain ⟨k', h1, h2, _⟩ := emit_count hi (untilIn_ev e _ n) ih hst.1 hk h
        refine ⟨k', h1, ?_⟩
        rcases h2 with ⟨h2, rfl⟩ | ⟨_, h2⟩
        · have hd := hst.2
          unfold draws at hd
          dsimp only at hd
          rw [h2, hk] at hd
          simp only [Bool.true_and] at hd
          refine ⟨by omega, fun j hj hkj => ?_⟩
          rcases Int.lt_or_eq_of_le hkj with hlt | rfl
          · omega
          · rw [hj] at hd; cases hd
        · exact h2
    · have he' : ∀ late reg b ast, q ≠ .emit late reg b ast := fun l r b t hq => he ⟨l, r, b, t, hq⟩
      rw [if_neg (by unfold either; rw [(stop_other (J := J) he' s).1, (stop_other he' s).2]; simp)] at h
      refine evalStep_orderly (count_law a d J) ih e _ q ?_ ?_ ?_ _ _ _ h
      · intro l ast _ _ v s b s' h
        unfold setOutput at h
        cases h
        split <;> exact plain_count a d J rfl
      · intro ast dd c _
        refine ⟨fun t s b s' h => by unfold register at h; cases h; exact plain_count a d J rfl, fun key s b s' h => ?_⟩
        unfold EM.parse at h
        split at h <;> cases h
        exact plain_count a d J rfl
      · intro l r b t hq; exact absurd hq (he' l r b t)

/-- The counter passes `j` on the way, or not. -/
def Beside (a : Str) (d : Nat) (j : Int) (s s' : ESt) : Prop :=
  ∃ k k', CounterIs a d k s ∧ CounterIs a d k' s' ∧ (j < k ∨ k' ≤ j)

theorem beside_splits (a : Str) (d : Nat) (J : Int → Bool) (j : Int) : Splits (CountLaw a d J) (Beside a d j) where
  split := by
    rintro s1 s2 s3 h h' ⟨k, k', hk, hk', hj⟩
    obtain ⟨k1, h1, h2, _⟩ := h.2 k hk
    obtain ⟨k2, h3, h4, _⟩ := h'.2 k1 h1
    have : k2 = k' := by
      unfold CounterIs at h3 hk'
      rw [hk'] at h3
      injection h3 with h3; injection h3 with h3; exact h3.symm
    subst this
    exact ⟨⟨k, k1, hk, h1, by omega⟩, ⟨k1, k2, h1, hk', by omega⟩⟩
  pop := by
    rintro s s' f f' env h he ⟨k, k', hk, hk', hj⟩
    refine ⟨k, k', valueAt_push hk f, ?_, hj⟩
    unfold CounterIs at hk' ⊢
    rw [he]
    exact valueAt_push hk' f'

theorem either_never (a : Str) (d : Nat) : either (misuses a d) (draws a d (fun _ => false)) = misuses a d := by
  funext y s
  unfold either draws
  split
  · split <;> simp
  · simp

/-- A run that does not pass `j` does not draw it. -/
theorem untilIn_beside (hi : Standard e x (lit "inc")) (a : Str) (d : Nat) (j : Int) :
    ∀ n q, Follows (CountLaw a d (fun _ => false)) (Beside a d j) (untilIn e (misuses a d) n q)
      (untilIn e (either (misuses a d) (draws a d (· == j))) n q) := by
  intro n
  induction n with
  | zero => intro q; exact ⟨fun s v s' (h : untilIn e (misuses a d) 0 q s = _) => (nomatch h), fun s v s' (h : untilIn e (misuses a d) 0 q s = _) _ => (nomatch h)⟩
  | succ n ih =>
    intro q
    have horder := untilIn_count hi a d (fun _ => false) (n + 1) q
    rw [either_never] at horder
    by_cases he : ∃ late reg b ast, q = .emit late reg b ast
    · obtain ⟨late, reg, b, ast, rfl⟩ := he
      refine ⟨horder, fun s v s' h hg => ?_⟩
      unfold untilIn at h ⊢
      split at h
      · cases h
      · next hst =>
        have hst := (Bool.eq_false_iff (b := misuses a d (.emit late reg b ast) s)).2 (by simpa using hst)
        have h : evalEmit (untilIn e (misuses a d) n) late reg b ast s = .ok (v, s') := h
        obtain ⟨k, k0, hk, hk0, hj⟩ := hg
        obtain ⟨k', h1, h2, h3⟩ := emit_count (J := fun _ => false) hi (untilIn_ev e _ n) (fun q => (ih q).1) hst hk h
        have : k' = k0 := by
          unfold CounterIs at h1 hk0
          rw [hk0] at h1
          injection h1 with h1; injection h1 with h1; exact h1.symm
        subst this
        have hd : draws a d (· == j) (.emit late reg b ast) s = false := by
          unfold draws
          dsimp only
          rcases h2 with ⟨h2, rfl⟩ | ⟨h2, _⟩
          · rw [h2, hk]
            simp only [Bool.true_and]
            exact beq_false_of_ne (by omega)
          · rw [h2]; rfl
        rw [if_neg (by unfold either; rw [hst, hd]; simp)]
        show evalEmit _ late reg b ast s = .ok (v, s')
        rcases h3 with h3 | ⟨q, w, s2, s3, k2, h4, h5, h6, h7, h8⟩
        · exact h3 _
        · refine h8 _ ((ih q).2 _ _ _ h7 ⟨k, k2, h4, h5, ?_⟩)
          rcases h2 with ⟨_, rfl⟩ | ⟨_, _⟩ <;> omega
    · have he' : ∀ late reg b ast, q ≠ .emit late reg b ast := fun l r b t hq => he ⟨l, r, b, t, hq⟩
      have e1 : untilIn e (misuses a d) (n + 1) q = evalStep e (P e.pe n) (untilIn e (misuses a d) n) q := by
        funext s
        conv => lhs; unfold untilIn
        rw [if_neg (by rw [(stop_other (J := fun _ => false) he' s).1]; simp)]
      have e2 : untilIn e (either (misuses a d) (draws a d (· == j))) (n + 1) q =
          evalStep e (P e.pe n) (untilIn e (either (misuses a d) (draws a d (· == j))) n) q := by
        funext s
        conv => lhs; unfold untilIn
        rw [if_neg (by unfold either; rw [(stop_other (J := (· == j)) he' s).1, (stop_other he' s).2]; simp)]
      rw [e1, e2]
      refine evalStep_follows (count_law a d _) (beside_splits a d _ j) ih e _ q ?_ ?_ ?_
      · intro l ast _ _ v s b s' h
        unfold setOutput at h
        cases h
        split <;> exact plain_count a d _ rfl
      · intro ast dd c _
        refine ⟨fun t s b s' h => by unfold register at h; cases h; exact plain_count a d _ rfl, fun key s b s' h => ?_⟩
        unfold EM.parse at h
        split at h <;> cases h
        exact plain_count a d _ rfl
      · intro l r b t hq; exact absurd hq (he' l r b t)

end

end Yupp
