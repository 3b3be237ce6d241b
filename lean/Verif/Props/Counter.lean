import Verif.Spec.Counter
import Verif.Lemmas.Counter
/-!
# C101 — A counter never gives the same number twice
-/

namespace Yupp
open Spec

section
variable {e : EEnv} {x : BExt} {a : Str} {d : Nat}

theorem counter_unique {k k' : Int} {s : ESt} (h : CounterIs a d k s) (h' : CounterIs a d k' s) : k = k' := by
  unfold CounterIs at h h'
  rw [h] at h'
  injection h' with h'
  injection h' with h'

theorem meets_not_avoids {stop : Node → ESt → Bool} {q v : Node} {s s' : ESt} (h : MeetsIn e stop q s) : ¬ AvoidsIn e stop q s v s' := by
  rintro ⟨n, hn⟩
  rw [h n] at hn
  cases hn

/-- **C101.** Whatever is evaluated, a counter that is used by `($emit a inc)` alone does not go back. The numbers it passes
    are drawn on the way, and no other number is. -/
theorem C101_counter (hi : Standard e x (lit "inc")) {q v : Node} {s s' : ESt} {k : Int}
    (h : AvoidsIn e (misuses a d) q s v s') (hk : CounterIs a d k s) :
    ∃ k', CounterIs a d k' s' ∧ k ≤ k' ∧
      (∀ j, k ≤ j → j < k' → MeetsIn e (either (misuses a d) (draws a d (· == j))) q s) ∧
      (∀ j, j < k ∨ k' ≤ j → AvoidsIn e (either (misuses a d) (draws a d (· == j))) q s v s') := by
  obtain ⟨n, hn⟩ := h
  obtain ⟨k', hk', hle, _⟩ := ((untilIn_beside hi a d 0 n q).1 _ _ _ hn).2 k hk
  refine ⟨k', hk', hle, fun j h1 h2 m => ?_, fun j hj => ⟨n, (untilIn_beside hi a d j n q).2 _ _ _ hn ⟨k, k', hk, hk', hj⟩⟩⟩
  have hev := evaluates_iff.1 (untilIn_evaluates hn)
  rcases hm : untilIn e (either (misuses a d) (draws a d (· == j))) m q s with ⟨w, s1⟩ | _ | _
  · have hev' := evaluates_iff.1 (untilIn_evaluates hm)
    rw [hev] at hev'
    cases hev'
    obtain ⟨k2, h3, _, h4⟩ := (untilIn_count hi a d (· == j) m q _ _ _ hm).2 k hk
    have := counter_unique hk' h3
    have := h4 j (by simp) h1
    omega
  · rcases untilIn_ev e _ m q s with h3 | h3
    · rw [hm] at h3; cases h3
    · rw [hm, hev] at h3; cases h3
  · rfl

/-- **C101.** A number drawn in one run is not drawn again in a later one. -/
theorem C101_distinct (hi : Standard e x (lit "inc")) {q v q2 v2 : Node} {s s1 s2 s3 : ESt} {k k1 k2 j : Int}
    (h : AvoidsIn e (misuses a d) q s v s1) (hk : CounterIs a d k s) (hk1 : CounterIs a d k1 s1)
    (h2 : AvoidsIn e (misuses a d) q2 s2 v2 s3) (hk2 : CounterIs a d k2 s2) (hle : k1 ≤ k2)
    (hj : MeetsIn e (either (misuses a d) (draws a d (· == j))) q s) :
    AvoidsIn e (either (misuses a d) (draws a d (· == j))) q2 s2 v2 s3 := by
  obtain ⟨k', h3, _, _, h4⟩ := C101_counter hi h hk
  have := counter_unique h3 hk1
  subst this
  obtain ⟨k'', h5, _, _, h6⟩ := C101_counter hi h2 hk2
  refine h6 j (.inl ?_)
  rcases Int.lt_or_le j k' with hlt | hge
  · omega
  · exact absurd (h4 j (.inr hge)) (meets_not_avoids hj)

/-- **C101.** `($emit a inc)` gives the number the counter holds, and the counter goes on by one. -/
theorem C101_draw (hi : Standard e x (lit "inc")) {late : Bool} {reg : List Src} {b : Src} {l : Option Loc} {s : ESt} {k : Int}
    (hk : CounterIs b.txt d k s) (hr : reaches b.txt d s.env = true) (hu : Unbound (lit "inc") s) :
    ∃ s', AvoidsIn e (misuses b.txt d) (.emit late reg b (.var false [] ⟨lit "inc", l⟩)) s (.int k) s' ∧ CounterIs b.txt d (k + 1) s' := by
  have hl : Scopes.lookup s.env b.txt = some (.int k) := by rw [reaches_lookup hr]; exact hk
  have hls : (Scopes.lookup s.env b.txt).isSome = true := by rw [hl]; rfl
  have hm : misuses b.txt d (.emit late reg b (.var false [] ⟨lit "inc", l⟩)) s = false := by
    unfold misuses isInc
    dsimp only
    rw [show Scopes.lookup s.env (lit "inc") = none from hu]
    simp
  let s2 : ESt := { s with env := (Scopes.update s.env b.txt (.int k)).getD s.env }
  have hsame : SameScopes (fun n => n == b.txt) s.env s2.env := update_sameScopes (SameScopes.refl _ _) (by simp) _ hl rfl
  have hne : (lit "inc" == b.txt) = false := by
    rw [Bool.eq_false_iff]
    intro hc
    rw [← (by simpa using hc : lit "inc" = b.txt)] at hls
    rw [show Scopes.lookup s.env (lit "inc") = none from hu] at hls
    cases hls
  have hu2 : Scopes.lookup s2.env (lit "inc") = none := by
    rw [same_lookup hsame (k := lit "inc") hne]; exact hu
  have hvar : untilIn e (misuses b.txt d) 1 (.var false [] ⟨lit "inc", l⟩) s2 = .ok (.builtin ⟨lit "inc", l⟩ false, s2) := by
    change evalVar e false [] ⟨lit "inc", l⟩ s2 = _
    unfold evalVar
    simp only [hu2, hi.table]
    rfl
  have hcall : untilIn e (misuses b.txt d) 2 (.apply (.var false [] ⟨lit "inc", l⟩) [.int k] [] none) s2 = .ok (.int (k + 1), s2) := by
    change evalApply e (untilIn e (misuses b.txt d) 1) (.var false [] ⟨lit "inc", l⟩) [.int k] [] none s2 = _
    unfold evalApply
    rw [em_bind_ok hvar]
    have hargs : evalList (untilIn e (misuses b.txt d) 1) [.int k] s2 = .ok ([.int k], s2) := rfl
    rw [em_bind_ok hargs]
    change applyBuiltin e ⟨lit "inc", l⟩ false [.int k] [] none s2 = _
    unfold applyBuiltin
    simp only [List.isEmpty_nil, Bool.not_true, Bool.false_eq_true, if_false]
    have hget : EM.get s2 = .ok (s2, s2) := rfl
    rw [em_bind_ok hget, hi.table]
    change applyFunction e ⟨lit "inc", l⟩ false [.int k] none s2 = _
    unfold applyFunction
    rw [if_pos (show areTerms [.int k] = true from rfl), hi.call, show builtinCall x (lit "inc") [.int k] s2.seen = some (.int (k + 1), s2.seen) from by
      simp [builtinCall, lit, bWhole1, Node.whole?]]
    rfl
  have hemit : untilIn e (misuses b.txt d) 3 (.emit late reg b (.var false [] ⟨lit "inc", l⟩)) s =
      .ok (.int k, { s2 with env := (Scopes.update s2.env b.txt (.int (k + 1))).getD s2.env }) := by
    unfold untilIn
    rw [hm]
    change evalEmit (untilIn e (misuses b.txt d) 2) late reg b (.var false [] ⟨lit "inc", l⟩) s = _
    unfold evalEmit
    rw [em_bind, em_get]
    simp only [hl]
    have hup : EM.update b.txt (.int k) s = .ok ((), s2) := rfl
    change (EM.update b.txt (.int k) >>= fun _ => _) s = _
    rw [em_bind_ok hup]
    change (untilIn e (misuses b.txt d) 2 (.apply (.var false [] ⟨lit "inc", l⟩) [.int k] [] none) >>= fun _ => _) s2 = _
    rw [em_bind_ok hcall]
    rfl
  refine ⟨_, ⟨3, hemit⟩, ?_⟩
  unfold CounterIs
  dsimp only
  rw [valueAt_update _ _ (by rw [lookup_same hsame]; exact hls), if_pos ⟨rfl, by rw [(reaches_same hsame).1]; exact hr⟩]

end

/-! ## Cases -/

/-- `($emit c inc)` -/
def drawC : Node := .emit false [] ⟨lit "c", none⟩ (.var false [] ⟨lit "inc", none⟩)

/-- `(($emit c inc) ($emit c inc))` where `c` is 5 draws 5 and 6, and no other number. -/
example (x : BExt) (pe : PEnv) : let e := stdEnv x pe
    let s : ESt := { env := [[(lit "c", .int 5)]] }
    let s' : ESt := { env := [[(lit "c", .int 7)]] }
    AvoidsIn e (misuses (lit "c") 0) (.list [drawC, drawC]) s (.list [.int 5, .int 6]) s' ∧
    CounterIs (lit "c") 0 5 s ∧ CounterIs (lit "c") 0 7 s' ∧
    MeetsIn e (either (misuses (lit "c") 0) (draws (lit "c") 0 (· == 6))) (.list [drawC, drawC]) s ∧
    AvoidsIn e (either (misuses (lit "c") 0) (draws (lit "c") 0 (· == 7))) (.list [drawC, drawC]) s (.list [.int 5, .int 6]) s' := by
  intro e s s'
  have h : AvoidsIn e (misuses (lit "c") 0) (.list [drawC, drawC]) s (.list [.int 5, .int 6]) s' := ⟨4, by rfl⟩
  have hk : CounterIs (lit "c") 0 5 s := by rfl
  have hk' : CounterIs (lit "c") 0 7 s' := by rfl
  obtain ⟨k', h1, _, h2, h3⟩ := C101_counter (stdEnv_standard x pe _) h hk
  have := counter_unique h1 hk'
  subst this
  exact ⟨h, hk, hk', h2 6 (by decide) (by decide), h3 7 (.inr (by decide))⟩

/-- A counter in an outer scope, behind a scope with the same name: the inner one is not the counter. -/
example (x : BExt) (pe : PEnv) : let e := stdEnv x pe
    let s : ESt := { env := [[(lit "c", .int 5)], [(lit "c", .int 9)]] }
    AvoidsIn e (misuses (lit "c") 0) drawC s (.int 5) { env := [[(lit "c", .int 6)], [(lit "c", .int 9)]] } ∧ CounterIs (lit "c") 0 9 s := by
  intro e s
  exact ⟨⟨4, by rfl⟩, by rfl⟩

/-- `($emit c dec)` is a misuse. -/
example (e : EEnv) : MeetsIn e (misuses (lit "c") 0) (.emit false [] ⟨lit "c", none⟩ (.var false [] ⟨lit "dec", none⟩))
    { env := [[(lit "c", .int 5)]] } := by
  intro n
  cases n <;> rfl

end Yupp
