import Verif.Spec.Editor
import Verif.Lemmas.Offset
/-!
# Lemmas about the editor plug-in
-/

namespace Yupp
open Spec

theorem putE_same {β} (d : Str → β) (k : Str) (v : β) : put d k v k = v := by simp [put]
theorem putE_other {β} (d : Str → β) {k x : Str} (v : β) (h : x ≠ k) : put d k v x = d x := by simp [put, h]

theorem search_stable (dk : Disk) (dirs : List Str) (ps : List (Str × Str)) (g f : Str) :
    (searchFile dk dirs (searchFile dk dirs ps g).2 f).1 = (searchFile dk dirs ps f).1 := by
  cases hk : ((ps.lookup g).getD []).isEmpty with
  | false =>
    have : (searchFile dk dirs ps g).2 = ps := by simp [searchFile, hk]
    rw [this]
  | true =>
    cases hp : (searchPath dk dirs g).isEmpty with
    | true =>
      have : (searchFile dk dirs ps g).2 = ps := by simp [searchFile, hk, hp]
      rw [this]
    | false =>
      have : (searchFile dk dirs ps g).2 = (g, searchPath dk dirs g) :: ps := by simp [searchFile, hk, hp]
      rw [this]
      by_cases hf : f = g
      · subst hf
        simp [searchFile, List.lookup, hk, hp]
      · have hb : (f == g) = false := by simpa using hf
        unfold searchFile
        simp only [List.lookup, hb]
        split
        · split <;> rfl
        · rfl

/-- One round of the loop that finds an entry of the group. -/
def walkStep (dk : Disk) (w : Walk) (file : Str) (posTo : Int) : Option Walk :=
  let r := searchFile dk dk.folders w.paths file
  if r.1.isEmpty then some { w with paths := r.2 }
  else match w.jump r.1 with
    | some (.name _) => none
    | some (.table t) => some
        { state := put w.state r.1 (some .origin), jump := put w.jump r.1 (some (.table ((posTo.natAbs, w.fn, w.pos) :: t)))
          paths := r.2, fn := r.1, pos := posTo.natAbs }
    | none => some
        { state := put w.state r.1 (some .origin), jump := put w.jump r.1 (some (.table [(posTo.natAbs, w.fn, w.pos)]))
          paths := r.2, fn := r.1, pos := posTo.natAbs }

/-- The loop over the references, from the innermost outwards. -/
def walkAll (dk : Disk) : List (Str × Int) → Walk → Option Walk
  | [], w => some w
  | (f, p) :: rest, w => (walkStep dk w f p).bind (walkAll dk rest)

theorem walk_step (dk : Disk) (b : Browse) (found : Int) (i : Nat) (w : Walk) (file : Str) (posTo : Int)
    (h : b[i]? = some (found, file, posTo)) :
    walkBack dk b found (i + 1) w = (walkStep dk w file posTo).bind (walkBack dk b found i) := by
  rw [walkBack, h]
  simp only [ne_eq, not_true, if_false, walkStep]
  split
  · rfl
  · cases w.jump (searchFile dk dk.folders w.paths file).1 with
    | none => rfl
    | some j => cases j <;> rfl

theorem walk_all (dk : Disk) (b : Browse) (found : Int) (pre : Browse) (hpre : ∀ e, pre.getLast? = some e → e.1 ≠ found) :
    ∀ (grp : List (Str × Int)) (rest : Browse) (w : Walk), b = pre ++ (grp.map fun x => (found, x)) ++ rest →
      walkBack dk b found (pre.length + grp.length) w = walkAll dk grp.reverse w := by
  intro grp
  generalize hn : grp.length = n
  induction n generalizing grp with
  | zero =>
    intro rest w hb
    have : grp = [] := List.length_eq_zero_iff.mp hn
    subst this
    simp only [List.reverse_nil, walkAll, Nat.add_zero]
    cases pre.eq_nil_or_concat with
    | inl h => subst h; rfl
    | inr h =>
      obtain ⟨l, e, h⟩ := h
      rw [List.concat_eq_append] at h
      subst h
      obtain ⟨ef, ex⟩ := e
      have he := hpre (ef, ex) (by simp)
      have hg : b[l.length]? = some (ef, ex) := by rw [hb]; simp
      rw [List.length_append, List.length_singleton, walkBack, hg]
      simp only
      rw [if_pos he]
  | succ n ih =>
    intro rest w hb
    obtain ⟨l, e, rfl⟩ : ∃ l e, grp = l ++ [e] := by
      rcases grp.eq_nil_or_concat with h | ⟨l, e, h⟩
      · subst h; simp at hn
      · exact ⟨l, e, by rw [h, List.concat_eq_append]⟩
    obtain ⟨f, p⟩ := e
    have hl : l.length = n := by simpa using hn
    have hg : b[pre.length + n]? = some (found, f, p) := by
      rw [hb, ← hl]
      simp
    rw [← Nat.add_assoc, walk_step dk b found _ w f p hg, List.reverse_append, List.reverse_singleton, List.singleton_append, walkAll]
    congr 1
    funext w'
    exact ih l hl ((found, f, p) :: rest) w' (by rw [hb]; simp)

/-- The next stop. -/
def nextStop (back : Str × Int) (vs : List (Str × Int)) : Str × Int := vs.head?.getD back

/-- The jumps noted so far: from each of the places to the next, and from the last back. -/
inductive Linked (jump : Str → Option Jump) (back : Str × Int) : List (Str × Int) → Prop
  | nil : Linked jump back []
  | cons {v vs t} : jump v.1 = some (.table t) → t.lookup v.2 = some (nextStop back vs) → Linked jump back vs →
      Linked jump back (v :: vs)

theorem Linked.mono {jump jump' : Str → Option Jump} {back vs} (h : Linked jump back vs)
    (hj : ∀ v ∈ vs, ∀ t, jump v.1 = some (.table t) → ∃ t', jump' v.1 = some (.table t') ∧
      ∀ x, t.lookup v.2 = some x → t'.lookup v.2 = some x) : Linked jump' back vs := by
  induction h with
  | nil => exact .nil
  | @cons v vs t h1 h2 _ ih =>
    obtain ⟨t', h3, h4⟩ := hj v (by simp) t h1
    exact .cons h3 (h4 _ h2) (ih (fun u hu => hj u (by simp [hu])))

/-- What holds of the variables of the loop. -/
structure WalkInv (dk : Disk) (ps : List (Str × Str)) (ed : Editor) (back : Str × Int) (w : Walk) (vs : List (Str × Int)) : Prop where
  linked : Linked w.jump back vs
  here : (w.fn, w.pos) = nextStop back vs
  start : w.jump back.1 = some (.table [])
  state : ∀ v ∈ vs, w.state v.1 = some .origin
  sfruit : w.state back.1 = ed.state back.1
  names : ∀ f, (∀ n, ed.jump f ≠ some (.name n)) → ∀ n, w.jump f ≠ some (.name n)
  find : ∀ f, (searchFile dk dk.folders w.paths f).1 = (searchFile dk dk.folders ps f).1

/-- The stops of some references. -/
def stopsOf (dk : Disk) (ps : List (Str × Str)) (refs : List (Str × Int)) : List (Str × Int) :=
  (refs.map fun x => ((searchFile dk dk.folders ps x.1).1, (x.2.natAbs : Int))).filter fun x => !x.1.isEmpty

theorem walk_inv (dk : Disk) (ps : List (Str × Str)) (ed : Editor) (back : Str × Int) :
    ∀ (refs : List (Str × Int)) (w : Walk) (vs : List (Str × Int)), WalkInv dk ps ed back w vs →
      ((stopsOf dk ps refs).reverse ++ vs).Nodup →
      (∀ s ∈ stopsOf dk ps refs, s.1 ≠ back.1 ∧ ∀ n, ed.jump s.1 ≠ some (.name n)) →
      ∃ w', walkAll dk refs w = some w' ∧ WalkInv dk ps ed back w' ((stopsOf dk ps refs).reverse ++ vs) := by
  intro refs
  induction refs with
  | nil => intro w vs h _ _; exact ⟨w, rfl, h⟩
  | cons x refs ih =>
    obtain ⟨f, p⟩ := x
    intro w vs h hnd hs
    rw [walkAll]
    generalize hpath : (searchFile dk dk.folders ps f).1 = path at *
    have hw1 : (searchFile dk dk.folders w.paths f).1 = path := by rw [h.find, hpath]
    have hfind : ∀ g, (searchFile dk dk.folders (searchFile dk dk.folders w.paths f).2 g).1 =
        (searchFile dk dk.folders ps g).1 := fun g => by rw [search_stable, h.find]
    cases he : path.isEmpty with
    | true =>
      have hst : stopsOf dk ps ((f, p) :: refs) = stopsOf dk ps refs := by
        simp [stopsOf, hpath, he]
      rw [hst] at hnd hs ⊢
      have hstep : walkStep dk w f p = some { w with paths := (searchFile dk dk.folders w.paths f).2 } := by
        simp only [walkStep, hw1, he, if_true]
      rw [hstep]
      exact ih _ vs ⟨h.linked, h.here, h.start, h.state, h.sfruit, h.names, hfind⟩ hnd hs
    | false =>
      have hst : stopsOf dk ps ((f, p) :: refs) = (path, (p.natAbs : Int)) :: stopsOf dk ps refs := by
        simp [stopsOf, hpath, he]
      rw [hst] at hnd hs ⊢
      obtain ⟨hne, hname⟩ := hs (path, (p.natAbs : Int)) (by simp)
      have hnew : (path, (p.natAbs : Int)) ∉ vs := by
        intro hv
        rw [List.reverse_cons, List.append_assoc] at hnd
        have := (List.nodup_append.mp hnd).2.1
        simp only [List.singleton_append] at this
        exact (List.nodup_cons.mp this).1 hv
      obtain ⟨t, hstep, ht⟩ : ∃ t, walkStep dk w f p = some
          { state := put w.state path (some .origin), jump := put w.jump path (some (.table (((p.natAbs : Int), w.fn, w.pos) :: t)))
            paths := (searchFile dk dk.folders w.paths f).2, fn := path, pos := p.natAbs } ∧
          ∀ t', w.jump path = some (.table t') → t' = t := by
        cases hj : w.jump path with
        | none => exact ⟨[], by simp [walkStep, hw1, he, hj], by simp⟩
        | some j =>
          cases j with
          | name n => exact absurd hj (h.names path hname n)
          | table t => exact ⟨t, by simp [walkStep, hw1, he, hj], by simp⟩
      rw [hstep]
      have := ih { state := put w.state path (some .origin), jump := put w.jump path (some (.table (((p.natAbs : Int), w.fn, w.pos) :: t)))
                   paths := (searchFile dk dk.folders w.paths f).2, fn := path, pos := p.natAbs } ((path, (p.natAbs : Int)) :: vs)
        ⟨?_, rfl, ?_, ?_, ?_, ?_, hfind⟩ (by rw [List.reverse_cons, List.append_assoc] at hnd; simpa using hnd)
        (fun s hs' => hs s (by simp [hs']))
      · rw [List.reverse_cons, List.append_assoc]
        exact this
      · refine .cons (putE_same _ _ _) ?_ ?_
        · simp [List.lookup, h.here]
        · refine h.linked.mono ?_
          intro v hv t' ht'
          by_cases hf : v.1 = path
          · refine ⟨_, by rw [hf]; exact putE_same _ _ _, ?_⟩
            intro x hx
            have hp : (v.2 == (p.natAbs : Int)) = false := by
              have : v.2 ≠ (p.natAbs : Int) := by
                intro e
                apply hnew
                rw [← hf, ← e]
                exact hv
              simpa using this
            simp only [List.lookup, hp]
            rw [← ht t' (by rw [← hf]; exact ht')]
            exact hx
          · exact ⟨t', (putE_other _ _ hf).trans ht', fun x hx => hx⟩
      · show put w.jump path _ back.1 = _
        rw [putE_other _ _ (Ne.symm hne)]
        exact h.start
      · intro v hv
        show put w.state path _ v.1 = _
        by_cases hf : v.1 = path
        · rw [hf, putE_same]
        · rw [putE_other _ _ hf]
          rcases List.mem_cons.mp hv with rfl | hv
          · exact absurd rfl hf
          · exact h.state v hv
      · show put w.state path _ back.1 = _
        rw [putE_other _ _ (Ne.symm hne)]
        exact h.sfruit
      · intro g hg n
        show put w.jump path _ g ≠ _
        by_cases hf : g = path
        · rw [hf, putE_same]; simp
        · rw [putE_other _ _ hf]; exact h.names g hg n

/-- A ring of places: from each the command leads to the next, from the last to the first. -/
def Ring (ed : Editor) (ring : List (Str × Int)) : Prop :=
  ∀ j a, ring[j]? = some a → (∃ st, ed.state a.1 = some st ∧ st ≠ .noBrowse) ∧
    ∃ t, ed.jump a.1 = some (.table t) ∧ t.lookup a.2 = ring[(j + 1) % ring.length]?

theorem ring_press {dk : Disk} {ring : List (Str × Int)} (hne : ring ≠ []) : ∀ (k j : Nat) (ed : Editor), Ring ed ring →
    ring[j]? = some (place ed) → ∃ ed', press dk k ed = some ed' ∧ ring[(j + k) % ring.length]? = some (place ed') := by
  intro k
  induction k with
  | zero =>
    intro j ed _ hj
    refine ⟨ed, rfl, ?_⟩
    have hlt := (List.getElem?_eq_some_iff.mp hj).1
    rw [Nat.add_zero, Nat.mod_eq_of_lt hlt]
    exact hj
  | succ k ih =>
    intro j ed hr hj
    obtain ⟨⟨st, h1, h2⟩, t, h3, h4⟩ := hr j _ hj
    have hpos : 0 < ring.length := List.length_pos_iff.mpr hne
    have hlt : (j + 1) % ring.length < ring.length := Nat.mod_lt _ hpos
    obtain ⟨⟨f, p⟩, hfp⟩ : ∃ x, ring[(j + 1) % ring.length]? = some x := ⟨_, List.getElem?_eq_getElem hlt⟩
    rw [hfp] at h4
    have hstep : gotoOrigin dk ed = some (ed.goto f p) := by
      unfold gotoOrigin
      simp only [place] at h1 h3 h4
      cases st with
      | noBrowse => exact absurd rfl h2
      | fruit => simp only [h1, h3, h4]
      | origin => simp only [h1, h3, h4]
      | checkRaw => simp only [h1, h3, h4]
    obtain ⟨ed', h5, h6⟩ := ih ((j + 1) % ring.length) (ed.goto f p) hr (by
      rw [hfp]; simp [place, Editor.goto, putE_same])
    refine ⟨ed', ?_, ?_⟩
    · rw [press, hstep]; exact h5
    · rw [← h6]
      congr 1
      rw [Nat.mod_add_mod]
      congr 1
      omega

/-- Linked places make a ring. -/
theorem linked_get {jump : Str → Option Jump} {back : Str × Int} {vs : List (Str × Int)} (h : Linked jump back vs) :
    ∀ j a, vs[j]? = some a → ∃ t, jump a.1 = some (.table t) ∧ t.lookup a.2 = some ((vs[j + 1]?).getD back) := by
  induction h with
  | nil => intro j a h; simp at h
  | @cons v vs t h1 h2 _ ih =>
    intro j a ha
    cases j with
    | zero =>
      cases ha
      refine ⟨t, h1, ?_⟩
      rw [h2]
      simp [nextStop, List.head?_eq_getElem?]
    | succ j =>
      have ha : vs[j]? = some a := by simpa using ha
      simpa using ih j a ha

end Yupp
