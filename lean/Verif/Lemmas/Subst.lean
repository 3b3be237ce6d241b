import Verif.Spec.Subst
/-!
# Sequential and simultaneous substitution
-/

namespace Yupp

open Spec

/-- A text read as characters and markers. -/
abbrev Frags := List (Char ⊕ Str)

def writeFrag : Char ⊕ Str → Str
  | .inl c => [c]
  | .inr n => marker n

def writeFrags (q : Frags) : Str := q.flatMap writeFrag

/-- Some of the markers are replaced. -/
def fillFrag (ρ : List (Str × Str)) : Char ⊕ Str → Frags
  | .inl c => [.inl c]
  | .inr n => match ρ.find? (fun p => p.1 == n) with
    | some p => p.2.map .inl
    | none => [.inr n]

def fillFrags (ρ : List (Str × Str)) (q : Frags) : Frags := q.flatMap (fillFrag ρ)

theorem writeFrags_cons (x : Char ⊕ Str) (q : Frags) : writeFrags (x :: q) = writeFrag x ++ writeFrags q := rfl

theorem writeFrags_append (p q : Frags) : writeFrags (p ++ q) = writeFrags p ++ writeFrags q := by
  simp [writeFrags]

theorem writeFrags_chars (s : Str) : writeFrags (s.map .inl) = s := by
  induction s with
  | nil => rfl
  | cons c s ih => simp [writeFrags_cons, ih, writeFrag]

theorem fillFrags_cons (ρ) (x : Char ⊕ Str) (q : Frags) : fillFrags ρ (x :: q) = fillFrag ρ x ++ fillFrags ρ q := rfl

theorem fillFrags_append (ρ) (p q : Frags) : fillFrags ρ (p ++ q) = fillFrags ρ p ++ fillFrags ρ q := by
  simp [fillFrags]

theorem fillFrags_chars (ρ) (s : Str) : fillFrags ρ (s.map .inl) = s.map .inl := by
  induction s with
  | nil => rfl
  | cons c s ih => simp [fillFrags_cons, ih, fillFrag]

/-- No marker with this name begins with a character of `q`. -/
def Quiet (k : Str) (q : Frags) : Prop :=
  ∀ a c b, q = a ++ Sum.inl c :: b → ¬ marker k <+: (c :: writeFrags b)

def HolesOk (q : Frags) : Prop := ∀ n, Sum.inr n ∈ q → '(' ∉ n ∧ ')' ∉ n

theorem marker_eq (n : Str) : marker n = '(' :: '$' :: (n ++ [')']) := by simp [marker]

theorem marker_length (n : Str) : (marker n).length = n.length + 3 := by simp [marker]

/-- `replaceGo` over something to be dropped. -/
theorem replaceGo_skip (old new : Str) : ∀ (a b : Str), replaceGo old new a.length (a ++ b) = replaceGo old new 0 b := by
  intro a
  induction a with
  | nil => intro b; rfl
  | cons c a ih => intro b; simp only [List.length_cons, List.cons_append, replaceGo]; exact ih b

/-- Names are determined by the markers they begin. -/
theorem name_of_prefix {k n : Str} {t : Str} (hk : ')' ∉ k) (hn : ')' ∉ n) (h : (k ++ [')']) <+: (n ++ ')' :: t)) : k = n := by
  induction k generalizing n with
  | nil =>
    cases n with
    | nil => rfl
    | cons c n =>
      obtain ⟨r, hr⟩ := h
      simp at hr
      simp at hn
      exact absurd hr.1 hn.1
  | cons a k ih =>
    cases n with
    | nil =>
      obtain ⟨r, hr⟩ := h
      simp at hr
      simp at hk
      exact absurd hr.1.symm hk.1
    | cons c n =>
      obtain ⟨r, hr⟩ := h
      simp only [List.cons_append, List.cons.injEq] at hr
      simp only [List.mem_cons, not_or] at hk hn
      rw [hr.1, ih hk.2 hn.2 ⟨r, hr.2⟩]

/-- Characters other than `(` begin no marker. -/
theorem replaceGo_noopen (k new : Str) : ∀ (a b : Str), '(' ∉ a →
    replaceGo (marker k) new 0 (a ++ b) = a ++ replaceGo (marker k) new 0 b := by
  intro a
  induction a with
  | nil => intro b _; rfl
  | cons c a ih =>
    intro b h
    simp only [List.mem_cons, not_or] at h
    simp only [List.cons_append, replaceGo]
    have : (marker k).isPrefixOf (c :: (a ++ b)) = false := by
      rw [marker_eq]
      simp only [List.isPrefixOf]
      have : ('(' == c) = false := by simpa using h.1
      rw [this]; rfl
    rw [this]
    simp only [Bool.false_eq_true, if_false]
    rw [ih b h.2]

/-- One replacement. -/
theorem replace_frags (k v : Str) (hk : ')' ∉ k) : ∀ (q : Frags), HolesOk q → Quiet k q →
    replace (marker k) v (writeFrags q) = writeFrags (fillFrags [(k, v)] q) := by
  intro q
  induction q with
  | nil => intro _ _; rfl
  | cons x q ih =>
    intro hh hq
    have hh' : HolesOk q := fun n hn => hh n (by simp [hn])
    have hq' : Quiet k q := fun a c b h => hq (x :: a) c b (by rw [h]; rfl)
    have ih := ih hh' hq'
    unfold replace at *
    rw [writeFrags_cons, fillFrags_cons, writeFrags_append]
    cases x with
    | inl c =>
      simp only [writeFrag, List.cons_append, List.nil_append, fillFrag, replaceGo]
      have : (marker k).isPrefixOf (c :: writeFrags q) = false := by
        cases h : (marker k).isPrefixOf (c :: writeFrags q) with
        | false => rfl
        | true => exact absurd (List.isPrefixOf_iff_prefix.1 h) (hq [] c q rfl)
      rw [this]
      simp only [Bool.false_eq_true, if_false]
      rw [ih]; rfl
    | inr n =>
      have hn := hh n (by simp)
      simp only [writeFrag, fillFrag, List.find?_cons, List.find?_nil]
      by_cases hkn : k = n
      · subst hkn
        simp only [beq_self_eq_true, writeFrags_chars]
        rw [marker_eq, List.cons_append]
        simp only [replaceGo]
        have : ('(' :: '$' :: (k ++ [')'])).isPrefixOf ('(' :: ('$' :: (k ++ [')']) ++ writeFrags q)) = true :=
          List.isPrefixOf_iff_prefix.2 ⟨writeFrags q, by simp⟩
        rw [this]
        simp only [if_true]
        have := replaceGo_skip ('(' :: '$' :: (k ++ [')'])) v ('$' :: (k ++ [')'])) (writeFrags q)
        simp only [List.length_cons, Nat.add_sub_cancel] at *
        rw [this, ← marker_eq, ih]
      · have hb : (k == n) = false := by simpa using hkn
        rw [hb]
        rw [marker_eq n, List.cons_append]
        simp only [replaceGo]
        have : (marker k).isPrefixOf ('(' :: ('$' :: (n ++ [')']) ++ writeFrags q)) = false := by
          cases h : (marker k).isPrefixOf ('(' :: ('$' :: (n ++ [')']) ++ writeFrags q)) with
          | false => rfl
          | true =>
            rw [marker_eq] at h
            have h := List.isPrefixOf_iff_prefix.1 h
            simp only [List.cons_append, List.cons_prefix_cons, true_and, List.append_assoc] at h
            exact absurd (name_of_prefix hk hn.2 (by simpa using h)) hkn
        rw [this]
        simp only [Bool.false_eq_true, if_false]
        rw [replaceGo_noopen, ih]
        · simp [writeFrags_cons, writeFrag, marker_eq, writeFrags]
        · simp [hn.1]

/-- Filling in two steps. -/
theorem fill_fill (ρ σ : List (Str × Str)) (q : Frags) : fillFrags σ (fillFrags ρ q) = fillFrags (ρ ++ σ) q := by
  induction q with
  | nil => rfl
  | cons x q ih =>
    rw [fillFrags_cons, fillFrags_cons, fillFrags_append, ih]
    congr 1
    cases x with
    | inl c => rfl
    | inr n =>
      simp only [fillFrag, List.find?_append]
      cases h : ρ.find? (fun p => p.1 == n) with
      | some p => simp [fillFrags_chars]
      | none => simp [fillFrags, fillFrag]

/-- If a text of characters and markers begins with a marker, but not with one of its own, then all of that
    marker are characters. -/
theorem chars_of_prefix : ∀ (u : Str) (q : Frags), '(' ∉ u → u <+: writeFrags q →
    ∃ q', q = u.map .inl ++ q' := by
  intro u
  induction u with
  | nil => intro q _ _; exact ⟨q, rfl⟩
  | cons c u ih =>
    intro q hu h
    simp only [List.mem_cons, not_or] at hu
    cases q with
    | nil => obtain ⟨r, hr⟩ := h; simp [writeFrags] at hr
    | cons x q =>
      cases x with
      | inl d =>
        rw [writeFrags_cons] at h
        simp only [writeFrag, List.cons_append, List.nil_append, List.cons_prefix_cons] at h
        obtain ⟨q', hq⟩ := ih q hu.2 h.2
        exact ⟨q', by rw [h.1, hq]; simp⟩
      | inr n =>
        rw [writeFrags_cons] at h
        simp only [writeFrag, marker_eq, List.cons_append, List.cons_prefix_cons] at h
        exact absurd h.1.symm hu.1

/-- If no marker is left in the end, none arises on the way. -/
theorem quiet_of_final (ρ σ : List (Str × Str)) (q : Frags) (k : Str) (hk : '(' ∉ k)
    (h : ∀ a b, writeFrags (fillFrags ρ (fillFrags σ q)) ≠ a ++ marker k ++ b) : Quiet k (fillFrags σ q) := by
  intro a c b hq hp
  rw [marker_eq] at hp
  simp only [List.cons_prefix_cons] at hp
  have hne : '(' ∉ ('$' :: (k ++ [')'])) := by simp [hk]
  obtain ⟨q', hq'⟩ := chars_of_prefix ('$' :: (k ++ [')'])) b hne hp.2
  have : fillFrags σ q = a ++ ((marker k).map .inl ++ q') := by
    rw [hq, hq', ← hp.1, marker_eq]; simp
  apply h (writeFrags (fillFrags ρ a)) (writeFrags (fillFrags ρ q'))
  rw [this, fillFrags_append, fillFrags_append, fillFrags_chars, writeFrags_append, writeFrags_append, writeFrags_chars]
  simp

theorem holesOk_fill (ρ) {q : Frags} (h : HolesOk q) : HolesOk (fillFrags ρ q) := by
  intro n hn
  simp only [fillFrags, List.mem_flatMap] at hn
  obtain ⟨x, hx, hn⟩ := hn
  cases x with
  | inl c => simp [fillFrag] at hn
  | inr m =>
    simp only [fillFrag] at hn
    split at hn
    · simp at hn
    · simp at hn; subst hn; exact h n hx

/-- All replacements, one after another. -/
theorem substAll_frags (q : Frags) (hq : HolesOk q) : ∀ (τ σ : List (Str × Str)), NamesOk τ →
    (∀ p ∈ τ, ∀ a b, writeFrags (fillFrags (σ ++ τ) q) ≠ a ++ marker p.1 ++ b) →
    substAll (writeFrags (fillFrags σ q)) τ = writeFrags (fillFrags (σ ++ τ) q) := by
  intro τ
  induction τ with
  | nil => intro σ _ _; simp [substAll]
  | cons p τ ih =>
    intro σ hn hf
    obtain ⟨k, v⟩ := p
    have hk := hn (k, v) (by simp)
    have hquiet : Quiet k (fillFrags σ q) := by
      apply quiet_of_final ((k, v) :: τ) σ q k hk.1
      intro a b
      rw [fill_fill]
      exact hf (k, v) (by simp) a b
    have step := replace_frags k v hk.2 (fillFrags σ q) (holesOk_fill σ hq) hquiet
    have : substAll (writeFrags (fillFrags σ q)) ((k, v) :: τ) =
        substAll (replace (marker k) v (writeFrags (fillFrags σ q))) τ := rfl
    rw [this, step, fill_fill]
    have := ih (σ ++ [(k, v)]) (fun p hp => hn p (by simp [hp])) (by
      intro p hp a b
      simpa using hf p (by simp [hp]) a b)
    simpa using this

/-- Reading a text with respect to a table: the markers of the table are holes. -/
def readFrags (ρ : List (Str × Str)) : Nat → Str → Frags
  | _, [] => []
  | k + 1, _ :: t => readFrags ρ k t
  | 0, c :: t =>
    match ρ.find? (fun p => (marker p.1).isPrefixOf (c :: t)) with
    | some p => .inr p.1 :: readFrags ρ (p.1.length + 2) t
    | none => .inl c :: readFrags ρ 0 t

theorem readFrags_skip (ρ) : ∀ (k : Nat) (t : Str), readFrags ρ k t = readFrags ρ 0 (t.drop k) := by
  intro k
  induction k with
  | zero => intro t; rfl
  | succ k ih => intro t; cases t with
    | nil => rw [List.drop_nil]; rfl
    | cons c t => simp only [readFrags, List.drop_succ_cons]; exact ih t

theorem simul_skip (ρ) : ∀ (k : Nat) (t : Str), simul ρ k t = simul ρ 0 (t.drop k) := by
  intro k
  induction k with
  | zero => intro t; rfl
  | succ k ih => intro t; cases t with
    | nil => rw [List.drop_nil]; rfl
    | cons c t => simp only [simul, List.drop_succ_cons]; exact ih t

theorem readFrags_spec (ρ : List (Str × Str)) (hρ : NamesOk ρ) : ∀ (n : Nat) (t : Str), t.length ≤ n →
    writeFrags (readFrags ρ 0 t) = t ∧ HolesOk (readFrags ρ 0 t) ∧
    writeFrags (fillFrags ρ (readFrags ρ 0 t)) = simul ρ 0 t := by
  intro n
  induction n with
  | zero =>
    intro t ht
    cases t with
    | nil => exact ⟨rfl, fun n hn => by simp [readFrags] at hn, rfl⟩
    | cons c t => simp at ht
  | succ n ih =>
    intro t ht
    cases t with
    | nil => exact ⟨rfl, fun n hn => by simp [readFrags] at hn, rfl⟩
    | cons c t =>
      simp only [readFrags, simul]
      change _ ∧ _ ∧ _ = match ρ.find? (fun p => (marker p.1).isPrefixOf (c :: t)) with | some p => _ | none => _
      cases hf : ρ.find? (fun p => (marker p.1).isPrefixOf (c :: t)) with
      | none =>
        obtain ⟨h1, h2, h3⟩ := ih t (by simp at ht; omega)
        refine ⟨by simp [writeFrags_cons, writeFrag, h1], ?_, ?_⟩
        · intro m hm
          simp at hm
          exact h2 m hm
        · simp only [fillFrags_cons, fillFrag, writeFrags_append]
          rw [h3]; rfl
      | some p =>
        have hmem := List.mem_of_find?_eq_some hf
        have hpre := List.find?_some hf
        have hnm := hρ p hmem
        have hpre : marker p.1 <+: (c :: t) := List.isPrefixOf_iff_prefix.1 hpre
        obtain ⟨r, hr⟩ := hpre
        have hd : t.drop (p.1.length + 2) = r := by
          have : (c :: t).drop (p.1.length + 3) = r := by
            rw [← hr, ← marker_length]; simp
          simpa using this
        have hlen : r.length ≤ n := by
          have := congrArg List.length hr
          simp [marker_length] at this ht
          omega
        obtain ⟨h1, h2, h3⟩ := ih r hlen
        simp only [readFrags_skip ρ (p.1.length + 2), simul_skip ρ (p.1.length + 2), hd]
        refine ⟨?_, ?_, ?_⟩
        · rw [writeFrags_cons, h1, writeFrag, hr]
        · intro m hm
          simp at hm
          rcases hm with rfl | hm
          · exact hnm
          · exact h2 m hm
        · rw [fillFrags_cons, writeFrags_append, h3]
          congr 1
          -- the first entry for that name
          have : ∀ (l : List (Str × Str)), NamesOk l → l.find? (fun q => (marker q.1).isPrefixOf (c :: t)) = some p →
              l.find? (fun q => q.1 == p.1) = some p := by
            intro l
            induction l with
            | nil => intro _ h; simp at h
            | cons q l ihl =>
              intro hl h
              rw [List.find?_cons] at h ⊢
              by_cases hq : q.1 = p.1
              · rw [hq] at h
                have hp : (marker p.1).isPrefixOf (c :: t) = true := List.isPrefixOf_iff_prefix.2 ⟨r, hr⟩
                rw [hp] at h
                cases h
                simp
              · have hb : (q.1 == p.1) = false := by simpa using hq
                rw [hb]
                cases hp : (marker q.1).isPrefixOf (c :: t) with
                | true =>
                  rw [hp] at h
                  cases h
                  exact absurd rfl hq
                | false =>
                  rw [hp] at h
                  exact ihl (fun x hx => hl x (by simp [hx])) h
          simp only [fillFrag, this ρ hρ hf, writeFrags_chars]

/-- If no marker of the table is left in the result, replacing the markers one name after another is the same as
    replacing them all at once. -/
theorem substAll_eq (ρ : List (Str × Str)) (hρ : NamesOk ρ) (t : Str) (h : Unmarked ρ (substitute ρ t)) :
    substAll t ρ = substitute ρ t := by
  obtain ⟨h1, h2, h3⟩ := readFrags_spec ρ hρ t.length t (Nat.le_refl _)
  have := substAll_frags (readFrags ρ 0 t) h2 ρ [] hρ (by
    intro p hp a b
    rw [List.nil_append, h3]
    exact h p hp a b)
  have hnil : fillFrags [] (readFrags ρ 0 t) = readFrags ρ 0 t := by
    generalize readFrags ρ 0 t = q
    induction q with
    | nil => rfl
    | cons x q ih => rw [fillFrags_cons, ih]; cases x <;> rfl
  rw [hnil, h1, List.nil_append, h3] at this
  exact this

/-- Text without markers stays. -/
theorem simul_id (ρ : List (Str × Str)) : ∀ (t : Str), Unmarked ρ t → simul ρ 0 t = t := by
  intro t
  induction t with
  | nil => intro _; rfl
  | cons c t ih =>
    intro h
    simp only [simul]
    have : ρ.find? (fun p => (['(', '$'] ++ p.1 ++ [')']).isPrefixOf (c :: t)) = none := by
      rw [List.find?_eq_none]
      intro p hp hpre
      obtain ⟨r, hr⟩ := List.isPrefixOf_iff_prefix.1 hpre
      exact h p hp [] r (by rw [← hr]; simp)
    rw [this]
    simp only []
    rw [ih]
    intro p hp a b hab
    exact h p hp (c :: a) b (by rw [hab]; simp)

theorem findIdx_some (sub : Str) : ∀ (a b : Str), (findIdx sub (a ++ sub ++ b)).isSome = true := by
  intro a
  induction a with
  | nil =>
    intro b
    cases sub with
    | nil => cases b <;> simp [findIdx]
    | cons c t =>
      have : List.isPrefixOf (c :: t) (c :: (t ++ b)) = true := List.isPrefixOf_iff_prefix.2 ⟨b, rfl⟩
      simp only [List.nil_append, List.cons_append, findIdx, this, if_true, Option.isSome_some]
  | cons c a ih =>
    intro b
    simp only [List.cons_append, findIdx]
    split
    · rfl
    · rw [Option.isSome_map]; exact ih b

/-- A test for `Unmarked`. -/
theorem unmarked_of {ρ : List (Str × Str)} {t : Str} (h : ρ.all (fun p => !contains t (['(', '$'] ++ p.1 ++ [')'])) = true) :
    Unmarked ρ t := by
  intro p hp a b ht
  have := List.all_eq_true.1 h p hp
  rw [ht] at this
  simp only [contains] at this
  rw [findIdx_some] at this
  simp at this

theorem inj_of_nodup : ∀ (ρ : List (Str × Str)), (ρ.map (·.1)).Nodup → ∀ p ∈ ρ, ∀ q ∈ ρ, p.1 = q.1 → p = q := by
  intro ρ
  induction ρ with
  | nil => intro _ p hp; simp at hp
  | cons x ρ ih =>
    intro hn p hp q hq h
    simp only [List.map_cons, List.nodup_cons, List.mem_map, not_exists, not_and] at hn
    simp only [List.mem_cons] at hp hq
    rcases hp with rfl | hp <;> rcases hq with rfl | hq
    · rfl
    · exact absurd h.symm (hn.1 q hq)
    · exact absurd h (hn.1 p hp)
    · exact ih hn.2 p hp q hq h

/-- The order of a table without repetitions plays no role. -/
theorem simul_perm {ρ σ : List (Str × Str)} (hρ : NamesOk ρ) (hn : (ρ.map (·.1)).Nodup) (hp : ρ.Perm σ) (t : Str) :
    substitute ρ t = substitute σ t := by
  have hσ : NamesOk σ := fun p h => hρ p (hp.mem_iff.2 h)
  have uniq : ∀ (c : Char) (t : Str) (p q : Str × Str), p ∈ ρ → q ∈ ρ → marker p.1 <+: (c :: t) → marker q.1 <+: (c :: t) →
      p = q := by
    intro c t p q hp hq h1 h2
    have hn1 : p.1 = q.1 := by
      obtain ⟨r, hr⟩ := h2
      rw [← hr, marker_eq, marker_eq] at h1
      simp only [List.cons_append, List.cons_prefix_cons, true_and, List.append_assoc] at h1
      exact name_of_prefix (hρ p hp).2 (hρ q hq).2 (by simpa using h1)
    exact inj_of_nodup ρ hn p hp q hq hn1
  have key : ∀ (c : Char) (t : Str), ρ.find? (fun p => (marker p.1).isPrefixOf (c :: t)) =
      σ.find? (fun p => (marker p.1).isPrefixOf (c :: t)) := by
    intro c t
    cases h1 : ρ.find? (fun p => (marker p.1).isPrefixOf (c :: t)) with
    | none =>
      symm
      rw [List.find?_eq_none] at *
      intro p h
      exact h1 p (hp.mem_iff.2 h)
    | some p =>
      cases h2 : σ.find? (fun p => (marker p.1).isPrefixOf (c :: t)) with
      | none =>
        rw [List.find?_eq_none] at h2
        exact absurd (List.find?_some h1) (h2 p (hp.mem_iff.1 (List.mem_of_find?_eq_some h1)))
      | some q =>
        have e1 : (marker p.1).isPrefixOf (c :: t) = true := by have := List.find?_some h1; exact this
        have e2 : (marker q.1).isPrefixOf (c :: t) = true := by have := List.find?_some h2; exact this
        rw [uniq c t p q (List.mem_of_find?_eq_some h1) (hp.mem_iff.2 (List.mem_of_find?_eq_some h2))
          (List.isPrefixOf_iff_prefix.1 e1) (List.isPrefixOf_iff_prefix.1 e2)]
  unfold substitute
  have : ∀ (n : Nat) (t : Str), t.length ≤ n → ∀ k, simul ρ k t = simul σ k t := by
    intro n
    induction n with
    | zero => intro t ht k; cases t with
      | nil => cases k <;> rfl
      | cons c t => simp at ht
    | succ n ih =>
      intro t ht k
      cases t with
      | nil => cases k <;> rfl
      | cons c t =>
        have hl : t.length ≤ n := by simp at ht; omega
        cases k with
        | succ k => simp only [simul]; exact ih t hl k
        | zero =>
          simp only [simul]
          have hk := key c t
          simp only [marker] at hk
          rw [hk]
          cases σ.find? (fun p => (['(', '$'] ++ p.1 ++ [')']).isPrefixOf (c :: t)) with
          | none => simp only []; rw [ih t hl 0]
          | some p => simp only []; rw [ih t hl]
  exact this t.length t (Nat.le_refl _) 0

end Yupp
