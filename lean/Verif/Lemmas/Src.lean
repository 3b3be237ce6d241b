import Verif.Model.Lex
/-!
# Suffixes of a source text, and what the scanners take
-/

namespace Yupp

theorem Src.drop_zero (s : Src) : s.drop 0 = s := by
  cases s with
  | mk t l => cases l <;> simp [Src.drop]

theorem Src.drop_drop (s : Src) (a b : Nat) : (s.drop a).drop b = s.drop (a + b) := by
  cases s with
  | mk t l =>
    cases l <;> simp [Src.drop, List.drop_drop, Int.add_assoc]

@[simp] theorem Src.drop_txt (s : Src) (a : Nat) : (s.drop a).txt = s.txt.drop a := rfl

@[simp] theorem Src.take_txt (s : Src) (a : Nat) : (s.take a).txt = s.txt.take a := rfl

/-- `a` is what remains of `b` after some characters. -/
def Src.Suf (a b : Src) : Prop := ∃ k, k ≤ b.txt.length ∧ a = b.drop k

/-- `a` is what remains of `b` after at least one character. -/
def Src.SSuf (a b : Src) : Prop := ∃ k, 0 < k ∧ k ≤ b.txt.length ∧ a = b.drop k

namespace Src

theorem Suf.refl (a : Src) : a.Suf a := ⟨0, Nat.zero_le _, (drop_zero a).symm⟩

theorem SSuf.suf {a b : Src} (h : a.SSuf b) : a.Suf b :=
  let ⟨k, _, hk, e⟩ := h; ⟨k, hk, e⟩

theorem Suf.trans {a b c : Src} (h1 : a.Suf b) (h2 : b.Suf c) : a.Suf c := by
  obtain ⟨k, hk, rfl⟩ := h1
  obtain ⟨j, hj, rfl⟩ := h2
  refine ⟨j + k, ?_, drop_drop _ _ _⟩
  simp at hk; omega

theorem SSuf.trans_suf {a b c : Src} (h1 : a.Suf b) (h2 : b.SSuf c) : a.SSuf c := by
  obtain ⟨k, hk, rfl⟩ := h1
  obtain ⟨j, h0, hj, rfl⟩ := h2
  refine ⟨j + k, by omega, ?_, drop_drop _ _ _⟩
  simp at hk; omega

theorem SSuf.suf_trans {a b c : Src} (h1 : a.SSuf b) (h2 : b.Suf c) : a.SSuf c := by
  obtain ⟨k, h0, hk, rfl⟩ := h1
  obtain ⟨j, hj, rfl⟩ := h2
  refine ⟨j + k, by omega, ?_, drop_drop _ _ _⟩
  simp at hk; omega

theorem SSuf.trans {a b c : Src} (h1 : a.SSuf b) (h2 : b.SSuf c) : a.SSuf c :=
  h1.suf_trans h2.suf

theorem Suf.len {a b : Src} (h : a.Suf b) : a.txt.length ≤ b.txt.length := by
  obtain ⟨k, hk, rfl⟩ := h
  simp

theorem SSuf.len {a b : Src} (h : a.SSuf b) : a.txt.length < b.txt.length := by
  obtain ⟨k, h0, hk, rfl⟩ := h
  simp; omega

theorem suf_drop {s : Src} {k : Nat} (h : k ≤ s.txt.length) : (s.drop k).Suf s := ⟨k, h, rfl⟩

theorem ssuf_drop {s : Src} {k : Nat} (h0 : 0 < k) (h : k ≤ s.txt.length) : (s.drop k).SSuf s :=
  ⟨k, h0, h, rfl⟩

theorem starts_len {s : Src} {k : Str} (h : s.starts k = true) : k.length ≤ s.txt.length :=
  (List.isPrefixOf_iff_prefix.mp h).length_le

theorem starts_ssuf {s : Src} {k : Str} (h : s.starts k = true) (h0 : 0 < k.length) :
    (s.drop k.length).SSuf s := ssuf_drop h0 (starts_len h)

end Src

theorem spanLen_le (f : Char → Bool) (s : Str) : spanLen f s ≤ s.length :=
  (List.takeWhile_prefix f).length_le

theorem atomLen_le : ∀ s : Str, atomLen s ≤ s.length
  | [] => Nat.le_refl _
  | c :: t => by
    have := spanLen_le (fun c => isLetter c || isFigure c) t
    rw [atomLen]; split <;> simp <;> omega

theorem psGap_suf (s : Src) : (psGap s).Suf s := Src.suf_drop (spanLen_le _ _)

theorem psSpace_suf (s : Src) : (psSpace s).Suf s := Src.suf_drop (spanLen_le _ _)

theorem psEol_some {s r e : Src} (h : psEol s = (r, some e)) : r.SSuf s ∧ e = s.take 1 := by
  unfold psEol at h
  split at h
  · rename_i c t ht
    split at h
    · cases h
      exact ⟨Src.ssuf_drop (by omega) (by simp [ht]), rfl⟩
    · cases h
  · cases h

theorem psEol_none {s r : Src} (h : psEol s = (r, none)) : r = s := by
  unfold psEol at h
  split at h
  · split at h <;> cases h; rfl
  · cases h; rfl

theorem psAtom_some {s r a : Src} (h : psAtom s = (r, some a)) :
    r.SSuf s ∧ ∃ k, 0 < k ∧ k ≤ s.txt.length ∧ a = s.take k ∧ r = s.drop k := by
  unfold psAtom at h
  have hl := atomLen_le s.txt
  by_cases h0 : atomLen s.txt = 0
  · simp [h0] at h
  · simp only [h0, if_false] at h
    cases h
    exact ⟨Src.ssuf_drop (by omega) hl, _, by omega, hl, rfl, rfl⟩

theorem psAtom_none {s r : Src} (h : psAtom s = (r, none)) : r = s := by
  unfold psAtom at h
  by_cases h0 : atomLen s.txt = 0
  · simp only [h0, if_true] at h
    cases h
    exact Src.drop_zero s
  · simp [h0] at h

/-! ## Lengths of literals -/

theorem cStrTail_le (q : Char) (s : Str) (n : Nat) (h : cStrTail q s = some n) :
    0 < n ∧ n ≤ s.length := by
  match s with
  | [] => simp [cStrTail] at h
  | c :: t =>
    rw [cStrTail.eq_def] at h; simp only [] at h
    split at h
    · cases h; simp
    · split at h
      · match ht : t with
        | [] => simp at h
        | d :: u =>
          simp only [] at h
          split at h
          · cases h
          · obtain ⟨m, hm, rfl⟩ := Option.map_eq_some_iff.mp h
            have := cStrTail_le q u m hm
            simp; omega
      · obtain ⟨m, hm, rfl⟩ := Option.map_eq_some_iff.mp h
        have := cStrTail_le q t m hm
        simp; omega
termination_by s.length
decreasing_by all_goals simp [*] <;> omega

theorem cStrLen_le {s : Str} {n : Nat} (h : cStrLen s = some n) : 0 < n ∧ n ≤ s.length := by
  unfold cStrLen at h
  split at h
  · obtain ⟨m, hm, rfl⟩ := Option.map_eq_some_iff.mp h
    have := cStrTail_le _ _ _ hm; simp; omega
  · obtain ⟨m, hm, rfl⟩ := Option.map_eq_some_iff.mp h
    have := cStrTail_le _ _ _ hm; simp; omega
  · cases h

theorem lineLen_le : ∀ s : Str, lineLen s ≤ s.length
  | [] => Nat.le_refl _
  | c :: t => by
    have := lineLen_le t
    rw [lineLen]; split <;> simp <;> omega

theorem py1Head_le (q : Char) (s : Str) (n : Nat) (h : py1Head q s = some n) :
    0 < n ∧ n ≤ s.length := by
  match s with
  | [] => simp [py1Head] at h
  | c :: t =>
    rw [py1Head.eq_def] at h; simp only [] at h
    split at h
    · cases h; simp
    · split at h
      · cases h
      split at h
      · match ht : t with
        | [] => simp at h
        | d :: u =>
          simp only [] at h
          split at h
          · cases h; simp
          · obtain ⟨m, hm, rfl⟩ := Option.map_eq_some_iff.mp h
            have := py1Head_le q u m hm
            simp; omega
      · obtain ⟨m, hm, rfl⟩ := Option.map_eq_some_iff.mp h
        have := py1Head_le q t m hm
        simp; omega
termination_by s.length
decreasing_by all_goals simp [*] <;> omega

theorem py1Tail_le (q : Char) (s : Str) (n : Nat) (h : py1Tail q s = some n) :
    0 < n ∧ n ≤ s.length := by
  match s with
  | [] => simp [py1Tail] at h
  | c :: t =>
    rw [py1Tail.eq_def] at h; simp only [] at h
    split at h
    · cases h; simp
    · split at h
      · match ht : t with
        | [] => simp at h
        | d :: u =>
          simp only [] at h
          split at h
          · cases h
          · obtain ⟨m, hm, rfl⟩ := Option.map_eq_some_iff.mp h
            have := py1Tail_le q u m hm
            simp; omega
      · obtain ⟨m, hm, rfl⟩ := Option.map_eq_some_iff.mp h
        have := py1Tail_le q t m hm
        simp; omega
termination_by s.length
decreasing_by all_goals simp [*] <;> omega

theorem py3Tail_le (q : Char) (s : Str) (n : Nat) (h : py3Tail q s = some n) :
    0 < n ∧ n ≤ s.length := by
  match s with
  | [] => simp [py3Tail] at h
  | c :: t =>
    rw [py3Tail.eq_def] at h; simp only [] at h
    split at h
    · rename_i hc
      cases h
      have := (List.isPrefixOf_iff_prefix.mp hc.2).length_le
      simp at this ⊢; omega
    · split at h
      · match ht : t with
        | [] => simp at h
        | d :: u =>
          simp only [] at h
          split at h
          · cases h
          · obtain ⟨m, hm, rfl⟩ := Option.map_eq_some_iff.mp h
            have := py3Tail_le q u m hm
            simp; omega
      · obtain ⟨m, hm, rfl⟩ := Option.map_eq_some_iff.mp h
        have := py3Tail_le q t m hm
        simp; omega
termination_by s.length
decreasing_by all_goals simp [*] <;> omega

theorem pyLines_le (one : Bool) (tail : Str → Option Nat)
    (ht : ∀ s n, tail s = some n → n ≤ s.length) :
    ∀ (s : Str) (sk p n : Nat), pyLines one tail sk p s = .yes n → sk ≤ s.length → p + s.length - sk ≥ n ∧ p ≤ n := by
  intro s
  induction s with
  | nil =>
    intro sk p n h _
    cases sk <;> simp [pyLines] at h
  | cons c t ih =>
    intro sk p n h hsk
    cases sk with
    | succ k =>
      simp only [pyLines] at h
      simp at hsk
      have := ih k p n h hsk
      simp; omega
    | zero =>
      have hl := lineLen_le (c :: t)
      simp only [pyLines] at h
      split at h
      · rename_i k hk
        cases h
        have := ht _ _ hk
        simp only [List.length_take, List.length_cons] at this ⊢
        omega
      · split at h
        · cases h
        · have hlen : ((c :: t).take (lineLen (c :: t))).length = lineLen (c :: t) := by
            rw [List.length_take]; omega
          rw [hlen] at h
          have := ih _ _ n h (by simp at hl; omega)
          have h1 : 1 ≤ lineLen (c :: t) := by rw [lineLen]; split <;> omega
          simp at hl ⊢; omega

theorem pyPrefix_le (s : Str) : pyPrefix s ≤ s.length := by
  unfold pyPrefix
  split
  · split
    · split
      · split <;> simp
      · simp
    · split <;> simp
  · simp

theorem pyStrLen_le {s : Str} {n : Nat} (h : pyStrLen s = .yes n) : 0 < n ∧ n ≤ s.length := by
  unfold pyStrLen at h
  have hp := pyPrefix_le s
  have hl := lineLen_le s
  have hlen : (s.take (lineLen s)).length = lineLen s := by rw [List.length_take]; omega
  simp only [] at h
  split at h
  · cases h
  · rename_i q t hd
    have hdl : (s.drop (pyPrefix s)).length = t.length + 1 := by rw [hd]; simp
    rw [List.length_drop] at hdl
    have hl1 : 0 < lineLen s := by
      cases s with
      | nil => simp at hdl
      | cons c u => rw [lineLen]; split <;> omega
    split at h
    · split at h
      · split at h
        · rename_i k hk
          cases h
          have := py3Tail_le _ _ _ hk
          rw [List.length_drop, hlen] at this
          omega
        · rw [hlen] at h
          have := pyLines_le _ _ (fun s n h => (py3Tail_le _ s n h).2) _ _ _ _ h (by omega)
          omega
      · split at h
        · cases h
        · rename_i k hk
          have := py1Head_le _ _ _ hk
          split at h
          · rw [hlen] at h
            have := pyLines_le _ _ (fun s n h => (py1Tail_le _ s n h).2) _ _ _ _ h (by omega)
            omega
          · cases h; omega
    · cases h

theorem signLen_le (s : Str) : signLen s ≤ s.length := by
  unfold signLen; split
  · split <;> simp
  · simp

theorem intBody_le (s : Str) : (intBody s).1 ≤ s.length := by
  unfold intBody
  split
  · split
    · rename_i x u
      have h1 := spanLen_le (fun c => isDig c || ('a' ≤ c && c ≤ 'f') || ('A' ≤ c && c ≤ 'F')) u
      have h2 := spanLen_le (fun c => c == '0' || c == '1') u
      have h3 := spanLen_le (fun c => '0' ≤ c && c ≤ '7') u
      have h4 := spanLen_le (fun c => '0' ≤ c && c ≤ '7') (x :: u)
      split
      · simp at h1 ⊢; omega
      · split
        · simp at h2 ⊢; omega
        · split
          · simp at h3 ⊢; omega
          · simp at h4 ⊢; omega
    · simp
  · rename_i c t _
    have := spanLen_le isDig t
    split
    · simp; omega
    · simp
  · simp

theorem intLen_le (s : Str) : intLen s ≤ s.length := by
  unfold intLen
  have h1 := signLen_le s
  have h2 := spanLen_le isBlank (s.drop (signLen s))
  have h3 := intBody_le (s.drop (signLen s + spanLen isBlank (s.drop (signLen s))))
  have h4 := spanLen_le (fun c => c == 'l' || c == 'L') (s.drop (signLen s + spanLen isBlank (s.drop (signLen s)) +
    (intBody (s.drop (signLen s + spanLen isBlank (s.drop (signLen s))))).1))
  simp only [List.length_drop] at h2 h3 h4
  simp only []
  split
  · omega
  · unfold elLen
    omega

theorem expLen_le (s : Str) : expLen s ≤ s.length := by
  unfold expLen
  split
  · rename_i c t
    have h1 := signLen_le t
    have h2 := spanLen_le isDig (t.drop (signLen t))
    simp only [List.length_drop] at h2
    split
    · simp only []
      split
      · omega
      · simp; omega
    · omega
  · simp

theorem floatLen_le (s : Str) : floatLen s ≤ s.length := by
  unfold floatLen
  have h1 := signLen_le s
  have h2 := spanLen_le (· == ' ') (s.drop (signLen s))
  have h3 := spanLen_le isDig (s.drop (signLen s + spanLen (· == ' ') (s.drop (signLen s))))
  simp only [List.length_drop] at h2 h3
  simp only []
  split
  · rename_i t ht
    have h4 := congrArg List.length ht
    have h5 := spanLen_le isDig t
    have h6 := expLen_le (t.drop (spanLen isDig t))
    simp only [List.length_drop, List.length_cons] at h4 h6
    split
    · omega
    · omega
  · omega

theorem findIdx_le (sub : Str) : ∀ s n, findIdx sub s = some n → n + sub.length ≤ s.length
  | [], n, h => by
    rw [findIdx] at h
    split at h
    · rename_i he
      cases h; simp at he; simp [he]
    · cases h
  | c :: t, n, h => by
    rw [findIdx] at h
    split at h
    · rename_i hp
      cases h
      have := (List.isPrefixOf_iff_prefix.mp hp).length_le
      omega
    · obtain ⟨m, hm, rfl⟩ := Option.map_eq_some_iff.mp h
      have := findIdx_le sub t m hm
      simp; omega

theorem remarkCLen_le {s : Str} {n : Nat} (h : remarkCLen s = .yes n) : 0 < n ∧ n ≤ s.length := by
  unfold remarkCLen at h
  split at h
  · rename_i hp
    have h1 := (List.isPrefixOf_iff_prefix.mp hp).length_le
    have h2 := spanLen_le (fun c => !isEol c) (s.drop 2)
    cases h
    simp only [List.length_drop, List.length_cons, List.length_nil] at h1 h2
    omega
  · split at h
    · rename_i hp
      have h1 := (List.isPrefixOf_iff_prefix.mp hp).length_le
      split at h
      · rename_i i hi
        have h2 := findIdx_le _ _ _ hi
        cases h
        simp only [List.length_drop, List.length_cons, List.length_nil] at h1 h2
        omega
      · cases h
    · cases h

theorem remarkPyLen_le {s : Str} {n : Nat} (h : remarkPyLen s = .yes n) : 0 < n ∧ n ≤ s.length := by
  unfold remarkPyLen at h
  split at h
  · rename_i t
    have h2 := spanLen_le (fun c => !isEol c) t
    cases h
    simp; omega
  · cases h

theorem plainLen_le : ∀ (s : Str) (d n : Nat), plainLen d s = some n → 0 < n ∧ n < s.length
  | [], d, n, h => by simp [plainLen] at h
  | c :: t, d, n, h => by
    rw [plainLen] at h
    split at h
    · cases h
    · simp only [] at h
      split at h
      · rename_i hh
        cases h
        cases t with
        | nil => simp at hh
        | cons => simp
      · obtain ⟨m, hm, rfl⟩ := Option.map_eq_some_iff.mp h
        have := plainLen_le t _ m hm
        simp; omega

theorem bodyLen_lt {s : Str} {n : Nat} (h : bodyLen s = some n) : n < s.length := by
  unfold bodyLen at h
  split at h
  · rename_i hh
    cases h
    cases s with
    | nil => simp at hh
    | cons => simp
  · exact (plainLen_le _ _ _ h).2

end Yupp
