import Verif.Lemmas.SyntaxText
/-!
# String literals of Python sources that go over several lines
-/

namespace Yupp

/-! ## Lines -/

theorem lineLen_append : ∀ (u v : Str), '\n' ∉ u → lineLen (u ++ v) = u.length + lineLen v
  | [], v, _ => by simp
  | c :: u, v, h => by
    have hc : c ≠ '\n' := fun hc => h (by simp [hc])
    have hu : '\n' ∉ u := fun hu => h (by simp [hu])
    rw [List.cons_append, lineLen, if_neg hc, lineLen_append u v hu, List.length_cons]
    omega

theorem take_line (u v : Str) (h : '\n' ∉ u) : (u ++ v).take (lineLen (u ++ v)) = u ++ v.take (lineLen v) := by
  rw [lineLen_append u v h, List.take_append, List.take_of_length_le (by omega)]
  congr 2
  omega

theorem take_line_end (u v : Str) (h : '\n' ∉ u) : (u ++ '\n' :: v).take (lineLen (u ++ '\n' :: v)) = u ++ ['\n'] := by
  rw [take_line u _ h]
  simp [lineLen]

theorem pyLines_skip (one : Bool) (tail : Str → Option Nat) : ∀ (u v : Str) (p : Nat),
    pyLines one tail u.length p (u ++ v) = pyLines one tail 0 p v
  | [], v, p => rfl
  | c :: u, v, p => by
    rw [List.length_cons, List.cons_append, pyLines, pyLines_skip one tail u v p]

/-- A line without the end of the literal is passed. -/
theorem pyLines_pass {one : Bool} {tail : Str → Option Nat} {u v : Str} {p : Nat} (hu : '\n' ∉ u)
    (ht : tail (u ++ ['\n']) = none) (ho : one = true → ∃ w, u = w ++ ['\\']) :
    pyLines one tail 0 p (u ++ '\n' :: v) = pyLines one tail 0 (p + u.length + 1) v := by
  have hne : ∃ c t, u ++ '\n' :: v = c :: t := by cases u <;> simp
  obtain ⟨c, t, hct⟩ := hne
  have hln := take_line_end u v hu
  rw [hct] at hln ⊢
  rw [pyLines]
  simp only [hln, ht]
  rw [if_neg]
  · have : t = (u ++ ['\n']).tail ++ v := by
      have : c :: t = (u ++ ['\n']) ++ v := by rw [← hct]; simp
      cases u with
      | nil => simp at this; simp [this.2]
      | cons d u => simp at this; simp [this.2]
    rw [this, show (u ++ ['\n']).length - 1 = ((u ++ ['\n']).tail).length by simp, pyLines_skip]
    congr 1
    simp; omega
  · cases one with
    | false => simp
    | true =>
      obtain ⟨w, rfl⟩ := ho rfl
      simp

theorem pyLines_found {one : Bool} {tail : Str → Option Nat} {u : Str} {p k : Nat} (hne : u ≠ [])
    (ht : tail (u.take (lineLen u)) = some k) : pyLines one tail 0 p u = .yes (p + k) := by
  cases u with
  | nil => exact absurd rfl hne
  | cons c t => rw [pyLines]; simp only [ht]

/-! ## Long literals -/

theorem py3Tail_end {q : Char} (hq : QuoteMark q) {a : Str} (h : InsideLong q a) (r : Str) (hn : '\n' ∉ a) :
    py3Tail q (a ++ q :: q :: q :: r) = some (a.length + 3) := by
  induction h with
  | nil => rw [List.nil_append, py3Tail.eq_def]; simp
  | @char c s h1 h2 _ ih =>
    rw [List.cons_append, py3Tail.eq_def]
    dsimp only
    rw [if_neg, if_neg h1, ih (fun h => hn (by simp [h]))]
    · rfl
    · rintro ⟨rfl, hp⟩
      rw [List.isPrefixOf_iff_prefix] at hp
      refine h2 rfl ?_
      have hx : s ++ c :: c :: c :: r = (s ++ [c, c, c]) ++ r := by simp
      rw [hx] at hp
      exact List.prefix_of_prefix_length_le hp (List.prefix_append _ _) (by simp)
  | @escape c s _ ih =>
    have hc : c ≠ '\n' := fun hc => hn (by simp [hc])
    rw [List.cons_append, List.cons_append, py3Tail.eq_def]
    dsimp only
    rw [if_neg (by rintro ⟨h, -⟩; exact hq.ne.1 h.symm), if_pos rfl, if_neg hc,
      ih (fun h => hn (by simp [h]))]
    rfl

theorem InsideLong.split {q : Char} (hq : QuoteMark q) {a : Str} (h : InsideLong q a) (hn : '\n' ∈ a) :
    ∃ u v, a = u ++ '\n' :: v ∧ '\n' ∉ u ∧ InsideLong q v ∧ py3Tail q (u ++ ['\n']) = none := by
  induction h with
  | nil => cases hn
  | @char c s h1 h2 hs ih =>
    by_cases hc : c = '\n'
    · subst hc
      refine ⟨[], s, rfl, by simp, hs, ?_⟩
      rw [List.nil_append, py3Tail.eq_def]
      dsimp only
      rw [if_neg (by rintro ⟨h, -⟩; exact hq.ne.2 h.symm), if_neg (by decide)]
      rfl
    · obtain ⟨u, v, rfl, hu, hv, ht⟩ := ih (by simpa [Ne.symm hc] using hn)
      refine ⟨c :: u, v, rfl, by simp [Ne.symm hc, hu], hv, ?_⟩
      rw [List.cons_append, py3Tail.eq_def]
      dsimp only
      rw [if_neg, if_neg h1, ht]
      · rfl
      · rintro ⟨rfl, hp⟩
        rw [List.isPrefixOf_iff_prefix] at hp
        refine h2 rfl (hp.trans ⟨v ++ [c, c, c], by simp⟩)
  | @escape c s hs ih =>
    have hne : ∀ t : Str, ¬ ('\\' = q ∧ [q, q].isPrefixOf t = true) := by rintro t ⟨h, -⟩; exact hq.ne.1 h.symm
    by_cases hc : c = '\n'
    · subst hc
      refine ⟨['\\'], s, rfl, by decide, hs, ?_⟩
      rw [List.cons_append, py3Tail.eq_def]
      dsimp only
      rw [if_neg (hne _), if_pos rfl]
      rfl
    · obtain ⟨u, v, rfl, hu, hv, ht⟩ := ih (by simpa [Ne.symm hc] using hn)
      refine ⟨'\\' :: c :: u, v, rfl, by simp [Ne.symm hc, hu], hv, ?_⟩
      rw [List.cons_append, List.cons_append, py3Tail.eq_def]
      dsimp only
      rw [if_neg (hne _), if_pos rfl, if_neg hc, ht]
      rfl

theorem pyLines_long {q : Char} (hq : QuoteMark q) : ∀ (n : Nat) (a : Str), a.length ≤ n → InsideLong q a → ∀ (p : Nat) (r : Str),
    pyLines false (py3Tail q) 0 p (a ++ q :: q :: q :: r) = .yes (p + a.length + 3)
  | n, a, hle, h, p, r => by
    by_cases hn : '\n' ∈ a
    · obtain ⟨u, v, rfl, hu, hv, ht⟩ := h.split hq hn
      cases n with
      | zero => simp at hle
      | succ n =>
        rw [List.append_assoc, List.cons_append, pyLines_pass hu ht (by simp),
          pyLines_long hq n v (by simp at hle; omega) hv]
        simp; omega
    · have hq2 := hq.ne.2
      have hx : a ++ q :: q :: q :: r = (a ++ [q, q, q]) ++ r := by simp
      rw [pyLines_found (k := a.length + 3) (by simp)]
      · congr 1
      · rw [hx, take_line _ _ (by simp [hn, Ne.symm hq2]), List.append_assoc]
        exact py3Tail_end hq h _ hn

theorem LiteralPrefix.no_line {p : Str} (hp : LiteralPrefix p) : '\n' ∉ p := by
  rcases hp with rfl | ⟨u, rfl | rfl, rfl⟩ | ⟨r, rfl | rfl, rfl⟩ | ⟨u, r, rfl | rfl, rfl | rfl, rfl⟩ <;> decide

/-- A long literal ends at the first three quotation marks in a row. -/
theorem pyStrLen_long {p : Str} {q : Char} {a s : Str} (hp : LiteralPrefix p) (hq : QuoteMark q) (ha : InsideLong q a) :
    pyStrLen (p ++ q :: q :: q :: (a ++ q :: q :: q :: s)) = .yes (p.length + (a.length + 6)) := by
  have hq2 := Ne.symm hq.ne.2
  have hpn : '\n' ∉ p ++ [q, q, q] := by simp [hp.no_line, hq2]
  have e1 : p ++ q :: q :: q :: (a ++ q :: q :: q :: s) = (p ++ [q, q, q]) ++ (a ++ q :: q :: q :: s) := by simp
  unfold pyStrLen
  simp only [pyPrefix_prefix hp hq, List.drop_left]
  rw [if_pos (by rcases hq with rfl | rfl <;> simp), if_pos (by simp), e1]
  by_cases hn : '\n' ∈ a
  · obtain ⟨u, v, rfl, hu, hv, ht⟩ := ha.split hq hn
    have hup : '\n' ∉ (p ++ [q, q, q]) ++ u := by simp [hp.no_line, hq2, hu]
    have e2 : (p ++ [q, q, q]) ++ ((u ++ '\n' :: v) ++ q :: q :: q :: s) =
        ((p ++ [q, q, q]) ++ u) ++ '\n' :: (v ++ q :: q :: q :: s) := by simp
    have e3 : ((p ++ [q, q, q]) ++ u) ++ '\n' :: (v ++ q :: q :: q :: s) =
        ((p ++ [q, q, q]) ++ u ++ ['\n']) ++ (v ++ q :: q :: q :: s) := by simp
    have e4 : ((p ++ [q, q, q]) ++ u ++ ['\n']).drop (p.length + 3) = u ++ ['\n'] := by
      rw [List.append_assoc, List.drop_left' (by simp)]
    rw [e2, take_line_end _ _ hup, e4, ht]
    dsimp only
    rw [e3, pyLines_skip, pyLines_long hq _ v (Nat.le_refl _) hv]
    simp; omega
  · have e3 : a ++ q :: q :: q :: s = (a ++ [q, q, q]) ++ s := by simp
    rw [take_line _ _ hpn, List.drop_left' (by simp), e3, take_line _ _ (by simp [hn, hq2]), List.append_assoc,
      show ([q, q, q] ++ s.take (lineLen s) : Str) = q :: q :: q :: s.take (lineLen s) from rfl,
      py3Tail_end hq ha _ hn]
    simp; omega

/-! ## Literals continued over lines -/

theorem py1Tail_end {q : Char} (hq : QuoteMark q) {b : Str} (h : InsideLines q b) (r : Str) (hn : '\n' ∉ b) :
    py1Tail q (b ++ q :: r) = some (b.length + 1) := by
  induction h with
  | nil => rw [List.nil_append, py1Tail.eq_def]; simp
  | @char c s h1 h2 h3 _ ih =>
    rw [List.cons_append, py1Tail.eq_def]
    dsimp only
    rw [if_neg h1, if_neg h2, ih (fun h => hn (by simp [h]))]
    rfl
  | @escape c s _ ih =>
    have hc : c ≠ '\n' := fun hc => hn (by simp [hc])
    rw [List.cons_append, List.cons_append, py1Tail.eq_def]
    dsimp only
    rw [if_neg (Ne.symm hq.ne.1), if_pos rfl, if_neg hc, ih (fun h => hn (by simp [h]))]
    rfl

theorem InsideLines.split {q : Char} (hq : QuoteMark q) {b : Str} (h : InsideLines q b) (hn : '\n' ∈ b) :
    ∃ u v, b = (u ++ ['\\']) ++ '\n' :: v ∧ '\n' ∉ u ∧ InsideLines q v ∧ py1Tail q ((u ++ ['\\']) ++ ['\n']) = none := by
  induction h with
  | nil => cases hn
  | @char c s h1 h2 h3 hs ih =>
    obtain ⟨u, v, rfl, hu, hv, ht⟩ := ih (by simpa [Ne.symm h3] using hn)
    refine ⟨c :: u, v, rfl, by simp [Ne.symm h3, hu], hv, ?_⟩
    rw [List.cons_append, List.cons_append, py1Tail.eq_def]
    dsimp only
    rw [if_neg h1, if_neg h2, ht]
    rfl
  | @escape c s hs ih =>
    by_cases hc : c = '\n'
    · subst hc
      refine ⟨[], s, rfl, by simp, hs, ?_⟩
      rw [List.nil_append, List.cons_append, py1Tail.eq_def]
      dsimp only
      rw [if_neg (Ne.symm hq.ne.1), if_pos rfl]
      rfl
    · obtain ⟨u, v, rfl, hu, hv, ht⟩ := ih (by simpa [Ne.symm hc] using hn)
      refine ⟨'\\' :: c :: u, v, rfl, by simp [Ne.symm hc, hu], hv, ?_⟩
      rw [List.cons_append, List.cons_append, List.cons_append, List.cons_append, py1Tail.eq_def]
      dsimp only
      rw [if_neg (Ne.symm hq.ne.1), if_pos rfl, if_neg hc, ht]
      rfl

theorem pyLines_lines {q : Char} (hq : QuoteMark q) : ∀ (n : Nat) (b : Str), b.length ≤ n → InsideLines q b → ∀ (p : Nat) (r : Str),
    pyLines true (py1Tail q) 0 p (b ++ q :: r) = .yes (p + b.length + 1)
  | n, b, hle, h, p, r => by
    by_cases hn : '\n' ∈ b
    · obtain ⟨u, v, rfl, hu, hv, ht⟩ := h.split hq hn
      cases n with
      | zero => simp at hle
      | succ n =>
        rw [List.append_assoc, List.cons_append, pyLines_pass (by simp [hu]) ht (fun _ => ⟨u, rfl⟩),
          pyLines_lines hq n v (by simp at hle; omega) hv]
        simp; omega
    · have hx : b ++ q :: r = (b ++ [q]) ++ r := by simp
      rw [pyLines_found (k := b.length + 1) (by simp)]
      · congr 1
      · rw [hx, take_line _ _ (by simp [hn, Ne.symm hq.ne.2]), List.append_assoc]
        exact py1Tail_end hq h _ hn

theorem py1Head_continued {q : Char} (hq : q ≠ '\\') {a : Str} (h : Inside q a) (r : Str) :
    py1Head q (a ++ '\\' :: '\n' :: r) = some (a.length + 2) := by
  induction h with
  | nil => rw [List.nil_append, py1Head.eq_def]; simp [Ne.symm hq]
  | char h1 h2 h3 _ ih =>
    simp only [List.cons_append]
    rw [py1Head.eq_def]
    simp only [if_neg h1, if_neg h3, if_neg h2, ih]
    rfl
  | escape h1 _ ih =>
    simp only [List.cons_append]
    rw [py1Head.eq_def]
    simp only [if_neg hq.symm, if_true, if_neg h1, ih]
    rfl

theorem Inside.no_line {q : Char} {a : Str} (h : Inside q a) : '\n' ∉ a := by
  induction h with
  | nil => simp
  | char _ _ h3 _ ih => simp [Ne.symm h3, ih]
  | escape h1 _ ih => simp [Ne.symm h1, ih]

/-- The first line of a continued literal is passed; the mark looked for in the others depends on the apostrophe. -/
theorem pyStrLen_continued {p : Str} {q : Char} {a t : Str} (hp : LiteralPrefix p) (hq : QuoteMark q) (ha : Inside q a) :
    pyStrLen (p ++ q :: (a ++ '\\' :: '\n' :: t)) =
      pyLines true (py1Tail (if q = '\'' ∨ '\'' ∈ a then '\'' else '"')) 0 (p.length + (a.length + 3)) t := by
  have hq2 := Ne.symm hq.ne.2
  have htr : ¬ [q, q].isPrefixOf (a ++ '\\' :: '\n' :: t) = true := by
    rw [List.isPrefixOf_iff_prefix]
    intro hpp
    cases ha with
    | nil => exact hq.ne.1 (pre_cons.mp hpp).1
    | char h1 _ _ _ => exact h1 (pre_cons.mp hpp).1.symm
    | escape _ _ => exact hq.ne.1 (pre_cons.mp hpp).1
  have htk : (a ++ '\\' :: '\n' :: t).take (a.length + 2) = a ++ ['\\', '\n'] := by
    rw [List.take_append, List.take_of_length_le (by omega), Nat.add_sub_cancel_left]
    rfl
  have e1 : p ++ q :: (a ++ '\\' :: '\n' :: t) = (p ++ q :: (a ++ ['\\'])) ++ '\n' :: t := by simp
  have hl := take_line_end (p ++ q :: (a ++ ['\\'])) t (by simp [hp.no_line, hq2, ha.no_line])
  unfold pyStrLen
  simp only [pyPrefix_prefix hp hq, List.drop_left]
  rw [if_pos (by rcases hq with rfl | rfl <;> simp), if_neg htr, py1Head_continued hq.ne.1 ha t]
  simp only [htk, List.getLast?_append]
  rw [if_pos (by simp), e1, hl]
  have e2 : (p ++ q :: (a ++ ['\\'])) ++ '\n' :: t = ((p ++ q :: (a ++ ['\\'])) ++ ['\n']) ++ t := by simp
  rw [e2, pyLines_skip]
  congr 2
  · congr 1
    simp only [List.mem_cons, List.mem_append, List.not_mem_nil, or_false, eq_iff_iff]
    constructor
    · rintro (h | h | h | h)
      · exact .inl h.symm
      · exact .inr h
      · exact absurd h (by decide)
      · exact absurd h (by decide)
    · rintro (h | h)
      · exact .inl h.symm
      · exact .inr (.inl h)
  · simp <;> omega

theorem ClosingMark.quote {q z : Char} {a : Str} (hq : QuoteMark q) (h : ClosingMark q a z) : QuoteMark z := by
  rcases h with ⟨-, rfl⟩ | ⟨-, rfl⟩
  · exact .inr rfl
  · exact hq

theorem ClosingMark.eq {q z : Char} {a : Str} (hq : QuoteMark q) (h : ClosingMark q a z) :
    (if q = '\'' ∨ '\'' ∈ a then '\'' else '"') = z := by
  rcases h with ⟨h, rfl⟩ | ⟨h, rfl⟩
  · rw [if_pos]
    rcases List.mem_cons.mp h with h | h
    · exact .inl h.symm
    · exact .inr h
  · rw [if_neg]
    · rcases hq with rfl | rfl
      · rfl
      · exact absurd (List.mem_cons_self ..) h
    · rintro (rfl | h')
      · exact h (List.mem_cons_self ..)
      · exact h (List.mem_cons_of_mem _ h')

theorem pyStrLen_lines {p : Str} {q z : Char} {a b s : Str} (hp : LiteralPrefix p) (hq : QuoteMark q) (ha : Inside q a)
    (hz : ClosingMark q a z) (hb : InsideLines z b) :
    pyStrLen (p ++ q :: (a ++ '\\' :: '\n' :: (b ++ z :: s))) = .yes (p.length + (a.length + b.length + 4)) := by
  rw [pyStrLen_continued hp hq ha, hz.eq hq, pyLines_lines (hz.quote hq) _ b (Nat.le_refl _) hb]
  congr 1
  omega

/-! ## Literals without an end -/

theorem py3Tail_inv {q : Char} : ∀ (n : Nat) (s : Str) (k : Nat), s.length ≤ n → py3Tail q s = some k →
    ∃ a r, s = a ++ q :: q :: q :: r ∧ InsideLong q a
  | _, [], _, _, h => by cases h
  | 0, _ :: _, _, hn, _ => by simp at hn
  | n + 1, c :: t, k, hn, h => by
    rw [py3Tail.eq_def] at h
    dsimp only at h
    by_cases h1 : c = q ∧ [q, q].isPrefixOf t = true
    · obtain ⟨rfl, h1⟩ := h1
      obtain ⟨r, rfl⟩ := List.isPrefixOf_iff_prefix.mp h1
      exact ⟨[], r, rfl, .nil⟩
    · rw [if_neg h1] at h
      by_cases h2 : c = '\\'
      · subst h2
        rw [if_pos rfl] at h
        cases t with
        | nil => cases h
        | cons d u =>
          dsimp only at h
          by_cases h3 : d = '\n'
          · rw [if_pos h3] at h; cases h
          · rw [if_neg h3] at h
            obtain ⟨m, hm, -⟩ := Option.map_eq_some_iff.mp h
            obtain ⟨a, r, rfl, ha⟩ := py3Tail_inv n u m (by simp at hn; omega) hm
            exact ⟨'\\' :: d :: a, r, rfl, .escape ha⟩
      · rw [if_neg h2] at h
        obtain ⟨m, hm, -⟩ := Option.map_eq_some_iff.mp h
        obtain ⟨a, r, rfl, ha⟩ := py3Tail_inv n t m (by simp at hn; omega) hm
        refine ⟨c :: a, r, rfl, .char h2 (fun hc hp => h1 ⟨hc, ?_⟩) ha⟩
        rw [List.isPrefixOf_iff_prefix]
        exact hp.trans ⟨r, by simp⟩

/-- A line in which the end was not found belongs to the inside. -/
theorem InsideLong.line {q : Char} (hq : QuoteMark q) {v : Str} (hv : InsideLong q v) : ∀ (n : Nat) (u : Str), u.length ≤ n →
    '\n' ∉ u → py3Tail q (u ++ ['\n']) = none → InsideLong q (u ++ '\n' :: v)
  | _, [], _, _, _ => .char (by decide) (fun h => absurd h.symm hq.ne.2) hv
  | 0, _ :: _, hn, _, _ => by simp at hn
  | n + 1, c :: u, hn, hu, h => by
    have hu1 : '\n' ∉ u := fun h => hu (by simp [h])
    rw [List.cons_append, py3Tail.eq_def] at h
    dsimp only at h
    by_cases h1 : c = q ∧ [q, q].isPrefixOf (u ++ ['\n']) = true
    · rw [if_pos h1] at h; cases h
    · rw [if_neg h1] at h
      by_cases h2 : c = '\\'
      · subst h2
        rw [if_pos rfl] at h
        cases u with
        | nil => exact .escape hv
        | cons d u =>
          have hd : d ≠ '\n' := fun hd => hu1 (by simp [hd])
          simp only [List.cons_append] at h
          rw [if_neg hd] at h
          exact .escape (InsideLong.line hq hv n u (by simp at hn; omega) (fun h => hu1 (by simp [h]))
            (Option.map_eq_none_iff.mp h))
      · rw [if_neg h2] at h
        refine .char h2 (fun hc hp => h1 ⟨hc, ?_⟩)
          (InsideLong.line hq hv n u (by simp at hn; omega) hu1 (Option.map_eq_none_iff.mp h))
        rw [List.isPrefixOf_iff_prefix]
        match u, hp with
        | [], hp =>
          exact absurd (pre_cons.mp (by simpa using hp : [q, q] <+: '\n' :: (v ++ [q, q, q]))).1 hq.ne.2
        | [d], hp =>
          have := (pre_cons.mp (by simpa using hp : [q, q] <+: d :: '\n' :: (v ++ [q, q, q]))).2
          exact absurd (pre_cons.mp this).1 hq.ne.2
        | d :: d' :: u, hp =>
          have hp : [q, q] <+: [d, d'] ++ (u ++ '\n' :: v ++ [q, q, q]) := hp
          have := List.prefix_of_prefix_length_le hp (List.prefix_append _ _) (by simp)
          exact this.trans ⟨u ++ ['\n'], by simp⟩

theorem split_line : ∀ (t : Str), '\n' ∈ t → ∃ u v, t = u ++ '\n' :: v ∧ '\n' ∉ u
  | [], h => by cases h
  | c :: t, h => by
    by_cases hc : c = '\n'
    · exact ⟨[], t, by rw [hc]; rfl, by simp⟩
    · obtain ⟨u, v, rfl, hu⟩ := split_line t (by simpa [Ne.symm hc] using h)
      exact ⟨c :: u, v, rfl, by simp [Ne.symm hc, hu]⟩

theorem pyLines_all (one : Bool) (tail : Str → Option Nat) (p : Nat) (u : Str) :
    pyLines one tail u.length p u = .raises := by
  have := pyLines_skip one tail u [] p
  rw [List.append_nil] at this
  rw [this, pyLines]

/-- If the loop over the lines finds an end, there is one; otherwise it raises. -/
theorem pyLines_ends {q : Char} (hq : QuoteMark q) : ∀ (n : Nat) (t : Str), t.length ≤ n → ∀ p,
    pyLines false (py3Tail q) 0 p t = .raises ∨ ∃ a r, t = a ++ q :: q :: q :: r ∧ InsideLong q a
  | _, [], _, _ => .inl (by rw [pyLines])
  | 0, _ :: _, hn, _ => by simp at hn
  | n + 1, c :: t, hn, p => by
    by_cases hl : '\n' ∈ c :: t
    · obtain ⟨u, v, huv, hu⟩ := split_line _ hl
      rw [huv] at hn ⊢
      cases ht : py3Tail q (u ++ ['\n']) with
      | none =>
        rw [pyLines_pass hu ht (by simp)]
        rcases pyLines_ends hq n v (by simp at hn; omega) (p + u.length + 1) with h | ⟨a, r, rfl, ha⟩
        · exact .inl h
        · exact .inr ⟨u ++ '\n' :: a, r, by simp, ha.line hq _ u (Nat.le_refl _) hu ht⟩
      | some k =>
        obtain ⟨a, r, har, ha⟩ := py3Tail_inv _ _ k (Nat.le_refl _) ht
        exact .inr ⟨a, r ++ v, by rw [show u ++ '\n' :: v = (u ++ ['\n']) ++ v by simp, har]; simp, ha⟩
    · have hln : (c :: t).take (lineLen (c :: t)) = c :: t := by
        have := take_line (c :: t) [] hl
        simpa [lineLen] using this
      cases ht : py3Tail q (c :: t) with
      | none =>
        left
        rw [pyLines]
        simp only [hln, ht, Bool.false_and, Bool.false_eq_true, if_false]
        exact pyLines_all _ _ _ t
      | some k =>
        obtain ⟨a, r, har, ha⟩ := py3Tail_inv _ _ k (Nat.le_refl _) ht
        exact .inr ⟨a, r, har, ha⟩

/-- A long literal without an end. -/
theorem pyStrLen_unended {p : Str} {q : Char} {t : Str} (hp : LiteralPrefix p) (hq : QuoteMark q)
    (h : ∀ a r, InsideLong q a → t ≠ a ++ q :: q :: q :: r) : pyStrLen (p ++ q :: q :: q :: t) = .raises := by
  have hq2 := Ne.symm hq.ne.2
  have hpn : '\n' ∉ p ++ [q, q, q] := by simp [hp.no_line, hq2]
  have e1 : p ++ q :: q :: q :: t = (p ++ [q, q, q]) ++ t := by simp
  unfold pyStrLen
  simp only [pyPrefix_prefix hp hq, List.drop_left]
  rw [if_pos (by rcases hq with rfl | rfl <;> simp), if_pos (by simp), e1]
  by_cases hl : '\n' ∈ t
  · obtain ⟨u, v, rfl, hu⟩ := split_line _ hl
    have hup : '\n' ∉ (p ++ [q, q, q]) ++ u := by simp [hp.no_line, hq2, hu]
    have e3 : (p ++ [q, q, q]) ++ (u ++ '\n' :: v) = ((p ++ [q, q, q]) ++ u) ++ '\n' :: v := by simp
    have e4 : ((p ++ [q, q, q]) ++ u ++ ['\n']).drop (p.length + 3) = u ++ ['\n'] := by
      rw [List.append_assoc, List.drop_left' (by simp)]
    rw [e3, take_line_end _ _ hup, e4]
    cases ht : py3Tail q (u ++ ['\n']) with
    | none =>
      dsimp only
      rw [show ((p ++ [q, q, q]) ++ u) ++ '\n' :: v = ((p ++ [q, q, q]) ++ u ++ ['\n']) ++ v by simp, pyLines_skip]
      rcases pyLines_ends hq _ v (Nat.le_refl _) ((p ++ [q, q, q]) ++ u ++ ['\n']).length with h' | ⟨a, r, rfl, ha⟩
      · exact h'
      · exact absurd (by simp) (h (u ++ '\n' :: a) r (ha.line hq _ u (Nat.le_refl _) hu ht))
    | some k =>
      obtain ⟨a, r, har, ha⟩ := py3Tail_inv _ _ k (Nat.le_refl _) ht
      exact absurd (by rw [show u ++ '\n' :: v = (u ++ ['\n']) ++ v by simp, har]; simp) (h a (r ++ v) ha)
  · have hln : ((p ++ [q, q, q]) ++ t).take (lineLen ((p ++ [q, q, q]) ++ t)) = (p ++ [q, q, q]) ++ t := by
      have := take_line ((p ++ [q, q, q]) ++ t) [] (by simp [hp.no_line, hq2, hl])
      simpa [lineLen] using this
    rw [hln, List.drop_left' (by simp)]
    cases ht : py3Tail q t with
    | none => exact pyLines_all _ _ _ _
    | some k =>
      obtain ⟨a, r, har, ha⟩ := py3Tail_inv _ _ k (Nat.le_refl _) ht
      exact absurd har (h a r ha)

end Yupp
