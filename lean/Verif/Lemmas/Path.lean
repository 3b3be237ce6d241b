import Verif.Model.Shell
/-! # Lemmas about path names and the output name -/

namespace Yupp

theorem splitLast_none {c : Char} {s : Str} : splitLast c s = none ↔ c ∉ s := by
  induction s with
  | nil => simp [splitLast]
  | cons x t ih =>
    simp only [splitLast]
    cases h : splitLast c t with
    | none =>
      have := ih.1 h
      by_cases hx : x = c
      · simp [hx]
      · simp [hx, this, Ne.symm hx]
    | some p =>
      have : ¬ (splitLast c t = none) := by simp [h]
      have : c ∈ t := by
        by_cases hm : c ∈ t
        · exact hm
        · exact absurd (ih.2 hm) this
      simp [this]

theorem splitLast_some {c : Char} {s a b : Str} (h : splitLast c s = some (a, b)) :
    s = a ++ c :: b ∧ c ∉ b := by
  induction s generalizing a b with
  | nil => simp [splitLast] at h
  | cons x t ih =>
    simp only [splitLast] at h
    cases ht : splitLast c t with
    | none =>
      rw [ht] at h
      simp only [] at h
      by_cases hx : x = c
      · simp [hx] at h
        obtain ⟨rfl, rfl⟩ := h
        exact ⟨by simp [hx], splitLast_none.1 ht⟩
      · simp [hx] at h
    | some p =>
      rw [ht] at h
      simp only [Option.some.injEq, Prod.mk.injEq] at h
      obtain ⟨rfl, rfl⟩ := h
      have := ih (a := p.1) (b := p.2) ht
      exact ⟨by simp [← this.1], this.2⟩

theorem splitLast_append {c : Char} {a b : Str} (h : c ∉ b) : splitLast c (a ++ c :: b) = some (a, b) := by
  induction a with
  | nil => simp [splitLast, splitLast_none.2 h]
  | cons x t ih => simp [splitLast, ih]

theorem dirPart_basename (p : Str) : dirPart p ++ basename p = p := by
  unfold dirPart basename
  cases h : splitLast '/' p with
  | none => simp
  | some q =>
    have := (splitLast_some h).1
    simp [← this]

theorem basename_noslash (p : Str) : '/' ∉ basename p := by
  unfold basename
  cases h : splitLast '/' p with
  | none => exact splitLast_none.1 h
  | some q => exact (splitLast_some h).2

/-- A directory part: empty, or it ends with a slash. -/
def IsDir (d : Str) : Prop := d = [] ∨ ∃ a, d = a ++ ['/']

theorem isDir_dirPart (p : Str) : IsDir (dirPart p) := by
  unfold dirPart
  cases h : splitLast '/' p with
  | none => exact .inl rfl
  | some q => exact .inr ⟨q.1, rfl⟩

theorem basename_dir {d b : Str} (hd : IsDir d) (hb : '/' ∉ b) : basename (d ++ b) = b := by
  rcases hd with rfl | ⟨a, rfl⟩
  · simp [basename, splitLast_none.2 hb]
  · have : a ++ ['/'] ++ b = a ++ '/' :: b := by simp
    rw [this]; simp [basename, splitLast_append hb]

theorem dirPart_dir {d b : Str} (hd : IsDir d) (hb : '/' ∉ b) : dirPart (d ++ b) = d := by
  have h := dirPart_basename (d ++ b)
  rw [basename_dir hd hb] at h
  exact List.append_cancel_right h

theorem splitextBase_append (b : Str) : (splitextBase b).1 ++ (splitextBase b).2 = b := by
  unfold splitextBase
  cases h : splitLast '.' b with
  | none => simp
  | some q =>
    obtain ⟨s, e⟩ := q
    have := (splitLast_some h).1
    simp only []
    split
    · simp
    · simp [← this]

theorem splitext_dir {d b : Str} (hd : IsDir d) (hb : '/' ∉ b) :
    splitext (d ++ b) = (d ++ (splitextBase b).1, (splitextBase b).2) := by
  simp [splitext, basename_dir hd hb, dirPart_dir hd hb]

theorem splitextBase_noslash {b : Str} (hb : '/' ∉ b) :
    '/' ∉ (splitextBase b).1 ∧ '/' ∉ (splitextBase b).2 := by
  have h := splitextBase_append b
  rw [← h] at hb
  simpa [not_or] using hb

/-- The extension: empty, or a dot followed by a dot-free text. -/
theorem splitextBase_ext (b : Str) :
    (splitextBase b).2 = [] ∨ ∃ e, (splitextBase b).2 = '.' :: e ∧ '.' ∉ e := by
  unfold splitextBase
  cases h : splitLast '.' b with
  | none => exact .inl rfl
  | some q =>
    obtain ⟨s, e⟩ := q
    simp only []
    split
    · exact .inl rfl
    · exact .inr ⟨e, rfl, (splitLast_some h).2⟩

/-- The name part of the output name. -/
def outBase (b : Str) : Str :=
  let fno := (splitextBase b).1
  let e := (splitextBase b).2
  if e.isEmpty then fno ++ eYugen
  else
    match matchYu e with
    | none => fno ++ eYugen ++ e
    | some (some x) => fno ++ ['.'] ++ x
    | some none => if (splitextBase fno).2.isEmpty then fno ++ eYugen else fno

/-- The directory the output goes to. -/
def outDir (sh : ShellCfg) (fn : Str) : Str :=
  dirPart (if sh.outputDir.isEmpty then fn else pathJoin sh.outputDir (basename fn))

theorem startsWith_slash {b : Str} (hb : '/' ∉ b) : startsWith b ['/'] = false := by
  cases b with
  | nil => simp [startsWith]
  | cons x t =>
    simp only [List.mem_cons, not_or] at hb
    have : ('/' == x) = false := by simpa using hb.1
    simp [startsWith, List.isPrefixOf, this]

theorem pathJoin_dir (a : Str) {b : Str} (hb : '/' ∉ b) : ∃ d, IsDir d ∧ pathJoin a b = d ++ b := by
  unfold pathJoin
  rw [startsWith_slash hb]
  simp only [Bool.false_eq_true, if_false]
  split
  · rename_i h
    simp only [Bool.or_eq_true, List.isEmpty_iff, beq_iff_eq] at h
    rcases h with h | h
    · exact ⟨a, .inl h, rfl⟩
    · obtain ⟨l, hl⟩ := List.getLast?_eq_some_iff.1 h
      exact ⟨a, .inr ⟨l, hl⟩, rfl⟩
  · exact ⟨a ++ ['/'], .inr ⟨a, rfl⟩, by simp⟩

theorem outputFn_eq (sh : ShellCfg) (fn : Str) :
    outputFn sh fn = outDir sh fn ++ outBase (basename fn) := by
  have hb := basename_noslash fn
  obtain ⟨d, hd, hp⟩ : ∃ d, IsDir d ∧
      (if sh.outputDir.isEmpty then fn else pathJoin sh.outputDir (basename fn)) = d ++ basename fn := by
    split
    · exact ⟨dirPart fn, isDir_dirPart fn, (dirPart_basename fn).symm⟩
    · exact pathJoin_dir _ hb
  have hs := splitextBase_noslash hb
  unfold outputFn outDir
  rw [hp, dirPart_dir hd hb]
  simp only [splitext_dir hd hb, splitext_dir hd hs.1, outBase]
  split
  · simp
  · cases matchYu (splitextBase (basename fn)).2 with
    | none => simp
    | some g =>
      cases g with
      | some x => simp
      | none => simp only []; split <;> simp

theorem outDir_isDir (sh : ShellCfg) (fn : Str) : IsDir (outDir sh fn) := isDir_dirPart _

theorem matchYu_some {e x : Str} (h : matchYu e = some (some x)) :
    ∃ y u, e = ['.', y, u, '-'] ++ x ∧ y.toLower = 'y' ∧ u.toLower = 'u' ∧ x ≠ [] := by
  unfold matchYu at h
  split at h
  · split at h
    · rename_i y u rest hyu
      simp only [sameLetter, Bool.and_eq_true, beq_iff_eq] at hyu
      split at h
      · simp at h
      · simp at h
      · simp only [Option.some.injEq] at h
        subst h
        exact ⟨y, u, by simp, hyu.1, hyu.2, by simp⟩
      · simp at h
    · simp at h
  · simp at h

theorem matchYu_none_group {e : Str} (h : matchYu e = some none) :
    ∃ y u, (e = ['.', y, u] ∨ e = ['.', y, u, '\n']) ∧ y.toLower = 'y' ∧ u.toLower = 'u' := by
  unfold matchYu at h
  split at h
  · split at h
    · rename_i y u rest hyu
      simp only [sameLetter, Bool.and_eq_true, beq_iff_eq] at hyu
      split at h
      · exact ⟨y, u, .inl rfl, hyu⟩
      · exact ⟨y, u, .inr rfl, hyu⟩
      · simp at h
      · simp at h
    · simp at h
  · simp at h

theorem outBase_cases (b : Str) :
    (outBase b = b ++ eYugen) ∨
    (∃ s e, b = s ++ '.' :: e ∧ '.' ∉ e ∧ outBase b = s ++ eYugen ++ '.' :: e) ∨
    (∃ s y u x, b = s ++ (['.', y, u, '-'] ++ x) ∧ y.toLower = 'y' ∧ u.toLower = 'u'
      ∧ outBase b = s ++ ['.'] ++ x) ∨
    (∃ s y u t, b = s ++ ['.', y, u] ++ t ∧ (t = [] ∨ t = ['\n']) ∧ y.toLower = 'y' ∧ u.toLower = 'u'
      ∧ (outBase b = s ++ eYugen ∨ outBase b = s)) := by
  have happ := splitextBase_append b
  have hext := splitextBase_ext b
  unfold outBase
  simp only []
  by_cases he : (splitextBase b).2.isEmpty = true
  · left
    rw [if_pos he]
    rw [List.isEmpty_iff.1 he, List.append_nil] at happ
    rw [happ]
  · rw [if_neg he]
    right
    cases hm : matchYu (splitextBase b).2 with
    | none =>
      left
      rcases hext with h | ⟨e, h, hd⟩
      · simp [h] at he
      · exact ⟨(splitextBase b).1, e, by rw [← h, happ], hd, by simp only [h]⟩
    | some g =>
      right
      cases g with
      | some x =>
        left
        obtain ⟨y, u, h, hy, hu, _⟩ := matchYu_some hm
        exact ⟨(splitextBase b).1, y, u, x, by rw [← h, happ], hy, hu, rfl⟩
      | none =>
        right
        obtain ⟨y, u, h, hy, hu⟩ := matchYu_none_group hm
        refine ⟨(splitextBase b).1, y, u, (if (splitextBase b).2 = ['.', y, u] then [] else ['\n']), ?_, ?_, hy, hu, ?_⟩
        · rcases h with h | h
          · rw [if_pos h, List.append_nil, ← h, happ]
          · rw [h, if_neg (by simp), List.append_assoc]
            rw [h] at happ
            exact happ.symm
        · split <;> simp
        · simp only []
          split <;> simp

theorem yugen_noslash : '/' ∉ eYugen := by decide

theorem outBase_noslash {b : Str} (hb : '/' ∉ b) : '/' ∉ outBase b := by
  rcases outBase_cases b with h | ⟨s, e, h1, _, h⟩ | ⟨s, y, u, x, h1, _, _, h⟩ | ⟨s, y, u, t, h1, _, _, _, h⟩
  · simp [h, hb, yugen_noslash]
  · subst h1; simp only [h, List.mem_append, List.mem_cons, not_or] at hb ⊢; simp [yugen_noslash, hb]
  · subst h1; simp only [h, List.mem_append, List.mem_cons, not_or] at hb ⊢; simp [hb]
  · subst h1
    simp only [List.mem_append, List.mem_cons, not_or] at hb
    rcases h with h | h <;> rw [h] <;> simp [yugen_noslash, hb]

theorem basename_outputFn (sh : ShellCfg) (fn : Str) :
    basename (outputFn sh fn) = outBase (basename fn) := by
  rw [outputFn_eq]
  exact basename_dir (outDir_isDir sh fn) (outBase_noslash (basename_noslash fn))

theorem eYugen_length : eYugen.length = 6 := by decide

theorem outBase_ne (b : Str) : outBase b ≠ b := by
  intro heq
  have hl := congrArg List.length heq
  rcases outBase_cases b with h | ⟨s, e, h1, _, h⟩ | ⟨s, y, u, x, h1, _, _, h⟩ | ⟨s, y, u, t, h1, ht, _, _, h⟩
  · rw [h] at hl; simp [eYugen_length] at hl
  · rw [h] at hl; subst h1; simp [eYugen_length] at hl
  · rw [h] at hl; subst h1; simp at hl
  · subst h1
    rcases h with h | h <;> rw [h] at hl <;> rcases ht with rfl | rfl <;> simp [eYugen_length] at hl

theorem splitextBase_dot {s e : Str} (he : '.' ∉ e) :
    splitextBase (s ++ '.' :: e) = if s.all (· == '.') then (s ++ '.' :: e, []) else (s, '.' :: e) := by
  simp [splitextBase, splitLast_append he]

theorem outBase_ordinary {c e : Str} (he : '.' ∉ e) (hm : matchYu ('.' :: e) = none) :
    outBase (c ++ '.' :: e) =
      if c.all (· == '.') then c ++ '.' :: e ++ eYugen else c ++ eYugen ++ '.' :: e := by
  unfold outBase
  rw [splitextBase_dot he]
  split <;> simp [hm]

/-- No file the shell writes for an output has the name of the input. -/
theorem outBase_suffix_ne {b e : Str} (he : '.' ∉ e) (hm : matchYu ('.' :: e) = none) :
    outBase b ++ '.' :: e ≠ b := by
  intro h
  have h2 := outBase_ordinary (c := outBase b) he hm
  rw [h] at h2
  have hl := congrArg List.length h2
  have hb := congrArg List.length h
  split at hl <;> simp [eYugen_length] at hl hb <;> omega

theorem all_dots_append {a b : Str} : (a ++ b).all (· == '.') = (a.all (· == '.') && b.all (· == '.')) := by
  simp

theorem astBase_ne {b : Str} : (splitextBase (outBase b)).1 ++ eAst ≠ b := by
  intro h
  have hA : eAst = '.' :: ['a', 's', 't'] := by decide
  have hY : eYugen = '.' :: ['y', 'u', 'g', 'e', 'n'] := by decide
  have h2 := outBase_ordinary (c := (splitextBase (outBase b)).1) (e := ['a', 's', 't']) (by decide) (by decide)
  rw [← hA, h] at h2
  split at h2
  · have h3 : splitextBase (outBase b) = (b, ['.', 'y', 'u', 'g', 'e', 'n']) := by
      rw [h2, hY, splitextBase_dot (by decide), if_neg]
      rw [← h, all_dots_append]
      simp [hA]
    rw [h3] at h
    have := congrArg List.length h
    simp [hA] at this
  · rename_i hd
    have h3 : splitextBase (outBase b) = ((splitextBase (outBase b)).1 ++ eYugen, ['.', 'a', 's', 't']) := by
      conv => lhs; rw [h2, hA]
      rw [splitextBase_dot (by decide), if_neg]
      rw [all_dots_append]
      simp [hY]
    have := congrArg (fun p => List.length (Prod.fst p)) h3
    simp [eYugen_length] at this

end Yupp
