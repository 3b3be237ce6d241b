import Verif.Base.Dedent
import Verif.Model.Final

namespace Yupp

theorem splitKeep_flatten (s : Str) : (splitKeep s).flatten = s := by
  fun_induction splitKeep s with
  | case1 => rfl
  | case2 t ih => simp [ih]
  | case3 c t _ h ih => simp [ih]
  | case4 c t _ h hl ih => rw [hl] at ih; simp at ih; simp [ih]
  | case5 c t _ h l ls hl ih => rw [hl] at ih; simpa using ih

theorem splitKeep_ne_nil (s : Str) : ∀ l ∈ splitKeep s, l ≠ [] := by
  fun_induction splitKeep s with
  | case1 => simp
  | case2 t ih => intro l hl; rcases List.mem_cons.mp hl with rfl | h; simp; exact ih l h
  | case3 c t _ h ih => intro l hl; rcases List.mem_cons.mp hl with rfl | h; simp; exact ih l h
  | case4 c t _ h hl ih => simp
  | case5 c t _ h l ls hl ih =>
    intro m hm
    rcases List.mem_cons.mp hm with rfl | h
    · simp
    · exact ih m (by rw [hl]; exact List.mem_cons_of_mem _ h)

theorem splitKeep_eq_nil {s : Str} (h : splitKeep s = []) : s = [] := by
  have := splitKeep_flatten s; rw [h] at this; simpa using this.symm

/-- A line as made by `splitlines(True)`: no break inside, and a break (or CR LF) at the end if
    `brk`. -/
def IsLine (brk : Bool) (l : Str) : Prop :=
  ∃ b e, l = b ++ e ∧ (∀ c ∈ b, isLineBreak c = false) ∧
    (if brk then (e = ['\r', '\n'] ∨ ∃ c, e = [c] ∧ isLineBreak c = true) else (e = [] ∧ b ≠ []))

/-- All lines but the last have a break; the last one may have. -/
def LinesOK : List Str → Prop
  | [] => True
  | [l] => IsLine true l ∨ IsLine false l
  | l :: m :: r => IsLine true l ∧ LinesOK (m :: r)

theorem splitKeep_ok (s : Str) : LinesOK (splitKeep s) := by
  fun_induction splitKeep s with
  | case1 => trivial
  | case2 t ih =>
    have : IsLine true ['\r', '\n'] := ⟨[], ['\r', '\n'], rfl, by simp, by simp⟩
    cases hs : splitKeep t with
    | nil => exact Or.inl this
    | cons a b => rw [hs] at ih; exact ⟨this, ih⟩
  | case3 c t _ h ih =>
    have : IsLine true [c] := ⟨[], [c], rfl, by simp, by simpa using h⟩
    cases hs : splitKeep t with
    | nil => exact Or.inl this
    | cons a b => rw [hs] at ih; exact ⟨this, ih⟩
  | case4 c t _ h hl ih =>
    refine Or.inr ⟨[c], [], rfl, by simpa using h, by simp⟩
  | case5 c t _ h l ls hl ih =>
    have ext : ∀ b, IsLine b l → IsLine b (c :: l) := by
      rintro b ⟨x, e, rfl, h1, h2⟩
      refine ⟨c :: x, e, rfl, ?_, ?_⟩
      · intro d hd; rcases List.mem_cons.mp hd with rfl | hd
        · simpa using h
        · exact h1 d hd
      · cases b
        · simp at h2 ⊢; exact h2.1
        · exact h2
    rw [hl] at ih
    cases ls with
    | nil =>
      rcases ih with ih | ih
      · exact Or.inl (ext _ ih)
      · exact Or.inr (ext _ ih)
    | cons a b => exact ⟨ext _ ih.1, ih.2⟩

theorem isBlank_not_break {c : Char} (h : isBlank c = true) : isLineBreak c = false := by
  simp [isBlank] at h
  rcases h with rfl | rfl <;> rfl

theorem blank_lt_of_isLine {l : Str} (h : IsLine true l) : (l.takeWhile isBlank).length < l.length := by
  obtain ⟨b, e, rfl, _, h2⟩ := h
  have hex : ∃ c ∈ b ++ e, isBlank c = false := by
    simp only [if_true] at h2
    rcases h2 with rfl | ⟨c, rfl, hc⟩
    · exact ⟨'\r', by simp, rfl⟩
    · refine ⟨c, by simp, ?_⟩
      cases hb : isBlank c
      · rfl
      · rw [isBlank_not_break hb] at hc; cases hc
  revert hex
  generalize b ++ e = l
  intro hex
  induction l with
  | nil => obtain ⟨c, hc, _⟩ := hex; simp at hc
  | cons a t ih =>
    simp only [List.takeWhile_cons]
    cases ha : isBlank a
    · simp
    · simp only [if_true, List.length_cons]
      obtain ⟨c, hc, hc'⟩ := hex
      rcases List.mem_cons.mp hc with rfl | hc
      · rw [ha] at hc'; cases hc'
      · have := ih ⟨c, hc, hc'⟩; omega

theorem takeWhile_le (p : Char → Bool) (l : Str) : (l.takeWhile p).length ≤ l.length :=
  (List.takeWhile_prefix p).length_le

/-- Effect of the shared-indent loop. -/
theorem cutFold (lns : List Str) : ∀ st : Option Str,
    (∀ l ∈ lns, emptyLine l = false → ∀ c, lns.foldl cutStep st = some c → c <+: l.takeWhile isBlank)
    ∧ (∀ c c0, st = some c0 → c0 ≠ [] → lns.foldl cutStep st = some c → c <+: c0 ∧ c ≠ [])
    ∧ (st = none → lns.foldl cutStep st = none) := by
  induction lns with
  | nil =>
    intro st
    refine ⟨by simp, ?_, by simp⟩
    rintro c c0 rfl hne h
    simp at h; subst h; exact ⟨List.prefix_refl _, hne⟩
  | cons a t ih =>
    intro st
    simp only [List.foldl_cons]
    have ih' := ih (cutStep st a)
    by_cases ha : emptyLine a = true
    · have hst : cutStep st a = st := by simp [cutStep, ha]
      rw [hst] at ih' ⊢
      refine ⟨?_, ih'.2.1, ih'.2.2⟩
      intro l hl hne
      rcases List.mem_cons.mp hl with rfl | hl
      · rw [ha] at hne; cases hne
      · exact ih'.1 l hl hne
    · have ha' : emptyLine a = false := by simpa using ha
      cases st with
      | none =>
        have hst : cutStep none a = none := by simp [cutStep, ha']
        rw [hst] at ih' ⊢
        refine ⟨?_, by simp, fun _ => ih'.2.2 rfl⟩
        intro l hl hne c hc
        rw [ih'.2.2 rfl] at hc; cases hc
      | some c1 =>
        -- what the step does
        have hstep : cutStep (some c1) a = none ∨
            ∃ c2, cutStep (some c1) a = some c2 ∧ c2 ≠ [] ∧ c2 <+: a.takeWhile isBlank ∧ (c1 ≠ [] → c2 <+: c1) := by
          have hu : cutStep (some c1) a =
              (if (a.takeWhile isBlank).isEmpty then none
               else if c1.isEmpty then some (a.takeWhile isBlank)
               else if c1.isPrefixOf (a.takeWhile isBlank) then some c1
               else if (a.takeWhile isBlank).isPrefixOf c1 then some (a.takeWhile isBlank)
               else none) := by
            unfold cutStep; rw [if_neg ha]; rfl
          rw [hu]
          split
          · left; rfl
          · rename_i h1
            have h1' : a.takeWhile isBlank ≠ [] := by simpa using h1
            split
            · rename_i h2
              exact Or.inr ⟨_, rfl, h1', List.prefix_refl _, fun h => absurd (by simpa using h2) h⟩
            · rename_i h2
              have h2' : c1 ≠ [] := by simpa using h2
              split
              · rename_i h3
                exact Or.inr ⟨_, rfl, h2', List.isPrefixOf_iff_prefix.mp h3, fun _ => List.prefix_refl _⟩
              · split
                · rename_i h4
                  exact Or.inr ⟨_, rfl, h1', List.prefix_refl _, fun _ => List.isPrefixOf_iff_prefix.mp h4⟩
                · left; rfl
        rcases hstep with hst | ⟨c2, hst, hne2, hpre, himp⟩
        · rw [hst] at ih' ⊢
          have hn := ih'.2.2 rfl
          refine ⟨?_, ?_, by simp⟩
          · intro l _ _ c hc; rw [hn] at hc; cases hc
          · intro c c0 _ _ hc; rw [hn] at hc; cases hc
        · rw [hst] at ih' ⊢
          refine ⟨?_, ?_, by simp⟩
          · intro l hl hne c hc
            have hcc := ih'.2.1 c c2 rfl hne2 hc
            rcases List.mem_cons.mp hl with rfl | hl
            · exact hcc.1.trans hpre
            · exact ih'.1 l hl hne c hc
          · intro c c0 hc0 hne hc
            have hcc := ih'.2.1 c c2 rfl hne2 hc
            cases hc0
            exact ⟨hcc.1.trans (himp hne), hcc.2⟩

theorem cutLen_le (lns : List Str) (l : Str) (hl : l ∈ lns) (h : emptyLine l = false) :
    cutLen lns ≤ (l.takeWhile isBlank).length := by
  unfold cutLen
  cases hf : lns.foldl cutStep (some []) with
  | none => simp
  | some c => exact ((cutFold lns (some [])).1 l hl h c hf).length_le

end Yupp
