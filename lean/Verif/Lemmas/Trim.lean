import Verif.Lemmas.Reduce
import Verif.Lemmas.Cells

namespace Yupp
open Spec

theorem commonPrefix_spec (a b : Str) : commonPrefix a b <+: a ∧ commonPrefix a b <+: b ∧
    ∀ m, m <+: a → m <+: b → m <+: commonPrefix a b := by
  induction a generalizing b with
  | nil => simp [commonPrefix]
  | cons x s ih =>
    cases b with
    | nil => simp [commonPrefix]
    | cons y t =>
      by_cases h : x = y
      · subst h
        simp only [commonPrefix, beq_self_eq_true, if_true]
        obtain ⟨h1, h2, h3⟩ := ih t
        refine ⟨by simpa using h1, by simpa using h2, ?_⟩
        intro m hm1 hm2
        cases m with
        | nil => simp
        | cons z m =>
          simp at hm1 hm2 ⊢
          exact ⟨hm1.1, h3 m hm1.2 hm2.2⟩
      · have : (x == y) = false := by simpa using h
        simp only [commonPrefix, this, Bool.false_eq_true, if_false]
        refine ⟨by simp, by simp, ?_⟩
        intro m hm1 hm2
        cases m with
        | nil => simp
        | cons z m =>
          simp at hm1 hm2
          exact absurd (hm1.1.symm.trans hm2.1) h

theorem dedentStep_spec (m i : Str) : ∃ m', dedentStep (some m) i = some m' ∧ m' <+: m ∧ m' <+: i ∧
    ∀ k, k <+: m → k <+: i → k <+: m' := by
  unfold dedentStep
  simp only
  split
  · rename_i h; exact ⟨_, rfl, List.prefix_refl _, List.isPrefixOf_iff_prefix.mp h, fun k h1 _ => h1⟩
  · split
    · rename_i h; exact ⟨_, rfl, List.isPrefixOf_iff_prefix.mp h, List.prefix_refl _, fun k _ h2 => h2⟩
    · have := commonPrefix_spec m i; exact ⟨_, rfl, this.1, this.2.1, this.2.2⟩

theorem dedentFold (is : List Str) : ∀ m, ∃ m', is.foldl dedentStep (some m) = some m' ∧ m' <+: m ∧
    (∀ i ∈ is, m' <+: i) ∧ ∀ k, k <+: m → (∀ i ∈ is, k <+: i) → k <+: m' := by
  induction is with
  | nil => intro m; exact ⟨m, rfl, List.prefix_refl _, by simp, fun k h _ => h⟩
  | cons i is ih =>
    intro m
    obtain ⟨m1, h1, h2, h3, h4⟩ := dedentStep_spec m i
    obtain ⟨m2, g1, g2, g3, g4⟩ := ih m1
    refine ⟨m2, by rw [List.foldl_cons, h1, g1], g2.trans h2, ?_, ?_⟩
    · intro j hj; rcases List.mem_cons.mp hj with rfl | hj
      · exact g2.trans h3
      · exact g3 j hj
    · intro k hk hall
      exact g4 k (h4 k hk (hall i (by simp))) (fun j hj => hall j (List.mem_cons_of_mem _ hj))

theorem prefix_takeWhile {p : Char → Bool} {m l : Str} (hm : ∀ c ∈ m, p c = true) (h : m <+: l) :
    m <+: l.takeWhile p := by
  obtain ⟨t, rfl⟩ := h
  rw [List.takeWhile_append_of_pos hm]
  exact List.prefix_append _ _

theorem takeWhile_all {p : Char → Bool} {l : Str} : ∀ c ∈ l.takeWhile p, p c = true := by
  induction l with
  | nil => simp
  | cons a t ih =>
    intro c hc
    rw [List.takeWhile_cons] at hc
    cases ha : p a
    · simp [ha] at hc
    · simp [ha] at hc
      rcases hc with rfl | hc
      · exact ha
      · exact ih c hc

/-- The lines the margin is computed from. -/
def cleared (ls : List Str) : List Str := ls.map (fun l => if l.all isBlank then [] else l)

theorem any_not_blank (l : Str) : l.any (fun c => !isBlank c) = !l.all isBlank := by
  induction l with
  | nil => rfl
  | cons a t ih => simp only [List.any_cons, List.all_cons, ih]; cases isBlank a <;> simp

theorem mem_dedentIndents (ls : List Str) (i : Str) :
    i ∈ dedentIndents (cleared ls) ↔ ∃ l ∈ ls, l.all isBlank = false ∧ i = l.takeWhile isBlank := by
  unfold dedentIndents cleared
  simp only [List.mem_map, List.mem_filter, any_not_blank]
  constructor
  · rintro ⟨a, ⟨⟨l, hl, rfl⟩, ha⟩, rfl⟩
    cases hb : l.all isBlank
    · simp only [Bool.false_eq_true, if_false]
      exact ⟨l, hl, hb, rfl⟩
    · simp [hb] at ha
  · rintro ⟨l, hl, hb, rfl⟩
    refine ⟨l, ⟨⟨l, hl, ?_⟩, ?_⟩, rfl⟩
    · simp [hb]
    · simp [hb]

theorem blankChar_eq : blankChar = isBlank := rfl

/-- Exact effect of `dedent`. -/
theorem dedent_spec_aux (s : Str) : ∃ m : Str,
    ((∃ l ∈ splitNL s, l.all isBlank = false) → LongestCommonIndent (splitNL s) m) ∧
    (m = [] ∨ ∃ l ∈ splitNL s, l.all isBlank = false) ∧
    dedent s = joinStr ['\n'] ((splitNL s).map (fun l => if l.all isBlank then [] else l.drop m.length)) := by
  unfold dedent
  simp only
  have hcl : (splitNL s).map (fun l => if l.all isBlank then [] else l) = cleared (splitNL s) := rfl
  rw [hcl]
  cases hd : dedentIndents (cleared (splitNL s)) with
  | nil =>
    have hno : ¬ ∃ l ∈ splitNL s, l.all isBlank = false := by
      rintro ⟨l, hl, hb⟩
      have := (mem_dedentIndents (splitNL s) _).mpr ⟨l, hl, hb, rfl⟩
      rw [hd] at this; simp at this
    refine ⟨[], fun h => absurd h hno, Or.inl rfl, ?_⟩
    simp [cleared]
  | cons i is =>
    obtain ⟨m, h1, h2, h3, h4⟩ := dedentFold is i
    have hf : (i :: is).foldl dedentStep none = some m := by
      rw [List.foldl_cons]; exact h1
    rw [hf]
    have hpre : ∀ l ∈ splitNL s, l.all isBlank = false → m <+: l.takeWhile isBlank := by
      intro l hl hb
      have := (mem_dedentIndents (splitNL s) _).mpr ⟨l, hl, hb, rfl⟩
      rw [hd] at this
      rcases List.mem_cons.mp this with h | h
      · rw [h]; exact h2
      · exact h3 _ h
    obtain ⟨l0, hl0, hb0, hi0⟩ := (mem_dedentIndents (splitNL s) i).mp (by rw [hd]; simp)
    refine ⟨m, fun _ => ⟨⟨?_, ?_⟩, ?_⟩, Or.inr ⟨l0, hl0, hb0⟩, ?_⟩
    · intro c hc
      exact takeWhile_all c ((hpre l0 hl0 hb0).subset hc)
    · intro l hl hb
      exact (hpre l hl hb).trans (List.takeWhile_prefix _)
    · rintro m' ⟨hb', hall⟩
      have key : ∀ j ∈ i :: is, m' <+: j := by
        intro j hj
        rw [← hd] at hj
        obtain ⟨l, hl, hb, rfl⟩ := (mem_dedentIndents (splitNL s) j).mp hj
        exact prefix_takeWhile hb' (hall l hl hb)
      exact h4 m' (key i (by simp)) (fun j hj => key j (List.mem_cons_of_mem _ hj))
    · simp only [cleared, List.map_map]
      refine congrArg _ ?_
      apply List.map_congr_left
      intro l hl
      simp only [Function.comp]
      by_cases hb : l.all isBlank = true
      · rw [if_pos hb, if_pos hb]; simp
      · rw [if_neg hb, if_neg hb]
        rw [if_pos (List.isPrefixOf_iff_prefix.mpr
          ((hpre l hl (by simpa using hb)).trans (List.takeWhile_prefix _)))]

/-- Exact effect of `dedent`. -/
theorem dedent_spec (s : Str) : ∃ m : Str,
    ((∃ l ∈ splitNL s, l.all blankChar = false) → LongestCommonIndent (splitNL s) m) ∧
    (m = [] ∨ ∃ l ∈ splitNL s, l.all blankChar = false) ∧
    dedent s = joinStr ['\n'] ((splitNL s).map (fun l => if l.all blankChar then [] else l.drop m.length)) :=
  dedent_spec_aux s

/-- Indents of the lines the browse trimmer looks at. -/
theorem foldl_filterMap_cut (lns : List Str) : ∀ st, lns.foldl cutStep st
    = ((lns.filter (fun l => !emptyLine l)).foldl cutStep st) := by
  induction lns with
  | nil => intro st; rfl
  | cons l lns ih =>
    intro st
    rw [List.foldl_cons, List.filter_cons]
    cases h : emptyLine l
    · simp only [Bool.not_false, if_true, List.foldl_cons]; exact ih _
    · have : cutStep st l = st := by simp [cutStep, h]
      simp only [Bool.not_true, Bool.false_eq_true, if_false, this]; exact ih _

/-- `cutStep` by indents. -/
def cutI (st : Option Str) (i : Str) : Option Str :=
  match st with
  | none => none
  | some c =>
    if i.isEmpty then none
    else if c.isEmpty then some i
    else if c.isPrefixOf i then some c
    else if i.isPrefixOf c then some i
    else none

theorem cutLen_eq (lns : List Str) : lns.foldl cutStep (some [])
    = ((lns.filter (fun l => !emptyLine l)).map (·.takeWhile isBlank)).foldl cutI (some []) := by
  rw [foldl_filterMap_cut, List.foldl_map]
  have : ∀ (ls : List Str), (∀ l ∈ ls, emptyLine l = false) → ∀ st, ls.foldl cutStep st
      = ls.foldl (fun x y => cutI x (y.takeWhile isBlank)) st := by
    intro ls
    induction ls with
    | nil => intros; rfl
    | cons l ls ih =>
      intro h st
      simp only [List.foldl_cons]
      rw [ih (fun l hl => h l (List.mem_cons_of_mem _ hl))]
      congr 1
      unfold cutStep
      rw [h l (by simp)]
      rfl
  apply this
  intro l hl
  simpa using (List.mem_filter.mp hl).2

/-- When the indents are nested, both trimmers find the same. -/
theorem cut_eq_dedent (is : List Str) : ∀ (c : Option Str) (m : Option Str) (seen : List Str),
    (∀ a ∈ seen ++ is, ∀ b ∈ seen ++ is, a <+: b ∨ b <+: a) →
    ((m = none ∧ c = some []) ∨ (∃ x, x ∈ seen ∧ m = some x ∧ x ≠ [] ∧ c = some x) ∨ (m = some [] ∧ c = none)) →
    ((is.foldl dedentStep m = none ∧ is.foldl cutI c = some []) ∨
      (∃ x, is.foldl dedentStep m = some x ∧ x ≠ [] ∧ is.foldl cutI c = some x) ∨
      (is.foldl dedentStep m = some [] ∧ is.foldl cutI c = none)) := by
  induction is with
  | nil =>
    intro c m seen _ h
    rcases h with h | ⟨x, _, h⟩ | h
    · exact Or.inl h
    · exact Or.inr (Or.inl ⟨x, h⟩)
    · exact Or.inr (Or.inr h)
  | cons i is ih =>
    intro c m seen hch h
    simp only [List.foldl_cons]
    apply ih _ _ (seen ++ [i]) (by simpa using hch)
    rcases h with ⟨rfl, rfl⟩ | ⟨x, hx, rfl, hne, rfl⟩ | ⟨rfl, rfl⟩
    · simp only [dedentStep, cutI, List.isEmpty_nil, if_true]
      cases i with
      | nil => exact Or.inr (Or.inr ⟨rfl, rfl⟩)
      | cons a t => exact Or.inr (Or.inl ⟨a :: t, by simp, rfl, by simp, rfl⟩)
    · simp only [dedentStep, cutI]
      have hxe : x.isEmpty = false := by cases x <;> simp_all
      cases i with
      | nil =>
        have h1 : List.isPrefixOf x [] = false := by cases x <;> simp_all
        simp only [h1]
        exact Or.inr (Or.inr ⟨by simp, rfl⟩)
      | cons a t =>
        simp only [hxe, List.isEmpty_cons, Bool.false_eq_true, if_false]
        by_cases h1 : x.isPrefixOf (a :: t) = true
        · rw [if_pos h1, if_pos h1]
          exact Or.inr (Or.inl ⟨x, by simp [hx], rfl, hne, rfl⟩)
        · have h2 : (a :: t).isPrefixOf x = true := by
            rcases hch x (by simp [hx]) (a :: t) (by simp) with h | h
            · exact absurd (List.isPrefixOf_iff_prefix.mpr h) h1
            · exact List.isPrefixOf_iff_prefix.mpr h
          rw [if_neg h1, if_neg h1, if_pos h2, if_pos h2]
          exact Or.inr (Or.inl ⟨a :: t, by simp, rfl, by simp, rfl⟩)
    · simp [dedentStep, cutI]

/-- Length of the removed prefix, from the margin. -/
theorem cutLen_of_margin (is : List Str) (hch : ∀ a ∈ is, ∀ b ∈ is, a <+: b ∨ b <+: a) :
    (match is.foldl cutI (some []) with | some c => c.length | none => 0)
      = (match is.foldl dedentStep none with | some m => m.length | none => 0) := by
  rcases cut_eq_dedent is (some []) none [] (by simpa using hch) (Or.inl ⟨rfl, rfl⟩) with
    ⟨h1, h2⟩ | ⟨x, h1, _, h2⟩ | ⟨h1, h2⟩ <;> rw [h1, h2] <;> rfl

/-- A text of complete lines `bs` and an incomplete last line. -/
def ofLines (bs : List Str) (last : Str) : Str := (bs.map (· ++ ['\n'])).flatten ++ last

theorem splitNL_noNL (l : Str) (h : ∀ c ∈ l, c ≠ '\n') : splitNL l = [l] := by
  induction l with
  | nil => rfl
  | cons a t ih =>
    have ha := h a (by simp)
    have : (a == '\n') = false := by simpa using ha
    simp [splitNL, this, ih (fun c hc => h c (List.mem_cons_of_mem _ hc))]

theorem splitNL_line (b : Str) (h : ∀ c ∈ b, c ≠ '\n') (t : Str) : splitNL (b ++ '\n' :: t) = b :: splitNL t := by
  induction b with
  | nil => simp [splitNL]
  | cons a b ih =>
    have : (a == '\n') = false := by simpa using h a (by simp)
    simp [splitNL, this, ih (fun c hc => h c (List.mem_cons_of_mem _ hc))]

theorem nb_ne {c : Char} (h : isLineBreak c = false) : c ≠ '\n' := by
  rintro rfl; exact absurd h (by decide)

theorem splitNL_ofLines (bs : List Str) (last : Str) (h1 : ∀ b ∈ bs, ∀ c ∈ b, isLineBreak c = false)
    (h2 : ∀ c ∈ last, isLineBreak c = false) : splitNL (ofLines bs last) = bs ++ [last] := by
  induction bs with
  | nil => simpa [ofLines] using splitNL_noNL last (fun c hc => nb_ne (h2 c hc))
  | cons b bs ih =>
    have : ofLines (b :: bs) last = b ++ '\n' :: ofLines bs last := by simp [ofLines]
    rw [this, splitNL_line b (fun c hc => nb_ne (h1 b (by simp) c hc)),
      ih (fun b hb => h1 b (List.mem_cons_of_mem _ hb))]
    rfl

theorem splitKeep_noBreak (l : Str) (h : ∀ c ∈ l, isLineBreak c = false) (hne : l ≠ []) : splitKeep l = [l] := by
  induction l with
  | nil => exact absurd rfl hne
  | cons a t ih =>
    have ha := h a (by simp)
    have hr : a ≠ '\r' := by rintro rfl; exact absurd ha (by decide)
    rw [splitKeep]
    · rw [if_neg (by simp [ha])]
      cases t with
      | nil => simp [splitKeep]
      | cons b t => rw [ih (fun c hc => h c (List.mem_cons_of_mem _ hc)) (by simp)]
    · intro t' hh; exact absurd hh hr

/-- the last line, if there is one -/
def lastLine (l : Str) : List Str := if l.isEmpty then [] else [l]

theorem splitKeep_ofLines (bs : List Str) (last : Str) (h1 : ∀ b ∈ bs, ∀ c ∈ b, isLineBreak c = false)
    (h2 : ∀ c ∈ last, isLineBreak c = false) :
    splitKeep (ofLines bs last) = bs.map (· ++ ['\n']) ++ lastLine last := by
  induction bs with
  | nil =>
    cases last with
    | nil => rfl
    | cons a t => simpa [ofLines, lastLine] using splitKeep_noBreak (a :: t) h2 (by simp)
  | cons b bs ih =>
    have : ofLines (b :: bs) last = b ++ '\n' :: ofLines bs last := by simp [ofLines]
    rw [this, splitKeep_line b (h1 b (by simp)), ih (fun b hb => h1 b (List.mem_cons_of_mem _ hb))]
    rfl

theorem exists_ofLines (s : Str) (h : ∀ c ∈ s, isLineBreak c = true → c = '\n') :
    ∃ bs last, s = ofLines bs last ∧ (∀ b ∈ bs, ∀ c ∈ b, isLineBreak c = false) ∧
      (∀ c ∈ last, isLineBreak c = false) := by
  induction s with
  | nil => exact ⟨[], [], rfl, by simp, by simp⟩
  | cons a t ih =>
    obtain ⟨bs, last, rfl, h1, h2⟩ := ih (fun c hc => h c (List.mem_cons_of_mem _ hc))
    cases ha : isLineBreak a
    · cases bs with
      | nil =>
        refine ⟨[], a :: last, by simp [ofLines], by simp, ?_⟩
        intro c hc; rcases List.mem_cons.mp hc with rfl | hc
        · exact ha
        · exact h2 c hc
      | cons b bs =>
        refine ⟨(a :: b) :: bs, last, by simp [ofLines], ?_, h2⟩
        intro b' hb' c hc
        rcases List.mem_cons.mp hb' with rfl | hb'
        · rcases List.mem_cons.mp hc with rfl | hc
          · exact ha
          · exact h1 b (by simp) c hc
        · exact h1 b' (List.mem_cons_of_mem _ hb') c hc
    · have := h a (by simp) ha
      subst this
      refine ⟨[] :: bs, last, by simp [ofLines], ?_, h2⟩
      intro b' hb' c hc
      rcases List.mem_cons.mp hb' with rfl | hb'
      · simp at hc
      · exact h1 b' hb' c hc

theorem join_ofLines (bs : List Str) (last : Str) : joinStr ['\n'] (bs ++ [last]) = ofLines bs last := by
  induction bs with
  | nil => simp [joinStr, ofLines]
  | cons b bs ih =>
    cases bs with
    | nil => simp [joinStr, ofLines]
    | cons c bs =>
      have : joinStr ['\n'] (b :: c :: bs ++ [last]) = b ++ ['\n'] ++ joinStr ['\n'] (c :: bs ++ [last]) := rfl
      rw [this, ih]; simp [ofLines]

theorem joinStr_eq (sep : Str) (l : Str) (ls : List Str) :
    joinStr sep (l :: ls) = l ++ (ls.map (sep ++ ·)).flatten := by
  induction ls generalizing l with
  | nil => simp [joinStr]
  | cons m ls ih => simp only [joinStr, ih]; simp

theorem trimLines_nonempty (c : Nat) (indent : Str) (lns : List Str) (h : ∀ l ∈ lns, emptyLine l = false) :
    trimLines c indent false lns = (lns.map (fun l => indent ++ l.drop c)).flatten := by
  induction lns with
  | nil => rfl
  | cons l lns ih =>
    simp only [trimLines, trimLine, h l (by simp), List.map_cons, List.flatten_cons]
    rw [ih (fun l hl => h l (List.mem_cons_of_mem _ hl))]
    simp

theorem trimLines_join (c : Nat) (indent : Str) (lns : List Str) (h : ∀ l ∈ lns, emptyLine l = false) :
    trimLines c indent true lns = joinStr indent (lns.map (·.drop c)) := by
  cases lns with
  | nil => rfl
  | cons l lns =>
    rw [List.map_cons, joinStr_eq]
    simp only [trimLines, trimLine, h l (by simp)]
    rw [trimLines_nonempty c indent lns (fun l hl => h l (List.mem_cons_of_mem _ hl))]
    simp [List.map_map, Function.comp_def]

theorem takeWhile_concat_nl (b : Str) : (b ++ ['\n']).takeWhile isBlank = b.takeWhile isBlank := by
  induction b with
  | nil => rfl
  | cons a t ih =>
    rw [List.cons_append, List.takeWhile_cons, List.takeWhile_cons]
    cases isBlank a <;> simp [ih]

theorem emptyLine_concat (b : Str) : emptyLine (b ++ ['\n']) = b.all isBlank := by
  induction b with
  | nil => rfl
  | cons a t ih =>
    unfold emptyLine spaceSplit at ih ⊢
    simp only [List.cons_append, List.dropWhile_cons, List.all_cons]
    cases ha : isBlank a
    · simp
    · simpa using ih

theorem emptyLine_noNL (l : Str) (h : ∀ c ∈ l, isLineBreak c = false) : emptyLine l = false := by
  unfold emptyLine spaceSplit
  cases hd : l.dropWhile isBlank with
  | nil => rfl
  | cons a t =>
    have : a ∈ l := (List.dropWhile_sublist _).subset (by rw [hd]; simp)
    have := nb_ne (h a this)
    simp only [beq_eq_false_iff_ne, ne_eq, List.cons.injEq, not_and]
    intro h; exact absurd h this

end Yupp
