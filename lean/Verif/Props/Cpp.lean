import Verif.Spec.Cpp
import Verif.Props.Undef
/-!
# C109 — A header may be included any number of times
-/

namespace Yupp
open Spec

theorem cLines_ne_nil (t : Str) : cLines t ≠ [] := by
  unfold cLines
  split
  · simp
  · split
    · simp
    · split <;> simp

theorem cLines_line {l : Str} (t : Str) (hl : '\n' ∉ l) : cLines (l ++ '\n' :: t) = l :: cLines t := by
  induction l with
  | nil => simp [cLines]
  | cons c l ih =>
    simp only [List.mem_cons, not_or] at hl
    rw [List.cons_append, cLines, if_neg (fun h => hl.1 h.symm), ih hl.2]

theorem cpp_line (cond : Str → Bool) (s : Cpp) {l : Str} (t : Str) (hl : '\n' ∉ l) :
    cpp cond s (l ++ '\n' :: t) = cpp cond (cppLine cond s l) t := by
  unfold cpp
  rw [cLines_line t hl, List.foldl_cons]

theorem cpp_empty (cond : Str → Bool) (s : Cpp) : cpp cond s [] = s := by
  simp [cpp, cLines, cppLine, dirName, lit]

theorem split_break : ∀ (a : Str), '\n' ∉ a ∨ ∃ l r, a = l ++ '\n' :: r ∧ '\n' ∉ l
  | [] => .inl (by simp)
  | c :: a => by
    by_cases hc : c = '\n'
    · exact .inr ⟨[], a, by simp [hc], by simp⟩
    · rcases split_break a with h | ⟨l, r, rfl, h⟩
      · exact .inl (by simp [h, Ne.symm hc])
      · exact .inr ⟨c :: l, r, by simp, by simp [h, Ne.symm hc]⟩

/-- A text of whole lines and what follows. -/
theorem cpp_append (cond : Str → Bool) (s : Cpp) {a : Str} (t : Str) (ha : a = [] ∨ ∃ x, a = x ++ ['\n']) :
    cpp cond s (a ++ t) = cpp cond (cpp cond s a) t := by
  rcases ha with rfl | ⟨x, rfl⟩
  · rw [cpp_empty]; rfl
  · induction h : x.length using Nat.strongRecOn generalizing x s with
    | ind k ih =>
      subst h
      rcases split_break x with h | ⟨l, r, rfl, h⟩
      · rw [List.append_assoc, List.singleton_append, cpp_line _ _ _ h, cpp_line _ _ _ h, cpp_empty]
      · have e1 : l ++ '\n' :: r ++ ['\n'] ++ t = l ++ '\n' :: (r ++ ['\n'] ++ t) := by simp
        have e2 : l ++ '\n' :: r ++ ['\n'] = l ++ '\n' :: (r ++ ['\n']) := by simp
        rw [e1, e2, cpp_line _ _ _ h, cpp_line _ _ _ h]
        exact ih r.length (by simp; omega) _ r rfl

/-- What a line does. -/
inductive Act where
  | cond | els | fin | direct (suf : Str) | skip | bad

def wordAct (w : Str) : Act :=
  if dirName w = lit "#ifdef" ∨ dirName w = lit "#ifndef" ∨ dirName w = lit "#if" then .cond
  else if dirName w = lit "#else" then .els
  else if dirName w = lit "#endif" then .fin
  else if dirName w = lit "#define" ∨ dirName w = lit "#undef" then .bad
  else .skip

def lineAct : HLine → Act
  | .direct suf _ => .direct suf
  | .named w _ => if ' ' ∈ w then wordAct w else .bad
  | .other w => wordAct w

/-- The definitions and the open conditionals, for the values of the conditions. -/
def actRun : List Act → List Bool → List Bool → List Str → Option (List Str × List Bool)
  | [], [], st, ds => some (ds, st)
  | .cond :: as, b :: bs, st, ds => actRun as bs (b :: st) ds
  | .els :: as, bs, b :: st, ds => actRun as bs ((!b) :: st) ds
  | .fin :: as, bs, _ :: st, ds => actRun as bs st ds
  | .direct suf :: as, bs, st, ds => actRun as bs st (if st.all id then suf :: ds else ds)
  | .skip :: as, bs, st, ds => actRun as bs st ds
  | _, _, _, _ => none

theorem dirName_append {w : Str} (y : Str) (h : ' ' ∈ w) : dirName (w ++ y) = dirName w := by
  unfold dirName
  induction w with
  | nil => cases h
  | cons c w ih =>
    by_cases hc : c = ' '
    · simp [hc]
    · have : ' ' ∈ w := by simpa [Ne.symm hc] using h
      rw [List.cons_append, List.takeWhile_cons, List.takeWhile_cons, ih this]

/-- A line that is no definition. -/
theorem cppLine_word (cond : Str → Bool) (s : Cpp) {w l : Str} (h : dirName l = dirName w) :
    match wordAct w with
    | .cond => ∃ b, cppLine cond s l = { s with taken := b :: s.taken }
    | .els => ∀ b bs, s.taken = b :: bs → cppLine cond s l = { s with taken := (!b) :: bs }
    | .fin => cppLine cond s l = { s with taken := s.taken.tail }
    | .skip => cppLine cond s l = s
    | .direct _ | .bad => True := by
  unfold wordAct cppLine
  rw [h]
  split
  · rename_i h1
    split at h1
    · rename_i h2
      rcases h2 with h2 | h2 | h2 <;> rw [h2]
      · exact ⟨_, if_pos rfl⟩
      · exact ⟨_, by rw [if_neg (by decide), if_pos rfl]⟩
      · exact ⟨_, by rw [if_neg (by decide), if_neg (by decide), if_pos rfl]⟩
    · (repeat' split at h1) <;> cases h1
  · rename_i h1
    intro b bs hb
    split at h1
    · cases h1
    · split at h1
      · rename_i h2
        rw [h2, if_neg (by decide), if_neg (by decide), if_neg (by decide), if_pos rfl, hb]
      · (repeat' split at h1) <;> cases h1
  · rename_i h1
    split at h1
    · cases h1
    · split at h1
      · cases h1
      · split at h1
        · rename_i h2
          rw [h2, if_neg (by decide), if_neg (by decide), if_neg (by decide), if_neg (by decide), if_pos rfl]
        · split at h1 <;> cases h1
  · rename_i h1
    split at h1
    · cases h1
    · split at h1
      · cases h1
      · split at h1
        · cases h1
        · split at h1
          · cases h1
          · rename_i a1 a2 a3 a4
            simp only [not_or] at a1 a4
            rw [if_neg a1.1, if_neg a1.2.1, if_neg a1.2.2, if_neg a2, if_neg a3, if_neg a4.1, if_neg a4.2]
  · trivial
  · trivial

/-- The identifier of a definition. -/
theorem dirWord_direct {d u r : Str} (hd : ' ' ∉ d) (hu : ∀ c ∈ u, CChar c) (h0 : u ≠ []) (hr : ∀ c, r.head? = some c → ¬ CChar c) :
    dirName (d ++ ' ' :: (u ++ r)) = d ∧ dirWord (d ++ ' ' :: (u ++ r)) = u := by
  have h1 : ∀ c ∈ d, decide (c ≠ ' ') = true := fun c hc => by
    have : c ≠ ' ' := fun h => hd (h ▸ hc)
    simp [this]
  have hs : ¬ CChar ' ' := by unfold CChar; decide
  constructor
  · unfold dirName
    rw [List.takeWhile_append_of_pos h1]
    simp
  · unfold dirWord
    rw [List.dropWhile_append_of_pos h1]
    cases u with
    | nil => exact absurd rfl h0
    | cons c u =>
      have hc : c ≠ ' ' := fun h => hs (h ▸ hu c (by simp))
      have e : List.dropWhile (fun x => decide (x = ' ')) (List.dropWhile (fun x => decide (x ≠ ' ')) (' ' :: (c :: u ++ r))) = c :: u ++ r := by
        simp [hc]
      rw [e, List.takeWhile_append_of_pos (fun c hc => by simpa using hu c hc)]
      cases r with
      | nil => simp
      | cons k r =>
        have := hr k rfl
        simp [this]

/-- The lines of a header. -/
theorem header_run (cond : Str → Bool) {n : Str} (hn : ∀ c ∈ n, CChar c) (t : Str) : ∀ {ls : List HLine} {st st' : List Bool} {ds ds' : List Str} {s : Cpp} {D : List Str},
    (ls.all (lineOk (lit "#define "))) = true → (ls.all (fun l => match l with | .direct suf _ => !suf.isEmpty | _ => true)) = true →
    s = ⟨ds.map (n ++ ·) ++ D, st⟩ →
    (∀ bs, bs.length = ls.countP (fun l => match lineAct l with | .cond => true | _ => false) → actRun (ls.map lineAct) bs st ds = some (ds', st')) →
    cpp cond s (hText (lit "#define ") n ls ++ t) = cpp cond ⟨ds'.map (n ++ ·) ++ D, st'⟩ t
  | [], st, st', ds, ds', s, D, _, _, hs, h => by
    have := h [] rfl
    simp only [List.map_nil, actRun, Option.some.injEq, Prod.mk.injEq] at this
    rw [hs, this.1, this.2]
    rfl
  | .direct suf rest :: ls, st, st', ds, ds', s, D, hok, hne, hs, h => by
    simp only [List.all_cons, Bool.and_eq_true] at hok hne
    obtain ⟨hk, hok⟩ := hok
    obtain ⟨h0, hne⟩ := hne
    simp only [lineOk, Bool.and_eq_true] at hk
    obtain ⟨⟨h1, h2⟩, h3⟩ := hk
    have hsu : ∀ c ∈ suf, CChar c := fun c hc => by simpa using List.all_eq_true.1 h1 c hc
    have hns : ∀ c ∈ n ++ suf, CChar c := by
      intro c hc
      rcases List.mem_append.1 hc with h | h
      · exact hn c h
      · exact hsu c h
    have hr : ∀ c, rest.head? = some c → ¬ CChar c := by
      intro c hc
      cases rest with
      | nil => cases hc
      | cons k rest =>
        obtain rfl : k = c := by injection hc
        simpa using h2
    have e0 : hText (lit "#define ") n (.direct suf rest :: ls) ++ t =
        (lit "#define" ++ ' ' :: ((n ++ suf) ++ rest)) ++ '\n' :: (hText (lit "#define ") n ls ++ t) := by
      simp [hText, lit]
    have hl : '\n' ∉ lit "#define" ++ ' ' :: ((n ++ suf) ++ rest) := by
      simp only [List.mem_append, List.mem_cons, not_or]
      exact ⟨by decide, by decide, ⟨noBreak_c hn, noBreak_c hsu⟩, noBreak_of h3⟩
    obtain ⟨w1, w2⟩ := dirWord_direct (d := lit "#define") (u := n ++ suf) (r := rest) (by decide) hns (by simp at h0; simp [h0]) hr
    rw [e0, cpp_line _ _ _ hl]
    refine header_run cond hn t (st := st) (ds := if st.all id then suf :: ds else ds) (D := D) hok hne ?_ ?_
    · unfold cppLine
      rw [w1, if_neg (by decide), if_neg (by decide), if_neg (by decide), if_neg (by decide), if_neg (by decide), if_pos rfl, w2, hs]
      unfold Cpp.active
      split <;> simp
    · intro bs hb
      exact h bs (by rw [List.countP_cons_of_neg (by simp [lineAct])]; exact hb)
  | .named w r :: ls, st, st', ds, ds', s, D, hok, hne, hs, h => by
    simp only [List.all_cons, Bool.and_eq_true] at hok hne
    obtain ⟨hk, hok⟩ := hok
    obtain ⟨h0, hne⟩ := hne
    simp only [lineOk, Bool.and_eq_true, decide_eq_true_eq] at hk
    obtain ⟨⟨⟨h1, h2⟩, h3⟩, h4⟩ := hk
    have e0 : hText (lit "#define ") n (.named w r :: ls) ++ t = (w ++ (n ++ r)) ++ '\n' :: (hText (lit "#define ") n ls ++ t) := by simp [hText]
    have hl : '\n' ∉ w ++ (n ++ r) := by
      simp only [List.mem_append, not_or]
      exact ⟨noBreak_of h3, noBreak_c hn, noBreak_of h4⟩
    rw [e0, cpp_line _ _ _ hl]
    by_cases hw : ' ' ∈ w
    · exact word_run cond hn t (by simp [lineAct, hw]) (dirName_append (n ++ r) hw) hs h
        (fun hs h => header_run cond hn t hok hne hs h)
    · obtain ⟨bs, hb⟩ : ∃ bs : List Bool, bs.length = (HLine.named w r :: ls).countP (fun l => match lineAct l with | .cond => true | _ => false) :=
        ⟨List.replicate _ true, List.length_replicate⟩
      have := h bs hb
      simp [lineAct, hw, actRun] at this
  | .other w :: ls, st, st', ds, ds', s, D, hok, hne, hs, h => by
    simp only [List.all_cons, Bool.and_eq_true] at hok hne
    obtain ⟨hk, hok⟩ := hok
    obtain ⟨h0, hne⟩ := hne
    simp only [lineOk, Bool.and_eq_true] at hk
    have e0 : hText (lit "#define ") n (.other w :: ls) ++ t = w ++ '\n' :: (hText (lit "#define ") n ls ++ t) := by simp [hText]
    rw [e0, cpp_line _ _ _ (noBreak_of hk.2)]
    exact word_run cond hn t rfl rfl hs h (fun hs h => header_run cond hn t hok hne hs h)
where
  word_run (cond : Str → Bool) {n : Str} (hn : ∀ c ∈ n, CChar c) (t : Str) {l : HLine} {ls : List HLine} {w y : Str} {st st' : List Bool} {ds ds' : List Str} {s : Cpp} {D : List Str}
      (ha : lineAct l = wordAct w) (hy : dirName y = dirName w) (hs : s = ⟨ds.map (n ++ ·) ++ D, st⟩)
      (h : ∀ bs, bs.length = (l :: ls).countP (fun l => match lineAct l with | .cond => true | _ => false) → actRun ((l :: ls).map lineAct) bs st ds = some (ds', st'))
      (next : ∀ {st : List Bool} {s : Cpp}, s = ⟨ds.map (n ++ ·) ++ D, st⟩ →
        (∀ bs, bs.length = ls.countP (fun l => match lineAct l with | .cond => true | _ => false) → actRun (ls.map lineAct) bs st ds = some (ds', st')) →
        cpp cond s (hText (lit "#define ") n ls ++ t) = cpp cond ⟨ds'.map (n ++ ·) ++ D, st'⟩ t) :
      cpp cond (cppLine cond s y) (hText (lit "#define ") n ls ++ t) = cpp cond ⟨ds'.map (n ++ ·) ++ D, st'⟩ t := by
    have hw := cppLine_word cond s hy
    rw [List.map_cons, ha] at h
    rw [List.countP_cons, ha] at h
    cases hk : wordAct w with
    | cond =>
      rw [hk] at hw h
      obtain ⟨b, hb⟩ := hw
      rw [hb]
      exact next (st := b :: st) (by rw [hs]) (fun bs hbs => h (b :: bs) (by simp [hbs]))
    | els =>
      rw [hk] at hw h
      cases st with
      | nil =>
        have := h (List.replicate _ true) List.length_replicate
        simp [actRun] at this
      | cons b st =>
        rw [hw b st (by rw [hs])]
        exact next (st := (!b) :: st) (by rw [hs]) (fun bs hbs => by simpa [actRun] using h bs (by simpa using hbs))
    | fin =>
      rw [hk] at hw h
      cases st with
      | nil =>
        have := h (List.replicate _ true) List.length_replicate
        simp [actRun] at this
      | cons b st =>
        rw [hw]
        exact next (st := st) (by rw [hs]; rfl) (fun bs hbs => by simpa [actRun] using h bs (by simpa using hbs))
    | skip =>
      rw [hk] at hw h
      rw [hw]
      exact next (st := st) hs (fun bs hbs => by simpa [actRun] using h bs (by simpa using hbs))
    | direct suf =>
      exfalso
      unfold wordAct at hk
      (repeat' split at hk) <;> cases hk
    | bad =>
      rw [hk] at h
      have := h (List.replicate _ true) List.length_replicate
      simp [actRun] at this

/-- Conditionals around that are taken. -/
theorem actRun_around {tail : List Bool} (ht : tail.all id = true) (as : List Act) (bs st : List Bool) (ds : List Str) : ∀ {st' : List Bool} {ds' : List Str},
    actRun as bs st ds = some (ds', st') → actRun as bs (st ++ tail) ds = some (ds', st' ++ tail) := by
  fun_induction actRun as bs st ds with
  | case1 st ds =>
    intro st' ds' h
    simp only [Option.some.injEq, Prod.mk.injEq] at h
    simp [actRun, h.1, h.2]
  | case2 as b bs st ds ih => exact fun h => by simpa [actRun] using ih h
  | case3 as bs b st ds ih => exact fun h => by simpa [actRun] using ih h
  | case4 as bs b st ds ih => exact fun h => by simpa [actRun] using ih h
  | case5 suf as bs st ds ih =>
    intro st' ds' h
    have := ih h
    simpa only [actRun, List.all_append, ht, Bool.and_true] using this
  | case6 as bs st ds ih => exact fun h => by simpa [actRun] using ih h
  | case7 => intro st' ds' h; cases h

/-- The beginning of a header, for the lines `ls` behind its first test. -/
theorem begin_run (cond : Str → Bool) {n : Str} (hn : ∀ c ∈ n, CChar c) (s : Cpp) (ha : s.active = true) (t : Str) {ls : List HLine}
    {ms : List Str} (hok : (ls.all (lineOk (lit "#define "))) = true)
    (hne : (ls.all (fun l => match l with | .direct suf _ => !suf.isEmpty | _ => true)) = true)
    (h1 : ∀ bs, bs.length = ls.countP (fun l => match lineAct l with | .cond => true | _ => false) →
      actRun (ls.map lineAct) bs [true] [] = some (ms, [true]))
    (h0 : ∀ bs, bs.length = ls.countP (fun l => match lineAct l with | .cond => true | _ => false) →
      actRun (ls.map lineAct) bs [false] [] = some ([], [false])) :
    cpp cond s (hText (lit "#define ") n (.other (lit "") :: .named (lit "#ifndef ") (lit "_H") :: ls) ++ t) =
      cpp cond (if n ++ lit "_H" ∈ s.defs then ⟨s.defs, false :: s.taken⟩ else ⟨ms.map (n ++ ·) ++ s.defs, true :: s.taken⟩) t := by
  have e0 : hText (lit "#define ") n (.other (lit "") :: .named (lit "#ifndef ") (lit "_H") :: ls) ++ t =
      [] ++ '\n' :: ((lit "#ifndef" ++ ' ' :: ((n ++ lit "_H") ++ [])) ++ '\n' :: (hText (lit "#define ") n ls ++ t)) := by
    simp [hText, lit]
  have hns : ∀ c ∈ n ++ lit "_H", CChar c := by
    intro c hc
    rcases List.mem_append.1 hc with h | h
    · exact hn c h
    · exact (by unfold CChar; decide : ∀ c ∈ lit "_H", CChar c) c h
  have hl : '\n' ∉ lit "#ifndef" ++ ' ' :: ((n ++ lit "_H") ++ []) := by
    simp only [List.mem_append, List.mem_cons, not_or]
    exact ⟨by decide, by decide, ⟨noBreak_c hn, by decide⟩, by simp⟩
  obtain ⟨w1, w2⟩ := dirWord_direct (d := lit "#ifndef") (u := n ++ lit "_H") (r := []) (by decide) hns (by simp [lit]) (by simp)
  have e1 : cppLine cond s [] = s := by simp [cppLine, dirName, lit]
  have e2 : cppLine cond s (lit "#ifndef" ++ ' ' :: ((n ++ lit "_H") ++ [])) = ⟨s.defs, decide (n ++ lit "_H" ∉ s.defs) :: s.taken⟩ := by
    unfold cppLine
    rw [w1, if_neg (by decide), if_pos rfl, w2]
  rw [e0, cpp_line _ _ _ (by simp), e1, cpp_line _ _ _ hl, e2]
  by_cases hg : n ++ lit "_H" ∈ s.defs
  · rw [if_pos hg, show decide (n ++ lit "_H" ∉ s.defs) = false by simp [hg]]
    exact header_run cond hn t (ds := []) (ds' := []) (D := s.defs) hok hne rfl (fun bs hb => actRun_around ha _ _ _ _ (h0 bs hb))
  · rw [if_neg hg, show decide (n ++ lit "_H" ∉ s.defs) = true by simp [hg]]
    exact header_run cond hn t (ds := []) (ds' := ms) (D := s.defs) hok hne rfl (fun bs hb => actRun_around ha _ _ _ _ (h1 bs hb))

/-- The lines `#undef ..` and `#endif`. -/
theorem undef_run (cond : Str → Bool) {n : Str} (hn : ∀ c ∈ n, CChar c) (t : Str) : ∀ (ms : List Str) (s : Cpp),
    (∀ x ∈ ms, x ≠ [] ∧ ∀ c ∈ x, CChar c) →
    cpp cond s (ms.flatMap (fun x => lit "#undef " ++ n ++ x ++ lit "\n") ++ t) =
      cpp cond (if s.active then ⟨s.defs.filter (fun x => !ms.any (fun y => x == n ++ y)), s.taken⟩ else s) t
  | [], s, _ => by
    have : s.defs.filter (fun x => !([] : List Str).any (fun y => x == n ++ y)) = s.defs := by simp
    rw [this]
    split <;> rfl
  | m :: ms, s, h => by
    have hm := h m (List.mem_cons_self ..)
    have e0 : (m :: ms).flatMap (fun x => lit "#undef " ++ n ++ x ++ lit "\n") ++ t =
        (lit "#undef" ++ ' ' :: ((n ++ m) ++ [])) ++ '\n' :: (ms.flatMap (fun x => lit "#undef " ++ n ++ x ++ lit "\n") ++ t) := by
      simp [lit]
    have hns : ∀ c ∈ n ++ m, CChar c := by
      intro c hc
      rcases List.mem_append.1 hc with h | h
      · exact hn c h
      · exact hm.2 c h
    have hl : '\n' ∉ lit "#undef" ++ ' ' :: ((n ++ m) ++ []) := by
      simp only [List.mem_append, List.mem_cons, not_or]
      exact ⟨by decide, by decide, ⟨noBreak_c hn, noBreak_c hm.2⟩, by simp⟩
    obtain ⟨w1, w2⟩ := dirWord_direct (d := lit "#undef") (u := n ++ m) (r := []) (by decide) hns (by simp [hm.1]) (by simp)
    have e1 : cppLine cond s (lit "#undef" ++ ' ' :: ((n ++ m) ++ [])) =
        if s.active then { s with defs := s.defs.filter (· ≠ n ++ m) } else s := by
      unfold cppLine
      rw [w1, if_neg (by decide), if_neg (by decide), if_neg (by decide), if_neg (by decide), if_neg (by decide), if_neg (by decide), if_pos rfl, w2]
    rw [e0, cpp_line _ _ _ hl, e1, undef_run cond hn t ms _ (fun x hx => h x (List.mem_cons_of_mem _ hx))]
    cases ha : s.active with
    | false => simp [ha]
    | true =>
      have : ({ s with defs := s.defs.filter (· ≠ n ++ m) } : Cpp).active = true := ha
      rw [if_pos rfl, if_pos this, if_pos rfl]
      congr 2
      rw [List.filter_filter]
      apply List.filter_congr
      intro x _
      by_cases hx : x = n ++ m
      · simp [hx]
      · simp [hx]

theorem end_run (cond : Str → Bool) {n : Str} (hn : ∀ c ∈ n, CChar c) (t : Str) (ms : List Str) (s : Cpp) (h : ∀ x ∈ ms, x ≠ [] ∧ ∀ c ∈ x, CChar c) :
    cpp cond s ((lit "\n" ++ ms.flatMap (fun x => lit "#undef " ++ n ++ x ++ lit "\n") ++ lit "#endif\n") ++ t) =
      cpp cond ⟨if s.active then s.defs.filter (fun x => !ms.any (fun y => x == n ++ y)) else s.defs, s.taken.tail⟩ t := by
  have e0 : (lit "\n" ++ ms.flatMap (fun x => lit "#undef " ++ n ++ x ++ lit "\n") ++ lit "#endif\n") ++ t =
      [] ++ '\n' :: (ms.flatMap (fun x => lit "#undef " ++ n ++ x ++ lit "\n") ++ (lit "#endif" ++ '\n' :: t)) := by
    simp [lit]
  have e1 : cppLine cond s [] = s := by simp [cppLine, dirName, lit]
  have e2 : ∀ s : Cpp, cppLine cond s (lit "#endif") = { s with taken := s.taken.tail } := by
    intro s
    unfold cppLine
    rw [show dirName (lit "#endif") = lit "#endif" by decide, if_neg (by decide), if_neg (by decide), if_neg (by decide), if_neg (by decide), if_pos rfl]
  rw [e0, cpp_line _ _ _ (by simp), e1, undef_run cond hn _ ms s h, cpp_line _ _ _ (by decide), e2]
  split <;> rfl

theorem bools6 {P : List Bool → Prop} (h : ∀ a b c d e f : Bool, P [a, b, c, d, e, f]) : ∀ bs, bs.length = 6 → P bs
  | [a, b, c, d, e, f], _ => h a b c d e f

theorem bools2 {P : List Bool → Prop} (h : ∀ a b : Bool, P [a, b]) : ∀ bs, bs.length = 2 → P bs
  | [a, b], _ => h a b

/-- **C109.** The beginning of a header, where the text is not skipped: if the guard is not defined, the guard and each macro of the
    header are defined once, whatever the conditions are, and one conditional is left open, and taken; otherwise nothing is
    defined, and what follows is skipped. `t`: what follows. -/
theorem C109_begin (cond : Str → Bool) {n : Str} (hn : ∀ c ∈ n, CChar c) (s : Cpp) (ha : s.active = true) (t : Str) :
    (n ++ lit "_H" ∉ s.defs →
      cpp cond s (headerBegin n ++ t) = cpp cond ⟨hMacros.reverse.map (n ++ ·) ++ (n ++ lit "_H") :: s.defs, true :: s.taken⟩ t ∧
      cpp cond s (lightBegin n ++ t) = cpp cond ⟨lightMacros.reverse.map (n ++ ·) ++ (n ++ lit "_H") :: s.defs, true :: s.taken⟩ t) ∧
    (n ++ lit "_H" ∈ s.defs →
      cpp cond s (headerBegin n ++ t) = cpp cond ⟨s.defs, false :: s.taken⟩ t ∧
      cpp cond s (lightBegin n ++ t) = cpp cond ⟨s.defs, false :: s.taken⟩ t) := by
  have h1 : cpp cond s (headerBegin n ++ t) = cpp cond (if n ++ lit "_H" ∈ s.defs then ⟨s.defs, false :: s.taken⟩
      else ⟨(hMacros.reverse ++ [lit "_H"]).map (n ++ ·) ++ s.defs, true :: s.taken⟩) t := by
    rw [headerBegin_pieces, hBegin_dirs]
    exact begin_run cond hn s ha t (ls := hBeginDirs.drop 2) (by decide +kernel) (by decide +kernel)
      (by rw [show (hBeginDirs.drop 2).countP (fun l => match lineAct l with | .cond => true | _ => false) = 6 by decide +kernel]
          exact bools6 (by decide +kernel))
      (by rw [show (hBeginDirs.drop 2).countP (fun l => match lineAct l with | .cond => true | _ => false) = 6 by decide +kernel]
          exact bools6 (by decide +kernel))
  have h2 : cpp cond s (lightBegin n ++ t) = cpp cond (if n ++ lit "_H" ∈ s.defs then ⟨s.defs, false :: s.taken⟩
      else ⟨(lightMacros.reverse ++ [lit "_H"]).map (n ++ ·) ++ s.defs, true :: s.taken⟩) t := by
    rw [lightBegin_pieces, lightBegin_dirs]
    exact begin_run cond hn s ha t (ls := lightBeginDirs.drop 2) (by decide +kernel) (by decide +kernel)
      (by rw [show (lightBeginDirs.drop 2).countP (fun l => match lineAct l with | .cond => true | _ => false) = 2 by decide +kernel]
          exact bools2 (by decide +kernel))
      (by rw [show (lightBeginDirs.drop 2).countP (fun l => match lineAct l with | .cond => true | _ => false) = 2 by decide +kernel]
          exact bools2 (by decide +kernel))
  constructor
  · intro hg
    rw [h1, h2, if_neg hg, if_neg hg]
    simp
  · intro hg
    rw [h1, h2, if_pos hg, if_pos hg]
    exact ⟨rfl, rfl⟩

/-- **C109.** The end of a header: the innermost conditional is closed, and where the text is not skipped the macros of the header
    are no longer defined. -/
theorem C109_end (cond : Str → Bool) {n : Str} (hn : ∀ c ∈ n, CChar c) (s : Cpp) (t : Str) :
    cpp cond s (headerEnd n ++ t) =
      cpp cond ⟨if s.active then s.defs.filter (fun x => !hMacros.any (fun y => x == n ++ y)) else s.defs, s.taken.tail⟩ t ∧
    cpp cond s (lightEnd n ++ t) =
      cpp cond ⟨if s.active then s.defs.filter (fun x => !lightMacros.any (fun y => x == n ++ y)) else s.defs, s.taken.tail⟩ t :=
  ⟨end_run cond hn t hMacros s (by unfold CChar; decide +kernel), end_run cond hn t lightMacros s (by unfold CChar; decide +kernel)⟩

/-- White space removed at the beginning of a header has no effect. -/
theorem cpp_fragment (cond : Str → Bool) (s : Cpp) (cfg : Config) (b : Bool) (r t : Str) :
    cpp cond s (fragment cfg ('\n' :: '#' :: r) b ++ t) = cpp cond s ('\n' :: '#' :: r ++ t) := by
  unfold fragment
  split
  · rw [show lstrip ('\n' :: '#' :: r) = '#' :: r from rfl]
    have := cpp_line cond s (l := []) ('#' :: r ++ t) (by simp)
    rw [show cppLine cond s [] = s by simp [cppLine, dirName, lit]] at this
    exact this.symm
  · rfl

/-- **C109.** So it does not matter to the preprocessor how `($h-begin)` is trimmed (C104). -/
theorem C109_written (cond : Str → Bool) (s : Cpp) (cfg : Config) (b : Bool) (n t : Str) :
    cpp cond s (fragment cfg (headerBegin n) b ++ t) = cpp cond s (headerBegin n ++ t) ∧
    cpp cond s (fragment cfg (lightBegin n) b ++ t) = cpp cond s (lightBegin n ++ t) := by
  constructor
  · obtain ⟨r, hr⟩ := headerBegin_hash n
    rw [hr, cpp_fragment]
  · obtain ⟨r, hr⟩ := C104_light_guard n
    obtain ⟨r, hr⟩ : ∃ r, lightBegin n = '\n' :: '#' :: r := ⟨_, hr⟩
    rw [hr, cpp_fragment]

theorem suffix_ne_guard {n : Str} {ms : List Str} (h : lit "_H" ∉ ms) : (!ms.any (fun y => n ++ lit "_H" == n ++ y)) = true := by
  simp only [Bool.not_eq_true', List.any_eq_false, beq_iff_eq]
  intro y hy he
  exact h (List.append_cancel_left he ▸ hy)

/-- What a header `W` does. -/
def IncludeRun (cond : Str → Bool) (n b W : Str) (ms : List Str) (s : Cpp) : Prop :=
    (n ++ lit "_H" ∉ s.defs → ∃ D, (∀ t, cpp cond s (W ++ t) = cpp cond ⟨D, s.taken⟩ t) ∧ n ++ lit "_H" ∈ D ∧
      (∀ y ∈ ms, n ++ y ∉ D) ∧
      D = (cpp cond ⟨ms.reverse.map (n ++ ·) ++ (n ++ lit "_H") :: s.defs, true :: s.taken⟩ b).defs.filter (fun x => !ms.any (fun y => x == n ++ y))) ∧
    (n ++ lit "_H" ∈ s.defs → ∀ t, cpp cond s (W ++ t) = cpp cond s t)

/-- A header whose guard is not defined, and one whose guard is defined. `B`, `E`: its beginning and its end, `ms`: its macros. -/
theorem include_run (cond : Str → Bool) {n b B E : Str} {ms : List Str} (hb : HeaderBody cond (n ++ lit "_H") b) (hms : lit "_H" ∉ ms)
    (hB1 : ∀ s : Cpp, s.active = true → ∀ t, n ++ lit "_H" ∉ s.defs →
      cpp cond s (B ++ t) = cpp cond ⟨ms.reverse.map (n ++ ·) ++ (n ++ lit "_H") :: s.defs, true :: s.taken⟩ t)
    (hB0 : ∀ s : Cpp, s.active = true → ∀ t, n ++ lit "_H" ∈ s.defs → cpp cond s (B ++ t) = cpp cond ⟨s.defs, false :: s.taken⟩ t)
    (hE : ∀ (s : Cpp) t, cpp cond s (E ++ t) =
      cpp cond ⟨if s.active then s.defs.filter (fun x => !ms.any (fun y => x == n ++ y)) else s.defs, s.taken.tail⟩ t)
    (s : Cpp) (ha : s.active = true) : IncludeRun cond n b (B ++ (b ++ E)) ms s := by
  constructor
  · intro hg
    refine ⟨_, fun t => ?_, ?_, ?_, rfl⟩
    · have hact : (⟨ms.reverse.map (n ++ ·) ++ (n ++ lit "_H") :: s.defs, true :: s.taken⟩ : Cpp).active = true := by
        unfold Cpp.active at ha ⊢
        simpa using ha
      have hcl := hb.closed _ hact
      have hca : (cpp cond ⟨ms.reverse.map (n ++ ·) ++ (n ++ lit "_H") :: s.defs, true :: s.taken⟩ b).active = true := by
        unfold Cpp.active at hact ⊢
        rw [hcl]
        exact hact
      rw [List.append_assoc, List.append_assoc, hB1 s ha _ hg, cpp_append cond _ _ hb.lines, hE, hcl, if_pos hca]
      rfl
    · rw [List.mem_filter]
      refine ⟨hb.guard _ ?_ (by simp), suffix_ne_guard hms⟩
      unfold Cpp.active at ha ⊢
      simpa using ha
    · intro y hy hm
      rw [List.mem_filter] at hm
      have := hm.2
      simp only [Bool.not_eq_true', List.any_eq_false, beq_iff_eq] at this
      exact this y hy rfl
  · intro hg t
    have hin : (⟨s.defs, false :: s.taken⟩ : Cpp).active = false := by simp [Cpp.active]
    rw [List.append_assoc, List.append_assoc, hB0 s ha _ hg, cpp_append cond _ _ hb.lines, hb.skipped _ hin, hE, if_neg (by rw [hin]; decide)]
    rfl

theorem include_header (cond : Str → Bool) {n b : Str} (hn : ∀ c ∈ n, CChar c) (hb : HeaderBody cond (n ++ lit "_H") b) (s : Cpp) (ha : s.active = true) :
    IncludeRun cond n b (wholeHeader n b) hMacros s :=
  include_run cond (B := headerBegin n) (E := headerEnd n) (ms := hMacros) hb (by decide +kernel)
    (fun s ha t hg => ((C109_begin cond hn s ha t).1 hg).1) (fun s ha t hg => ((C109_begin cond hn s ha t).2 hg).1)
    (fun s t => (C109_end cond hn s t).1) s ha

theorem include_light (cond : Str → Bool) {n b : Str} (hn : ∀ c ∈ n, CChar c) (hb : HeaderBody cond (n ++ lit "_H") b) (s : Cpp) (ha : s.active = true) :
    IncludeRun cond n b (wholeLight n b) lightMacros s :=
  include_run cond (B := lightBegin n) (E := lightEnd n) (ms := lightMacros) hb (by decide +kernel)
    (fun s ha t hg => ((C109_begin cond hn s ha t).1 hg).2) (fun s ha t hg => ((C109_begin cond hn s ha t).2 hg).2)
    (fun s t => (C109_end cond hn s t).2) s ha

/-- **C109.** Where a header is included first, it is not skipped; behind it the guard is defined, none of the macros of the header
    is, and the conditionals are those before it. -/
theorem C109_first (cond : Str → Bool) {n b : Str} (hn : ∀ c ∈ n, CChar c) (hb : HeaderBody cond (n ++ lit "_H") b) (s : Cpp)
    (ha : s.active = true) (hg : n ++ lit "_H" ∉ s.defs) :
    (∃ D, (∀ t, cpp cond s (wholeHeader n b ++ t) = cpp cond ⟨D, s.taken⟩ t) ∧ n ++ lit "_H" ∈ D ∧ (∀ y ∈ hMacros, n ++ y ∉ D) ∧
      ∀ x, (∀ y ∈ hMacros, x ≠ n ++ y) →
        (x ∈ D ↔ x ∈ (cpp cond ⟨hMacros.reverse.map (n ++ ·) ++ (n ++ lit "_H") :: s.defs, true :: s.taken⟩ b).defs)) ∧
    (∃ D, (∀ t, cpp cond s (wholeLight n b ++ t) = cpp cond ⟨D, s.taken⟩ t) ∧ n ++ lit "_H" ∈ D ∧ (∀ y ∈ lightMacros, n ++ y ∉ D) ∧
      ∀ x, (∀ y ∈ lightMacros, x ≠ n ++ y) →
        (x ∈ D ↔ x ∈ (cpp cond ⟨lightMacros.reverse.map (n ++ ·) ++ (n ++ lit "_H") :: s.defs, true :: s.taken⟩ b).defs)) := by
  constructor
  · obtain ⟨D, h1, h2, h3, h4⟩ := (include_header cond hn hb s ha).1 hg
    refine ⟨D, h1, h2, h3, fun x hx => ?_⟩
    rw [h4, List.mem_filter]
    exact ⟨fun h => h.1, fun h => ⟨h, by simpa [List.any_eq_false] using hx⟩⟩
  · obtain ⟨D, h1, h2, h3, h4⟩ := (include_light cond hn hb s ha).1 hg
    refine ⟨D, h1, h2, h3, fun x hx => ?_⟩
    rw [h4, List.mem_filter]
    exact ⟨fun h => h.1, fun h => ⟨h, by simpa [List.any_eq_false] using hx⟩⟩

/-- **C109.** Where its guard is defined, a header has no effect. -/
theorem C109_skipped (cond : Str → Bool) {n b : Str} (hn : ∀ c ∈ n, CChar c) (hb : HeaderBody cond (n ++ lit "_H") b) (s : Cpp)
    (ha : s.active = true) (hg : n ++ lit "_H" ∈ s.defs) (t : Str) :
    cpp cond s (wholeHeader n b ++ t) = cpp cond s t ∧ cpp cond s (wholeLight n b ++ t) = cpp cond s t :=
  ⟨(include_header cond hn hb s ha).2 hg t, (include_light cond hn hb s ha).2 hg t⟩

/-- **C109.** A header included any number of times has the effect of one inclusion. -/
theorem C109_again (cond : Str → Bool) {n b : Str} (hn : ∀ c ∈ n, CChar c) (hb : HeaderBody cond (n ++ lit "_H") b) (s : Cpp)
    (ha : s.active = true) (k : Nat) (t : Str) :
    cpp cond s (wholeHeader n b ++ ((List.replicate k (wholeHeader n b)).flatten ++ t)) = cpp cond s (wholeHeader n b ++ t) ∧
    cpp cond s (wholeLight n b ++ ((List.replicate k (wholeLight n b)).flatten ++ t)) = cpp cond s (wholeLight n b ++ t) := by
  have key : ∀ (W : Str), (∀ s : Cpp, s.active = true → n ++ lit "_H" ∈ s.defs → ∀ t, cpp cond s (W ++ t) = cpp cond s t) →
      (n ++ lit "_H" ∉ s.defs → ∃ D, (∀ t, cpp cond s (W ++ t) = cpp cond ⟨D, s.taken⟩ t) ∧ n ++ lit "_H" ∈ D) →
      cpp cond s (W ++ ((List.replicate k W).flatten ++ t)) = cpp cond s (W ++ t) := by
    intro W h0 h1
    have hk : ∀ (k : Nat) (s : Cpp), s.active = true → n ++ lit "_H" ∈ s.defs →
        cpp cond s ((List.replicate k W).flatten ++ t) = cpp cond s t := by
      intro k
      induction k with
      | zero => intro s _ _; rfl
      | succ k ih =>
        intro s ha hg
        rw [List.replicate_succ, List.flatten_cons, List.append_assoc, h0 s ha hg]
        exact ih s ha hg
    by_cases hg : n ++ lit "_H" ∈ s.defs
    · rw [h0 s ha hg, h0 s ha hg, hk k s ha hg]
    · obtain ⟨D, h2, h3⟩ := h1 hg
      rw [h2, h2]
      exact hk k _ ha h3
  constructor
  · refine key _ (fun s ha hg t => (C109_skipped cond hn hb s ha hg t).1) (fun hg => ?_)
    obtain ⟨D, h1, h2, -⟩ := (C109_first cond hn hb s ha hg).1
    exact ⟨D, h1, h2⟩
  · refine key _ (fun s ha hg t => (C109_skipped cond hn hb s ha hg t).2) (fun hg => ?_)
    obtain ⟨D, h1, h2, -⟩ := (C109_first cond hn hb s ha hg).2
    exact ⟨D, h1, h2⟩

/-- Whole lines without directives can stand in a header. -/
theorem C109_plain (cond : Str → Bool) (g : Str) : ∀ (ls : List Str), (∀ l ∈ ls, '\n' ∉ l ∧ l.head? ≠ some '#') →
    HeaderBody cond g (ls.flatMap (· ++ ['\n'])) := by
  intro ls h
  have hid : ∀ s : Cpp, cpp cond s (ls.flatMap (· ++ ['\n'])) = s := by
    induction ls with
    | nil => exact fun s => cpp_empty cond s
    | cons l ls ih =>
      intro s
      have hl := h l (List.mem_cons_self ..)
      have hd : cppLine cond s l = s := by
        cases l with
        | nil => simp [cppLine, dirName, lit]
        | cons c l =>
          have hc : c ≠ '#' := fun h' => hl.2 (by rw [h']; rfl)
          have : ∀ k : Str, k.head? = some '#' → dirName (c :: l) ≠ k := by
            intro k h0 hk
            rw [← hk] at h0
            clear hk
            unfold dirName at h0
            rw [List.takeWhile_cons] at h0
            split at h0
            · injection h0 with h1; exact hc h1
            · cases h0
          unfold cppLine
          rw [if_neg (this (lit "#ifdef") rfl), if_neg (this (lit "#ifndef") rfl), if_neg (this (lit "#if") rfl), if_neg (this (lit "#else") rfl), if_neg (this (lit "#endif") rfl), if_neg (this (lit "#define") rfl), if_neg (this (lit "#undef") rfl)]
      rw [List.flatMap_cons, List.append_assoc, List.singleton_append, cpp_line cond s _ hl.1, hd]
      exact ih (fun l hl => h l (List.mem_cons_of_mem _ hl)) s
  refine ⟨?_, fun s _ => hid s, fun s _ => by rw [hid], fun s _ hg => by rw [hid]; exact hg⟩
  rcases List.eq_nil_or_concat ls with rfl | ⟨xs, x, rfl⟩
  · exact .inl rfl
  · exact .inr ⟨xs.flatMap (· ++ ['\n']) ++ x, by simp⟩

/-- The header `FOO` with a declaration, where nothing but `__cplusplus` is defined: behind two inclusions just the guard is defined in addition. -/
example : ∃ D, cpp (fun _ => true) ⟨[lit "__cplusplus"], []⟩ (wholeHeader (lit "FOO") (lit "FOO_VAR( int x );\n") ++
      (wholeHeader (lit "FOO") (lit "FOO_VAR( int x );\n") ++ [])) = ⟨D, []⟩ ∧ lit "FOO_H" ∈ D ∧ lit "FOO_VAR" ∉ D := by
  have hn : ∀ c ∈ lit "FOO", CChar c := by unfold CChar; decide
  have hb : HeaderBody (fun _ => true) (lit "FOO" ++ lit "_H") (lit "FOO_VAR( int x );\n") :=
    C109_plain (fun _ => true) _ [lit "FOO_VAR( int x );"] (by decide)
  obtain ⟨D, h1, h2, h3, -⟩ := (C109_first (fun _ => true) hn hb ⟨[lit "__cplusplus"], []⟩ rfl (by decide)).1
  refine ⟨D, ?_, h2, h3 (lit "_VAR") (by decide)⟩
  have := (C109_again (fun _ => true) hn hb ⟨[lit "__cplusplus"], []⟩ rfl 1 []).1
  rw [List.replicate_one, List.flatten_singleton] at this
  rw [this, h1, cpp_empty]

end Yupp
