import Verif.Spec.OutputName
import Verif.Props.Shell
/-!
# C36: which inputs have the same output
-/

namespace Yupp

theorem all_dots {s : Str} : s.all (· == '.') = true ↔ ¬ HasStem s := by
  constructor
  · intro h ⟨c, hc, hne⟩
    exact hne (by simpa using List.all_eq_true.1 h c hc)
  · intro h
    rw [List.all_eq_true]
    intro c hc
    by_cases hd : c = '.'
    · simp [hd]
    · exact absurd ⟨c, hc, hd⟩ h

theorem noExt_iff (s : Str) : NoExt s ↔ (splitextBase s).2 = [] := by
  unfold splitextBase
  cases h : splitLast '.' s with
  | none =>
    refine ⟨fun _ => rfl, fun _ p x e _ => ?_⟩
    exact absurd (by rw [e]; simp) (splitLast_none.1 h)
  | some q =>
    obtain ⟨a, b⟩ := q
    obtain ⟨e, hb⟩ := splitLast_some h
    simp only []
    split
    · rename_i ha
      refine ⟨fun _ => rfl, fun _ p x e' hp => ?_⟩
      by_cases hx : '.' ∈ x
      · exact hx
      · have := dot_split_unique hb hx (e.symm.trans e')
        rw [this.1] at ha
        exact absurd hp (all_dots.1 ha)
    · rename_i ha
      constructor
      · intro hn
        have : HasStem a := by
          by_cases hs : HasStem a
          · exact hs
          · exact absurd (all_dots.2 hs) ha
        exact absurd (hn a b e this) hb
      · intro hn; simp at hn

theorem splitextBase_noExt {s : Str} (h : NoExt s) : splitextBase s = (s, []) := by
  have h2 := (noExt_iff s).1 h
  have h1 := splitextBase_append s
  rw [h2, List.append_nil] at h1
  exact Prod.ext h1 h2

theorem splitextBase_ext' {s e : Str} (hs : HasStem s) (he : '.' ∉ e) : splitextBase (s ++ '.' :: e) = (s, '.' :: e) := by
  rw [splitextBase_dot he, all_dots_false hs]; simp

theorem yuWord_iff {w : Str} : YuWord w ↔ ∃ y u, w = [y, u] ∧ y.toLower = 'y' ∧ u.toLower = 'u' := by
  constructor
  · intro h
    match w, h with
    | [y, u], h => exact ⟨y, u, rfl, by simpa [YuWord] using h⟩
    | [], h => simp [YuWord] at h
    | [_], h => simp [YuWord] at h
    | _ :: _ :: _ :: _, h => simp [YuWord] at h
  · rintro ⟨y, u, rfl, h1, h2⟩
    simp [YuWord, h1, h2]

theorem yuWord_nodot {w : Str} (h : YuWord w) : '.' ∉ w := by
  intro hm
  have := List.mem_map_of_mem (f := Char.toLower) hm
  rw [h] at this
  simp [Char.toLower] at this

theorem matchYu_yu {w e : Str} (hw : YuWord w) (he : LineEndOrNone e) : matchYu ('.' :: (w ++ e)) = some none := by
  obtain ⟨y, u, rfl, h1, h2⟩ := yuWord_iff.1 hw
  rcases he with rfl | rfl <;> simp [matchYu, sameLetter, h1, h2]

theorem matchYu_ext {w x : Str} (hw : YuWord w) (hx : x ≠ []) : matchYu ('.' :: (w ++ '-' :: x)) = some (some x) := by
  obtain ⟨y, u, rfl, h1, h2⟩ := yuWord_iff.1 hw
  obtain ⟨c, t, rfl⟩ := List.exists_cons_of_ne_nil hx
  simp [matchYu, sameLetter, h1, h2]

theorem matchYu_plain {x : Str} : matchYu ('.' :: x) = none ↔ ¬ OwnExt x := by
  constructor
  · intro h ⟨w, hw, hx⟩
    rcases hx with rfl | rfl | ⟨y, hy, rfl⟩
    · have := matchYu_yu hw (e := []) (.inl rfl)
      rw [List.append_nil, h] at this; simp at this
    · have := matchYu_yu hw (e := ['\n']) (.inr rfl)
      rw [h] at this; simp at this
    · have := matchYu_ext hw hy
      rw [h] at this; simp at this
  · intro h
    cases hm : matchYu ('.' :: x) with
    | none => rfl
    | some g =>
      exfalso
      apply h
      cases g with
      | some z =>
        obtain ⟨y, u, e, h1, h2, h3⟩ := matchYu_some hm
        simp only [List.cons_append, List.nil_append, List.cons.injEq, true_and] at e
        exact ⟨[y, u], yuWord_iff.2 ⟨y, u, rfl, h1, h2⟩, .inr (.inr ⟨z, h3, by simp [e]⟩)⟩
      | none =>
        obtain ⟨y, u, e, h1, h2⟩ := matchYu_none_group hm
        refine ⟨[y, u], yuWord_iff.2 ⟨y, u, rfl, h1, h2⟩, ?_⟩
        rcases e with e | e <;> simp only [List.cons.injEq, true_and] at e
        · exact .inl e
        · exact .inr (.inl (by simp [e]))

theorem lineEnd_nodot {e : Str} (h : LineEndOrNone e) : '.' ∉ e := by
  rcases h with rfl | rfl <;> decide

/-- The output of a name of a kind is the one of the table. -/
theorem outBase_of_makes {k : NameKind} {a o : Str} (h : Makes k a o) : outBase a = o := by
  cases h with
  | bare h =>
    unfold outBase
    rw [splitextBase_noExt h]; rfl
  | plain hs hx ho =>
    unfold outBase
    rw [splitextBase_ext' hs hx]
    simp [matchYu_plain.2 ho, eYugen]
  | yuExt hs hw hx hd =>
    unfold outBase
    rw [splitextBase_ext' hs (by simp [yuWord_nodot hw, hd])]
    simp [matchYu_ext hw hx]
  | yu hs hn hw he =>
    unfold outBase
    rw [splitextBase_ext' hs (by simp [yuWord_nodot hw, lineEnd_nodot he])]
    simp [matchYu_yu hw he, splitextBase_noExt hn, eYugen]
  | @inner s x w e hs hx hw he =>
    unfold outBase
    have hst : HasStem (s ++ '.' :: x) := by
      obtain ⟨c, hc, hne⟩ := hs
      exact ⟨c, by simp [hc], hne⟩
    rw [splitextBase_ext' hst (by simp [yuWord_nodot hw, lineEnd_nodot he])]
    simp [matchYu_yu hw he, splitextBase_ext' hs hx]

/-- Every name is of a kind. -/
theorem makes_total (a : Str) : ∃ k o, Makes k a o := by
  by_cases hn : NoExt a
  · exact ⟨_, _, .bare hn⟩
  · obtain ⟨s, x, rfl, hs, hx⟩ : ∃ s x, a = s ++ '.' :: x ∧ HasStem s ∧ '.' ∉ x := by
      unfold NoExt at hn
      simp only [Classical.not_forall] at hn
      obtain ⟨p, x, e, hp, hx⟩ := hn
      exact ⟨p, x, e, hp, hx⟩
    by_cases ho : OwnExt x
    · obtain ⟨w, hw, hx'⟩ := ho
      have yu : ∀ e, LineEndOrNone e → ∃ k o, Makes k (s ++ '.' :: (w ++ e)) o := by
        intro e he
        by_cases hn : NoExt s
        · exact ⟨_, _, .yu hs hn hw he⟩
        · unfold NoExt at hn
          simp only [Classical.not_forall] at hn
          obtain ⟨p, y, rfl, hp, hy⟩ := hn
          exact ⟨_, _, .inner hp hy hw he⟩
      rcases hx' with rfl | rfl | ⟨y, hy, rfl⟩
      · simpa using yu [] (.inl rfl)
      · exact yu ['\n'] (.inr rfl)
      · exact ⟨_, _, .yuExt hs hw hy (by simp at hx; exact hx.2)⟩
    · exact ⟨_, _, .plain hs hx ho⟩

/-- C36: the output file of every input file is the one of the table, in the directory of the input file or in the
    output directory; the table has one entry for every name. -/
theorem C36_table (fn : Str) :
    (∃ k o, Makes k (basename fn) o) ∧
    (∀ k o, Makes k (basename fn) o → outputFn {} fn = dirPart fn ++ o) ∧
    (∀ sh : ShellCfg, sh.outputDir ≠ [] → ∀ k o, Makes k (basename fn) o →
      outputFn sh fn = pathJoin sh.outputDir o) := by
  refine ⟨makes_total _, ?_, ?_⟩
  · intro k o h
    rw [outputFn_eq, outBase_of_makes h]; rfl
  · intro sh hsh k o h
    have hb := basename_noslash fn
    have ho : '/' ∉ o := by rw [← outBase_of_makes h]; exact outBase_noslash hb
    rw [outputFn_eq, outBase_of_makes h]
    have : sh.outputDir.isEmpty = false := by simpa using hsh
    simp only [outDir, this, Bool.false_eq_true, if_false]
    unfold pathJoin
    rw [startsWith_slash hb, startsWith_slash ho]
    simp only [Bool.false_eq_true, if_false, this, Bool.false_or]
    split
    · rename_i hl
      obtain ⟨l, hl⟩ := List.getLast?_eq_some_iff.1 (by simpa using hl)
      rw [dirPart_dir (.inr ⟨l, hl⟩) hb]
    · rw [dirPart_dir (.inr ⟨sh.outputDir, rfl⟩) hb]

/-- The table, read backwards: within one kind the output determines the input. -/
theorem makes_injective {k : NameKind} {a b o : Str} (h : Makes k a o) (h' : Makes k b o) : a = b := by
  cases h with
  | bare h =>
    generalize ho : _ ++ lit ".yugen" = o' at h'
    cases h' with
    | bare h' => exact List.append_cancel_right ho
  | @plain s x hs hx ho =>
    generalize he : s ++ lit ".yugen" ++ '.' :: x = o' at h'
    cases h' with
    | plain hs' hx' ho' =>
      have := dot_split_unique hx hx' he
      rw [List.append_cancel_right this.1, this.2]
  | @yuExt s w x hs hw hx hd =>
    generalize he : s ++ '.' :: x = o' at h'
    cases h' with
    | yuExt hs' hw' hx' hd' =>
      have := dot_split_unique hd hd' he
      rw [this.1, this.2]
  | @yu s w e hs hn hw he =>
    generalize ho : s ++ lit ".yugen" = o' at h'
    cases h' with
    | yu hs' hn' hw' he' => rw [List.append_cancel_right ho]
  | @inner s x w e hs hx hw he =>
    generalize ho : s ++ '.' :: x = o' at h'
    cases h' with
    | inner hs' hx' hw' he' => rfl

/-- C36: two input files have the same output file exactly if they are in the same directory and the table gives
    their names the same output; if their names differ, they are of different kinds. -/
theorem C36_collisions (a b : Str) :
    (outputFn {} a = outputFn {} b ↔
      dirPart a = dirPart b ∧ ∃ k k' o, Makes k (basename a) o ∧ Makes k' (basename b) o) ∧
    (∀ k o, Makes k (basename a) o → Makes k (basename b) o → basename a = basename b) := by
  refine ⟨⟨?_, ?_⟩, fun k o => makes_injective⟩
  · intro h
    obtain ⟨k, o, hk⟩ := makes_total (basename a)
    obtain ⟨k', o', hk'⟩ := makes_total (basename b)
    have hb := outBase_noslash (basename_noslash a)
    have hb' := outBase_noslash (basename_noslash b)
    have h1 : outputFn {} a = dirPart a ++ outBase (basename a) := by rw [outputFn_eq]; rfl
    have h2 : outputFn {} b = dirPart b ++ outBase (basename b) := by rw [outputFn_eq]; rfl
    have hd : dirPart a = dirPart b := by
      rw [← dirPart_dir (isDir_dirPart a) hb, ← dirPart_dir (isDir_dirPart b) hb', ← h1, ← h2, h]
    have ho : o = o' := by
      rw [← outBase_of_makes hk, ← outBase_of_makes hk']
      rw [h1, h2, hd] at h
      exact List.append_cancel_left h
    exact ⟨hd, k, k', o, hk, ho ▸ hk'⟩
  · rintro ⟨hd, k, k', o, hk, hk'⟩
    rw [(C36_table a).2.1 _ _ hk, (C36_table b).2.1 _ _ hk', hd]

/-- C36: with an output directory the directories of the inputs do not matter. -/
theorem C36_collisions_dir (sh : ShellCfg) (hsh : sh.outputDir ≠ []) (a b : Str) :
    outputFn sh a = outputFn sh b ↔ ∃ k k' o, Makes k (basename a) o ∧ Makes k' (basename b) o := by
  constructor
  · intro h
    obtain ⟨k, o, hk⟩ := makes_total (basename a)
    obtain ⟨k', o', hk'⟩ := makes_total (basename b)
    have h1 := (C36_table a).2.2 sh hsh _ _ hk
    have h2 := (C36_table b).2.2 sh hsh _ _ hk'
    have hb := outBase_noslash (basename_noslash a)
    have hb' := outBase_noslash (basename_noslash b)
    rw [outBase_of_makes hk] at hb
    rw [outBase_of_makes hk'] at hb'
    have e : ∀ o : Str, '/' ∉ o → basename (pathJoin sh.outputDir o) = o := by
      intro o ho
      obtain ⟨d, hd, e⟩ := pathJoin_dir sh.outputDir ho
      rw [e, basename_dir hd ho]
    have : o = o' := by rw [← e o hb, ← e o' hb', ← h1, ← h2, h]
    exact ⟨k, k', o, hk, this ▸ hk'⟩
  · rintro ⟨k, k', o, hk, hk'⟩
    rw [(C36_table a).2.2 sh hsh _ _ hk, (C36_table b).2.2 sh hsh _ _ hk']

/-- Names of all kinds, and the collisions there are: `a.yu-c` and `a.c.yu`; `a`, `a.YU` and `a.yugen.yu`;
    `a.c` and `a.yugen.yu-c`. -/
example : Makes (.yuExt (lit "yu")) (lit "a.yu-c") (lit "a.c") ∧ Makes (.inner (lit "yu") []) (lit "a.c.yu") (lit "a.c") ∧
    Makes .bare (lit "a") (lit "a.yugen") ∧ Makes (.yu (lit "YU") []) (lit "a.YU") (lit "a.yugen") ∧
    Makes (.inner (lit "yu") []) (lit "a.yugen.yu") (lit "a.yugen") ∧
    Makes .plain (lit "a.c") (lit "a.yugen.c") ∧ Makes (.yuExt (lit "yu")) (lit "a.yugen.yu-c") (lit "a.yugen.c") := by
  have st : HasStem (lit "a") := ⟨'a', by decide, by decide⟩
  have ne : NoExt (lit "a") := (noExt_iff _).2 (by decide)
  have yu : YuWord (lit "yu") := by unfold YuWord; decide
  have yU : YuWord (lit "YU") := by unfold YuWord; decide
  refine ⟨.yuExt (s := lit "a") (x := lit "c") st yu (by decide) (by decide),
    .inner (s := lit "a") (x := lit "c") st (by decide) yu (.inl rfl), .bare ne, .yu (s := lit "a") st ne yU (.inl rfl),
    .inner (s := lit "a") (x := lit "yugen") st (by decide) yu (.inl rfl), .plain (s := lit "a") (x := lit "c") st (by decide) ?_,
    .yuExt (s := lit "a.yugen") (x := lit "c") ⟨'a', by decide, by decide⟩ yu (by decide) (by decide)⟩
  exact matchYu_plain.1 (by decide)

end Yupp
