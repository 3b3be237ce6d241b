import Verif.Lemmas.Header
import Verif.Props.Parse
import Verif.Props.Shell
import Verif.Props.Eol
/-!
# C42: the line shift with and without translation
-/

namespace Yupp

theorem pm_bind_inv {α β : Type} {m : PM α} {f : α → PM β} {st st' : PSt} {b : β} (h : (m >>= f) st = .ok (b, st')) :
    ∃ a st1, m st = .ok (a, st1) ∧ f a st1 = .ok (b, st') := by
  change PM.bind m f st = _ at h
  unfold PM.bind at h
  split at h
  · exact ⟨_, _, by assumption, h⟩
  · cases h
  · cases h

/-- Running the text after its header leaves the shift alone. -/
theorem psRun_shrink (e : PEnv) (n : Nat) (st : PSt) (s : Src) (hd : List Node) (ast : List Node) (st' : PSt)
    (h : psRun (P e n) s hd st = .ok (ast, st')) : Grow e st st' := by
  unfold psRun at h
  split at h
  · cases h
  · obtain ⟨⟨s2, a2⟩, st2, h1, h2⟩ := pm_bind_inv h
    have h3 := sat_ok ((P_good e [] n).text .eof { sou := s } st) h1
    cases h2
    exact h3.1

/-- C42. The shift after a translation of a Python source: the line of the magic comment, 0 if there is
    none. -/
theorem C42_translating (e : PEnv) (n : Nat) (input : Option Str) (text : Str) (ast : List Node) (st' : PSt)
    (hpy : e.outputPython = true) (ha : Agree e (PSt.start e input text))
    (h : (P e n).parse e.inputFile (PSt.start e input text) = .ok (ast, st')) :
    (MagicFirst e.word (unifyEol text) → st'.shrink = 1) ∧
    (MagicSecond e.word (unifyEol text) → st'.shrink = 2) ∧
    (¬ MagicFirst e.word (unifyEol text) → ¬ MagicSecond e.word (unifyEol text) → st'.shrink = 0) := by
  have hr : '\r' ∉ unifyEol text := C12_no_cr text
  have hfind : (PSt.start e input text).world.find e.inputFile = some (.path input, unifyEol text) := by
    simp [PSt.start, World.find]
  have h0 : (PSt.start e input text).shrink = 0 := rfl
  generalize PSt.start e input text = st at ha h hfind h0
  generalize unifyEol text = tx at hr hfind ⊢
  -- the shift given by the header, whatever is parsed afterwards
  have key : ∀ r hd k (st1 : PSt), Agree e st1 → (∃ d, (e.inputFile, d, tx) ∈ st1.world.source) →
      st1.shrink = k → psHeader e.word { txt := tx, loc := some ⟨e.inputFile, 0⟩ } = some (r, hd, k) →
      Grow e st1 st' → st'.shrink = k := by
    intro r hd k st1 ha1 ⟨d, hm⟩ hk hh hg
    rcases hg.shrink with h | ⟨d', txt, r', hd', hm', hh'⟩
    · rw [h, hk]
    · obtain ⟨p, hp⟩ := hg.source
      have := (hg.agree ha1).uniq _ _ _ _ _ hm' (by rw [hp]; exact List.mem_append_right _ hm)
      subst this
      rw [hh] at hh'
      cases hh'
      rfl
  have hgr : Grow e st st' := (sat_ok ((P_good e [] n).parse _ st) h).1
  have main : ∀ r hd k, psHeader e.word { txt := tx, loc := some ⟨e.inputFile, 0⟩ } = some (r, hd, k) →
      tx ≠ [] → st'.shrink = k := by
    intro r hd k hh hne
    cases n with
    | zero => cases h
    | succ n =>
      change psParse e (P e n) e.inputFile st = .ok (ast, st') at h
      unfold psParse at h
      obtain ⟨st1, st2, h1, h2⟩ := pm_bind_inv h
      cases h1
      rw [hfind] at h2
      cases tx with
      | nil => exact absurd rfl hne
      | cons c t =>
        simp only [hpy, decide_true, Bool.and_true, if_true] at h2
        rw [hh] at h2
        simp only [] at h2
        obtain ⟨_, st3, h3, h4⟩ := pm_bind_inv h2
        cases h3
        have hg := psRun_shrink e n _ r hd ast st' h4
        exact key r hd k { st with shrink := k } ⟨ha.same, ha.num, ha.lib, ha.uniq⟩ ⟨_, find_mem hfind⟩ rfl hh hg
  refine ⟨fun hm => ?_, fun hm => ?_, fun h1 h2 => ?_⟩
  · obtain ⟨r, hd, hh⟩ := psHeader_first e.word { txt := tx, loc := some ⟨e.inputFile, 0⟩ } hr hm
    refine main r hd 1 hh ?_
    rintro rfl
    obtain ⟨l, ⟨_, t, h5, _⟩, ⟨i, t', rfl, _⟩, _⟩ := hm
    simp at h5
  · obtain ⟨r, hd, hh⟩ := psHeader_second e.word { txt := tx, loc := some ⟨e.inputFile, 0⟩ } hr hm
    refine main r hd 2 hh ?_
    rintro rfl
    obtain ⟨l, l2, _, ⟨l3, t, _, h5, _⟩, _⟩ := hm
    simp at h5
  · rcases hgr.shrink with h | ⟨d', txt, r', hd', hm', hh'⟩
    · rw [h, h0]
    · obtain ⟨p, hp⟩ := hgr.source
      have := (hgr.agree ha).uniq _ _ _ _ _ hm' (by rw [hp]; exact List.mem_append_right _ (find_mem hfind))
      subst this
      rw [psHeader_neither e.word _ hr h1 h2] at hh'
      cases hh'

/-- C42. The shift when translation is skipped: 1 if the first line has the text `coding:`, 2 otherwise. -/
theorem C42_skipping (cfg sh pc json) (eng : Engine) (passage) (text fn : Str) (o : Oracle) (s : Sys)
    (hf : pc.force = false) (hu : UpToDate s.fs pc.dependency fn (outputFn sh fn)) (ho : o.fault s.n = .ok) :
    ∃ data n, procStream cfg sh pc json eng passage text fn o s =
        .done (true, .str data, outputFn sh fn, n) ⟨s.fs, s.n + 1⟩ ∧
      (ColonFirst text → n = 1) ∧ (¬ ColonFirst text → n = 2) := by
  obtain ⟨f, hfn, hall⟩ := hu
  refine ⟨unifyEol f.content, if contains (readline text) (lit "coding:") then 1 else 2, ?_, ?_, ?_⟩
  · have hsk : skipCheck pc fn (outputFn sh fn) o s = .done (some (unifyEol f.content)) ⟨s.fs, s.n + 1⟩ := by
      unfold skipCheck
      rw [if_neg (by simp [hf]), hfn]
      simp only []
      rw [if_pos (skip_cond.2 hall)]
      simp only [readFile, ho, hfn]
      rfl
    unfold procStream
    rw [bind_done hsk]
    rfl
  · intro h
    rw [if_pos ((readline_colon text).2 h)]
  · intro h
    rw [if_neg (fun hc => h ((readline_colon text).1 hc))]

theorem magic_disjoint {word : Char → Bool} {text : Str} (h : MagicSecond word text) : ¬ MagicFirst word text := by
  obtain ⟨l₁, l₂, hl1, _, h1, _⟩ := h
  rintro ⟨l, hl, hc, hm⟩
  have := hl.unique hl1
  subst this
  rcases h1 with h1 | ⟨_, h1⟩
  · exact hc.not_blanks h1
  · exact h1 hm

/-- C42. For a source with a magic comment on its first or second line, without carriage returns, the
    shifts of both paths are equal exactly if `coding:` stands on the first line precisely when the magic
    comment does. -/
theorem C42_agree_iff (e : PEnv) (n : Nat) (input : Option Str) (text : Str) (ast : List Node) (st' : PSt)
    (hpy : e.outputPython = true) (ha : Agree e (PSt.start e input text)) (hcr : '\r' ∉ text)
    (hm : MagicFirst e.word text ∨ MagicSecond e.word text)
    (h : (P e n).parse e.inputFile (PSt.start e input text) = .ok (ast, st'))
    (cfg sh pc json) (eng : Engine) (passage) (fn : Str) (o : Oracle) (s s' : Sys) (data : Plain) (fno : Str)
    (k : Nat) (hf : pc.force = false) (hu : UpToDate s.fs pc.dependency fn (outputFn sh fn))
    (ho : o.fault s.n = .ok)
    (hskip : procStream cfg sh pc json eng passage text fn o s = .done (true, data, fno, k) s') :
    k = st'.shrink ↔ (ColonFirst text ↔ MagicFirst e.word text) := by
  obtain ⟨d, m, h1, h2, h3⟩ := C42_skipping cfg sh pc json eng passage text fn o s hf hu ho
  rw [h1] at hskip
  cases hskip
  obtain ⟨h4, h5, -⟩ := C42_translating e n input text ast st' hpy ha h
  rw [C12_no_cr_id text hcr] at h4 h5
  by_cases hc : ColonFirst text
  · rw [h2 hc]
    rcases hm with hm | hm
    · rw [h4 hm]; simp [hc, hm]
    · rw [h5 hm]; simp [hc, magic_disjoint hm]
  · rw [h3 hc]
    rcases hm with hm | hm
    · rw [h4 hm]; simp [hc, hm]
    · rw [h5 hm]; simp [hc, magic_disjoint hm]

/-- C42. So the shifts agree for the documented forms: `# … coding: yupp` on the first line; or on the
    second after a line without `coding:`. -/
theorem C42_colon_first {word : Char → Bool} {ind a b post text : Str}
    (hi : Blanks ind) (hb : Blanks b) (hp : WordEnd word post)
    (ht : FirstLine (ind ++ ('#' :: (a ++ (lit "coding:" ++ (b ++ (lit "yupp" ++ post)))))) text) :
    MagicFirst word text ∧ ColonFirst text := by
  have h1 : lit "coding:" = lit "coding" ++ [':'] := by decide
  refine ⟨⟨_, ht, ⟨ind, _, rfl, hi⟩, ind ++ '#' :: a, lit "coding", ':', b, lit "yupp", post, ?_, by decide,
    .inl rfl, hb, by decide, hp⟩, ⟨_, ind ++ '#' :: a, b ++ (lit "yupp" ++ post), ht, ?_⟩⟩
  · rw [h1]; simp
  · simp

/-- The magic comment after a shebang line. -/
example : MagicSecond (fun _ => false) (lit "#!/usr/bin/python\n# -*- coding: yupp -*-\nx\n") ∧
    ¬ ColonFirst (lit "#!/usr/bin/python\n# -*- coding: yupp -*-\nx\n") := by
  refine ⟨⟨lit "#!/usr/bin/python", lit "# -*- coding: yupp -*-",
    ⟨by decide, lit "\n# -*- coding: yupp -*-\nx\n", by decide, .inr ⟨_, rfl⟩⟩,
    ⟨lit "#!/usr/bin/python", lit "# -*- coding: yupp -*-\nx\n", by decide, by decide,
      by decide, lit "\nx\n", by decide, .inr ⟨_, rfl⟩⟩,
    .inr ⟨⟨[], lit "!/usr/bin/python", by decide, (by intro c hc; cases hc)⟩, ?_⟩,
    ⟨[], lit " -*- coding: yupp -*-", by decide, (by intro c hc; cases hc)⟩,
    lit "# -*- ", lit "coding", ':', lit " ", lit "yupp", lit " -*-", by decide, by decide, .inl rfl,
    (by intro c hc; simp [lit] at hc; exact .inl hc), by decide, ?_⟩, ?_⟩
  · rw [← codingSearch_some]; decide
  · rw [← nonWord_iff]; decide
  · rw [← readline_colon]; decide

/-- `C42_agree_iff` applies to it. -/
example : okWith ((P { inputFile := lit "a.yu-py", outputPython := true } 60).parse (lit "a.yu-py")
    (PSt.start { inputFile := lit "a.yu-py", outputPython := true } none
      (lit "#!/usr/bin/python\n# -*- coding: yupp -*-\nx\n"))) (fun _ st => st.shrink = 2) = true := by
  decide +kernel

/-- The full property is false: `# coding=yupp` shifts by one line when translated, by two when skipped. -/
theorem C42_equals_sign_differs :
    ∃ (e : PEnv) (text : Str) (ast : List Node) (st' : PSt) (n k : Nat) (sh : ShellCfg) (eng : Engine) (o : Oracle)
      (s s' : Sys) (data : Plain) (fn fno : Str),
      e.outputPython = true ∧ text = lit "# coding=yupp\nx = 1\n" ∧ MagicFirst e.word text ∧
      (P e n).parse e.inputFile (PSt.start e (some fn) text) = .ok (ast, st') ∧
      UpToDate s.fs [] fn (outputFn sh fn) ∧
      procStream {} sh {} (fun _ => []) eng 0 text fn o s = .done (true, data, fno, k) s' ∧
      st'.shrink = 1 ∧ k = 2 := by
  let e : PEnv := { inputFile := lit "a.yu-py", outputPython := true }
  let text := lit "# coding=yupp\nx = 1\n"
  let fs : Fs := (oneFile "a.yu-py" "src").set (lit "a.py") (some { content := lit "old", mtime := 5 })
  have h : okWith ((P e 40).parse e.inputFile (PSt.start e (some (lit "a.yu-py")) text))
      (fun _ st => st.shrink = 1) = true := by decide +kernel
  obtain ⟨ast, st', h1, h2⟩ := okWith_spec h
  have hu : UpToDate fs [] (lit "a.yu-py") (outputFn {} (lit "a.yu-py")) := by
    refine ⟨{ content := lit "old", mtime := 5 }, by decide, ?_⟩
    intro d hd
    simp only [List.not_mem_nil, or_false] at hd
    subst hd
    exact ⟨{ content := lit "src" }, by decide, by decide⟩
  let o : Oracle := { fault := fun _ => .ok, time := fun _ => 7 }
  let eng : Engine := fun _ _ _ _ _ => { raw := .raised }
  obtain ⟨data, k, h3, _, h4⟩ := C42_skipping {} {} {} (fun _ => []) eng 0 text (lit "a.yu-py") o
    ⟨fs, 0⟩ rfl hu rfl
  have hnc : ¬ ColonFirst text := by
    rw [← readline_colon]; decide
  refine ⟨e, text, ast, st', 40, k, {}, eng, o, ⟨fs, 0⟩, _, _, lit "a.yu-py", _, rfl, rfl, ?_, h1, hu, h3,
    by simpa using h2, h4 hnc⟩
  refine ⟨lit "# coding=yupp", ⟨by decide, lit "\nx = 1\n", by decide, .inr ⟨lit "x = 1\n", by decide⟩⟩,
    ⟨[], lit " coding=yupp", by decide, (by intro c hc; cases hc)⟩,
    lit "# ", lit "coding", '=', [], lit "yupp", [], by decide, by decide, .inr rfl,
    (by intro c hc; cases hc), by decide, (by intro c hc; cases hc)⟩

end Yupp
