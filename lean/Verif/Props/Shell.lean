import Verif.Lemmas.Local
/-!
# Properties of the shell: C34 – C41, C49, C50

`Engine` (parsing and evaluating) is arbitrary in all theorems, and so is the adversary `Oracle`, which
may let any file operation fail or stop the program at it.
-/

namespace Yupp
open Prog

/-! ## C34 -/

/-- C34: success is reported only if the translation came to a text; then `plain` is that text after
    the final processing. Otherwise the text handed on is the readable tree (or nothing). -/
theorem C34_success_is_text (cfg sh json) (eng : Engine) (passage) (text fn fno : Str) (o : Oracle) (s : Sys)
    (v s') (h : ppStream cfg sh json eng passage (Prog.pure text) fn fno o s = .done v s') :
    (v.1.ok = true ↔
      ((∃ t, (eng s.fs passage fn fno text).raw = .str t ∧
          v.1.plain = .str (replaceSteady (reduceEmptiness cfg t))) ∨
       (∃ r, (eng s.fs passage fn fno text).raw = .res r ∧
          v.1.plain = .res (Res.replaceSteady (Res.reduceEmptiness cfg r))))) := by
  have := ppStream_val (s' := s) rfl h
  subst this
  simp only []
  cases hr : (eng s.fs passage fn fno text).raw <;> simp [pp]

/-- C34: if the translation does not come to a text, the output file is not touched, whatever else
    happens, provided its extension is not `.ast`. -/
theorem C34_failure_keeps_output (cfg sh json) (eng : Engine) (passage) (text fn fno : Str) (o : Oracle) (s : Sys)
    (hraw : ∀ t r, (eng s.fs passage fn fno text).raw ≠ .str t ∧ (eng s.fs passage fn fno text).raw ≠ .res r)
    (hast : astFn fno ≠ fno) :
    (ppStream cfg sh json eng passage (Prog.pure text) fn fno o s).fs fno = s.fs fno := by
  rw [ppStream_fs (s' := s) rfl]
  simp only []
  cases hr : (eng s.fs passage fn fno text).raw with
  | raised => rfl
  | tree t =>
    cases t with
    | nil => rfl
    | cons c t =>
      simp only [pp, Bool.false_eq_true, if_false, Plain.txt, List.isEmpty_cons]
      exact (store_frame hast.symm (fun h => absurd h (by simp))).fs rfl
  | str t => exact absurd hr (hraw t ⟨[], [], []⟩).1
  | res r => exact absurd hr (hraw [] r).2

/-- C34: without I/O errors the tree is saved in the `.ast` file. -/
theorem C34_tree_saved (cfg sh json) (eng : Engine) (passage) (text fn fno t : Str) (o : Oracle) (s : Sys)
    (ho : NoFault o) (hraw : (eng s.fs passage fn fno text).raw = .tree t) (ht : t ≠ [])
    (hw : ∀ f, s.fs (astFn fno) = some f → f.readOnly = false) :
    Holds (ppStream cfg sh json eng passage (Prog.pure text) fn fno o s).fs (astFn fno) t := by
  rw [ppStream_fs (s' := s) rfl]
  simp only [hraw, pp]
  cases t with
  | nil => exact absurd rfl ht
  | cons c t =>
    simp only [Bool.false_eq_true, if_false, Plain.txt, List.isEmpty_cons, ppStore, Bool.not_false, if_true]
    obtain ⟨s', tm, e, _, _, hs⟩ := save_ok ho (text := c :: t) hw
    rw [e]
    exact ⟨_, by simp only [Out.fs, hs]; exact Fs.set_eq _ _ _, rfl⟩

/-- An engine that always yields the given value. -/
def constEngine (raw : Raw) (rept : Bool := false) : Engine := fun _ _ _ _ _ => { raw := raw, rept := rept }
/-- No faults; the time is the number of the operation. -/
def calm : Oracle := ⟨fun _ => .ok, fun n => 100 + n⟩
/-- A file system with one file. -/
def oneFile (fn content : String) : Fs := Fs.set (fun _ => none) (lit fn) (some { content := lit content })

/-- The condition on the extension in C34 is needed: for `a.yu-ast` the output is `a.ast`; a failing
    translation overwrites it without a backup. -/
theorem C34_ast_output_overwritten :
    outputFn {} (lit "a.yu-ast") = lit "a.ast" ∧
    ∃ eng : Engine, ∃ o s, Holds s.fs (lit "a.ast") (lit "old") ∧ NoFault o ∧
      let fs' := (ppStream {} {} (fun _ => []) eng 0 (Prog.pure (lit "($x)")) (lit "a.yu-ast")
        (outputFn {} (lit "a.yu-ast")) o s).fs
      Holds fs' (lit "a.ast") (lit "TREE") ∧ fs' (lit "a.ast.bak") = none := by
  refine ⟨by decide, constEngine (.tree (lit "TREE")), calm, ⟨oneFile "a.ast" "old", 0⟩,
    ⟨_, rfl, by decide⟩, fun _ => rfl, ?_⟩
  exact ⟨⟨{ content := lit "TREE", mtime := 101 }, by decide, rfl⟩, by decide⟩

example : (∀ t r, (constEngine (.tree (lit "T")) false (fun _ => none) 0 [] [] []).raw ≠ .str t ∧
    (constEngine (.tree (lit "T")) false (fun _ => none) 0 [] [] []).raw ≠ .res r) ∧
    astFn (lit "d/a.c") ≠ lit "d/a.c" := by
  refine ⟨fun t r => ⟨?_, ?_⟩, by decide⟩ <;> simp [constEngine]

/-! ## C35 -/

/-- C35: the derived output file has another base name than the input file. -/
theorem C35_other_name (sh : ShellCfg) (fn : Str) :
    basename (outputFn sh fn) ≠ basename fn ∧ outputFn sh fn ≠ fn := by
  have h : basename (outputFn sh fn) ≠ basename fn := by
    rw [basename_outputFn]; exact outBase_ne _
  exact ⟨h, fun he => h (by rw [he])⟩

example : outputFn {} (lit "dir/a.yu-c") = lit "dir/a.c" ∧
    outputFn { outputDir := lit "out" } (lit "dir/a.c.yu") = lit "out/a.c" := by decide

/-! ## C36 -/

/-- C36: different inputs may have the same output: `a.yu-c` and `a.c.yu` are both translated to `a.c`. When this
    happens is told by `C36_collisions`. -/
theorem C36_collision : ∃ a b : Str, a ≠ b ∧ outputFn {} a = outputFn {} b :=
  ⟨lit "a.yu-c", lit "a.c.yu", by decide, by decide⟩

/-- A base name that has characters besides dots. -/
def Named (s : Str) : Prop := ∃ c ∈ basename s, c ≠ '.'

theorem all_dots_false {s : Str} (h : ∃ c ∈ s, c ≠ '.') : s.all (· == '.') = false := by
  obtain ⟨c, hc, hne⟩ := h
  cases hd : s.all (· == '.') with
  | false => rfl
  | true => exact absurd (by simpa using List.all_eq_true.1 hd c hc) hne

theorem basename_append {s e : Str} (he : '/' ∉ e) : basename (s ++ e) = basename s ++ e := by
  conv => lhs; rw [← dirPart_basename s, List.append_assoc]
  exact basename_dir (isDir_dirPart s) (by simp [basename_noslash s, he])

theorem dirPart_append {s e : Str} (he : '/' ∉ e) : dirPart (s ++ e) = dirPart s := by
  conv => lhs; rw [← dirPart_basename s, List.append_assoc]
  exact dirPart_dir (isDir_dirPart s) (by simp [basename_noslash s, he])

theorem splitext_ext {s e : Str} (hs : Named s) (hd : '.' ∉ e) (he : '/' ∉ e) :
    splitext (s ++ '.' :: e) = (s, '.' :: e) := by
  have hsl : '/' ∉ '.' :: e := by simp [he]
  unfold splitext
  rw [basename_append hsl, dirPart_append hsl, splitextBase_dot hd, all_dots_false hs]
  simp [dirPart_basename]

theorem splitext_noext {s : Str} (hs : '.' ∉ basename s) : splitext s = (s, []) := by
  unfold splitext splitextBase
  rw [splitLast_none.2 hs]
  simp [dirPart_basename]

/-- C36: the documented names: `*.yu-X` gives `*.X`, `*.X` gives `*.yugen.X` (`X` not `yu`), `*.X.yu` gives
    `*.X`, `*.yu` and `*` give `*.yugen`. -/
theorem C36_names {s x : Str} (hs : Named s) (hx : x ≠ []) (hd : '.' ∉ x) (hl : '/' ∉ x) :
    outputFn {} (s ++ lit ".yu-" ++ x) = s ++ lit "." ++ x ∧
    outputFn {} (s ++ lit "." ++ x ++ lit ".yu") = s ++ lit "." ++ x ∧
    (matchYu ('.' :: x) = none → outputFn {} (s ++ lit "." ++ x) = s ++ lit ".yugen." ++ x) ∧
    ('.' ∉ basename s → outputFn {} (s ++ lit ".yu") = s ++ lit ".yugen" ∧ outputFn {} s = s ++ lit ".yugen") := by
  have hd1 : ∀ e : Str, '.' ∉ e → '/' ∉ e → '.' ∉ ('y' :: 'u' :: '-' :: e) := by
    intro e h _; simp [h]
  refine ⟨?_, ?_, ?_, ?_⟩
  · obtain ⟨c, t, rfl⟩ := List.exists_cons_of_ne_nil hx
    have : s ++ lit ".yu-" ++ c :: t = s ++ '.' :: ('y' :: 'u' :: '-' :: c :: t) := by simp [lit]
    unfold outputFn
    simp only [List.isEmpty_nil, if_true]
    rw [this, splitext_ext hs (by simpa using hd) (by simpa using hl)]
    simp [matchYu, sameLetter, lit, Char.toLower]
  · have hn : Named (s ++ '.' :: x) := by
      obtain ⟨c, hc, hne⟩ := hs
      exact ⟨c, by rw [basename_append (by simp [hl])]; simp [hc], hne⟩
    have : s ++ lit "." ++ x ++ lit ".yu" = (s ++ '.' :: x) ++ '.' :: ['y', 'u'] := by simp [lit]
    unfold outputFn
    simp only [List.isEmpty_nil, if_true]
    rw [this, splitext_ext hn (by decide) (by decide)]
    simp [matchYu, sameLetter, lit, Char.toLower, splitext_ext hs hd hl]
  · intro hm
    have : s ++ lit "." ++ x = s ++ '.' :: x := by simp [lit]
    unfold outputFn
    simp only [List.isEmpty_nil, if_true]
    rw [this, splitext_ext hs hd hl]
    simp [hm, eYugen, lit]
  · intro hb
    have : s ++ lit ".yu" = s ++ '.' :: ['y', 'u'] := by simp [lit]
    constructor
    · unfold outputFn
      simp only [List.isEmpty_nil, if_true]
      rw [this, splitext_ext hs (by decide) (by decide)]
      simp [matchYu, sameLetter, Char.toLower, splitext_noext hb, eYugen]
    · unfold outputFn
      simp only [List.isEmpty_nil, if_true]
      rw [splitext_noext hb]
      simp [eYugen]

theorem dot_split_unique {a b x y : Str} (hx : '.' ∉ x) (hy : '.' ∉ y)
    (h : a ++ '.' :: x = b ++ '.' :: y) : a = b ∧ x = y := by
  have h1 := splitLast_append (a := a) hx
  rw [h, splitLast_append hy] at h1
  simp only [Option.some.injEq, Prod.mk.injEq] at h1
  exact ⟨h1.1.symm, h1.2.symm⟩

example : Named (lit "dir/a") ∧ matchYu ('.' :: lit "c") = none ∧ '.' ∉ basename (lit "d.x/a") :=
  ⟨⟨'a', by decide, by decide⟩, by decide, by decide⟩

/-! ## C37 -/

/-- C37: wherever the program is stopped, and whatever operations fail, the old content of the
    output file exists under its name or under the name of the backup. `out` is the name the output
    goes to, derived or set by the source text. -/
theorem C37_crash_safe (cfg sh json) (eng : Engine) (passage) (text fn fno : Str) (o : Oracle) (s : Sys) (c : Str) :
    let run := eng s.fs passage fn fno text
    let out := if (pp cfg run.raw).1 then finalFn run fno else fno
    Holds s.fs out c → ((pp cfg run.raw).1 = false → astFn fno ≠ fno) →
    let fs' := (ppStream cfg sh json eng passage (Prog.pure text) fn fno o s).fs
    Holds fs' out c ∨ Holds fs' (out ++ lit ".bak") c := by
  intro run out hc hast
  show Holds (ppStream cfg sh json eng passage (Prog.pure text) fn fno o s).fs out c ∨ _
  rw [ppStream_fs (s' := s) rfl]
  simp only []
  cases hok : (pp cfg run.raw).1 with
  | true =>
    have hout : out = finalFn run fno := by simp only [out, hok, if_true]
    rw [if_pos rfl]
    rw [hout] at hc ⊢
    exact store_kept.fs hc
  | false =>
    have hout : out = fno := by simp only [out, hok, Bool.false_eq_true, if_false]
    rw [hout] at hc ⊢
    left
    obtain ⟨g, hg, hgc⟩ := hc
    refine ⟨g, ?_, hgc⟩
    simp only [Bool.false_eq_true, if_false]
    split
    · rename_i he
      simp only [ppStore, he, Bool.false_eq_true, if_false, Bool.not_true]
      exact hg
    · rw [← hg]
      exact (store_frame (hast hok).symm (fun h => absurd h (by simp))).fs rfl

/-- C37 for `_pp_file` with a derived output name. -/
theorem C37_crash_safe_file (cfg sh json) (eng : Engine) (passage) (fn : Str) (o : Oracle) (s : Sys) (c : Str)
    (hout : ∀ fs text, (eng fs passage fn (outputFn sh fn) text).outputFile = none)
    (hc : Holds s.fs (outputFn sh fn) c) (hast : astFn (outputFn sh fn) ≠ outputFn sh fn) :
    let fs' := (ppFile cfg sh json eng passage fn o s).fs
    Holds fs' (outputFn sh fn) c ∨ Holds fs' (outputFn sh fn ++ lit ".bak") c := by
  refine ppFile_fs (fun fs => Holds fs (outputFn sh fn) c ∨ Holds fs (outputFn sh fn ++ lit ".bak") c) (.inl hc) ?_
  intro text s' hs'
  have := C37_crash_safe cfg sh json eng passage text fn (outputFn sh fn) o s' c
  simp only [finalFn, hout, ite_self] at this
  exact this (by rw [hs']; exact hc) (fun _ => hast)

/-- Hypotheses of C37 met: an output file exists and the program is stopped in the middle of writing
    the new one; the old content is in the backup. -/
example :
    let o : Oracle := ⟨fun n => if n = 4 then .crash 3 else .ok, fun n => n⟩
    let fs' := (ppFile {} {} (fun _ => []) (constEngine (.str (lit "new text"))) 0 (lit "a.yu-c") o
      ⟨(oneFile "a.yu-c" "source").set (lit "a.c") (some { content := lit "old" }), 0⟩).fs
    (fs' (lit "a.c")).map (·.content) = some (lit "new") ∧ (fs' (lit "a.c.bak")).map (·.content) = some (lit "old") := by
  decide

/-- What C37 does not promise: with several passes over a source the backup is the output of the
    previous pass; the output of the previous run of the program is lost. -/
theorem C37_two_passes_lose :
    ∃ (eng : Engine) (s : Sys), Holds s.fs (lit "a.c") (lit "old") ∧
      let fs' := (runPasses (ppFile {} {} (fun _ => []) eng) (lit "a.yu-c") 3 0 calm s).fs
      (fs' (lit "a.c")).map (·.content) = some (lit "b\n") ∧
      (fs' (lit "a.c.bak")).map (·.content) = some (lit "a\n") := by
  refine ⟨fun _ p _ _ _ => { raw := .str (if p = 0 then lit "a" else lit "b"), rept := p = 0 },
    ⟨(oneFile "a.yu-c" "source").set (lit "a.c") (some { content := lit "old" }), 0⟩, ⟨_, rfl, rfl⟩, ?_⟩
  decide

/-! ## C38 -/

/-- C38 without the exception is false: if writing the output fails, success is reported all the same; here the file holds
    three characters of the text. -/
theorem C38_error_still_success :
    ∃ (eng : Engine) (o : Oracle) (s : Sys) (v : StreamRes × Option Run) (s' : Sys),
      ppStream {} {} (fun _ => []) eng 0 (Prog.pure (lit "x")) (lit "a.yu-c") (lit "a.c") o s = .done v s' ∧
      v.1.ok = true ∧ v.1.plain = .str (lit "new text\n") ∧ Holds s'.fs (lit "a.c") (lit "new") :=
  ⟨constEngine (.str (lit "new text")), ⟨fun n => if n = 1 then .err 3 else .ok, fun n => n⟩, ⟨fun _ => none, 0⟩,
    _, _, rfl, rfl, by decide, ⟨{ content := lit "new", mtime := 1 }, by decide, by decide⟩⟩

/-- If no file operation fails and success is reported, the output file holds the text. -/
theorem success_written (cfg sh json) (eng : Engine) (passage) (text fn fno : Str) (o : Oracle) (s : Sys)
    (ho : NoFault o) (v s') (h : ppStream cfg sh json eng passage (Prog.pure text) fn fno o s = .done v s')
    (hok : v.1.ok = true) :
    (∃ g, s'.fs v.1.fnO = some g ∧ g.content = v.1.plain.txt ∧ g.readOnly = sh.readOnly) ∧
    (∀ f, s.fs v.1.fnO = some f → s'.fs (v.1.fnO ++ lit ".bak") = some f) := by
  have hv := ppStream_val (s' := s) rfl h
  have hfs := ppStream_fs (cfg := cfg) (sh := sh) (json := json) (eng := eng) (passage := passage)
    (rd := Prog.pure text) (fn := fn) (fno := fno) (o := o) (s := s) (s' := s) rfl
  rw [h] at hfs
  simp only [] at hfs hv
  rw [hv] at hok
  simp only at hok
  rw [hok] at hfs
  simp only [if_true] at hfs
  have hst := store_ok ho sh json (pp cfg (eng s.fs passage fn fno text).raw).2
    (finalFn (eng s.fs passage fn fno text) fno) s
  rw [← hfs] at hst
  obtain ⟨g, h1, h2, h3, _, h5⟩ := hst
  subst hv
  simp only [hok, if_true]
  exact ⟨⟨g, h1, h2, h3⟩, h5⟩

/-- C38: if success is reported, then the output file holds the text, is protected as configured, and the old output
    is in the backup; or one of the file operations of this very run failed. -/
theorem C38_success_written (cfg sh json) (eng : Engine) (passage) (text fn fno : Str) (o : Oracle) (s : Sys) (v s')
    (h : ppStream cfg sh json eng passage (Prog.pure text) fn fno o s = .done v s') (hok : v.1.ok = true) :
    ((∃ g, s'.fs v.1.fnO = some g ∧ g.content = v.1.plain.txt ∧ g.readOnly = sh.readOnly) ∧
      (∀ f, s.fs v.1.fnO = some f → s'.fs (v.1.fnO ++ lit ".bak") = some f)) ∨
    ∃ n, s.n ≤ n ∧ n < s'.n ∧ o.fault n ≠ .ok := by
  by_cases hf : ∃ n, s.n ≤ n ∧ n < s'.n ∧ o.fault n ≠ .ok
  · exact .inr hf
  · left
    have hl : Local (ppStream cfg sh json eng passage (Prog.pure text) fn fno) := Local.stream (Local.pure text)
    obtain ⟨o', ho', _, e⟩ := hl.noFault (o := o) (s := s) (by
      intro n h1 h2
      rw [h] at h2
      exact Classical.byContradiction fun hn => hf ⟨n, h1, h2, hn⟩)
    exact success_written cfg sh json eng passage text fn fno o' s ho' v s' (e.trans h) hok

/-- C38: whatever fails, and wherever the program is stopped, after a translation that came to a text the output file
    is as it was; or the old one is in the backup and there is no output file, or one that holds the beginning of the
    text. -/
theorem C38_left_as (cfg sh json) (eng : Engine) (passage) (text fn fno : Str) (o : Oracle) (s : Sys) :
    let run := eng s.fs passage fn fno text
    let out := finalFn run fno
    (pp cfg run.raw).1 = true →
    let fs' := (ppStream cfg sh json eng passage (Prog.pure text) fn fno o s).fs
    fs' out = s.fs out ∨ ((∀ f, s.fs out = some f → fs' (out ++ lit ".bak") = some f) ∧
      (fs' out = none ∨ ∃ k, Holds fs' out ((pp cfg run.raw).2.txt.take k))) := by
  intro run out hok
  show _ ∨ _
  rw [ppStream_fs (s' := s) rfl]
  simp only []
  rw [show (pp cfg (eng s.fs passage fn fno text).raw).1 = true from hok, if_pos rfl]
  exact store_left.fs (P := fun fs => fs out = s.fs out) rfl

/-- C38 for `_pp_file`: if success is reported, the output file holds the text its source translates to, or one of
    the file operations of this very run failed. -/
theorem C38_file (cfg sh json) (eng : Engine) (passage) (fn : Str) (o : Oracle) (s : Sys) (rept s')
    (h : ppFile cfg sh json eng passage fn o s = .done (true, rept) s') :
    (∃ f, s.fs fn = some f ∧
      let run := eng s.fs passage fn (outputFn sh fn)
        (replace ['\r'] ['\n'] (replace ['\r', '\n'] ['\n'] f.content))
      (pp cfg run.raw).1 = true ∧ Holds s'.fs (finalFn run (outputFn sh fn)) (pp cfg run.raw).2.txt) ∨
    ∃ n, s.n ≤ n ∧ n < s'.n ∧ o.fault n ≠ .ok := by
  by_cases hf : ∃ n, s.n ≤ n ∧ n < s'.n ∧ o.fault n ≠ .ok
  · exact .inr hf
  · left
    obtain ⟨o', ho', _, e⟩ := (Local.file cfg sh json eng passage fn).noFault (o := o) (s := s) (by
      intro n h1 h2
      rw [h] at h2
      exact Classical.byContradiction fun hn => hf ⟨n, h1, h2, hn⟩)
    rw [h] at e
    cases hs : s.fs fn with
    | none =>
      have : ppFile cfg sh json eng passage fn o' s = .done (false, false) ⟨s.fs, s.n + 1⟩ := by
        have h1 : openR fn o' s = .raised ⟨s.fs, s.n + 1⟩ := by
          simp [openR, Prog.op, ho' s.n, hs]
        show Prog.bind (Prog.tryIO (Prog.bind (openR fn) fun _ => Prog.pure true) (Prog.pure false)) _ o' s = _
        simp only [Prog.bind, Prog.tryIO, h1, Prog.pure]
        rfl
      rw [this] at e
      simp at e
    | some f =>
      refine ⟨f, rfl, ?_⟩
      have h1 : openR fn o' s = .done () ⟨s.fs, s.n + 1⟩ := by simp [openR, Prog.op, ho' s.n, hs]
      have h2 : readFile fn o' ⟨s.fs, s.n + 1⟩ =
          .done (replace ['\r'] ['\n'] (replace ['\r', '\n'] ['\n'] f.content)) ⟨s.fs, s.n + 2⟩ := by
        simp [readFile, ho' (s.n + 1), hs]
      have e2 : (Prog.bind (ppStream cfg sh json eng passage (readFile fn) fn (outputFn sh fn)) fun r =>
          Prog.pure (r.1.ok, match r.2 with | some run => run.rept | none => false)) o' ⟨s.fs, s.n + 1⟩ =
          .done (true, rept) s' := by
        rw [← e]
        symm
        show Prog.bind (Prog.tryIO (Prog.bind (openR fn) fun _ => Prog.pure true) (Prog.pure false)) _ o' s = _
        simp only [Prog.bind, Prog.tryIO, h1, Prog.pure]
        rfl
      unfold Prog.bind at e2
      cases hst : ppStream cfg sh json eng passage (readFile fn) fn (outputFn sh fn) o' ⟨s.fs, s.n + 1⟩ with
      | raised s2 => rw [hst] at e2; simp at e2
      | crashed s2 => rw [hst] at e2; simp at e2
      | done v s2 =>
        rw [hst] at e2
        simp only [Prog.pure, Out.done.injEq, Prod.mk.injEq] at e2
        obtain ⟨⟨hok, _⟩, rfl⟩ := e2
        have h3 : ppStream cfg sh json eng passage
            (Prog.pure (replace ['\r'] ['\n'] (replace ['\r', '\n'] ['\n'] f.content))) fn (outputFn sh fn) o'
            ⟨s.fs, s.n + 2⟩ = .done v s2 := by
          rw [← hst]
          unfold ppStream
          rw [h2]
          rfl
        have hv := ppStream_val (s' := ⟨s.fs, s.n + 2⟩) rfl h3
        have hw := success_written cfg sh json eng passage _ fn _ o' _ ho' v s2 h3 hok
        obtain ⟨⟨g, hg, hc, _⟩, _⟩ := hw
        subst hv
        simp only at hok hg hc
        rw [if_pos hok] at hg
        exact ⟨hok, g, hg, hc⟩

example : NoFault calm := fun _ => rfl
example : ∃ v s', ppStream {} {} (fun _ => []) (constEngine (.str (lit "t"))) 0 (Prog.pure []) (lit "a.yu-c")
    (lit "a.c") calm ⟨fun _ => none, 0⟩ = .done v s' ∧ v.1.ok = true := ⟨_, _, rfl, rfl⟩

/-! ## C49 -/

/-- C49: translating a file never touches any file but the output, its backup, its table file and the
    tree file. -/
theorem C49_only_own_files (cfg sh json) (eng : Engine) (passage) (text fn fno g : Str) (o : Oracle) (s : Sys) :
    let out := finalFn (eng s.fs passage fn fno text) fno
    g ≠ out → g ≠ out ++ lit ".bak" → g ≠ out ++ lit ".json" → g ≠ astFn fno →
    (ppStream cfg sh json eng passage (Prog.pure text) fn fno o s).fs g = s.fs g := by
  intro out h1 h2 h3 h4
  rw [ppStream_fs (s' := s) rfl]
  simp only []
  cases hok : (pp cfg (eng s.fs passage fn fno text).raw).1 with
  | true =>
    rw [if_pos rfl]
    exact (store_frame h1 (fun _ => ⟨h2, h3⟩)).fs rfl
  | false =>
    simp only [Bool.false_eq_true, if_false]
    split
    · rename_i he
      simp only [ppStore, he, Bool.false_eq_true, if_false, Bool.not_true]
      rfl
    · exact (store_frame h4 (fun h => absurd h (by simp))).fs rfl

theorem basename_suffix (sh : ShellCfg) (fn : Str) {e : Str} (he : '/' ∉ e) :
    basename (outputFn sh fn ++ e) = outBase (basename fn) ++ e := by
  rw [basename_append he, basename_outputFn]

/-- The input is none of the files written for the derived output. -/
theorem input_ne_own (sh : ShellCfg) (fn : Str) :
    fn ≠ outputFn sh fn ∧ fn ≠ outputFn sh fn ++ lit ".bak" ∧ fn ≠ outputFn sh fn ++ lit ".json" ∧
      fn ≠ astFn (outputFn sh fn) := by
  have hne : ∀ e : Str, '/' ∉ e → outBase (basename fn) ++ e ≠ basename fn → fn ≠ outputFn sh fn ++ e := by
    intro e he hb h
    exact hb (by rw [← basename_suffix sh fn he, ← h])
  have hb := basename_noslash fn
  refine ⟨(C35_other_name sh fn).2.symm,
    hne _ (by decide) (outBase_suffix_ne (e := ['b', 'a', 'k']) (by decide) (by decide)),
    hne _ (by decide) (outBase_suffix_ne (e := ['j', 's', 'o', 'n']) (by decide) (by decide)), ?_⟩
  intro hf
  have hs := splitext_dir (outDir_isDir sh fn) (outBase_noslash hb)
  rw [← outputFn_eq] at hs
  have hbn : basename (astFn (outputFn sh fn)) = (splitextBase (outBase (basename fn))).1 ++ eAst := by
    unfold astFn
    rw [hs]
    simp only [List.append_assoc]
    refine basename_dir (outDir_isDir sh fn) ?_
    simp only [List.mem_append, not_or]
    exact ⟨(splitextBase_noslash (outBase_noslash hb)).1, by decide⟩
  rw [← hf] at hbn
  exact astBase_ne hbn.symm

/-- C49: the input file is never touched, with any output directory, unless the source text itself
    names the output file. -/
theorem C49_input_untouched (cfg sh json) (eng : Engine) (passage) (fn : Str) (o : Oracle) (s : Sys)
    (hout : ∀ fs text, (eng fs passage fn (outputFn sh fn) text).outputFile = none) :
    (ppFile cfg sh json eng passage fn o s).fs fn = s.fs fn := by
  refine ppFile_fs (fun fs => fs fn = s.fs fn) rfl ?_
  intro text s' hs'
  have h := C49_only_own_files cfg sh json eng passage text fn (outputFn sh fn) fn o s'
  simp only [finalFn, hout] at h
  rw [← hs']
  obtain ⟨h1, h2, h3, h4⟩ := input_ne_own sh fn
  exact h h1 h2 h3 h4

/-- The condition is needed: `($set __OUTPUT_FILE__ ...)` naming the input replaces it. -/
theorem C49_output_file_names_input :
    ∃ (eng : Engine) (s : Sys), s.fs (lit "a.yu-c") = some { content := lit "source" } ∧
      ((ppFile {} {} (fun _ => []) eng 0 (lit "a.yu-c") calm s).fs (lit "a.yu-c")).map (·.content) = some (lit "t\n") :=
  ⟨fun _ _ fn _ _ => { raw := .str (lit "t"), outputFile := some fn }, ⟨oneFile "a.yu-c" "source", 0⟩,
    by decide, by decide⟩

/-! ## C39 -/

/-- The calls `cli` makes for one path: passes 0, 1, ..., n; all but the last one succeed. -/
inductive PassCalls (path : Str) : Nat → List Call → Prop
  | last (p : Nat) (ok : Bool) : PassCalls path p [⟨path, p, ok⟩]
  | more {p : Nat} {l : List Call} : PassCalls path (p + 1) l → PassCalls path p (⟨path, p, true⟩ :: l)

/-- The calls for a list of paths, one group after the other. -/
inductive FileCalls : List Str → List Call → Prop
  | nil : FileCalls [] []
  | cons {path : Str} {paths : List Str} {l l' : List Call} :
      PassCalls path 0 l → FileCalls paths l' → FileCalls (path :: paths) (l ++ l')

/-- Number of failed calls. -/
def failures (l : List Call) : Nat := l.countP (fun c => !c.ok)

theorem pure_done {a b : α} {o : Oracle} {s s' : Sys} (h : (Pure.pure a : Prog α) o s = .done b s') : a = b ∧ s = s' := by
  have : Out.done a s = .done b s' := h
  simpa using this

theorem bind_inv {m : Prog α} {f : α → Prog β} {o s b s'} (h : (m >>= f) o s = .done b s') :
    ∃ a s1, m o s = .done a s1 ∧ f a o s1 = .done b s' := by
  change Prog.bind m f o s = _ at h
  unfold Prog.bind at h
  cases hm : m o s with
  | done a s1 => rw [hm] at h; exact ⟨a, s1, rfl, h⟩
  | raised s1 => rw [hm] at h; simp at h
  | crashed s1 => rw [hm] at h; simp at h

theorem runPasses_calls {file path fuel p o s q s'} (h : runPasses file path fuel p o s = .done (some q) s') :
    PassCalls path p q.2 ∧ q.1 = failures q.2 := by
  induction fuel generalizing p s q s' with
  | zero => have := pure_done h; simp at this
  | succ n ih =>
    obtain ⟨r, s1, _, h2⟩ := bind_inv h
    obtain ⟨ok, rept⟩ := r
    cases ok with
    | false =>
      have := (pure_done h2).1
      simp only [Option.some.injEq] at this
      subst this
      exact ⟨.last p false, by simp [failures]⟩
    | true =>
      cases rept with
      | false =>
        have := (pure_done h2).1
        simp only [Option.some.injEq] at this
        subst this
        exact ⟨.last p true, by simp [failures]⟩
      | true =>
        simp only [Bool.not_true, Bool.false_eq_true, if_false] at h2
        obtain ⟨rest, s2, h3, h4⟩ := bind_inv h2
        have h5 := (pure_done h4).1
        cases rest with
        | none => simp at h5
        | some q' =>
          simp only [Option.map_some, Option.some.injEq] at h5
          subst h5
          have := ih h3
          exact ⟨.more this.1, by simpa [failures] using this.2⟩

theorem runFiles_calls {file fuel files k o s q s'} (h : runFiles file fuel files k o s = .done (some q) s') :
    FileCalls files q.2 ∧ q.1 = k + failures q.2 := by
  induction files generalizing k s q s' with
  | nil =>
    have := (pure_done h).1
    simp only [Option.some.injEq] at this
    subst this
    exact ⟨.nil, by simp [failures]⟩
  | cons path rest ih =>
    obtain ⟨r, s1, h1, h2⟩ := bind_inv h
    cases r with
    | none => have := (pure_done h2).1; simp at this
    | some r =>
      obtain ⟨q', s2, h3, h4⟩ := bind_inv h2
      have h5 := (pure_done h4).1
      cases q' with
      | none => simp at h5
      | some q' =>
        simp only [Option.map_some, Option.some.injEq] at h5
        subst h5
        have hp := runPasses_calls h1
        have hr := ih h3
        refine ⟨.cons hp.1 hr.1, ?_⟩
        simp only [hr.2, hp.2, failures, List.countP_append]
        omega

/-- C39: the value returned by `cli` is four times the number of failed files; each file is tried in
    order, pass after pass, until a pass fails or none is asked for. -/
theorem C39_status (file fuel files o s n calls s')
    (h : cliFiles file fuel files o s = .done (some (n, calls)) s') :
    FileCalls files calls ∧ n = 4 * failures calls ∧ (n = 0 ↔ ∀ c ∈ calls, c.ok = true) := by
  unfold cliFiles at h
  obtain ⟨r, s1, h1, h2⟩ := bind_inv h
  have h3 := (pure_done h2).1
  cases r with
  | none => simp at h3
  | some q =>
    simp only [Option.map_some, Option.some.injEq, Prod.mk.injEq] at h3
    obtain ⟨hn, hc⟩ := h3
    have := runFiles_calls h1
    rw [hc] at this
    have hn' : n = 4 * failures calls := by rw [← hn, this.2, Nat.shiftLeft_eq]; omega
    refine ⟨this.1, hn', ?_⟩
    rw [hn']
    unfold failures
    constructor
    · intro h0 c hc
      have h0 : List.countP (fun c : Call => !c.ok) calls = 0 := by omega
      have := List.countP_eq_zero.1 h0 c hc
      simpa using this
    · intro hall
      have : List.countP (fun c : Call => !c.ok) calls = 0 :=
        List.countP_eq_zero.2 fun c hc => by simp [hall c hc]
      omega

theorem runFiles_failing (o : Oracle) (files : List Str) : ∀ (k : Nat) (s : Sys),
    runFiles (fun _ _ => Prog.pure (false, false)) 1 files k o s =
      .done (some (k + files.length, files.map fun f => ⟨f, 0, false⟩)) s := by
  induction files with
  | nil => intro k s; rfl
  | cons f fs ih =>
    intro k s
    simp only [runFiles]
    rw [bind_done (a := some (1, [⟨f, 0, false⟩])) (s' := s) rfl]
    simp only []
    rw [bind_done (ih _ _)]
    show Out.done _ _ = _
    simp only [Option.map_some, List.length_cons, List.map_cons, List.singleton_append]
    rw [show k + 1 + fs.length = k + (fs.length + 1) by omega]

/-- C39 does not carry over to the exit code of the process, which keeps eight bits: if 64 files fail
    (none can be opened, say) the process reports success. -/
theorem C39_exit_code_wraps :
    ∃ (file : Nat → Str → Prog (Bool × Bool)) (files : List Str) (n : Nat) (calls : List Call),
      cliFiles file 1 files calm ⟨fun _ => none, 0⟩ = .done (some (n, calls)) ⟨fun _ => none, 0⟩ ∧
      failures calls = 64 ∧ exitCode n = 0 := by
  refine ⟨fun _ _ => Prog.pure (false, false), List.replicate 64 (lit "x"), 256,
    (List.replicate 64 (lit "x")).map fun f => ⟨f, 0, false⟩, ?_, by decide, by decide⟩
  unfold cliFiles
  rw [bind_done (runFiles_failing calm _ 0 _)]
  rfl

/-- Up to 63 failures the exit code tells. -/
theorem C39_exit_code (n : Nat) (h : n < 64) : exitCode (4 * n) = 4 * n := by
  unfold exitCode; omega

example : (cliFiles (ppFile {} {} (fun _ => []) (constEngine (.str (lit "t")))) 3
    [lit "a.yu-c", lit "missing"] calm ⟨oneFile "a.yu-c" "src", 0⟩ |> fun
      | .done r _ => r
      | _ => none) = some (4, [⟨lit "a.yu-c", 0, true⟩, ⟨lit "missing", 0, false⟩]) := by decide

/-! ## C40 -/

/-- C40: suppose that at every pass the source asks for repetition as `($__PASSAGE__ l)` does, for the
    same non-empty list `l`, and that no pass fails. Then the file is processed exactly once per item. -/
theorem C40_passes (l : List α) (hl : l ≠ []) (file : Nat → Str → Prog (Bool × Bool)) (path : Str) (o : Oracle)
    (hfile : ∀ p s, ∃ s', file p path o s = .done (true, (passageBuiltin p l).1) s') :
    ∀ fuel s, l.length ≤ fuel →
      ∃ s', runPasses file path fuel 0 o s =
        .done (some (0, (List.range l.length).map fun p => ⟨path, p, true⟩)) s' := by
  have key : ∀ (n p fuel : Nat) (s : Sys), p + n + 1 = l.length → n + 1 ≤ fuel →
      ∃ s', runPasses file path fuel p o s =
        .done (some (0, (List.range' p (n + 1)).map fun p => ⟨path, p, true⟩)) s' := by
    intro n
    induction n with
    | zero =>
      intro p fuel s hp hf
      obtain ⟨fuel, rfl⟩ : ∃ k, fuel = k + 1 := ⟨fuel - 1, by omega⟩
      obtain ⟨s1, h1⟩ := hfile p s
      have hrep : (passageBuiltin p l).1 = false := by simp [passageBuiltin]; omega
      refine ⟨s1, ?_⟩
      simp only [runPasses]
      rw [bind_done h1, hrep]
      rfl
    | succ n ih =>
      intro p fuel s hp hf
      obtain ⟨fuel, rfl⟩ : ∃ k, fuel = k + 1 := ⟨fuel - 1, by omega⟩
      obtain ⟨s1, h1⟩ := hfile p s
      have hrep : (passageBuiltin p l).1 = true := by simp [passageBuiltin]; omega
      obtain ⟨s2, h2⟩ := ih (p + 1) fuel s1 (by omega) (by omega)
      refine ⟨s2, ?_⟩
      simp only [runPasses]
      rw [bind_done h1, hrep]
      simp only [Bool.not_true, Bool.false_eq_true, if_false]
      rw [bind_done h2]
      rw [List.range'_succ]
      rfl
  intro fuel s hf
  have hpos : 0 < l.length := List.length_pos_iff.2 hl
  obtain ⟨s', h⟩ := key (l.length - 1) 0 fuel s (by omega) (by omega)
  refine ⟨s', ?_⟩
  rw [h, show l.length - 1 + 1 = l.length by omega, ← List.range_eq_range']

/-- C40: at pass `p` the value of `($__PASSAGE__ l)` is the item number `p`. -/
theorem C40_item (l : List α) (p : Nat) (hp : p < l.length) : (passageBuiltin p l).2 = some l[p] := by
  simp [passageBuiltin, hp]

/-- C40: processing stops at the first failing pass. -/
theorem C40_stops_at_failure (file path fuel p o s s1 r)
    (h : file p path o s = .done (false, r) s1) :
    runPasses file path (fuel + 1) p o s = .done (some (1, [⟨path, p, false⟩])) s1 := by
  simp only [runPasses]
  rw [bind_done h]
  rfl

example : (runPasses (fun p _ => Prog.pure (true, (passageBuiltin p [10, 20, 30]).1)) (lit "a") 9 0 calm ⟨fun _ => none, 0⟩ |>
    fun | .done (some (_, l)) _ => l.length | _ => 0) = 3 := by decide

/-! ## C41 -/

/-- The output is up to date: it exists and is strictly newer than the source and each dependency. -/
def UpToDate (fs : Fs) (deps : List Str) (fn fno : Str) : Prop :=
  ∃ f, fs fno = some f ∧ ∀ d, d = fn ∨ d ∈ deps → ∃ g, fs d = some g ∧ g.mtime < f.mtime

theorem skip_cond {fs : Fs} {deps : List Str} {fn : Str} {f : File} :
    ((deps ++ [fn]).all (olderThan fs f.mtime) = true) ↔
      ∀ d, d = fn ∨ d ∈ deps → ∃ g, fs d = some g ∧ g.mtime < f.mtime := by
  simp only [List.all_eq_true, List.mem_append, List.mem_singleton]
  constructor
  · intro h d hd
    have := h d (hd.symm)
    unfold olderThan at this
    cases hg : fs d with
    | none => rw [hg] at this; simp at this
    | some g => rw [hg] at this; exact ⟨g, rfl, by simpa using this⟩
  · intro h d hd
    obtain ⟨g, hg, hlt⟩ := h d hd.symm
    unfold olderThan
    rw [hg]; simpa using hlt

theorem skipCheck_none {pc fn fno o} {s : Sys} (h : pc.force = true ∨ ¬ UpToDate s.fs pc.dependency fn fno) :
    skipCheck pc fn fno o s = .done none s := by
  unfold skipCheck
  by_cases hf : pc.force = true
  · simp [hf]
  · rw [if_neg hf]
    have hu : ¬ UpToDate s.fs pc.dependency fn fno := h.resolve_left hf
    cases hs : s.fs fno with
    | none => rfl
    | some f =>
      simp only []
      rw [if_neg]
      intro hc
      exact hu ⟨f, hs, skip_cond.1 hc⟩

/-- C41: unless the translation is not forced and the output is up to date, the source is translated. -/
theorem C41_translates (cfg sh pc json) (eng : Engine) (passage) (text fn : Str) (o : Oracle) (s : Sys)
    (h : pc.force = true ∨ ¬ UpToDate s.fs pc.dependency fn (outputFn sh fn)) :
    procStream cfg sh pc json eng passage text fn o s =
      (do let r ← ppStream cfg sh json eng passage (Prog.pure text) fn (outputFn sh fn)
          return (r.1.ok, r.1.plain, outputFn sh fn,
            match r.2 with | some run => run.shrink | none => 0)) o s := by
  unfold procStream
  rw [bind_done (skipCheck_none h)]
  rfl

/-- C41: otherwise, if the output can be read, its content is the result, no file is touched and
    neither the parser nor the evaluator is consulted (the result does not depend on the engine). -/
theorem C41_skips (cfg sh pc json) (eng : Engine) (passage) (text fn : Str) (o : Oracle) (s : Sys)
    (hf : pc.force = false) (hu : UpToDate s.fs pc.dependency fn (outputFn sh fn)) (ho : o.fault s.n = .ok) :
    ∃ f data n, s.fs (outputFn sh fn) = some f ∧ data = unifyEol f.content ∧
      procStream cfg sh pc json eng passage text fn o s =
        .done (true, .str data, outputFn sh fn, n) ⟨s.fs, s.n + 1⟩ := by
  obtain ⟨f, hfn, hall⟩ := hu
  refine ⟨f, unifyEol f.content, if contains (readline text) (lit "coding:") then 1 else 2, hfn, rfl, ?_⟩
  have hsk : skipCheck pc fn (outputFn sh fn) o s = .done (some (unifyEol f.content)) ⟨s.fs, s.n + 1⟩ := by
    unfold skipCheck
    rw [if_neg (by simp [hf]), hfn]
    simp only []
    rw [if_pos (skip_cond.2 hall)]
    simp only [readFile, ho, hfn]
    rfl
  unfold procStream
  rw [bind_done hsk]
  rfl

example : UpToDate ((oneFile "a.yu-py" "src").set (lit "a.py") (some { content := lit "old", mtime := 5 })) []
    (lit "a.yu-py") (outputFn {} (lit "a.yu-py")) := by
  refine ⟨{ content := lit "old", mtime := 5 }, by decide, ?_⟩
  intro d hd
  simp only [List.not_mem_nil, or_false] at hd
  subst hd
  exact ⟨{ content := lit "src" }, by decide, by decide⟩

/-! ## C50 -/

/-- C50: after a successful, undisturbed translation at a time later than the source and the
    dependencies, asking again yields the same text (line ends apart) without translating, whatever
    the translator would have said. -/
theorem C50_second_run_same (cfg sh pc json) (eng eng' : Engine) (passage passage') (text text' fn : Str) (o : Oracle) (s : Sys)
    (ho : NoFault o) (hforce : pc.force = false)
    (hold : ∀ d, d = fn ∨ d ∈ pc.dependency → ∃ g, s.fs d = some g ∧ ∀ k, g.mtime < o.time k)
    (hdep : ∀ d ∈ pc.dependency, d ≠ outputFn sh fn ∧ d ≠ outputFn sh fn ++ lit ".bak" ∧
      d ≠ outputFn sh fn ++ lit ".json" ∧ d ≠ astFn (outputFn sh fn))
    (hout : ∀ fs t, (eng fs passage fn (outputFn sh fn) t).outputFile = none)
    (hnew : pc.force = true ∨ ¬ UpToDate s.fs pc.dependency fn (outputFn sh fn))
    (plain : Plain) (fno : Str) (n : Nat) (s1 : Sys)
    (h : procStream cfg sh pc json eng passage text fn o s = .done (true, plain, fno, n) s1) :
    ∃ n' s2, procStream cfg sh pc json eng' passage' text' fn o s1 =
      .done (true, .str (unifyEol plain.txt), fno, n') s2 ∧ s2.fs = s1.fs := by
  rw [C41_translates (h := hnew)] at h
  obtain ⟨v, s1', h1, h2⟩ := bind_inv h
  obtain ⟨h3, rfl⟩ := pure_done h2
  have hok : v.1.ok = true := by have := congrArg Prod.fst h3; exact this
  have hpl : v.1.plain = plain := by have := congrArg (fun p => p.2.1) h3; exact this
  have hfno : outputFn sh fn = fno := by have := congrArg (fun p => p.2.2.1) h3; exact this
  have hv := ppStream_val (s' := s) rfl h1
  have hfs := ppStream_fs (cfg := cfg) (sh := sh) (json := json) (eng := eng) (passage := passage)
    (rd := Prog.pure text) (fn := fn) (fno := outputFn sh fn) (o := o) (s := s) (s' := s) rfl
  rw [h1] at hfs
  simp only [] at hfs
  have hok' : (pp cfg (eng s.fs passage fn (outputFn sh fn) text).raw).1 = true := by rw [hv] at hok; exact hok
  have hpl' : (pp cfg (eng s.fs passage fn (outputFn sh fn) text).raw).2 = plain := by rw [hv] at hpl; exact hpl
  have hfin : finalFn (eng s.fs passage fn (outputFn sh fn) text) (outputFn sh fn) = outputFn sh fn := by
    simp [finalFn, hout]
  rw [hok', hpl'] at hfs
  simp only [if_true, hfin] at hfs
  obtain ⟨g, hg, hgc, _, ⟨k, _, hgt⟩, _⟩ := store_ok ho sh json plain (outputFn sh fn) s
  rw [← hfs] at hg
  have hg : s1'.fs (outputFn sh fn) = some g := hg
  have hframe : ∀ d, d = fn ∨ d ∈ pc.dependency → s1'.fs d = s.fs d := by
    intro d hd
    have hne : d ≠ outputFn sh fn ∧ d ≠ outputFn sh fn ++ lit ".bak" ∧
      d ≠ outputFn sh fn ++ lit ".json" ∧ d ≠ astFn (outputFn sh fn) := by
      rcases hd with rfl | hd
      · exact input_ne_own sh d
      · exact hdep d hd
    have := C49_only_own_files cfg sh json eng passage text fn (outputFn sh fn) d o s
    simp only [hfin] at this
    have := this hne.1 hne.2.1 hne.2.2.1 hne.2.2.2
    rw [h1] at this
    exact this
  have hu : UpToDate s1'.fs pc.dependency fn (outputFn sh fn) := by
    refine ⟨g, hg, fun d hd => ?_⟩
    obtain ⟨gd, hgd, hlt⟩ := hold d hd
    exact ⟨gd, by rw [hframe d hd, hgd], by rw [hgt]; exact hlt k⟩
  obtain ⟨f, data, n', hf, hdata, hrun⟩ :=
    C41_skips cfg sh pc json eng' passage' text' fn o s1' hforce hu (ho _)
  refine ⟨n', ⟨s1'.fs, s1'.n + 1⟩, ?_, rfl⟩
  rw [hrun, hdata, ← hfno]
  rw [hg] at hf
  cases hf
  rw [hgc]

/-- Hypotheses of C50 met. -/
example : (procStream {} {} {} (fun _ => []) (constEngine (.str (lit "x = 1"))) 0 (lit "src") (lit "a.yu-py") calm
    ⟨oneFile "a.yu-py" "src", 0⟩ |> fun | .done (ok, p, f, _) _ => (ok, p.txt, f) | _ => (false, [], [])) =
    (true, lit "x = 1\n", lit "a.py") := by decide

end Yupp
