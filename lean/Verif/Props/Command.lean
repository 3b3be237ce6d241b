import Verif.Props.OutputFile
import Verif.Props.Reduce
import Verif.Props.Eol
import Verif.Props.Generate
/-!
# C80 — What the command does with its source files
-/

namespace Yupp

open Spec

/-! ## Without faults nothing stops the program -/

/-- Without faults `m` is not stopped. -/
def Unstopped (m : Prog α) : Prop := ∀ o s, NoFault o → ∀ s', m o s ≠ .crashed s'

theorem Unstopped.bind {m : Prog α} {f : α → Prog β} (h : Unstopped m) (hf : ∀ a, Unstopped (f a)) : Unstopped (m >>= f) := by
  intro o s ho s' hs
  change Prog.bind m f o s = _ at hs
  unfold Prog.bind at hs
  cases hm : m o s with
  | done a s1 => rw [hm] at hs; exact hf a o s1 ho s' hs
  | raised s1 => rw [hm] at hs; cases hs
  | crashed s1 => exact h o s ho s1 hm

theorem Unstopped.pure (a : α) : Unstopped (Pure.pure a : Prog α) := by
  intro o s _ s' h
  cases h

theorem Unstopped.op (f p) : Unstopped (Prog.op f p) := by
  intro o s ho s' h
  unfold Prog.op at h
  rw [ho s.n] at h
  cases hf : f s.fs <;> simp only [hf] at h <;> cases h

theorem Unstopped.save (fn text : Str) : Unstopped (saveToFile fn text) := by
  unfold saveToFile
  refine Unstopped.bind (fun o s _ s' h => by cases h) fun t => ?_
  refine Unstopped.bind (Unstopped.op _ _) fun _ => ?_
  exact Unstopped.bind (fun o s _ s' h => by cases h) fun t => Unstopped.op _ _

theorem Unstopped.isfile (fn : Str) : Unstopped (isfile fn) := fun o s _ s' h => by cases h

theorem Unstopped.store (sh json ok plain fno) : Unstopped (ppStore sh json ok plain fno) := by
  unfold ppStore
  split
  · refine Unstopped.bind ?_ fun _ => ?_
    · unfold shellBackup
      refine Unstopped.bind (.isfile _) fun b => ?_
      split
      · refine Unstopped.bind (.isfile _) fun b => ?_
        split
        · exact .bind (.op _ _) fun _ => .bind (.op _ _) fun _ => .op _ _
        · exact .op _ _
      · exact .pure _
    · refine Unstopped.bind (.save _ _) fun _ => ?_
      have hb : Unstopped (saveBrowse json fno plain) := by
        unfold saveBrowse
        split
        · exact .save _ _
        · exact .pure ()
      split
      · exact .bind (.op _ _) fun _ => hb
      · exact hb
  · split
    · exact .save _ _
    · exact .pure ()

/-! ## One pass -/

theorem ppFile_done {o : Oracle} (ho : NoFault o) (cfg sh json) (eng : Engine) (p : Nat) {fn : Str} {s : Sys} {f : File}
    (hf : s.fs fn = some f) :
    let run := eng s.fs p fn (outputFn sh fn) (unifyEol f.content)
    let r := pp cfg run.raw
    ∃ s', ppFile cfg sh json eng p fn o s = .done (r.1, run.rept) s' ∧
      s'.fs = (ppStore sh json r.1 r.2
        (if r.1 then finalFn run (outputFn sh fn) else if r.2.txt.isEmpty then outputFn sh fn else astFn (outputFn sh fn))
        o ⟨s.fs, s.n + 2⟩).fs := by
  intro run r
  have h1 : openR fn o s = .done () ⟨s.fs, s.n + 1⟩ := by simp [openR, Prog.op, ho s.n, hf]
  have h2 : readFile fn o ⟨s.fs, s.n + 1⟩ = .done (unifyEol f.content) ⟨s.fs, s.n + 2⟩ := by
    simp [readFile, ho (s.n + 1), hf, unifyEol]
  have h3 : (Prog.tryIO (do openR fn; return true) (Prog.pure false) : Prog Bool) o s = .done true ⟨s.fs, s.n + 1⟩ := by
    show Prog.tryIO (Prog.bind (openR fn) fun _ => Prog.pure true) (Prog.pure false) o s = _
    simp only [Prog.bind, Prog.tryIO, h1, Prog.pure]
  unfold ppFile
  rw [bind_done h3]
  simp only [if_true]
  have hfs := ppStream_fs (cfg := cfg) (sh := sh) (json := json) (eng := eng) (passage := p) (fno := outputFn sh fn) (fn := fn) h2
  cases hst : ppStream cfg sh json eng p (readFile fn) fn (outputFn sh fn) o ⟨s.fs, s.n + 1⟩ with
  | done v s' =>
    rw [bind_done hst]
    have hv := ppStream_val h2 hst
    rw [hst] at hfs
    refine ⟨s', ?_, hfs⟩
    rw [hv]
    rfl
  | raised s' =>
    exfalso
    unfold ppStream at hst
    rw [h2] at hst
    simp only [] at hst
    change Prog.tryIO (Prog.bind _ fun _ => Prog.pure _) (Prog.pure _) o _ = _ at hst
    unfold Prog.tryIO Prog.bind at hst
    revert hst
    generalize ppStore sh json _ _ _ o _ = q
    intro hst
    cases q <;> simp [Prog.pure] at hst
  | crashed s' =>
    exfalso
    unfold ppStream at hst
    rw [h2] at hst
    simp only [] at hst
    change Prog.tryIO (Prog.bind _ fun _ => Prog.pure _) (Prog.pure _) o _ = _ at hst
    unfold Prog.tryIO Prog.bind at hst
    revert hst
    generalize hq : ppStore sh json _ _ _ o _ = q
    intro hst
    cases q with
    | crashed s2 => exact Unstopped.store _ _ _ _ _ o _ ho _ hq
    | done a s2 => simp [Prog.pure] at hst
    | raised s2 => simp [Prog.pure] at hst

theorem stripEnd_le {l a b : Str} (ha : StripEnd l a) (hb : StripEnd l b) : b.length ≤ a.length := by
  refine Nat.le_of_not_lt fun hl => ?_
  obtain ⟨ws, h1, h2, -⟩ := ha
  obtain ⟨vs, h3, -, h4⟩ := hb
  have hp : b.drop a.length <+: ws := by
    refine ⟨vs, ?_⟩
    have := congrArg (List.drop a.length) (h1.symm.trans h3)
    rw [List.drop_left, List.drop_append_of_le_length (by omega)] at this
    exact this.symm
  have hne : b.drop a.length ≠ [] := by simp; omega
  have hlast : b.getLast? = (b.drop a.length).getLast? := by
    conv => lhs; rw [← List.take_append_drop a.length b]
    rw [List.getLast?_append]
    cases h : (b.drop a.length).getLast? with
    | none => exact absurd (List.getLast?_eq_none_iff.1 h) hne
    | some c => rfl
  rw [List.getLast?_eq_some_getLast hne] at hlast
  have h5 := h4 _ hlast
  rw [h2 _ (hp.subset (List.getLast_mem hne))] at h5
  cases h5

theorem all2_stripEnd_unique {ls as bs : List Str} (ha : All2 StripEnd ls as) (hb : All2 StripEnd ls bs) : as = bs := by
  induction ha generalizing bs with
  | nil => cases hb; rfl
  | cons h _ ih =>
    cases hb with
    | cons h' hb =>
      rw [ih hb]
      have hl := Nat.le_antisymm (stripEnd_le h' h) (stripEnd_le h h')
      obtain ⟨ws, h1, -⟩ := h
      obtain ⟨vs, h3, -⟩ := h'
      rw [(List.append_inj (h1.symm.trans h3) hl).1]

theorem finalText_pp {cfg : Config} {raw : Raw} {u : Str} (h : FinalText cfg.reduceEmptiness raw u) :
    (pp cfg raw).1 = true ∧ (pp cfg raw).2.txt = u := by
  cases h with
  | plain hr => exact pp_text cfg hr (.inl rfl)
  | browse hr => exact pp_text cfg hr (.inr ⟨_, rfl, rfl⟩)
  | @plainReduced t ls hr hl =>
    refine ⟨rfl, ?_⟩
    change replaceSteady (reduceEmptiness cfg t) = _
    obtain ⟨ls', h1, h2⟩ := C02_reduce_exact cfg hr t
    have : ls' = ls := all2_stripEnd_unique h1 hl
    rw [h2, this, replaceSteady_map]
    rfl
  | @browseReduced r hr =>
    refine ⟨rfl, ?_⟩
    change replaceSteady (Res.reduceEmptiness cfg r).txt = _
    rw [C04_browse_reduce_exact cfg hr, replaceSteady_map]
    rfl

/-- One pass that comes to a text. -/
theorem pass_text {o : Oracle} (ho : NoFault o) (cfg sh json) (eng : Engine) (p : Nat) {fn : Str} {s : Sys} {f : File}
    (hf : s.fs fn = some f) {run : Run} {u out : Str} (he : eng s.fs p fn (outputFn sh fn) (unifyEol f.content) = run)
    (hu : FinalText cfg.reduceEmptiness run.raw u) (hc : Chosen run.outputFile (outputFn sh fn) out) :
    ∃ s', ppFile cfg sh json eng p fn o s = .done (true, run.rept) s' ∧ Holds s'.fs out u ∧
      ∀ x, ¬ OwnFile out x → s'.fs x = s.fs x := by
  obtain ⟨s', h1, h2⟩ := ppFile_done ho cfg sh json eng p hf
  obtain ⟨h3, h4⟩ := finalText_pp hu
  rw [he] at h1 h2
  rw [h3] at h1 h2
  simp only [if_true] at h2
  rw [finalFn_chosen.2 hc] at h2
  refine ⟨s', h1, ?_, fun x hx => ?_⟩
  · obtain ⟨g, hg, hg', -⟩ := store_ok ho sh json (pp cfg run.raw).2 out ⟨s.fs, s.n + 2⟩
    exact ⟨g, by rw [h2]; exact hg, hg'.trans h4⟩
  · rw [h2]
    exact (store_frame (fun h => hx (.inl h)) fun _ => ⟨fun h => hx (.inr (.inl h)), fun h => hx (.inr (.inr h))⟩).fs
      (P := fun fs => fs x = s.fs x) rfl

/-- One pass that fails. -/
theorem pass_fails {o : Oracle} (ho : NoFault o) (cfg sh json) (eng : Engine) (p : Nat) {fn : Str} {s : Sys} {f : File}
    (hf : s.fs fn = some f) {run : Run} (he : eng s.fs p fn (outputFn sh fn) (unifyEol f.content) = run)
    (hr : run.raw = .raised ∨ ∃ t, run.raw = .tree t) :
    ∃ s', ppFile cfg sh json eng p fn o s = .done (false, run.rept) s' ∧
      ∀ x, x ≠ treeFile (outputFn sh fn) → s'.fs x = s.fs x := by
  obtain ⟨s', h1, h2⟩ := ppFile_done ho cfg sh json eng p hf
  rw [he] at h1 h2
  have h3 : (pp cfg run.raw).1 = false := by rcases hr with h | ⟨t, h⟩ <;> rw [h] <;> rfl
  rw [h3] at h1 h2
  simp only [Bool.false_eq_true, if_false] at h2
  refine ⟨s', h1, fun x hx => ?_⟩
  rw [h2]
  by_cases he : (pp cfg run.raw).2.txt.isEmpty
  · unfold ppStore
    simp [he]
    rfl
  · rw [if_neg he]
    exact (store_frame (ok := false) hx (by simp)).fs (P := fun fs => fs x = s.fs x) rfl

/-- **C80**. One source file, without faults of the file system: when its passes come to the texts `outs`, the command
    makes exactly these passes, leaves each of the files with its text, counts a failure exactly if a pass fails, and changes
    no other file (the table files and backups of its outputs and the file for the tree aside). The translation may read
    files the command does not write (`hW`). -/
theorem C80_source {o : Oracle} (ho : NoFault o) (cfg sh json) (eng : Engine) {fn c : Str} {tr : Nat → Run → Prop} {W : Str → Prop}
    {fs0 : Fs} (he : ∀ fs, (∀ x, ¬ W x → fs x = fs0 x) → ∀ p run, tr p run → eng fs p fn (outputFn sh fn) (oneEol c) = run)
    {p : Nat} {outs : List (Str × Str)} {ok : Bool}
    (h : Job cfg.reduceEmptiness tr (outputFn sh fn) p outs ok) : ∀ {s : Sys}, Holds s.fs fn c → (∀ x, ¬ W x → s.fs x = fs0 x) →
    (∀ a ∈ outs, ∀ x, OwnFile a.1 x → W x) →
    (∀ a ∈ outs, ¬ OwnFile a.1 fn) → KeptApart outs → (∀ a ∈ outs, a.1 ≠ treeFile (outputFn sh fn)) →
    ∃ N calls s', (∀ fuel, N ≤ fuel → runPasses (ppFile cfg sh json eng) fn fuel p o s =
        .done (some (if ok then 0 else 1, calls)) s') ∧ (∀ a ∈ outs, Holds s'.fs a.1 a.2) ∧
      ∀ x, (∀ a ∈ outs, ¬ OwnFile a.1 x) → x ≠ treeFile (outputFn sh fn) → s'.fs x = s.fs x := by
  rw [← unifyEol_eq] at he
  induction h with
  | @last p run out u h1 h2 h3 h4 =>
    intro s hs hw _ _ _ _
    obtain ⟨f, hf, rfl⟩ := hs
    obtain ⟨s', h5, h6, h7⟩ := pass_text ho cfg sh json eng p hf (he _ hw _ _ h1) h2 h3
    refine ⟨1, [⟨fn, p, true⟩], s', fun fuel hfu => ?_, by simpa using h6, fun x hx _ => h7 x (hx _ (List.mem_singleton.2 rfl))⟩
    obtain ⟨n, rfl⟩ : ∃ n, fuel = n + 1 := ⟨fuel - 1, by omega⟩
    unfold runPasses
    rw [bind_done h5, h4]
    rfl
  | @more p run out u outs ok h1 h2 h3 h4 _ ih =>
    intro s hs hw hW hown hap htree
    obtain ⟨f, hf, rfl⟩ := hs
    obtain ⟨s1, h5, h6, h7⟩ := pass_text ho cfg sh json eng p hf (he _ hw _ _ h1) h2 h3
    obtain ⟨hap1, hap2⟩ := List.pairwise_cons.1 hap
    obtain ⟨N, calls, s', h8, h9, h10⟩ := ih (s := s1) ⟨f, by rw [h7 fn (hown _ (List.mem_cons_self ..))]; exact hf, rfl⟩
      (fun x hx => by rw [h7 x fun h => hx (hW _ (List.mem_cons_self ..) x h)]; exact hw x hx)
      (fun a ha => hW a (List.mem_cons_of_mem _ ha))
      (fun a ha => hown a (List.mem_cons_of_mem _ ha)) hap2 (fun a ha => htree a (List.mem_cons_of_mem _ ha))
    refine ⟨N + 1, ⟨fn, p, true⟩ :: calls, s', fun fuel hfu => ?_, fun a ha => ?_, fun x hx ht => ?_⟩
    · obtain ⟨n, rfl⟩ : ∃ n, fuel = n + 1 := ⟨fuel - 1, by omega⟩
      unfold runPasses
      rw [bind_done h5, h4]
      simp only [Bool.not_true, Bool.false_eq_true, if_false]
      rw [bind_done (h8 n (by omega))]
      rfl
    · rcases List.mem_cons.1 ha with rfl | ha
      · obtain ⟨g, hg, hg'⟩ := h6
        exact ⟨g, by rw [h10 _ (fun b hb => hap1 b hb) (htree _ (List.mem_cons_self ..))]; exact hg, hg'⟩
      · exact h9 a ha
    · rw [h10 x (fun b hb => hx b (List.mem_cons_of_mem _ hb)) ht]
      exact h7 x (hx _ (List.mem_cons_self ..))
  | @fails p run h1 h2 =>
    intro s hs hw _ _ _ _
    obtain ⟨f, hf, rfl⟩ := hs
    obtain ⟨s', h5, h6⟩ := pass_fails ho cfg sh json eng p hf (he _ hw _ _ h1) h2
    refine ⟨1, [⟨fn, p, false⟩], s', fun fuel hfu => ?_, by simp, fun x _ hx => h6 x hx⟩
    obtain ⟨n, rfl⟩ : ∃ n, fuel = n + 1 := ⟨fuel - 1, by omega⟩
    unfold runPasses
    rw [bind_done h5]
    rfl

/-- A source that is not there. -/
theorem missing_done {o : Oracle} (ho : NoFault o) (cfg sh json) (eng : Engine) {fn : Str} {s : Sys} (hf : s.fs fn = none) (p : Nat) :
    ∃ calls s', (∀ fuel, 1 ≤ fuel → runPasses (ppFile cfg sh json eng) fn fuel p o s = .done (some (1, calls)) s') ∧ s'.fs = s.fs := by
  have h1 : openR fn o s = .raised ⟨s.fs, s.n + 1⟩ := by simp [openR, Prog.op, ho s.n, hf]
  have h3 : (Prog.tryIO (do openR fn; return true) (Prog.pure false) : Prog Bool) o s = .done false ⟨s.fs, s.n + 1⟩ := by
    show Prog.tryIO (Prog.bind (openR fn) fun _ => Prog.pure true) (Prog.pure false) o s = _
    simp only [Prog.bind, Prog.tryIO, h1, Prog.pure]
  have h5 : ppFile cfg sh json eng p fn o s = .done (false, false) ⟨s.fs, s.n + 1⟩ := by
    unfold ppFile
    rw [bind_done h3]
    rfl
  refine ⟨[⟨fn, p, false⟩], ⟨s.fs, s.n + 1⟩, fun fuel hfu => ?_, rfl⟩
  obtain ⟨n, rfl⟩ : ∃ n, fuel = n + 1 := ⟨fuel - 1, by omega⟩
  unfold runPasses
  rw [bind_done h5]
  rfl

/-- One task. -/
theorem task_done {o : Oracle} (ho : NoFault o) (cfg sh json) (eng : Engine) {tr : Str → Str → Nat → Run → Prop} {W : Str → Prop}
    {fs0 : Fs} {t : Task}
    (he : ∀ fs, (∀ x, ¬ W x → fs x = fs0 x) → ∀ src p run, tr t.fn src p run → eng fs p t.fn (outputFn sh t.fn) src = run)
    (hd : t.Due cfg.reduceEmptiness tr (outputFn sh)) {s : Sys} (hs : t.Ready s.fs) (hw : ∀ x, ¬ W x → s.fs x = fs0 x)
    (hW : ∀ x, t.Touches (outputFn sh) x → W x) (hsrc : ¬ t.Touches (outputFn sh) t.fn)
    (hin : KeptApart t.outs ∧ ∀ a ∈ t.outs, a.1 ≠ treeFile (outputFn sh t.fn)) :
    ∃ N calls s', (∀ fuel, N ≤ fuel → runPasses (ppFile cfg sh json eng) t.fn fuel 0 o s =
        .done (some (if t.ok then 0 else 1, calls)) s') ∧ (∀ a ∈ t.outs, Holds s'.fs a.1 a.2) ∧
      ∀ x, ¬ t.Touches (outputFn sh) x → s'.fs x = s.fs x := by
  cases hd with
  | @source fn c outs ok hj =>
    obtain ⟨N, calls, s', h1, h2, h3⟩ := C80_source ho cfg sh json eng (fun fs hfs p run => he fs hfs _ p run) hj hs hw
      (fun a ha x hx => hW x (.inl ⟨a, ha, hx⟩)) (fun a ha hx => hsrc (.inl ⟨a, ha, hx⟩)) hin.1 hin.2
    exact ⟨N, calls, s', h1, h2, fun x hx => h3 x (fun a ha h => hx (.inl ⟨a, ha, h⟩)) fun h => hx (.inr h)⟩
  | @missing fn =>
    obtain ⟨calls, s', h1, h2⟩ := missing_done ho cfg sh json eng hs 0
    exact ⟨1, calls, s', h1, by simp, fun x _ => by rw [h2]⟩

theorem files_done {o : Oracle} (ho : NoFault o) (cfg sh json) (eng : Engine) {tr : Str → Str → Nat → Run → Prop} {W : Str → Prop}
    {fs0 : Fs} : ∀ (ts : List Task)
    (_ : ∀ t ∈ ts, ∀ fs, (∀ x, ¬ W x → fs x = fs0 x) → ∀ src p run, tr t.fn src p run → eng fs p t.fn (outputFn sh t.fn) src = run)
    (_ : ∀ t ∈ ts, t.Due cfg.reduceEmptiness tr (outputFn sh)) (_ : NoClash (outputFn sh) ts)
    (_ : ∀ t ∈ ts, ∀ x, t.Touches (outputFn sh) x → W x) {s : Sys} (_ : ∀ t ∈ ts, t.Ready s.fs) (_ : ∀ x, ¬ W x → s.fs x = fs0 x),
    ∃ N calls s', (∀ fuel, N ≤ fuel → ∀ k, runFiles (ppFile cfg sh json eng) fuel (ts.map (·.fn)) k o s =
        .done (some (k + ts.countP (fun t => !t.ok), calls)) s') ∧ (∀ t ∈ ts, ∀ a ∈ t.outs, Holds s'.fs a.1 a.2) ∧
      ∀ x, (∀ t ∈ ts, ¬ t.Touches (outputFn sh) x) → s'.fs x = s.fs x
  | [], _, _, _, _, s, _, _ => ⟨0, [], s, fun _ _ _ => rfl, by simp, fun _ _ => rfl⟩
  | t :: ts, he, hd, hn, hW, s, hs, hw => by
    have hm : t ∈ t :: ts := List.mem_cons_self ..
    have ht : ∀ {u}, u ∈ ts → u ∈ t :: ts := List.mem_cons_of_mem _
    obtain ⟨b1, b2⟩ := List.pairwise_cons.1 hn.between
    obtain ⟨N1, calls, s1, h2, h3, h4⟩ := task_done ho cfg sh json eng (he t hm) (hd t hm) (hs t hm) hw (hW t hm) (hn.sources t hm t hm) (hn.within t hm)
    have hr : ∀ u ∈ ts, u.Ready s1.fs := by
      intro u hu
      have h5 := hs u (ht hu)
      have h6 := h4 u.fn (hn.sources u (ht hu) t hm)
      unfold Task.Ready at h5 ⊢
      cases hc : u.content with
      | none => rw [hc] at h5; exact h6.trans h5
      | some c =>
        rw [hc] at h5
        obtain ⟨f, hf, hf'⟩ := h5
        exact ⟨f, h6.trans hf, hf'⟩
    obtain ⟨N2, calls2, s2, h9, h10, h11⟩ := files_done ho cfg sh json eng ts (fun u hu => he u (ht hu)) (fun u hu => hd u (ht hu))
      ⟨fun u hu v hv => hn.sources u (ht hu) v (ht hv), fun u hu => hn.within u (ht hu), b2⟩ (fun u hu => hW u (ht hu)) hr
      (fun x hx => (h4 x fun h => hx (hW t hm x h)).trans (hw x hx))
    refine ⟨max N1 N2, calls ++ calls2, s2, fun fuel hfu k => ?_, ?_, ?_⟩
    · rw [List.map_cons]
      unfold runFiles
      rw [bind_done (h2 fuel (by omega))]
      simp only []
      rw [bind_done (h9 fuel (by omega) _)]
      rw [List.countP_cons]
      cases t.ok <;> simp [Nat.add_assoc, Nat.add_comm] <;> rfl
    · intro u hu a ha
      rcases List.mem_cons.1 hu with rfl | hu
      · obtain ⟨g, hg, hg'⟩ := h3 a ha
        exact ⟨g, by rw [h11 a.1 fun v hv => b1 v hv a ha]; exact hg, hg'⟩
      · exact h10 u hu a ha
    · intro x hx
      rw [h11 x fun u hu => hx u (ht hu)]
      exact h4 x (hx t hm)

/-- **C80**. The command over a list of sources, without faults of the file system: every file its passes generate is there
    with its text when the command ends, no other file has changed (the tables and backups of the outputs and the files for
    the trees aside), in particular no source, and the status is four times the number of sources whose translation fails.
    The translations may read files the command does not write (`he`). -/
theorem C80_command {o : Oracle} (ho : NoFault o) (cfg sh json) (eng : Engine) {tr : Str → Str → Nat → Run → Prop} (ts : List Task) (s : Sys)
    (he : ∀ t ∈ ts, ∀ fs : Fs, (∀ x, (∀ u ∈ ts, ¬ u.Touches (outputFn sh) x) → fs x = s.fs x) →
      ∀ src p run, tr t.fn src p run → eng fs p t.fn (outputFn sh t.fn) src = run)
    (hd : ∀ t ∈ ts, t.Due cfg.reduceEmptiness tr (outputFn sh)) (hn : NoClash (outputFn sh) ts) (hs : ∀ t ∈ ts, t.Ready s.fs) :
    ∃ N calls s', (∀ fuel, N ≤ fuel → cliFiles (ppFile cfg sh json eng) fuel (ts.map (·.fn)) o s =
        .done (some (4 * ts.countP (fun t => !t.ok), calls)) s') ∧
      (∀ t ∈ ts, ∀ a ∈ t.outs, Holds s'.fs a.1 a.2) ∧
      (∀ t ∈ ts, t.Ready s'.fs) ∧
      ∀ x, (∀ t ∈ ts, ¬ t.Touches (outputFn sh) x) → s'.fs x = s.fs x := by
  obtain ⟨N, calls, s', h1, h2, h3⟩ := files_done ho cfg sh json eng (W := fun x => ∃ u ∈ ts, u.Touches (outputFn sh) x) (fs0 := s.fs) ts
    (fun t ht fs hfs => he t ht fs fun x hx => hfs x fun ⟨u, hu, hx'⟩ => hx u hu hx') hd hn (fun t ht x hx => ⟨t, ht, hx⟩) hs
    (fun _ _ => rfl)
  refine ⟨N, calls, s', fun fuel hfu => ?_, h2, fun t ht => ?_, h3⟩
  · unfold cliFiles
    rw [bind_done (h1 fuel hfu 0)]
    simp only [Option.map_some, Nat.zero_add, Nat.shiftLeft_eq, Nat.mul_comm]
    rfl
  · have h5 := hs t ht
    have h6 := h3 t.fn (hn.sources t ht)
    unfold Task.Ready at h5 ⊢
    cases hc : t.content with
    | none => rw [hc] at h5; exact h6.trans h5
    | some c =>
      rw [hc] at h5
      obtain ⟨f, hf, hf'⟩ := h5
      exact ⟨f, h6.trans hf, hf'⟩

/-! ## With the translation of C78 -/

/-- The translation as the command uses it: the outcome, if there is one. `env fs p fn d`: the settings of pass `p` over the
    source `fn` with output `d`; `seen`: what `$unique` has seen before. -/
noncomputable def translator (env : Fs → Nat → Str → Str → EEnv) (readable : Node → Str) (seen : Nat → Str → List Node) : Engine :=
  fun fs p fn d src =>
    open Classical in
    if h : ∃ run, Translates (env fs p fn d) readable (some fn) (seen p fn) src run then h.choose else { raw := .raised }

theorem translator_eq {env : Fs → Nat → Str → Str → EEnv} {readable : Node → Str} {seen : Nat → Str → List Node} {fs : Fs} {p : Nat}
    {fn d src : Str} {run : Run} (h : Translates (env fs p fn d) readable (some fn) (seen p fn) src run) :
    translator env readable seen fs p fn d src = run := by
  have hx : ∃ run, Translates (env fs p fn d) readable (some fn) (seen p fn) src run := ⟨run, h⟩
  unfold translator
  rw [dif_pos hx]
  exact translates_det hx.choose_spec h

/-- The value of a program that generates a text is written as this text. -/
theorem finalText_of {t : Str} {s : ESt} {run : Run} (h : Reports (.text t s) run) : FinalText false run.raw (t.map steady) := by
  obtain ⟨h | ⟨r, h, h'⟩, -⟩ := h
  · rw [h]; exact .plain rfl
  · rw [h, ← h']; exact .browse rfl

/-- **C80**. A program of the grammar that generates at each of its `n` passes a text `text p`, and names the file `out p`
    (or leaves the name derived from that of the source), and asks for another pass at every pass but the last: these texts
    and files are what the source comes to. -/
theorem C80_program (env : Nat → EEnv) (readable : Node → Str) (fn : Str) (seen : Nat → List Node) {xs : ExprText} {src d : Str}
    (hread : ∀ p, Reads (modeOf (env p).pe) (.text .file 0 0 xs) src []) (hne : src ≠ []) (hcr : '\r' ∉ src)
    (hm : ∀ p, (env p).pe.outputPython = true → ¬ MagicFirst (env p).pe.word src ∧ ¬ MagicSecond (env p).pe.word src)
    (n : Nat) (text out : Nat → Str)
    (hg : ∀ p, p ≤ n → ∀ nodes, TextTrees true xs nodes → ∃ s1, Generates (env p) (.str []) false nodes
      { p := PSt.start (env p).pe (some fn) src, seen := seen p } (.text (text p) s1) ∧
        Chosen s1.outputFile d (out p) ∧ s1.rept = decide (p < n)) :
    Job false (fun p run => Translates (env p) readable (some fn) (seen p) src run) d 0
      ((List.range (n + 1)).map fun p => (out p, (text p).map steady)) true := by
  have key : ∀ k p, p + k = n → Job false (fun p run => Translates (env p) readable (some fn) (seen p) src run) d p
      ((List.range' p (k + 1)).map fun p => (out p, (text p).map steady)) true := by
    intro k
    induction k with
    | zero =>
      intro p hp
      obtain ⟨nodes, h1, h2, -⟩ := C78_program (env p) readable (some fn) (seen p) (hread p) hne hcr (hm p)
      obtain ⟨s1, h3, h4, h5⟩ := hg p (by omega) nodes h1
      obtain ⟨run, h6, h7⟩ := h2 _ h3
      refine .last h6 (finalText_of h7) (by rw [h7.2.1]; exact h4) ?_
      rw [h7.2.2.1, h5]
      simp; omega
    | succ k ih =>
      intro p hp
      obtain ⟨nodes, h1, h2, -⟩ := C78_program (env p) readable (some fn) (seen p) (hread p) hne hcr (hm p)
      obtain ⟨s1, h3, h4, h5⟩ := hg p (by omega) nodes h1
      obtain ⟨run, h6, h7⟩ := h2 _ h3
      rw [List.range'_succ, List.map_cons]
      refine .more h6 (finalText_of h7) (by rw [h7.2.1]; exact h4) ?_ (ih (p + 1) (by omega))
      rw [h7.2.2.1, h5]
      simp; omega
  have := key n 0 (by omega)
  rwa [← List.range_eq_range'] at this

/-! ## A concrete case -/

/-- Two sources, the second of which is not there: the first is translated, the status is 4. -/
example (e : EEnv) (he : e.pe.outputPython = false) (hs : e.pe.skip = .none) (hb : e.cfg.browse = false) (readable : Node → Str)
    (fs : Fs) (h1 : fs (lit "a.yu-c") = some { content := lit "x;\r\n" }) (h2 : fs (lit "b.yu-c") = none) :
    ∃ N calls s', (∀ fuel, N ≤ fuel → cliFiles (ppFile { reduceEmptiness := false } {} (fun _ => []) (translator (fun _ _ _ _ => e) readable fun _ _ => []))
        fuel [lit "a.yu-c", lit "b.yu-c"] calm ⟨fs, 0⟩ = .done (some (4, calls)) s') ∧
      Holds s'.fs (lit "a.c") (lit "x;\n") ∧ Holds s'.fs (lit "a.yu-c") (lit "x;\r\n") := by
  have hfree : MacroFree (unifyEol (lit "x;\n")) := macroFree_of (by decide)
  have htr : Translates e readable (some (lit "a.yu-c")) [] (lit "x;\n") { raw := .str (lit "x;\n") } := by
    rcases free_run e readable (some (lit "a.yu-c")) [] (lit "x;\n") hfree (by rw [he]; simp) with ⟨-, h⟩ | ⟨-, h⟩ | ⟨r, h, -⟩
    · rcases h with h | h | ⟨c, h3, h4⟩
      · rw [he] at h; cases h
      · exact absurd hs h
      · exact absurd h4 (by revert c; decide)
    · exact h
    · rw [hb] at h; cases h
  have hjob : Job false (fun p run => Translates e readable (some (lit "a.yu-c")) [] (oneEol (lit "x;\r\n")) run) (outputFn {} (lit "a.yu-c")) 0
      [(lit "a.c", lit "x;\n")] true :=
    .last (run := { raw := .str (lit "x;\n") }) htr (FinalText.plain rfl) (.derived _) rfl
  obtain ⟨N, calls, s', h3, h4, h5, -⟩ := C80_command (o := calm) (fun _ => rfl) { reduceEmptiness := false } {} (fun _ => []) (translator (fun _ _ _ _ => e) readable fun _ _ => [])
    (tr := fun fn src p run => Translates e readable (some fn) [] src run)
    [⟨lit "a.yu-c", some (lit "x;\r\n"), [(lit "a.c", lit "x;\n")], true⟩, ⟨lit "b.yu-c", none, [], false⟩] ⟨fs, 0⟩
    (fun t _ fs _ src p run h => translator_eq (env := fun _ _ _ _ => e) (seen := fun _ _ => []) h)
    (by
      intro t ht
      simp only [List.mem_cons, List.not_mem_nil, or_false] at ht
      rcases ht with rfl | rfl
      · exact .source hjob
      · exact .missing)
    (by
      refine ⟨?_, ?_, ?_⟩
      · simp only [List.mem_cons, List.not_mem_nil, or_false, Task.Touches, OwnFile]
        rintro t (rfl | rfl) u (rfl | rfl) <;> simp [treeFile] <;> decide
      · simp only [List.mem_cons, List.not_mem_nil, or_false]
        rintro t (rfl | rfl) <;> simp [KeptApart, treeFile] <;> decide
      · simp [Task.Touches, OwnFile, treeFile]; decide)
    (by
      intro t ht
      simp only [List.mem_cons, List.not_mem_nil, or_false] at ht
      rcases ht with rfl | rfl
      · exact ⟨_, h1, rfl⟩
      · exact h2)
  exact ⟨N, calls, s', h3, h4 _ (List.mem_cons_self ..) _ (List.mem_cons_self ..), h5 _ (List.mem_cons_self ..)⟩

end Yupp
