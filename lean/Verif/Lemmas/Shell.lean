import Verif.Lemmas.Prog
/-! # Lemmas about the shell -/

namespace Yupp
open Prog

theorem append_ne_self {a b : Str} (hb : b ≠ []) : a ++ b ≠ a := by
  intro h
  have := congrArg List.length h
  simp at this
  exact hb this

theorem bak_ne (fn : Str) : fn ++ eBak ≠ fn := append_ne_self (by decide)
theorem json_ne (fn : Str) : fn ++ eJson ≠ fn := append_ne_self (by decide)
theorem json_bak_ne (fn : Str) : fn ++ eJson ≠ fn ++ eBak := by
  intro h; have := List.append_cancel_left h; exact absurd this (by decide)

theorem Fs.set_eq (fs : Fs) (a : Str) (f) : fs.set a f a = f := by simp [Fs.set]
theorem Fs.set_ne (fs : Fs) {a b : Str} (f) (h : b ≠ a) : fs.set a f b = fs b := by simp [Fs.set, h]

/-- A file with this content. -/
def Holds (fs : Fs) (fn : Str) (c : Str) : Prop := ∃ g, fs fn = some g ∧ g.content = c

theorem Holds.set_ne {fs : Fs} {a fn c : Str} {f} (h : Holds fs fn c) (hne : fn ≠ a) : Holds (fs.set a f) fn c := by
  obtain ⟨g, hg, hc⟩ := h
  exact ⟨g, by rw [Fs.set_ne _ _ hne, hg], hc⟩

/-- The old content is there, under its name or under the name of the backup. -/
def Kept (fn c : Str) (fs : Fs) : Prop := Holds fs fn c ∨ Holds fs (fn ++ eBak) c

theorem backup_kept {fn c : Str} :
    Triple (fun fs => Holds fs fn c) (Kept fn c) (shellBackup fn) (fun _ fs => Holds fs (fn ++ eBak) c) := by
  unfold shellBackup
  refine Triple.bind (Triple.isfile (fun _ h => .inl h)) fun b => ?_
  cases b
  · intro o s h
    obtain ⟨⟨g, hg, _⟩, hf⟩ := h
    rw [hg] at hf; simp at hf
  · simp only [if_true]
    have hren : Triple (fun fs => Holds fs fn c) (Kept fn c) (Yupp.rename fn (fn ++ eBak))
        (fun _ fs => Holds fs (fn ++ eBak) c) := by
      refine Triple.rename (fun _ h => .inl h) fun fs f h hf => ?_
      obtain ⟨g, hg, hc⟩ := h
      have : Holds ((fs.set fn none).set (fn ++ eBak) (some f)) (fn ++ eBak) c := by
        refine ⟨f, Fs.set_eq _ _ _, ?_⟩
        rw [hg] at hf; cases hf; exact hc
      exact ⟨.inr this, this⟩
    refine Triple.bind (R := fun _ fs => Holds fs fn c)
      ((Triple.isfile (P := fun fs => Holds fs fn c) fun _ h => .inl h).weaken (fun _ h => h.1) (fun _ h => h)
      (fun _ _ h => h.1)) fun b => ?_
    cases b
    · exact hren
    · refine Triple.bind (R := fun _ fs => Holds fs fn c) ?_ fun _ => ?_
      · exact Triple.chmod (fun _ h => .inl h) fun fs f h _ =>
          ⟨.inl (h.set_ne (bak_ne fn).symm), h.set_ne (bak_ne fn).symm⟩
      · refine Triple.bind (R := fun _ fs => Holds fs fn c) ?_ fun _ => hren
        exact Triple.remove (fun _ h => .inl h) fun fs h =>
          ⟨.inl (h.set_ne (bak_ne fn).symm), h.set_ne (bak_ne fn).symm⟩

theorem store_kept {sh json plain fn c} :
    Triple (fun fs => Holds fs fn c) (Kept fn c) (ppStore sh json true plain fn) (fun _ => Kept fn c) := by
  have hsave : ∀ g text, g ≠ fn ++ eBak →
      Triple (fun fs => Holds fs (fn ++ eBak) c) (Kept fn c) (saveToFile g text) (fun _ fs => Holds fs (fn ++ eBak) c) := by
    intro g text hg
    exact (Triple.save (P := fun fs => Holds fs (fn ++ eBak) c) fun fs f h => h.set_ne hg.symm).weaken
      (fun _ h => h) (fun _ h => .inr h) (fun _ _ h => h)
  have hlast : Triple (fun fs => Holds fs (fn ++ eBak) c) (Kept fn c)
      (saveBrowse json fn plain) (fun _ => Kept fn c) := by
    unfold saveBrowse
    split
    · exact (hsave _ _ (json_bak_ne fn)).weaken (fun _ h => h) (fun _ h => h) (fun _ _ h => .inr h)
    · intro o s h; exact ⟨.inr h, .inr h⟩
  unfold ppStore
  simp only [if_true]
  refine Triple.bind backup_kept fun _ => ?_
  refine Triple.bind (hsave _ _ (bak_ne fn).symm) fun _ => ?_
  split
  · refine Triple.bind (R := fun _ fs => Holds fs (fn ++ eBak) c) ?_ fun _ => hlast
    exact Triple.chmod (fun _ h => .inr h) fun fs f h _ =>
      ⟨.inr (h.set_ne (bak_ne fn)), h.set_ne (bak_ne fn)⟩
  · exact hlast

/-- Storing touches only the output, its backup, its table file. -/
theorem store_frame {sh json ok plain fn} {g : Str} {x : Option File} (h1 : g ≠ fn)
    (h2 : ok = true → g ≠ fn ++ eBak ∧ g ≠ fn ++ eJson) :
    Triple (fun fs => fs g = x) (fun fs => fs g = x) (ppStore sh json ok plain fn) (fun _ fs => fs g = x) := by
  unfold ppStore
  cases ok with
  | true =>
    obtain ⟨h2, h3⟩ := h2 rfl
    have hlast : Triple (fun fs => fs g = x) (fun fs => fs g = x)
        (saveBrowse json fn plain) (fun _ fs => fs g = x) := by
      unfold saveBrowse
      split
      · exact Triple.save fun fs f h => by rw [Fs.set_ne _ _ h3, h]
      · intro o s h; exact ⟨h, h⟩
    simp only [if_true]
    refine Triple.bind (Triple.backup (fun fs f h => by rw [Fs.set_ne _ _ h1, h])
      (fun fs f h => by rw [Fs.set_ne _ _ h2, h])) fun _ => ?_
    refine Triple.bind (Triple.save fun fs f h => by rw [Fs.set_ne _ _ h1, h]) fun _ => ?_
    split
    · refine Triple.bind (R := fun _ fs => fs g = x) ?_ fun _ => hlast
      exact Triple.chmod (fun _ h => h) fun fs f h _ => by rw [Fs.set_ne _ _ h1]; exact ⟨h, h⟩
    · exact hlast
  | false =>
    simp only [Bool.false_eq_true, if_false]
    split
    · exact Triple.save fun fs f h => by rw [Fs.set_ne _ _ h1, h]
    · exact Triple.pure fun fs h => ⟨h, h⟩

/-- No operation fails. -/
def NoFault (o : Oracle) : Prop := ∀ n, o.fault n = .ok

theorem op_ok {o : Oracle} (ho : NoFault o) {f p s} {fs' : Fs} (h : f s.fs = some fs') :
    Prog.op f p o s = .done () { fs := fs', n := s.n + 1 } := by
  simp [Prog.op, ho s.n, h]

theorem chmod_ok {o : Oracle} (ho : NoFault o) {fn ro s f} (h : s.fs fn = some f) :
    chmod fn ro o s = .done () { fs := s.fs.set fn (some { f with readOnly := ro }), n := s.n + 1 } :=
  op_ok ho (by simp [h])

theorem remove_ok {o : Oracle} (ho : NoFault o) {fn s f} (h : s.fs fn = some f) :
    remove fn o s = .done () { fs := s.fs.set fn none, n := s.n + 1 } := op_ok ho (by simp [h])

theorem rename_ok {o : Oracle} (ho : NoFault o) {a b s f} (h : s.fs a = some f) :
    rename a b o s = .done () { fs := (s.fs.set a none).set b (some f), n := s.n + 1 } :=
  op_ok ho (by simp [h])

theorem writeAll_ok {o : Oracle} (ho : NoFault o) {fn text t s f} (h : s.fs fn = some f) :
    writeAll fn text t o s =
      .done () { fs := s.fs.set fn (some { f with content := text, mtime := t }), n := s.n + 1 } :=
  op_ok ho (by simp [h])

theorem openW_ok {o : Oracle} (ho : NoFault o) {fn t s}
    (h : ∀ f, s.fs fn = some f → f.readOnly = false) :
    openW fn t o s = .done () { fs := s.fs.set fn (some { content := [], mtime := t }), n := s.n + 1 } := by
  refine op_ok ho ?_
  cases hf : s.fs fn with
  | none => rfl
  | some f =>
    have := h f hf
    obtain ⟨c, r, m⟩ := f
    simp only at this
    subst this
    simp

theorem bind_done {m : Prog α} {f : α → Prog β} {o s a s'} (h : m o s = .done a s') :
    (m >>= f) o s = f a o s' := by
  show Prog.bind m f o s = _
  simp [Prog.bind, h]

theorem backup_ok {o : Oracle} (ho : NoFault o) (fn : Str) (s : Sys) :
    ∃ s', shellBackup fn o s = .done () s' ∧ s'.fs fn = none ∧ s.n ≤ s'.n ∧
      (∀ g, g ≠ fn → g ≠ fn ++ eBak → s'.fs g = s.fs g) ∧
      (∀ f, s.fs fn = some f → s'.fs (fn ++ eBak) = some f) ∧
      (s.fs fn = none → s'.fs = s.fs) := by
  unfold shellBackup
  rw [bind_done (a := (s.fs fn).isSome) (s' := s) rfl]
  cases hf : s.fs fn with
  | none => exact ⟨s, rfl, hf, Nat.le_refl _, fun _ _ _ => rfl, by simp, fun _ => rfl⟩
  | some f =>
    simp only [Option.isSome_some, if_true]
    rw [bind_done (a := (s.fs (fn ++ eBak)).isSome) (s' := s) rfl]
    cases hb : s.fs (fn ++ eBak) with
    | none =>
      simp only [Option.isSome_none, Bool.false_eq_true, if_false]
      refine ⟨_, rename_ok ho hf, ?_, by simp, ?_, ?_, by simp⟩
      · simp [Fs.set, (bak_ne fn).symm]
      · intro g h1 h2; simp [Fs.set, h1, h2]
      · intro f' h; simp [Fs.set, Option.some.inj h]
    | some b =>
      simp only [Option.isSome_some, if_true]
      rw [bind_done (chmod_ok ho hb), bind_done (remove_ok ho (Fs.set_eq _ _ _))]
      refine ⟨_, rename_ok ho (f := f) (by simp [Fs.set, (bak_ne fn).symm, hf]), ?_, by simp; omega, ?_, ?_, by simp⟩
      · simp [Fs.set, (bak_ne fn).symm]
      · intro g h1 h2; simp [Fs.set, h1, h2]
      · intro f' h; simp [Fs.set, Option.some.inj h]

theorem save_ok {o : Oracle} (ho : NoFault o) {fn text : Str} {s : Sys}
    (hr : ∀ f, s.fs fn = some f → f.readOnly = false) :
    ∃ s' t, saveToFile fn text o s = .done () s' ∧ s.n ≤ s'.n ∧ (∃ k, s.n ≤ k ∧ t = o.time k) ∧
      s'.fs = s.fs.set fn (some { content := text, mtime := t }) := by
  unfold saveToFile
  rw [bind_done (a := o.time s.n) (s' := s) rfl, bind_done (openW_ok ho hr)]
  rw [bind_done (a := o.time (s.n + 1)) rfl]
  refine ⟨_, o.time (s.n + 1), writeAll_ok ho (Fs.set_eq _ _ _), by simp; omega, ⟨s.n + 1, by omega, rfl⟩, ?_⟩
  funext g; simp only [Fs.set]; split <;> rfl

/-- Without faults, storing a text writes it to the output file. -/
theorem store_ok {o : Oracle} (ho : NoFault o) (sh json) (plain : Plain) (fn : Str) (s : Sys) :
    ∃ g : File, (ppStore sh json true plain fn o s).fs fn = some g ∧ g.content = plain.txt ∧
      g.readOnly = sh.readOnly ∧ (∃ k, s.n ≤ k ∧ g.mtime = o.time k) ∧
      (∀ f, s.fs fn = some f → (ppStore sh json true plain fn o s).fs (fn ++ eBak) = some f) := by
  obtain ⟨s1, e1, hn1, hle1, _, hb1, _⟩ := backup_ok ho fn s
  obtain ⟨s2, t, e2, hle2, ⟨k, hk, ht⟩, hs2⟩ :=
    save_ok ho (fn := fn) (text := plain.txt) (s := s1) (by rw [hn1]; simp)
  have hlast : ∀ s3 : Sys, ∀ h, h ≠ fn ++ eJson →
      ((saveBrowse json fn plain) o s3).fs h = s3.fs h := by
    intro s3 h hne
    have hm : Triple (fun fs => fs h = s3.fs h) (fun fs => fs h = s3.fs h)
        (saveBrowse json fn plain) (fun _ fs => fs h = s3.fs h) := by
      unfold saveBrowse
      split
      · exact Triple.save fun fs f hh => by rw [Fs.set_ne _ _ hne, hh]
      · intro o s h; exact ⟨h, h⟩
    exact hm.fs rfl
  have hjb : fn ++ eBak ≠ fn ++ eJson := (json_bak_ne fn).symm
  unfold ppStore
  simp only [if_true]
  rw [bind_done e1, bind_done e2]
  by_cases hr : sh.readOnly = true
  · simp only [hr, if_true]
    rw [bind_done (chmod_ok ho (by rw [hs2]; exact Fs.set_eq _ _ _))]
    rw [hlast _ _ (json_ne fn).symm, hlast _ _ hjb]
    refine ⟨{ content := plain.txt, mtime := t, readOnly := true }, by simp [Fs.set], rfl, by simp,
      ⟨k, by omega, ht⟩, ?_⟩
    intro f hf
    show Fs.set s2.fs fn _ (fn ++ eBak) = some f
    rw [Fs.set_ne _ _ (bak_ne fn), hs2, Fs.set_ne _ _ (bak_ne fn), hb1 f hf]
  · simp only [hr, Bool.false_eq_true, if_false]
    rw [hlast _ _ (json_ne fn).symm, hlast _ _ hjb, hs2]
    refine ⟨{ content := plain.txt, mtime := t }, by simp [Fs.set], rfl, by simp, ⟨k, by omega, ht⟩, ?_⟩
    intro f hf
    rw [Fs.set_ne _ _ (bak_ne fn), hb1 f hf]

theorem tryIO_fs {m : Prog Unit} {a : α} {o s} :
    (Prog.tryIO (do m; return a) (Prog.pure a) o s).fs = (m o s).fs := by
  show (Prog.tryIO (Prog.bind m fun _ => Prog.pure a) (Prog.pure a) o s).fs = _
  unfold Prog.tryIO Prog.bind
  cases h : m o s <;> simp [Prog.pure, Out.fs]

/-- What happens to the files once the text has been read. -/
theorem ppStream_fs {cfg sh json eng passage} {rd : Prog Str} {fn fno : Str} {o s text s'}
    (hr : rd o s = .done text s') :
    (ppStream cfg sh json eng passage rd fn fno o s).fs =
      (let run := eng s'.fs passage fn fno text
       let r := pp cfg run.raw
       (ppStore sh json r.1 r.2
        (if r.1 then finalFn run fno else if r.2.txt.isEmpty then fno else astFn fno) o s').fs) := by
  unfold ppStream
  rw [hr]
  exact tryIO_fs

/-- The value of `_pp_stream` once the text has been read, if the program is not stopped. -/
theorem ppStream_val {cfg sh json eng passage} {rd : Prog Str} {fn fno : Str} {o s text s'}
    (hr : rd o s = .done text s') {v s''} (h : ppStream cfg sh json eng passage rd fn fno o s = .done v s'') :
    v = (let run := eng s'.fs passage fn fno text
         let r := pp cfg run.raw
         (⟨r.1, r.2, if r.1 then finalFn run fno else if r.2.txt.isEmpty then fno else astFn fno⟩, some run)) := by
  unfold ppStream at h
  rw [hr] at h
  simp only [] at h
  change Prog.tryIO (Prog.bind _ fun _ => Prog.pure _) (Prog.pure _) o s' = _ at h
  unfold Prog.tryIO Prog.bind at h
  revert h
  generalize ppStore sh json _ _ _ o s' = q
  intro h
  cases q <;> simp only [Prog.pure, Out.done.injEq, reduceCtorEq] at h
  · exact h.1.symm
  · exact h.1.symm

theorem readFile_fs (fn : Str) (o : Oracle) (s : Sys) : (readFile fn o s).fs = s.fs := by
  unfold readFile
  cases o.fault s.n with
  | err k => rfl
  | crash k => rfl
  | ok => cases h : s.fs fn <;> rfl

theorem openR_fs (fn : Str) (o : Oracle) (s : Sys) : (openR fn o s).fs = s.fs := by
  unfold openR Prog.op
  cases o.fault s.n with
  | err k => rfl
  | crash k => rfl
  | ok => cases h : s.fs fn <;> simp [h, Out.fs]

theorem bind_pure_fs {m : Prog α} {f : α → β} {o s} : ((m >>= fun a => Pure.pure (f a)) o s).fs = (m o s).fs := by
  show (Prog.bind m (fun a => Prog.pure (f a)) o s).fs = _
  unfold Prog.bind
  cases m o s <;> rfl

/-- The files after `_pp_file`: unchanged, or those after `_pp_stream` on some text. -/
theorem ppFile_fs (Q : Fs → Prop) {cfg sh json eng passage fn o s} (h0 : Q s.fs)
    (h : ∀ text s', s'.fs = s.fs →
      Q (ppStream cfg sh json eng passage (Prog.pure text) fn (outputFn sh fn) o s').fs) :
    Q (ppFile cfg sh json eng passage fn o s).fs := by
  have hstream : ∀ s', s'.fs = s.fs →
      Q (ppStream cfg sh json eng passage (readFile fn) fn (outputFn sh fn) o s').fs := by
    intro s' hs'
    have hfs := readFile_fs fn o s'
    cases hr : readFile fn o s' with
    | done text s2 =>
      rw [hr] at hfs
      rw [ppStream_fs hr, ← ppStream_fs (s := s2) (rd := Prog.pure text) rfl]
      exact h text s2 (hfs.trans hs')
    | raised s2 =>
      rw [hr] at hfs
      unfold ppStream; rw [hr]
      show Q s2.fs
      rw [show s2.fs = s.fs from hfs.trans hs']; exact h0
    | crashed s2 =>
      rw [hr] at hfs
      unfold ppStream; rw [hr]
      show Q s2.fs
      rw [show s2.fs = s.fs from hfs.trans hs']; exact h0
  have hopen := openR_fs fn o s
  unfold ppFile
  have hb : ∀ b s', s'.fs = s.fs → Q ((if b = true then do
      let r ← ppStream cfg sh json eng passage (readFile fn) fn (outputFn sh fn)
      Pure.pure (r.1.ok, match r.2 with | some run => run.rept | none => false)
      else Pure.pure (false, false) : Prog (Bool × Bool)) o s').fs := by
    intro b s' hs'
    cases b with
    | true => rw [if_pos rfl, bind_pure_fs]; exact hstream s' hs'
    | false => rw [if_neg (by simp)]; show Q s'.fs; rw [hs']; exact h0
  show Q (Prog.bind (Prog.tryIO (Prog.bind (openR fn) fun _ => Prog.pure true) (Prog.pure false)) _ o s).fs
  cases ho : openR fn o s with
  | done u s2 =>
    rw [ho] at hopen
    simp only [Prog.bind, Prog.tryIO, ho, Prog.pure]
    exact hb true s2 hopen
  | raised s2 =>
    rw [ho] at hopen
    simp only [Prog.bind, Prog.tryIO, ho, Prog.pure]
    exact hb false s2 hopen
  | crashed s2 =>
    rw [ho] at hopen
    simp only [Prog.bind, Prog.tryIO, ho]
    show Q s2.fs
    rw [show s2.fs = s.fs from hopen]; exact h0

end Yupp
