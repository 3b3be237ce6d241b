import Verif.Lemmas.Shell
/-! # A run depends on the faults of its own operations only -/

namespace Yupp
open Prog

/-- The state a run ends in. -/
def Out.sys : Out α → Sys
  | .done _ s => s
  | .raised s => s
  | .crashed s => s

/-- The number of operations does not go down, and the run is the same whatever happens to other operations. -/
structure Local (m : Prog α) : Prop where
  mono : ∀ o s, s.n ≤ (m o s).sys.n
  same : ∀ o (g : Nat → Fault) s, (∀ n, s.n ≤ n → n < (m o s).sys.n → g n = o.fault n) →
    m ⟨g, o.time⟩ s = m o s

theorem Local.pure (a : α) : Local (Prog.pure a) := ⟨fun _ _ => Nat.le_refl _, fun _ _ _ _ => rfl⟩

theorem Local.bind {m : Prog α} {f : α → Prog β} (hm : Local m) (hf : ∀ a, Local (f a)) : Local (m >>= f) := by
  have e : ∀ o s, (m >>= f) o s = Prog.bind m f o s := fun _ _ => rfl
  constructor
  · intro o s
    rw [e]
    unfold Prog.bind
    have h1 := hm.mono o s
    cases h : m o s with
    | done a s' => rw [h] at h1; exact Nat.le_trans h1 ((hf a).mono o s')
    | raised s' => rw [h] at h1; exact h1
    | crashed s' => rw [h] at h1; exact h1
  · intro o g s hg
    rw [e] at hg ⊢
    rw [e]
    unfold Prog.bind at hg ⊢
    have h1 := hm.mono o s
    have h2 := hm.same o g s
    cases h : m o s with
    | done a s' =>
      rw [h] at h1 h2
      simp only [h] at hg
      have h3 := (hf a).mono o s'
      rw [h2 fun n hn hn' => hg n hn (Nat.lt_of_lt_of_le hn' h3)]
      exact (hf a).same o g s' fun n hn hn' => hg n (Nat.le_trans h1 hn) hn'
    | raised s' =>
      rw [h] at h2
      simp only [h] at hg
      rw [h2 hg]
    | crashed s' =>
      rw [h] at h2
      simp only [h] at hg
      rw [h2 hg]

theorem Local.tryIO {m h : Prog α} (hm : Local m) (hh : Local h) : Local (Prog.tryIO m h) := by
  constructor
  · intro o s
    unfold Prog.tryIO
    have h1 := hm.mono o s
    cases e : m o s with
    | done a s' => rw [e] at h1; exact h1
    | raised s' => rw [e] at h1; exact Nat.le_trans h1 (hh.mono o s')
    | crashed s' => rw [e] at h1; exact h1
  · intro o g s hg
    unfold Prog.tryIO at hg ⊢
    have h1 := hm.mono o s
    have h2 := hm.same o g s
    cases e : m o s with
    | done a s' =>
      rw [e] at h2
      simp only [e] at hg
      rw [h2 hg]
    | raised s' =>
      rw [e] at h1 h2
      simp only [e] at hg
      rw [h2 fun n hn hn' => hg n hn (Nat.lt_of_lt_of_le hn' (hh.mono o s'))]
      exact hh.same o g s' fun n hn hn' => hg n (Nat.le_trans h1 hn) hn'
    | crashed s' =>
      rw [e] at h2
      simp only [e] at hg
      rw [h2 hg]

theorem Local.op (f : Fs → Option Fs) (p : Nat → Fs → Fs) : Local (Prog.op f p) := by
  have hn : ∀ o s, (Prog.op f p o s).sys.n = s.n + 1 := by
    intro o s
    unfold Prog.op
    cases o.fault s.n with
    | err k => rfl
    | crash k => rfl
    | ok => simp only []; cases f s.fs <;> rfl
  refine ⟨fun o s => by rw [hn]; omega, ?_⟩
  intro o g s hg
  have : g s.n = o.fault s.n := hg s.n (Nat.le_refl _) (by rw [hn]; omega)
  unfold Prog.op
  simp only [this]

theorem Local.isfile (fn : Str) : Local (isfile fn) := ⟨fun _ _ => Nat.le_refl _, fun _ _ _ _ => rfl⟩
theorem Local.now : Local now := ⟨fun _ _ => Nat.le_refl _, fun _ _ _ _ => rfl⟩

theorem Local.readFile (fn : Str) : Local (readFile fn) := by
  have hn : ∀ o s, (Yupp.readFile fn o s).sys.n = s.n + 1 := by
    intro o s
    unfold Yupp.readFile
    cases o.fault s.n with
    | err k => rfl
    | crash k => rfl
    | ok => simp only []; cases s.fs fn <;> rfl
  refine ⟨fun o s => by rw [hn]; omega, ?_⟩
  intro o g s hg
  have : g s.n = o.fault s.n := hg s.n (Nat.le_refl _) (by rw [hn]; omega)
  unfold Yupp.readFile
  simp only [this]

theorem Local.save (fn text : Str) : Local (saveToFile fn text) :=
  Local.bind Local.now fun _ => Local.bind (Local.op _ _) fun _ => Local.bind Local.now fun _ => Local.op _ _

theorem Local.backup (fn : Str) : Local (shellBackup fn) := by
  unfold shellBackup
  refine Local.bind (Local.isfile _) fun b => ?_
  split
  · refine Local.bind (Local.isfile _) fun b => ?_
    split
    · exact Local.bind (Local.op _ _) fun _ => Local.bind (Local.op _ _) fun _ => Local.op _ _
    · exact Local.op _ _
  · exact Local.pure ()

theorem Local.store (sh json ok plain fn) : Local (ppStore sh json ok plain fn) := by
  have hb : Local (saveBrowse json fn plain) := by
    unfold saveBrowse
    split
    · exact Local.save _ _
    · exact Local.pure ()
  unfold ppStore
  split
  · refine Local.bind (Local.backup _) fun _ => Local.bind (Local.save _ _) fun _ => ?_
    split
    · exact Local.bind (Local.op _ _) fun _ => hb
    · exact hb
  · split
    · exact Local.save _ _
    · exact Local.pure ()

/-- A run that goes on with a program chosen by the value and by the files. -/
def chooseProg (m : Prog α) (k : α → Fs → Prog β) (h : Prog β) : Prog β := fun o s =>
  match m o s with
  | .crashed s' => .crashed s'
  | .raised s' => h o s'
  | .done a s' => k a s'.fs o s'

theorem Local.choose {m : Prog α} {k : α → Fs → Prog β} {h : Prog β} (hm : Local m) (hk : ∀ a F, Local (k a F))
    (hh : Local h) :
    Local (chooseProg m k h) := by
  constructor
  · intro o s
    unfold chooseProg
    have h1 := hm.mono o s
    cases e : m o s with
    | done a s' => rw [e] at h1; exact Nat.le_trans h1 ((hk a _).mono o s')
    | raised s' => rw [e] at h1; exact Nat.le_trans h1 (hh.mono o s')
    | crashed s' => rw [e] at h1; exact h1
  · intro o g s hg
    unfold chooseProg at hg ⊢
    have h1 := hm.mono o s
    have h2 := hm.same o g s
    cases e : m o s with
    | done a s' =>
      rw [e] at h1 h2
      simp only [e] at hg
      have h3 := (hk a s'.fs).mono o s'
      simp only [h2 fun n hn hn' => hg n hn (Nat.lt_of_lt_of_le hn' h3)]
      exact (hk a _).same o g s' fun n hn hn' => hg n (Nat.le_trans h1 hn) hn'
    | raised s' =>
      rw [e] at h1 h2
      simp only [e] at hg
      simp only [h2 fun n hn hn' => hg n hn (Nat.lt_of_lt_of_le hn' (hh.mono o s'))]
      exact hh.same o g s' fun n hn hn' => hg n (Nat.le_trans h1 hn) hn'
    | crashed s' =>
      rw [e] at h2
      simp only [e] at hg
      simp only [h2 hg]

theorem Local.stream {cfg sh json eng passage} {rd : Prog Str} {fn fno : Str} (hr : Local rd) :
    Local (ppStream cfg sh json eng passage rd fn fno) := by
  have e : ppStream cfg sh json eng passage rd fn fno = chooseProg rd (fun text F =>
      let run := eng F passage fn fno text
      let r := pp cfg run.raw
      let fno' := if r.1 then finalFn run fno else if r.2.txt.isEmpty then fno else astFn fno
      Prog.tryIO (do ppStore sh json r.1 r.2 fno'; return (⟨r.1, r.2, fno'⟩, some run))
        (Prog.pure (⟨r.1, r.2, fno'⟩, some run))) (Prog.pure (⟨false, .nothing, fno⟩, none)) := by
    funext o s
    unfold ppStream chooseProg
    cases rd o s <;> rfl
  rw [e]
  exact Local.choose hr
    (fun _ _ => Local.tryIO (Local.bind (Local.store _ _ _ _ _) fun _ => Local.pure _) (Local.pure _)) (Local.pure _)

theorem Local.file (cfg sh json eng passage fn) : Local (ppFile cfg sh json eng passage fn) := by
  unfold ppFile
  refine Local.bind (Local.tryIO (Local.bind (Local.op _ _) fun _ => Local.pure _) (Local.pure _)) fun b => ?_
  split
  · exact Local.bind (Local.stream (Local.readFile _)) fun _ => Local.pure _
  · exact Local.pure _

/-- A run in which no operation fails is a run without faults. -/
theorem Local.noFault {m : Prog α} (hm : Local m) {o : Oracle} {s : Sys}
    (h : ∀ n, s.n ≤ n → n < (m o s).sys.n → o.fault n = .ok) :
    ∃ o', NoFault o' ∧ o'.time = o.time ∧ m o' s = m o s :=
  ⟨⟨fun _ => .ok, o.time⟩, fun _ => rfl, rfl, hm.same o _ s fun n h1 h2 => (h n h1 h2).symm⟩

/-- The states the output file may be left in: the old one; or the old one is in the backup and there is no
    output file or one that holds the beginning of the text. -/
def LeftAs (old : Option File) (fn text : Str) (fs : Fs) : Prop :=
  fs fn = old ∨ ((∀ f, old = some f → fs (fn ++ eBak) = some f) ∧ (fs fn = none ∨ ∃ k, Holds fs fn (text.take k)))

/-- As far as the backup has got. -/
def BackedUp (old : Option File) (fn : Str) (fs : Fs) : Prop :=
  fs fn = none ∧ ∀ f, old = some f → fs (fn ++ eBak) = some f

/-- The output file holds the beginning of the text. -/
def Begun (old : Option File) (fn text : Str) (fs : Fs) : Prop :=
  (∀ f, old = some f → fs (fn ++ eBak) = some f) ∧ ∃ k, Holds fs fn (text.take k)

theorem backup_left {old : Option File} {fn text : Str} :
    Triple (fun fs => fs fn = old) (LeftAs old fn text) (shellBackup fn) (fun _ => BackedUp old fn) := by
  unfold shellBackup
  refine Triple.bind (Triple.isfile (fun _ h => .inl h)) fun b => ?_
  cases b
  · intro o s h
    obtain ⟨h1, h2⟩ := h
    have : s.fs fn = none := by simpa using h2.symm
    refine ⟨.inl h1, this, ?_⟩
    intro f hf
    rw [← h1, this] at hf; simp at hf
  · simp only [if_true]
    have hren : Triple (fun fs => fs fn = old) (LeftAs old fn text) (Yupp.rename fn (fn ++ eBak))
        (fun _ => BackedUp old fn) := by
      refine Triple.rename (fun _ h => .inl h) fun fs f h hf => ?_
      have h1 : ((fs.set fn none).set (fn ++ eBak) (some f)) fn = none := by
        rw [Fs.set_ne _ _ (bak_ne fn).symm, Fs.set_eq]
      have h2 : ∀ g, old = some g → ((fs.set fn none).set (fn ++ eBak) (some f)) (fn ++ eBak) = some g := by
        intro g hg
        rw [Fs.set_eq, ← hg, ← h, hf]
      exact ⟨.inr ⟨h2, .inl h1⟩, h1, h2⟩
    refine Triple.bind (R := fun _ fs => fs fn = old)
      ((Triple.isfile (P := fun fs => fs fn = old) fun _ h => .inl h).weaken (fun _ h => h.1) (fun _ h => h)
      (fun _ _ h => h.1)) fun b => ?_
    cases b
    · exact hren
    · have hne : ∀ fs : Fs, ∀ f, fs fn = old → (fs.set (fn ++ eBak) f) fn = old := fun fs f h => by
        rw [Fs.set_ne _ _ (bak_ne fn).symm, h]
      refine Triple.bind (R := fun _ fs => fs fn = old) ?_ fun _ => ?_
      · exact Triple.chmod (fun _ h => .inl h) fun fs f h _ => ⟨.inl (hne _ _ h), hne _ _ h⟩
      · refine Triple.bind (R := fun _ fs => fs fn = old) ?_ fun _ => hren
        exact Triple.remove (fun _ h => .inl h) fun fs h => ⟨.inl (hne _ _ h), hne _ _ h⟩

theorem Begun.left {old : Option File} {fn text : Str} {fs : Fs} (h : Begun old fn text fs) : LeftAs old fn text fs :=
  .inr ⟨h.1, .inr h.2⟩

theorem save_left {old : Option File} {fn text : Str} :
    Triple (BackedUp old fn) (LeftAs old fn text) (saveToFile fn text) (fun _ => Begun old fn text) := by
  have hq : ∀ fs, BackedUp old fn fs → LeftAs old fn text fs := fun fs h => .inr ⟨h.2, .inl h.1⟩
  have hset : ∀ (fs : Fs) (g : File) k, (∀ f, old = some f → fs (fn ++ eBak) = some f) → g.content = text.take k →
      Begun old fn text (fs.set fn (some g)) := by
    intro fs g k h hg
    refine ⟨fun f hf => ?_, k, g, Fs.set_eq _ _ _, hg⟩
    rw [Fs.set_ne _ _ (bak_ne fn), h f hf]
  unfold saveToFile
  refine Triple.bind (Triple.now hq) fun t => ?_
  refine Triple.bind (R := fun _ => Begun old fn text) ?_ fun _ =>
    Triple.bind (Triple.now fun _ h => h.left) fun t => ?_
  · refine Triple.op hq (fun _ _ h => hq _ h) ?_
    intro fs fs' h he
    rw [h.1] at he
    simp at he; subst he
    have := hset fs { content := [], mtime := t } 0 h.2 (by simp)
    exact ⟨this.left, this⟩
  · refine Triple.op (fun _ h => h.left) ?_ ?_
    · intro k fs h
      split
      · exact (hset fs _ k h.1 rfl).left
      · exact h.left
    · intro fs fs' h he
      cases hfn : fs fn with
      | none => rw [hfn] at he; simp at he
      | some f =>
        rw [hfn] at he; simp at he; subst he
        have := hset fs { f with content := text, mtime := t } text.length h.1 (by simp)
        exact ⟨this.left, this⟩

theorem store_left {sh json plain fn} {old : Option File} :
    Triple (fun fs => fs fn = old) (LeftAs old fn plain.txt) (ppStore sh json true plain fn)
      (fun _ => LeftAs old fn plain.txt) := by
  have hlast : Triple (Begun old fn plain.txt) (LeftAs old fn plain.txt) (saveBrowse json fn plain)
      (fun _ => LeftAs old fn plain.txt) := by
    unfold saveBrowse
    split
    · refine (Triple.save (P := Begun old fn _) fun fs f h => ?_).weaken (fun _ h => h) (fun _ h => h.left)
        (fun _ _ h => h.left)
      obtain ⟨h1, k, h2⟩ := h
      exact ⟨fun f hf => by rw [Fs.set_ne _ _ (json_bak_ne fn).symm, h1 f hf], k, h2.set_ne (json_ne fn).symm⟩
    · intro o s h; exact ⟨h.left, h.left⟩
  unfold ppStore
  simp only [if_true]
  refine Triple.bind backup_left fun _ => Triple.bind save_left fun _ => ?_
  split
  · refine Triple.bind (R := fun _ => Begun old fn plain.txt) ?_ fun _ => hlast
    refine Triple.chmod (fun _ h => h.left) fun fs f h hf => ?_
    obtain ⟨h1, k, g, hg, hc⟩ := h
    have : Begun old fn plain.txt (fs.set fn (some { f with readOnly := true })) := by
      refine ⟨fun f' hf' => by rw [Fs.set_ne _ _ (bak_ne fn), h1 f' hf'], k, _, Fs.set_eq _ _ _, ?_⟩
      rw [hf] at hg; cases hg; exact hc
    exact ⟨this.left, this⟩
  · exact hlast

end Yupp
