import Verif.Lemmas.Path
/-! # Hoare rules for programs over the file system -/

namespace Yupp
namespace Prog

/-- Started in a state satisfying `P`, the program leaves files satisfying `Q` whatever happens, and
    `R` if it ends normally. -/
def Triple (P Q : Fs → Prop) (m : Prog α) (R : α → Fs → Prop) : Prop :=
  ∀ o s, P s.fs → match m o s with
    | .done a s' => Q s'.fs ∧ R a s'.fs
    | .raised s' => Q s'.fs
    | .crashed s' => Q s'.fs

theorem Triple.fs {P Q : Fs → Prop} {m : Prog α} {R} (h : Triple P Q m R) {o s} (hp : P s.fs) :
    Q (m o s).fs := by
  have := h o s hp
  cases hm : m o s <;> rw [hm] at this
  · exact this.1
  · exact this
  · exact this

theorem Triple.bind {P Q : Fs → Prop} {m : Prog α} {R} {f : α → Prog β} {S}
    (h : Triple P Q m R) (hf : ∀ a, Triple (R a) Q (f a) S) : Triple P Q (m >>= f) S := by
  intro o s hp
  have h1 := h o s hp
  show match Prog.bind m f o s with | .done a s' => _ | .raised s' => _ | .crashed s' => _
  unfold Prog.bind
  cases hm : m o s with
  | done a s' => rw [hm] at h1; exact hf a o s' h1.2
  | raised s' => rw [hm] at h1; exact h1
  | crashed s' => rw [hm] at h1; exact h1

theorem Triple.pure {P Q : Fs → Prop} {a : α} {R : α → Fs → Prop} (h : ∀ fs, P fs → Q fs ∧ R a fs) :
    Triple P Q (Pure.pure a) R := fun _ s hp => h s.fs hp

theorem Triple.weaken {P P' Q Q' : Fs → Prop} {m : Prog α} {R R' : α → Fs → Prop}
    (h : Triple P Q m R) (hP : ∀ fs, P' fs → P fs) (hQ : ∀ fs, Q fs → Q' fs) (hR : ∀ a fs, R a fs → R' a fs) :
    Triple P' Q' m R' := by
  intro o s hp
  have h1 := h o s (hP _ hp)
  cases hm : m o s with
  | done a s' => rw [hm] at h1; exact ⟨hQ _ h1.1, hR _ _ h1.2⟩
  | raised s' => rw [hm] at h1; exact hQ _ h1
  | crashed s' => rw [hm] at h1; exact hQ _ h1

theorem Triple.tryIO {P Q : Fs → Prop} {m h : Prog α} {R}
    (hm : Triple P Q m R) (hh : Triple Q Q h R) : Triple P Q (Prog.tryIO m h) R := by
  intro o s hp
  have h1 := hm o s hp
  unfold Prog.tryIO
  cases hmo : m o s with
  | done a s' => rw [hmo] at h1; exact h1
  | raised s' => rw [hmo] at h1; exact hh o s' h1
  | crashed s' => rw [hmo] at h1; exact h1

theorem Triple.op {P Q : Fs → Prop} {f : Fs → Option Fs} {p : Nat → Fs → Fs} {R : Unit → Fs → Prop}
    (hq : ∀ fs, P fs → Q fs)
    (hp : ∀ k fs, P fs → Q (p k fs))
    (hf : ∀ fs fs', P fs → f fs = some fs' → Q fs' ∧ R () fs') : Triple P Q (Prog.op f p) R := by
  intro o s h
  unfold Prog.op
  cases o.fault s.n with
  | err k => exact hp k _ h
  | crash k => exact hp k _ h
  | ok =>
    simp only []
    cases hfs : f s.fs with
    | none => exact hq _ h
    | some fs' => exact hf _ _ h hfs

theorem Triple.isfile {P Q : Fs → Prop} {fn : Str} (hq : ∀ fs, P fs → Q fs) :
    Triple P Q (isfile fn) (fun b fs => P fs ∧ b = (fs fn).isSome) :=
  fun _ _ h => ⟨hq _ h, h, rfl⟩

theorem Triple.now {P Q : Fs → Prop} (hq : ∀ fs, P fs → Q fs) : Triple P Q now (fun _ => P) :=
  fun _ _ h => ⟨hq _ h, h⟩

theorem Triple.chmod {P Q : Fs → Prop} {fn : Str} {ro : Bool} {R : Unit → Fs → Prop}
    (hq : ∀ fs, P fs → Q fs)
    (hf : ∀ fs f, P fs → fs fn = some f →
      Q (fs.set fn (some { f with readOnly := ro })) ∧ R () (fs.set fn (some { f with readOnly := ro }))) :
    Triple P Q (chmod fn ro) R := by
  refine Triple.op hq (fun _ _ h => hq _ h) ?_
  intro fs fs' h he
  cases hfn : fs fn with
  | none => rw [hfn] at he; simp at he
  | some f => rw [hfn] at he; simp at he; subst he; exact hf fs f h hfn

theorem Triple.remove {P Q : Fs → Prop} {fn : Str} {R : Unit → Fs → Prop}
    (hq : ∀ fs, P fs → Q fs) (hf : ∀ fs, P fs → Q (fs.set fn none) ∧ R () (fs.set fn none)) :
    Triple P Q (remove fn) R := by
  refine Triple.op hq (fun _ _ h => hq _ h) ?_
  intro fs fs' h he
  cases hfn : fs fn with
  | none => rw [hfn] at he; simp at he
  | some f => rw [hfn] at he; simp at he; subst he; exact hf fs h

theorem Triple.rename {P Q : Fs → Prop} {a b : Str} {R : Unit → Fs → Prop}
    (hq : ∀ fs, P fs → Q fs)
    (hf : ∀ fs f, P fs → fs a = some f →
      Q ((fs.set a none).set b (some f)) ∧ R () ((fs.set a none).set b (some f))) :
    Triple P Q (rename a b) R := by
  refine Triple.op hq (fun _ _ h => hq _ h) ?_
  intro fs fs' h he
  cases hfn : fs a with
  | none => rw [hfn] at he; simp at he
  | some f => rw [hfn] at he; simp at he; subst he; exact hf fs f h hfn

/-- Saving touches only the named file. -/
theorem Triple.save {P : Fs → Prop} {fn text : Str}
    (hs : ∀ fs f, P fs → P (fs.set fn f)) : Triple P P (saveToFile fn text) (fun _ => P) := by
  unfold saveToFile
  refine Triple.bind (Triple.now (fun _ h => h)) fun t => ?_
  refine Triple.bind (R := fun _ => P) ?_ fun _ => Triple.bind (Triple.now (fun _ h => h)) fun t => ?_
  · refine Triple.op (fun _ h => h) (fun _ _ h => h) ?_
    intro fs fs' h he
    split at he
    · split at he
      · simp at he
      · simp at he; subst he; exact ⟨hs _ _ h, hs _ _ h⟩
    · simp at he; subst he; exact ⟨hs _ _ h, hs _ _ h⟩
  · refine Triple.op (fun _ h => h) ?_ ?_
    · intro k fs h
      split
      · exact hs _ _ h
      · exact h
    · intro fs fs' h he
      cases hfn : fs fn with
      | none => rw [hfn] at he; simp at he
      | some f => rw [hfn] at he; simp at he; subst he; exact ⟨hs _ _ h, hs _ _ h⟩

/-- The backup touches only the file and its backup. -/
theorem Triple.backup {P : Fs → Prop} {fn : Str}
    (h1 : ∀ fs f, P fs → P (fs.set fn f)) (h2 : ∀ fs f, P fs → P (fs.set (fn ++ eBak) f)) :
    Triple P P (shellBackup fn) (fun _ => P) := by
  unfold shellBackup
  refine Triple.bind (Triple.isfile (fun _ h => h)) fun b => ?_
  cases b
  · exact Triple.pure fun fs h => ⟨h.1, h.1⟩
  · simp only [if_true]
    refine Triple.bind (R := fun _ => P) ((Triple.isfile (P := P) fun _ h => h).weaken (fun _ h => h.1) (fun _ h => h)
      (fun _ _ h => h.1)) fun b => ?_
    have hren : Triple P P (Yupp.rename fn (fn ++ eBak)) (fun _ => P) :=
      Triple.rename (fun _ h => h) fun fs f h _ => ⟨h2 _ _ (h1 _ _ h), h2 _ _ (h1 _ _ h)⟩
    cases b
    · exact hren
    · refine Triple.bind (R := fun _ => P)
        (Triple.chmod (fun _ h => h) fun fs f h _ => ⟨h2 _ _ h, h2 _ _ h⟩) fun _ => ?_
      refine Triple.bind (R := fun _ => P)
        (Triple.remove (fun _ h => h) fun fs h => ⟨h2 _ _ h, h2 _ _ h⟩) fun _ => hren

end Prog
end Yupp
