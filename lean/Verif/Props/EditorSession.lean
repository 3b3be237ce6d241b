import Verif.Spec.EditorSession
import Verif.Props.Editor
/-!
# C98: what the plug-in knows during a session
-/

namespace Yupp
open Spec

/-- What holds of the plug-in at any time. -/
structure Tidy (h : List Disk) (ed : Editor) : Prop where
  tables : ∀ f, HasTables ed f → ∃ d t, ed.data f = some d ∧ ed.mtime f = some t ∧
    ∃ dk ∈ h, dk.mtime f = t ∧ d.browse = (dk.json f).browse ∧ d.offset = (dk.json f).offset
  names : ∀ f, f ≠ [] → ed.state f = some .noBrowse → ∃ n, ed.jump f = some (.name n)

theorem tidy_more {h : List Disk} {ed : Editor} (dk : Disk) (ht : Tidy h ed) : Tidy (dk :: h) ed :=
  ⟨fun f hf => by
    obtain ⟨d, t, h1, h2, dk', h3, h4⟩ := ht.tables f hf
    exact ⟨d, t, h1, h2, dk', List.mem_cons_of_mem _ h3, h4⟩, ht.names⟩

theorem open_tidy {h : List Disk} {ed : Editor} {dk : Disk} (hd : dk ∈ h) (ht : Tidy h ed) (fn : Str) : Tidy h (openFile dk ed fn) := by
  unfold openFile
  split
  · constructor
    · intro f hf
      by_cases e : f = fn
      · subst e
        exact ⟨_, _, putE_same _ _ _, putE_same _ _ _, dk, hd, rfl, rfl, rfl⟩
      · unfold HasTables at hf
        simp only [putE_other _ _ e] at hf ⊢
        exact ht.tables f hf
    · intro f hne hf
      by_cases e : f = fn
      · subst e
        simp only [putE_same] at hf
        split at hf <;> cases hf
      · simp only [putE_other _ _ e] at hf ⊢
        exact ht.names f hne hf
  · split
    · exact ht
    · rename_i o _
      split
      · constructor
        · intro f hf
          unfold HasTables at hf
          by_cases e : f = o
          · subst e
            simp only [putE_same] at hf
            rcases hf with hf | hf <;> cases hf
          · by_cases e2 : f = fn
            · subst e2
              simp only [putE_other _ _ e, putE_same] at hf
              rcases hf with hf | hf <;> cases hf
            · simp only [putE_other _ _ e, putE_other _ _ e2] at hf
              exact ht.tables f hf
        · intro f hne hf
          by_cases e : f = o
          · subst e
            exact ⟨fn, putE_same _ _ _⟩
          · by_cases e2 : f = fn
            · subst e2
              exact ⟨o, by simp only [putE_other _ _ e, putE_same]⟩
            · simp only [putE_other _ _ e, putE_other _ _ e2] at hf ⊢
              exact ht.names f hne hf
      · exact ht

theorem drops_some {β} {d : Str → Option β} {xs : List Str} {x : Str} {v : β} (h : drops d xs x = some v) : x ∉ xs ∧ d x = some v := by
  unfold drops at h
  split at h
  · cases h
  · exact ⟨by assumption, h⟩

theorem drops_other {β} {d : Str → Option β} {xs : List Str} {x : Str} (h : x ∉ xs) : drops d xs x = d x := by
  unfold drops
  rw [if_neg h]

theorem drops_in {β} {d : Str → Option β} {xs : List Str} {x : Str} (h : x ∈ xs) : drops d xs x = none := by
  unfold drops
  rw [if_pos h]

/-- Which names are forgotten. -/
theorem close_shape {ed ed' : Editor} {fn : Str} (h : closeFile ed fn = some ed') :
    ∃ xs ys, (∀ y ∈ ys, y ∈ xs) ∧ ed'.state = drops ed.state (fn :: xs) ∧ ed'.data = drops ed.data (fn :: ys) ∧
      ed'.jump = drops ed.jump (fn :: xs) ∧ ed'.mtime = drops ed.mtime [fn] ∧
      ∀ d, ed.state fn = some .fruit → ed.data fn = some d → xs = d.files.map fun f => (d.paths.lookup f).getD [] := by
  unfold closeFile at h
  cases hs : ed.state fn with
  | none => rw [hs] at h; cases h
  | some st =>
    rw [hs] at h
    cases st with
    | fruit =>
      simp only [Option.map_eq_some_iff] at h
      obtain ⟨d, hd, rfl⟩ := h
      exact ⟨_, _, fun y hy => hy, rfl, rfl, rfl, rfl, fun d' _ hd' => by rw [hd] at hd'; cases hd'; rfl⟩
    | noBrowse =>
      simp only at h
      split at h
      · cases h
        rename_i o _
        exact ⟨[o], [], by simp, rfl, rfl, rfl, rfl, fun d' h _ => by cases h⟩
      · cases h
    | origin => cases h; exact ⟨[], [], by simp, rfl, rfl, rfl, rfl, fun d' h _ => by cases h⟩
    | checkRaw => cases h; exact ⟨[], [], by simp, rfl, rfl, rfl, rfl, fun d' h _ => by cases h⟩

theorem close_tidy {h : List Disk} {ed ed' : Editor} (ht : Tidy h ed) {fn : Str} (hc : closeFile ed fn = some ed') : Tidy h ed' := by
  obtain ⟨xs, ys, hsub, h1, h2, h3, h4, _⟩ := close_shape hc
  constructor
  · intro f hf
    unfold HasTables at hf
    rw [h1] at hf
    have key : f ∉ fn :: xs ∧ HasTables ed f := by
      rcases hf with hf | hf
      · exact ⟨(drops_some hf).1, .inl (drops_some hf).2⟩
      · exact ⟨(drops_some hf).1, .inr (drops_some hf).2⟩
    obtain ⟨hn, hf⟩ := key
    rw [h2, h4, drops_other (by
      intro hm
      rcases List.mem_cons.1 hm with rfl | hm
      · exact hn List.mem_cons_self
      · exact hn (List.mem_cons_of_mem _ (hsub _ hm))), drops_other (by
      intro hm
      rw [List.mem_singleton.1 hm] at hn
      exact hn List.mem_cons_self)]
    exact ht.tables f hf
  · intro f hne hf
    rw [h1] at hf
    rw [h3, drops_other (drops_some hf).1]
    exact ht.names f hne (drops_some hf).2

/-- The loop keeps what is known. -/
structure WalkTidy (ed : Editor) (w : Walk) : Prop where
  state : ∀ f, w.state f = ed.state f ∨ w.state f = some .origin
  names : ∀ f, f ≠ [] → w.state f = some .noBrowse → ∃ n, w.jump f = some (.name n)

theorem walk_tidy {dk : Disk} {b : Browse} {found : Int} {ed : Editor} : ∀ (i : Nat) {w w' : Walk}, WalkTidy ed w →
    walkBack dk b found i w = some w' → WalkTidy ed w'
  | 0, w, w', hw, h => by cases h; exact hw
  | i + 1, w, w', hw, h => by
    have put_tidy : ∀ (p : Str) (t : List (Int × Str × Int)) (ps : List (Str × Str)) (fn : Str) (pos : Int),
        WalkTidy ed { state := put w.state p (some .origin), jump := put w.jump p (some (.table t)), paths := ps, fn := fn, pos := pos } := by
      intro p t ps fn pos
      constructor
      · intro f
        by_cases e : f = p
        · subst e; exact .inr (putE_same _ _ _)
        · simp only [putE_other _ _ e]; exact hw.state f
      · intro f hne hf
        by_cases e : f = p
        · subst e; simp only [putE_same] at hf; cases hf
        · simp only [putE_other _ _ e] at hf ⊢; exact hw.names f hne hf
    rw [walkBack] at h
    split at h
    · cases h
    · split at h
      · cases h; exact hw
      · simp only at h
        split at h
        · refine walk_tidy i ?_ h
          exact ⟨hw.state, hw.names⟩
        · split at h
          · cases h
          · exact walk_tidy i (put_tidy _ _ _ _ _) h
          · exact walk_tidy i (put_tidy _ _ _ _ _) h

theorem fresh_tidy {h : List Disk} {ed ed' : Editor} {dk : Disk} {d : FData} {pos : Int} (ht : Tidy h ed)
    (hs : ed.state ed.file = some .fruit) (hd : ed.data ed.file = some d) (hc : freshJump dk ed d pos = some ed') : Tidy h ed' := by
  unfold freshJump at hc
  simp only at hc
  split at hc
  · cases hc; exact ht
  · split at hc
    · cases hc
    · rename_i i posFound file posTo _
      split at hc
      · cases hc
      · rename_i w hwalk
        have hw : WalkTidy ed w := by
          refine walk_tidy _ ?_ hwalk
          split
          · rename_i hem
            refine ⟨fun f => .inl rfl, ?_⟩
            intro f hne hf
            simp only at hf ⊢
            have e1 : f ≠ (searchFile dk dk.folders d.paths file).1 := by
              intro e
              rw [← e] at hem
              exact hne (List.isEmpty_iff.1 hem)
            have e2 : f ≠ ed.file := by
              intro e
              rw [e, hs] at hf
              cases hf
            rw [putE_other _ _ e1, putE_other _ _ e2]
            exact ht.names f hne hf
          · constructor
            · intro f
              by_cases e : f = (searchFile dk dk.folders d.paths file).1
              · rw [e]; exact .inr (putE_same _ _ _)
              · simp only [putE_other _ _ e]; exact .inl trivial
            · intro f hne hf
              simp only at hf ⊢
              by_cases e : f = (searchFile dk dk.folders d.paths file).1
              · rw [e, putE_same] at hf; cases hf
              · rw [putE_other _ _ e] at hf
                have e2 : f ≠ ed.file := by
                  intro e
                  rw [e, hs] at hf
                  cases hf
                rw [putE_other _ _ e, putE_other _ _ e, putE_other _ _ e2]
                exact ht.names f hne hf
        split at hc
        · cases hc
          constructor
          · intro f hf
            have hf' : HasTables ed f := by
              unfold HasTables at hf ⊢
              simp only [Editor.goto] at hf
              rcases hw.state f with e | e
              · rw [e] at hf; exact hf
              · rw [e] at hf; rcases hf with hf | hf <;> cases hf
            obtain ⟨d0, t, h1, h2, h3⟩ := ht.tables f hf'
            by_cases e : f = ed.file
            · subst e
              rw [hd] at h1
              cases h1
              exact ⟨_, t, putE_same _ _ _, h2, h3⟩
            · refine ⟨d0, t, ?_, h2, h3⟩
              simp only [Editor.goto, putE_other _ _ e]
              exact h1
          · intro f hne hf
            simp only [Editor.goto] at hf ⊢
            have e : f ≠ ed.file := by
              intro e
              rw [e] at hf
              rcases hw.state ed.file with h0 | h0
              · rw [h0, hs] at hf; cases hf
              · rw [h0] at hf; cases hf
            rw [putE_other _ _ e]
            exact hw.names f hne hf
        · cases hc

theorem goto_tidy {h : List Disk} {ed ed' : Editor} {dk : Disk} (ht : Tidy h ed) (hc : gotoOrigin dk ed = some ed') : Tidy h ed' := by
  have same : ∀ fn (caret : Str → Int), Tidy h { ed with file := fn, caret := caret } := fun fn caret => ⟨ht.tables, ht.names⟩
  unfold gotoOrigin at hc
  cases hs : ed.state ed.file with
  | none => rw [hs] at hc; cases hc; exact ht
  | some st =>
    rw [hs] at hc
    have fresh : ∀ {r}, (match st with
        | .fruit => match ed.data ed.file with
          | none => none
          | some d => freshJump dk ed d (ed.caret ed.file)
        | .checkRaw => match ed.data ed.file with
          | none => none
          | some d => some (Editor.goto { ed with
              state := put ed.state (ed.file ++ lit ".txt") (some .origin)
              jump := put ed.jump (ed.file ++ lit ".txt") (some (.table [(ed.caret ed.file + deltaAt d.offset (ed.caret ed.file), ed.file, ed.caret ed.file)])) }
              (ed.file ++ lit ".txt") (ed.caret ed.file + deltaAt d.offset (ed.caret ed.file)))
        | _ => some ed) = some r → Tidy h r := by
      intro r hr
      cases st with
      | fruit =>
        simp only at hr
        cases hd : ed.data ed.file with
        | none => rw [hd] at hr; cases hr
        | some d => rw [hd] at hr; exact fresh_tidy ht hs hd hr
      | checkRaw =>
        simp only at hr
        cases hd : ed.data ed.file with
        | none => rw [hd] at hr; cases hr
        | some d =>
          rw [hd] at hr
          cases hr
          constructor
          · intro f hf
            unfold HasTables at hf
            simp only [Editor.goto] at hf ⊢
            by_cases e : f = ed.file ++ lit ".txt"
            · rw [e, putE_same] at hf; rcases hf with hf | hf <;> cases hf
            · rw [putE_other _ _ e] at hf; exact ht.tables f hf
          · intro f hne hf
            simp only [Editor.goto] at hf ⊢
            by_cases e : f = ed.file ++ lit ".txt"
            · rw [e, putE_same] at hf; cases hf
            · rw [putE_other _ _ e] at hf ⊢; exact ht.names f hne hf
      | origin => cases hr; exact ht
      | noBrowse => cases hr; exact ht
    cases st with
    | noBrowse =>
      simp only at hc
      split at hc
      · cases hc; exact same _ _
      · cases hc
    | fruit =>
      simp only at hc
      split at hc
      · cases hc
      · split at hc
        · cases hc; exact same _ _
        · exact fresh hc
      · exact fresh hc
    | checkRaw =>
      simp only at hc
      split at hc
      · cases hc
      · split at hc
        · cases hc; exact same _ _
        · exact fresh hc
      · exact fresh hc
    | origin =>
      simp only at hc
      split at hc
      · cases hc
      · split at hc
        · cases hc; exact same _ _
        · exact fresh hc
      · exact fresh hc

theorem load_tidy {h : List Disk} {ed : Editor} {dk : Disk} (hd : dk ∈ h) (ht : Tidy h ed) (fn : Str) : Tidy h (onLoad dk ed fn) := by
  unfold onLoad
  split
  · exact ht
  · exact open_tidy hd ht fn

theorem activate_tidy {h : List Disk} {ed ed' : Editor} {dk : Disk} (hd : dk ∈ h) (ht : Tidy h ed) {fn : Str}
    (hc : onActivated dk ed fn = some ed') : Tidy h ed' := by
  unfold onActivated at hc
  split at hc
  · cases hc; exact ht
  · split at hc
    · cases hc; exact ht
    · simp only [Option.map_eq_some_iff] at hc
      obtain ⟨ed1, h1, rfl⟩ := hc
      exact open_tidy hd (close_tidy ht h1) fn

theorem session_tidy {h : List Disk} {ed : Editor} (hs : EditSession h ed) : Tidy h ed := by
  induction hs with
  | start fn caret =>
    refine ⟨fun f hf => ?_, fun f _ hf => ?_⟩
    · rcases hf with hf | hf <;> cases hf
    · cases hf
  | @step h ed ed' dk ev _ hr ih =>
    have ih := tidy_more dk ih
    cases ev with
    | load fn =>
      cases hr
      split
      · exact ih
      · exact load_tidy List.mem_cons_self ih fn
    | close fn =>
      change onClose ed fn = some ed' at hr
      unfold onClose at hr
      split at hr
      · cases hr; exact ih
      · exact close_tidy ih hr
    | activate fn => exact activate_tidy List.mem_cons_self ih hr
    | command => exact goto_tidy ih hr
    | look fn caret => cases hr; exact ⟨ih.tables, ih.names⟩

/-- **C98**. Whatever was done before, once the view of a generated file is activated, the tables the command will use are those
    the translator has written last. (The plug-in looks at the time of the file only: it is assumed that whenever the file had the time it has now,
    it had the same tables.) -/
theorem C98_current {h : List Disk} {ed ed' : Editor} {dk : Disk} {fn : Str} (hs : EditSession h ed)
    (hclock : ∀ dk' ∈ h, dk'.mtime fn = dk.mtime fn → (dk'.json fn).browse = (dk.json fn).browse ∧ (dk'.json fn).offset = (dk.json fn).offset)
    (ha : onActivated dk ed fn = some ed') (hf : HasTables ed' fn) :
    ∃ d, ed'.data fn = some d ∧ d.browse = (dk.json fn).browse ∧ d.offset = (dk.json fn).offset := by
  have ht := session_tidy hs
  unfold onActivated at ha
  cases hm : ed.mtime fn with
  | none =>
    rw [hm] at ha
    cases ha
    obtain ⟨d, t, _, h2, _⟩ := ht.tables fn hf
    rw [hm] at h2
    cases h2
  | some t =>
    rw [hm] at ha
    simp only at ha
    split at ha
    · rename_i e
      cases ha
      obtain ⟨d, t', h1, h2, dk', h3, h4, h5, h6⟩ := ht.tables fn hf
      rw [hm] at h2
      cases h2
      obtain ⟨h7, h8⟩ := hclock dk' h3 (h4.trans e)
      exact ⟨d, h1, h5.trans h7, h6.trans h8⟩
    · simp only [Option.map_eq_some_iff] at ha
      obtain ⟨ed1, h1, rfl⟩ := ha
      have hn : ed1.state fn = none := by
        obtain ⟨xs, ys, _, h2, _⟩ := close_shape h1
        rw [h2]
        exact drops_in List.mem_cons_self
      unfold openFile at hf ⊢
      split
      · exact ⟨_, putE_same _ _ _, rfl, rfl⟩
      · rename_i hj
        exfalso
        rw [if_neg hj] at hf
        unfold HasTables at hf
        split at hf
        · rw [hn] at hf; rcases hf with hf | hf <;> cases hf
        · rename_i o _
          split at hf
          · by_cases e : fn = o
            · simp only [← e, putE_same] at hf; rcases hf with hf | hf <;> cases hf
            · simp only [putE_other _ _ e, putE_same] at hf; rcases hf with hf | hf <;> cases hf
          · rw [hn] at hf; rcases hf with hf | hf <;> cases hf

/-- **C98**. A view can always be closed. Then nothing is known about its file. -/
theorem C98_close {h : List Disk} {ed : Editor} (hs : EditSession h ed) {fn : Str} (hne : fn ≠ []) :
    ∃ ed', onClose ed fn = some ed' ∧ ed'.state fn = none ∧ (ed.state fn ≠ none → ed'.data fn = none ∧ ed'.jump fn = none ∧ ed'.mtime fn = none) := by
  have ht := session_tidy hs
  cases hst : ed.state fn with
  | none => exact ⟨ed, by unfold onClose; rw [hst], hst, fun h => absurd rfl h⟩
  | some st =>
    have hc : ∃ ed', closeFile ed fn = some ed' := by
      unfold closeFile
      rw [hst]
      cases st with
      | fruit =>
        obtain ⟨d, t, h1, _⟩ := ht.tables fn (.inl hst)
        simp only [h1]
        exact ⟨_, rfl⟩
      | noBrowse =>
        obtain ⟨n, hn⟩ := ht.names fn hne hst
        simp only [hn]
        exact ⟨_, rfl⟩
      | origin => exact ⟨_, rfl⟩
      | checkRaw => exact ⟨_, rfl⟩
    obtain ⟨ed', hc⟩ := hc
    obtain ⟨xs, ys, _, h1, h2, h3, h4, _⟩ := close_shape hc
    refine ⟨ed', by unfold onClose; rw [hst]; exact hc, ?_, fun _ => ⟨?_, ?_, ?_⟩⟩
    · rw [h1]; exact drops_in List.mem_cons_self
    · rw [h2]; exact drops_in List.mem_cons_self
    · rw [h3]; exact drops_in List.mem_cons_self
    · rw [h4]; exact drops_in List.mem_cons_self

/-- **C98**. A generated file that was written again since it was read is read again when its view is activated: the new tables, no jumps
    noted for it, none noted for the sources that were found for its old tables. -/
theorem C98_again {h : List Disk} {ed : Editor} {dk : Disk} {fn : Str} {d : FData} (hs : EditSession h ed)
    (hst : ed.state fn = some .fruit) (hd : ed.data fn = some d) (hj : dk.isFile (fn ++ lit ".json") = true)
    (hm : ∀ t, ed.mtime fn = some t → t ≠ dk.mtime fn) :
    ∃ ed', onActivated dk ed fn = some ed' ∧
      ed'.state fn = some (if dk.isFile (fn ++ lit ".txt") then .checkRaw else .fruit) ∧ ed'.mtime fn = some (dk.mtime fn) ∧ ed'.jump fn = none ∧
      (∃ d', ed'.data fn = some d' ∧ d'.browse = (dk.json fn).browse ∧ d'.offset = (dk.json fn).offset) ∧
      ∀ f ∈ d.files, ∀ p, d.paths.lookup f = some p → p ≠ fn → ed'.state p = none ∧ ed'.data p = none ∧ ed'.jump p = none := by
  obtain ⟨d0, t, h1, h2, _⟩ := (session_tidy hs).tables fn (.inl hst)
  rw [hd] at h1
  cases h1
  have hc : ∃ ed1, closeFile ed fn = some ed1 ∧ ∀ f ∈ d.files, ∀ p, d.paths.lookup f = some p → ed1.data p = none := by
    unfold closeFile
    simp only [hst, hd]
    refine ⟨_, rfl, ?_⟩
    intro f hf p hp
    refine drops_in (List.mem_cons_of_mem _ ?_)
    exact List.mem_map.2 ⟨f, hf, by rw [hp]; rfl⟩
  obtain ⟨ed1, hc, hdat⟩ := hc
  obtain ⟨xs, ys, _, h3, _, h5, _, h7⟩ := close_shape hc
  have hxs := h7 d hst hd
  refine ⟨openFile dk ed1 fn, ?_, ?_⟩
  · unfold onActivated
    simp only [h2, hm t h2, if_false, hc]
    rfl
  · unfold openFile
    rw [if_pos hj]
    refine ⟨putE_same _ _ _, putE_same _ _ _, ?_, ⟨_, putE_same _ _ _, rfl, rfl⟩, ?_⟩
    · change ed1.jump fn = none
      rw [h5]; exact drops_in List.mem_cons_self
    · intro f hf p hp hne
      have hin : p ∈ fn :: xs := by
        rw [hxs]
        exact List.mem_cons_of_mem _ (List.mem_map.2 ⟨f, hf, by rw [hp]; rfl⟩)
      simp only [putE_other _ _ hne]
      refine ⟨?_, hdat f hf p hp, ?_⟩
      · rw [h3]; exact drops_in hin
      · rw [h5]; exact drops_in hin

/-- **C98**. Activating a view does not fail as long as the plug-in knows what the file is. -/
theorem C98_activate {h : List Disk} {ed : Editor} (dk : Disk) (hs : EditSession h ed) {fn : Str} (hne : fn ≠ []) (hst : ed.state fn ≠ none) :
    ∃ ed', onActivated dk ed fn = some ed' := by
  obtain ⟨ed', hc, _⟩ := C98_close hs hne
  unfold onClose at hc
  unfold onActivated
  split
  · exact ⟨_, rfl⟩
  · split
    · exact ⟨_, rfl⟩
    · split at hc
      · rename_i h0; exact absurd h0 hst
      · rw [hc]; exact ⟨_, rfl⟩

/-- **C98**. If the text before the last step of the translator is kept beside a generated file, the command leads there instead, to the same character,
    and back. -/
theorem C98_raw (dk : Disk) (ed : Editor) (ho : Ascending (dk.json ed.file).offset) (hj : dk.isFile (ed.file ++ lit ".json") = true)
    (hraw : dk.isFile (ed.file ++ lit ".txt") = true) (hnew : ed.state ed.file = none) (hjump : ed.jump ed.file = none) (k : Nat) :
    ∃ ed', press dk k (onLoad dk ed ed.file) = some ed' ∧ place ed' = if k % 2 = 0 then place ed else
      (ed.file ++ lit ".txt", posMap (dk.json ed.file).offset (ed.caret ed.file)) := by
  have hne : ed.file ++ lit ".txt" ≠ ed.file := by
    intro h
    have := congrArg List.length h
    rw [List.length_append] at this
    have h4 : (lit ".txt").length = 4 := by decide
    omega
  generalize hto : posMap (dk.json ed.file).offset (ed.caret ed.file) = to
  generalize hr : ed.file ++ lit ".txt" = raw at *
  -- at the character
  let Here (a : Editor) : Prop := a.file = ed.file ∧ a.caret ed.file = ed.caret ed.file ∧ a.state ed.file = some .checkRaw ∧ a.jump ed.file = none ∧
    ∃ d, a.data ed.file = some d ∧ d.offset = (dk.json ed.file).offset
  let There (a : Editor) : Prop := a.file = raw ∧ a.caret raw = to ∧ a.state raw = some .origin ∧
    a.jump raw = some (.table [(to, ed.file, ed.caret ed.file)]) ∧ Here { a with file := ed.file }
  have h0 : Here (onLoad dk ed ed.file) := by
    unfold onLoad
    rw [hnew]
    unfold openFile
    rw [if_pos hj]
    refine ⟨rfl, rfl, ?_, hjump, _, putE_same _ _ _, rfl⟩
    simp only [putE_same, hr, hraw, if_true]
  have h1 : ∀ a, Here a → ∃ b, gotoOrigin dk a = some b ∧ There b := by
    rintro a ⟨ha1, ha2, ha3, ha4, d, ha5, ha6⟩
    have hg : gotoOrigin dk a = some (Editor.goto { a with
        state := put a.state raw (some .origin), jump := put a.jump raw (some (.table [(to, ed.file, ed.caret ed.file)])) } raw to) := by
      unfold gotoOrigin
      simp only [ha1, ha2, ha3, ha4, ha5, hr]
      rw [deltaAt_eq _ (by rw [ha6]; exact ho), ha6, hto]
    refine ⟨_, hg, rfl, putE_same _ _ _, putE_same _ _ _, putE_same _ _ _, rfl, ?_, ?_, ?_, d, ha5, ha6⟩
    · change put a.caret raw to ed.file = _
      rw [putE_other _ _ (Ne.symm hne)]; exact ha2
    · change put a.state raw _ ed.file = _
      rw [putE_other _ _ (Ne.symm hne)]; exact ha3
    · change put a.jump raw _ ed.file = _
      rw [putE_other _ _ (Ne.symm hne)]; exact ha4
  have h2 : ∀ a, There a → ∃ b, gotoOrigin dk a = some b ∧ Here b := by
    rintro a ⟨ha1, ha2, ha3, ha4, ha5, ha6, ha7, ha8, ha9⟩
    have hg : gotoOrigin dk a = some (a.goto ed.file (ed.caret ed.file)) := by
      unfold gotoOrigin
      simp only [ha1, ha2, ha3, ha4, List.lookup, beq_self_eq_true]
    exact ⟨_, hg, rfl, putE_same _ _ _, ha7, ha8, ha9⟩
  have both : ∀ k a, (Here a → ∃ b, press dk k a = some b ∧ (if k % 2 = 0 then Here b else There b)) ∧
      (There a → ∃ b, press dk k a = some b ∧ (if k % 2 = 0 then There b else Here b)) := by
    intro k
    induction k with
    | zero => exact fun a => ⟨fun h => ⟨a, rfl, h⟩, fun h => ⟨a, rfl, h⟩⟩
    | succ k ih =>
      intro a
      constructor
      · intro h
        obtain ⟨b, hb, h⟩ := h1 a h
        obtain ⟨c, hc, h⟩ := (ih b).2 h
        refine ⟨c, by rw [press, hb]; exact hc, ?_⟩
        split at h
        · rw [if_neg (by omega)]; exact h
        · rw [if_pos (by omega)]; exact h
      · intro h
        obtain ⟨b, hb, h⟩ := h2 a h
        obtain ⟨c, hc, h⟩ := (ih b).1 h
        refine ⟨c, by rw [press, hb]; exact hc, ?_⟩
        split at h
        · rw [if_neg (by omega)]; exact h
        · rw [if_pos (by omega)]; exact h
  obtain ⟨b, hb, h⟩ := (both k _).1 h0
  refine ⟨b, hb, ?_⟩
  split
  · rename_i hk
    rw [if_pos hk] at h
    obtain ⟨e1, e2, _⟩ := h
    rw [place, e1, e2]; rfl
  · rename_i hk
    rw [if_neg hk] at h
    obtain ⟨e1, e2, _⟩ := h
    rw [place, e1, e2]

/-! ## Loading the files the command leads to -/

theorem load_known {dk : Disk} {ed : Editor} {fn : Str} {st : FState} (h : ed.state fn = some st) : onLoad dk ed fn = ed := by
  unfold onLoad
  rw [h]

theorem ring_step {dk : Disk} {ring : List (Str × Int)} {ed : Editor} {j : Nat} (hr : Ring ed ring) (hj : ring[j]? = some (place ed)) :
    ∃ f p, ring[(j + 1) % ring.length]? = some (f, p) ∧ gotoOrigin dk ed = some (ed.goto f p) := by
  obtain ⟨⟨st, h1, h2⟩, t, h3, h4⟩ := hr j _ hj
  have hpos : 0 < ring.length := by
    cases ring with
    | nil => simp at hj
    | cons _ _ => simp
  obtain ⟨⟨f, p⟩, hfp⟩ : ∃ x, ring[(j + 1) % ring.length]? = some x := ⟨_, List.getElem?_eq_getElem (Nat.mod_lt _ hpos)⟩
  rw [hfp] at h4
  refine ⟨f, p, hfp, ?_⟩
  unfold gotoOrigin
  simp only [place] at h1 h3 h4
  cases st with
  | noBrowse => exact absurd rfl h2
  | fruit => simp only [h1, h3, h4]
  | origin => simp only [h1, h3, h4]
  | checkRaw => simp only [h1, h3, h4]

theorem ring_visit {dk : Disk} {ring : List (Str × Int)} : ∀ (bs : List Bool) (j : Nat) (ed : Editor), Ring ed ring →
    ring[j]? = some (place ed) → visit dk bs ed = press dk bs.length ed
  | [], _, _, _, _ => rfl
  | b :: bs, j, ed, hr, hj => by
    obtain ⟨f, p, hfp, hstep⟩ := ring_step (dk := dk) hr hj
    have hr' : Ring (ed.goto f p) ring := hr
    obtain ⟨⟨st, hst, _⟩, _⟩ := hr _ _ hfp
    have hload : (if b then onLoad dk (ed.goto f p) (ed.goto f p).file else ed.goto f p) = ed.goto f p := by
      cases b with
      | false => rfl
      | true => exact load_known hst
    have ih := ring_visit (dk := dk) bs _ (ed.goto f p) hr' (by rw [hfp]; simp [place, Editor.goto, putE_same])
    change (gotoOrigin dk ed).bind _ = (gotoOrigin dk ed).bind _
    rw [hstep]
    change visit dk bs (if b then onLoad dk (ed.goto f p) (ed.goto f p).file else ed.goto f p) = _
    rw [hload]
    exact ih

/-- **C98**. The rounds of C66 are the same whichever of the files the command leads to are loaded on the way. -/
theorem C98_loading (dk : Disk) (ed : Editor) (d : FData) (txt : Str) (ho : Ascending d.offset) (hb : Ascending d.browse)
    (hstate : ed.state ed.file = some .fruit) (hdata : ed.data ed.file = some d)
    (hname : ∀ n, ed.jump ed.file ≠ some (.name n))
    (hnew : ∀ t, ed.jump ed.file = some (.table t) → t.lookup (ed.caret ed.file) = none)
    (hnd : (stops (find dk d) ⟨txt, d.browse, d.offset⟩ (ed.caret ed.file)).Nodup)
    (hs : ∀ s ∈ stops (find dk d) ⟨txt, d.browse, d.offset⟩ (ed.caret ed.file), s.1 ≠ ed.file ∧ ∀ n, ed.jump s.1 ≠ some (.name n))
    (bs : List Bool) :
    ∃ ed', visit dk bs ed = some ed' ∧
      (place ed :: stops (find dk d) ⟨txt, d.browse, d.offset⟩ (ed.caret ed.file))[
        bs.length % ((stops (find dk d) ⟨txt, d.browse, d.offset⟩ (ed.caret ed.file)).length + 1)]? = some (place ed') := by
  have hround := C66_round dk ed d txt ho hb hstate hdata hname hnew hnd hs bs.length
  suffices h : visit dk bs ed = press dk bs.length ed by rw [h]; exact hround
  have hfresh : gotoOrigin dk ed = freshJump dk ed d (ed.caret ed.file) := by
    unfold gotoOrigin
    simp only [hstate, hdata]
    cases hj : ed.jump ed.file with
    | none => rfl
    | some j =>
      cases j with
      | name n => exact absurd hj (hname n)
      | table t => simp only [hnew t hj]
  by_cases hany : references ⟨txt, d.browse, d.offset⟩ (ed.caret ed.file) = []
  · have hlast : (d.browse.filter (fun e => decide (e.1 ≤ posMap d.offset (ed.caret ed.file)))).getLast? = none := by
      cases hl : (d.browse.filter (fun e => decide (e.1 ≤ posMap d.offset (ed.caret ed.file)))).getLast? with
      | none => rfl
      | some e =>
        obtain ⟨pre, outer, rest, _, _, hgroup, _⟩ := group_split hb hl
        simp [references, hl, hgroup] at hany
    have hstay : gotoOrigin dk ed = some ed := by
      rw [hfresh]
      unfold freshJump
      have : cnt d.browse (posMap d.offset (ed.caret ed.file)) = 0 := by
        unfold cnt
        rw [List.getLast?_eq_none_iff] at hlast
        rw [hlast]; rfl
      simp only [deltaAt_eq _ ho, bisect_eq_cnt _ _ hb, this]
    clear hround
    induction bs with
    | nil => rfl
    | cons b bs ih =>
      change (gotoOrigin dk ed).bind _ = (gotoOrigin dk ed).bind _
      rw [hstay]
      change visit dk bs (if b then onLoad dk ed ed.file else ed) = _
      have : (if b then onLoad dk ed ed.file else ed) = ed := by
        cases b with
        | false => rfl
        | true => exact load_known hstate
      rw [this]
      exact ih
  · obtain ⟨ed1, h1, h2, h3⟩ := first_jump dk ed d txt hstate ho hb hnd hs hany
    rw [← hfresh] at h1
    cases bs with
    | nil => rfl
    | cons b bs =>
      generalize stops (find dk d) ⟨txt, d.browse, d.offset⟩ (ed.caret ed.file) = st at *
      have h4 : (place ed :: st)[1 % (place ed :: st).length]? = some (place ed1) := by
        rw [h3]
        cases st with
        | nil => simp [nextStop]
        | cons v vs =>
          have : 1 % (place ed :: v :: vs).length = 1 := Nat.mod_eq_of_lt (by simp)
          rw [this]
          simp [nextStop]
      obtain ⟨⟨s1, hs1, _⟩, _⟩ := h2 _ _ h4
      have hload : (if b then onLoad dk ed1 ed1.file else ed1) = ed1 := by
        cases b with
        | false => rfl
        | true => exact load_known hs1
      change (gotoOrigin dk ed).bind _ = (gotoOrigin dk ed).bind _
      rw [h1]
      change visit dk bs (if b then onLoad dk ed1 ed1.file else ed1) = _
      rw [hload]
      exact ring_visit bs _ ed1 h2 h4

/-! ## Examples -/

/-- `f` is made of `g`, which is made of `h`. Both have tables. -/
def chainDisk (t : Nat) : Disk :=
  { isFile := fun f => f = ['g'] || f = ['g'] ++ lit ".json" || f = ['f'] ++ lit ".json", abspath := id, dirname := fun _ => []
    join := fun d f => d ++ f, mtime := fun _ => t
    json := fun f => { browse := [(0, ['g'], 0)], offset := [], files := if f = ['f'] then [['g']] else [['h']] }, folders := [] }

def chainStart : Editor := { file := ['f'], caret := fun _ => 0 }
def chain1 : Editor := openFile (chainDisk 0) chainStart ['g']
def chain2 : Editor := openFile (chainDisk 0) chain1 ['f']

theorem chain_session : EditSession [chainDisk 0, chainDisk 0] chain2 := by
  refine .step (chainDisk 0) (.load ['f']) (.step (chainDisk 0) (.load ['g']) (.start ['f'] (fun _ => 0)) (ed' := chain1) ?_) ?_
  · rfl
  · rfl

/-- The hypotheses of `C98_current`, `C98_close`, `C98_again` and `C98_activate` can be met. -/
example : ∃ ed', onActivated (chainDisk 1) chain2 ['f'] = some ed' ∧ HasTables ed' ['f'] := by
  obtain ⟨ed', h1, h2, _⟩ := C98_again (dk := chainDisk 1) (fn := ['f']) chain_session (d := { browse := [(0, ['g'], 0)], offset := [], files := [['g']], paths := [(['g'], ['g'])] })
    (by decide) (by decide) (by decide) (by intro t ht; cases ht; decide)
  obtain ⟨d, h3, h4, h5⟩ := C98_current (dk := chainDisk 1) chain_session (fun dk' h h' => by
      simp only [List.mem_cons, List.not_mem_nil, or_false, or_self] at h
      subst h
      exact absurd h' (by decide)) h1 (.inl (h2.trans (by decide)))
  exact ⟨ed', h1, .inl (h2.trans (by decide))⟩

/-- Activation may fail after all: `g` is open, and `f`, which was made of it, is closed. Now `g` is forgotten but for the time of its last change; when
    that has changed, an exception is raised. -/
theorem C98_forgotten_wrong : ∃ ed, EditSession [chainDisk 0, chainDisk 0, chainDisk 0] ed ∧ ed.state ['g'] = none ∧
    onActivated (chainDisk 1) ed ['g'] = none := by
  obtain ⟨ed', h1, _⟩ := C98_close chain_session (fn := ['f']) (by decide)
  have h2 : onClose chain2 ['f'] = closeFile chain2 ['f'] := rfl
  obtain ⟨xs, ys, _, h3, _, _, h5, h6⟩ := close_shape (h2.symm.trans h1)
  have hx := h6 _ (by decide) (show chain2.data ['f'] = some { browse := [(0, ['g'], 0)], offset := [], files := [['g']], paths := [(['g'], ['g'])] } by decide)
  have hg : ed'.state ['g'] = none := by
    rw [h3]
    refine drops_in ?_
    rw [hx]
    decide
  have hm : ed'.mtime ['g'] = some 0 := by
    rw [h5, drops_other (by decide)]
    decide
  refine ⟨ed', .step (chainDisk 0) (.close ['f']) chain_session h1, hg, ?_⟩
  unfold onActivated
  rw [hm]
  change Option.map _ (closeFile ed' ['g']) = none
  unfold closeFile
  rw [hg]
  rfl

/-- `C98_loading` and `C98_raw` apply. -/
example (bs : List Bool) : ∃ ed', visit exDisk bs (exEditor 6) = some ed' ∧
    [(lit "a.out", 6), (lit "/b", 2), (lit "/c", 4)][bs.length % 3]? = some (place ed') :=
  C98_loading exDisk (exEditor 6) exData [] (by unfold Ascending; decide) (by unfold Ascending; decide) rfl rfl (by intro n h; cases h) (by intro t h; cases h)
      (by decide) (fun s hs => ⟨by revert s; decide, by intro n h; cases h⟩) bs

example (k : Nat) : ∃ ed', press { chainDisk 0 with isFile := fun _ => true } k (onLoad { chainDisk 0 with isFile := fun _ => true } chainStart ['f']) = some ed' ∧
    place ed' = if k % 2 = 0 then (['f'], 0) else (lit "f.txt", 0) :=
  C98_raw { chainDisk 0 with isFile := fun _ => true } chainStart (by unfold Ascending; decide) rfl rfl rfl rfl k

end Yupp
