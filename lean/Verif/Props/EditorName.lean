import Verif.Spec.Editor
import Verif.Props.OutputName
/-!
# C67: the plug-in finds the source of a generated file
-/

namespace Yupp
open Spec

theorem originName_dir {d b : Str} (hd : IsDir d) (hb : '/' ∉ b) : originName (d ++ b) = (originName b).map (d ++ ·) := by
  have h0 := splitext_dir (d := []) (.inl rfl) hb
  rw [List.nil_append] at h0
  have hn := (splitextBase_noslash hb).1
  have h1 := splitext_dir (d := []) (.inl rfl) hn
  rw [List.nil_append] at h1
  unfold originName
  simp only [splitext_dir hd hb, h0, List.nil_append, splitext_dir hd hn, h1]
  split
  · rfl
  · split
    · simp
    · split <;> simp

theorem lit_yugen : lit ".yugen" = '.' :: lit "yugen" := by decide
theorem yugen_nodot : '.' ∉ lit "yugen" := by decide

/-- The origin of `s.x`. -/
theorem originName_ext {s x : Str} (hs : HasStem s) (hx : '.' ∉ x) (hn : '/' ∉ s ++ '.' :: x) :
    originName (s ++ '.' :: x) = some (if x = lit "yugen" then s ++ lit ".yu" else
      if (splitextBase s).2 = lit ".yugen" then (splitextBase s).1 ++ '.' :: x else s ++ lit ".yu-" ++ x) := by
  have hns : '/' ∉ s := by intro h; exact hn (by simp [h])
  have h0 := splitext_dir (d := []) (.inl rfl) hn
  have h1 := splitext_dir (d := []) (.inl rfl) hns
  rw [List.nil_append] at h0 h1
  unfold originName
  rw [h0, splitextBase_ext' hs hx]
  simp only [List.nil_append, h1, List.isEmpty_cons, Bool.false_eq_true, if_false, lit_yugen, List.cons.injEq, true_and]
  split
  · rfl
  · split <;> rfl

theorem hasStem_append {s t : Str} (h : HasStem s) : HasStem (s ++ t) := by
  obtain ⟨c, hc, hne⟩ := h
  exact ⟨c, by simp [hc], hne⟩

theorem recovered_iff {k : NameKind} {a o : Str} (h : Makes k a o) (ha : '/' ∉ a) (ho : '/' ∉ o) :
    originName o = some a ↔ Recovered a := by
  have dots : ∀ (s t x y : Str), '.' ∉ x → '.' ∉ y → s ++ '.' :: x = t ++ '.' :: y → s = t ∧ x = y := by
    intro s t x y hx hy he
    exact dot_split_unique hx hy he
  have litYu : lit ".yu" = '.' :: lit "yu" := by decide
  have litYuE : ∀ x : Str, lit ".yu-" ++ x = '.' :: (lit "yu" ++ '-' :: x) := by intro x; simp [lit]
  have yuW : YuWord (lit "yu") := by unfold YuWord; decide
  have nodotE : ∀ x : Str, '.' ∉ x → '.' ∉ lit "yu" ++ '-' :: x := by
    intro x hx; simp [hx]; decide
  -- what a recovered name looks like
  have inv : Recovered a → ∃ s x, a = s ++ '.' :: x ∧ HasStem s ∧ '.' ∉ x ∧
      ((¬ OwnExt x ∧ x ≠ lit "yugen") ∨
       (∃ y, x = lit "yu" ++ '-' :: y ∧ y ≠ [] ∧ '.' ∉ y ∧ y ≠ lit "yugen" ∧ ∀ t, HasStem t → s ≠ t ++ lit ".yugen") ∨
       (x = lit "yu" ∧ NoExt s)) := by
    intro hr
    cases hr with
    | @plain s x h1 h2 h3 h4 => exact ⟨s, x, rfl, h1, h2, .inl ⟨h3, h4⟩⟩
    | @yuExt s x h1 h2 h3 h4 h5 =>
      exact ⟨s, lit "yu" ++ '-' :: x, by rw [List.append_assoc, litYuE], h1, nodotE x h3, .inr (.inl ⟨x, rfl, h2, h3, h4, h5⟩)⟩
    | @yu s h1 h2 => exact ⟨s, lit "yu", by rw [litYu], h1, by decide, .inr (.inr ⟨rfl, h2⟩)⟩
  cases h with
  | bare hn =>
    constructor
    · intro he
      exfalso
      by_cases hs : HasStem a
      · rw [lit_yugen, originName_ext hs yugen_nodot (by rw [← lit_yugen]; exact ho), if_pos rfl] at he
        have := congrArg List.length (Option.some.inj he)
        rw [List.length_append] at this
        have h3 : (lit ".yu").length = 3 := by decide
        omega
      · have hall : a.all (· == '.') = true := all_dots.2 hs
        have h0 := splitext_dir (d := []) (.inl rfl) ho
        rw [List.nil_append] at h0
        unfold originName at he
        rw [h0, lit_yugen, splitextBase_dot yugen_nodot, if_pos hall] at he
        simp at he
    · intro hr
      obtain ⟨s, x, e, h1, h2, _⟩ := inv hr
      exact absurd (hn s x e h1) h2
  | @plain s x hs hx hown =>
    have hst : HasStem (s ++ lit ".yugen") := hasStem_append hs
    rw [originName_ext hst hx ho]
    have hsp : splitextBase (s ++ lit ".yugen") = (s, lit ".yugen") := by
      rw [lit_yugen]; exact splitextBase_ext' hs yugen_nodot
    constructor
    · intro he
      refine .plain hs hx hown ?_
      intro hy
      rw [if_pos hy] at he
      have := Option.some.inj he
      rw [hy, litYu] at this
      have := (dots _ _ _ _ (by decide) yugen_nodot this).2
      revert this; decide
    · intro hr
      obtain ⟨s', x', e, h1, h2, h3⟩ := inv hr
      obtain ⟨rfl, rfl⟩ := dots _ _ _ _ hx h2 e
      rcases h3 with ⟨_, h4⟩ | ⟨y, rfl, h4, _⟩ | ⟨rfl, _⟩
      · rw [if_neg h4, hsp, if_pos rfl]
      · exact absurd ⟨lit "yu", yuW, .inr (.inr ⟨y, h4, rfl⟩)⟩ hown
      · exact absurd ⟨lit "yu", yuW, .inl rfl⟩ hown
  | @yuExt s w x hs hw hx hd =>
    rw [originName_ext hs hd ho]
    have hwx : '.' ∉ w ++ '-' :: x := by simp [yuWord_nodot hw, hd]
    constructor
    · intro he
      split at he
      · next hy =>
        have := Option.some.inj he
        rw [litYu] at this
        have := (dots _ _ _ _ (by decide) hwx this).2
        have := congrArg List.length this
        obtain ⟨y, u, rfl, _⟩ := yuWord_iff.1 hw
        simp at this
        have h2 : (lit "yu").length = 2 := by decide
        omega
      · next hy =>
        split at he
        · next hz =>
          have hlen := congrArg List.length (Option.some.inj he)
          have h6 := congrArg List.length (splitextBase_append s)
          rw [hz] at h6
          simp at hlen h6
          have : (lit ".yugen").length = 6 := by decide
          omega
        · next hz =>
          have := Option.some.inj he
          rw [List.append_assoc, litYuE] at this
          have h7 := (dots _ _ _ _ (nodotE x hd) hwx this).2
          have hwl : (lit "yu").length = w.length := by
            obtain ⟨y, u, rfl, _⟩ := yuWord_iff.1 hw
            rfl
          have h8 := (List.append_inj h7 hwl).1
          rw [← h8, ← litYuE, ← List.append_assoc]
          refine .yuExt hs hx hd hy ?_
          intro t ht hst
          apply hz
          rw [hst, lit_yugen, splitextBase_ext' ht yugen_nodot]
    · intro hr
      obtain ⟨s', x', e, h1, h2, h3⟩ := inv hr
      obtain ⟨rfl, rfl⟩ := dots _ _ _ _ hwx h2 e
      rcases h3 with ⟨h4, _⟩ | ⟨y, h4, h5, h6, h7, h8⟩ | ⟨h4, _⟩
      · exact absurd ⟨w, hw, .inr (.inr ⟨x, hx, rfl⟩)⟩ h4
      · have hwl : w.length = (lit "yu").length := by
          obtain ⟨y, u, rfl, _⟩ := yuWord_iff.1 hw
          rfl
        obtain ⟨rfl, h9⟩ := List.append_inj h4 hwl
        have : x = y := (List.cons.inj h9).2
        subst this
        rw [if_neg h7, if_neg, List.append_assoc, litYuE]
        intro hz
        have hsp := splitextBase_append s
        rw [hz] at hsp
        refine h8 (splitextBase s).1 ?_ hsp.symm
        by_cases hst : HasStem (splitextBase s).1
        · exact hst
        · exfalso
          have hall := all_dots.2 hst
          have := splitextBase_dot (s := (splitextBase s).1) yugen_nodot
          rw [← lit_yugen, hsp, if_pos hall] at this
          rw [this] at hz
          exact absurd hz (by show ([] : Str) ≠ _; decide)
      · have := congrArg List.length h4
        obtain ⟨y, u, rfl, _⟩ := yuWord_iff.1 hw
        simp at this
        have h2 : (lit "yu").length = 2 := by decide
        omega
  | @yu s w e hs hn hw he =>
    have hwe : '.' ∉ w ++ e := by simp [yuWord_nodot hw, lineEnd_nodot he]
    rw [lit_yugen, originName_ext hs yugen_nodot (by rw [← lit_yugen]; exact ho), if_pos rfl]
    constructor
    · intro h
      have := Option.some.inj h
      rw [litYu] at this
      have h2 := (dots _ _ _ _ (by decide) hwe this).2
      rw [← h2, ← litYu]
      exact .yu hs hn
    · intro hr
      obtain ⟨s', x', e', h1, h2, h3⟩ := inv hr
      obtain ⟨rfl, rfl⟩ := dots _ _ _ _ hwe h2 e'
      rcases h3 with ⟨h4, _⟩ | ⟨y, h4, _⟩ | ⟨h4, _⟩
      · refine absurd ⟨w, hw, ?_⟩ h4
        rcases he with rfl | rfl
        · simp
        · exact .inr (.inl rfl)
      · exfalso
        have hwl : w.length = (lit "yu").length := by
          obtain ⟨y, u, rfl, _⟩ := yuWord_iff.1 hw
          rfl
        have := (List.append_inj h4 hwl).2
        rcases he with rfl | rfl <;> simp at this
      · rw [h4, litYu]
  | @inner s x w e hs hx hw he =>
    rw [originName_ext hs hx ho]
    have hwe : '.' ∉ w ++ e := by simp [yuWord_nodot hw, lineEnd_nodot he]
    have key : ¬ Recovered (s ++ '.' :: x ++ '.' :: (w ++ e)) := by
      intro hr
      obtain ⟨s', x', e', h1, h2, h3⟩ := inv hr
      obtain ⟨rfl, rfl⟩ := dots _ _ _ _ hwe h2 e'
      rcases h3 with ⟨h4, _⟩ | ⟨y, h4, _⟩ | ⟨_, h4⟩
      · refine absurd ⟨w, hw, ?_⟩ h4
        rcases he with rfl | rfl
        · simp
        · exact .inr (.inl rfl)
      · have hwl : w.length = (lit "yu").length := by
          obtain ⟨y, u, rfl, _⟩ := yuWord_iff.1 hw
          rfl
        have := (List.append_inj h4 hwl).2
        rcases he with rfl | rfl <;> simp at this
      · exact hx (h4 s x rfl hs)
    constructor
    · intro h
      exfalso
      split at h
      · next hy =>
        have h0 := congrArg List.length (Option.some.inj h)
        have h1 : (lit ".yu").length = 3 := by decide
        have h2 := congrArg List.length hy
        have h3 : (lit "yugen").length = 5 := by decide
        simp at h0
        omega
      · split at h
        · next hz =>
          have hlen := congrArg List.length (Option.some.inj h)
          have h6 := congrArg List.length (splitextBase_append s)
          rw [hz] at h6
          simp at hlen h6
          have : (lit ".yugen").length = 6 := by decide
          omega
        · have h7 := Option.some.inj h
          rw [List.append_assoc, litYuE] at h7
          have := (dots _ _ _ _ (nodotE x hx) hwe h7).1
          have := congrArg List.length this
          simp at this
    · intro hr; exact absurd hr key

/-- **C67**. From the name of a file generated beside its source, the plug-in gets the name of the source exactly for the sources
    named in the specification. -/
theorem C67_source_name (fn : Str) : originName (outputFn {} fn) = some fn ↔ Recovered (basename fn) := by
  obtain ⟨k, o, hk⟩ := makes_total (basename fn)
  have hb := basename_noslash fn
  have ho : '/' ∉ o := by rw [← outBase_of_makes hk]; exact outBase_noslash hb
  rw [(C36_table fn).2.1 k o hk, originName_dir (isDir_dirPart fn) ho, ← recovered_iff hk hb ho]
  constructor
  · intro h
    cases h1 : originName o with
    | none => rw [h1] at h; simp at h
    | some x =>
      rw [h1] at h
      have h2 : dirPart fn ++ x = fn := by simpa using h
      have h3 := h2.trans (dirPart_basename fn).symm
      rw [List.append_cancel_left h3]
  · intro h
    rw [h]
    simp [dirPart_basename]

/-- **C67**. The generated file is opened in the editor, there is no browse file but the source is there. Then the command
    leads to the source and back, any number of times. -/
theorem C67_to_the_source (dk : Disk) (ed : Editor) (fn : Str) (hr : Recovered (basename fn)) (hfn : dk.isFile fn = true)
    (hj : dk.isFile (outputFn {} fn ++ lit ".json") = false) (hnew : ed.state (outputFn {} fn) = none)
    (hfile : ed.file = outputFn {} fn) (k : Nat) :
    ∃ ed', press dk k (onLoad dk ed ed.file) = some ed' ∧ ed'.file = if k % 2 = 0 then outputFn {} fn else fn := by
  have hne : outputFn {} fn ≠ fn := by
    intro h
    have := congrArg basename h
    rw [basename_outputFn] at this
    exact outBase_ne _ this
  have hopen : onLoad dk ed ed.file = { ed with
      state := put (put ed.state (outputFn {} fn) (some .noBrowse)) fn (some .noBrowse)
      jump := put (put ed.jump (outputFn {} fn) (some (.name fn))) fn (some (.name (outputFn {} fn))) } := by
    unfold onLoad openFile
    rw [hfile, hnew]
    simp only [hj, Bool.false_eq_true, if_false, (C67_source_name fn).2 hr, hfn, if_true]
  rw [hopen]
  have step : ∀ k (e : Editor), e.state = put (put ed.state (outputFn {} fn) (some .noBrowse)) fn (some .noBrowse) →
      e.jump = put (put ed.jump (outputFn {} fn) (some (.name fn))) fn (some (.name (outputFn {} fn))) →
      (e.file = outputFn {} fn → ∃ e', press dk k e = some e' ∧ e'.file = if k % 2 = 0 then outputFn {} fn else fn) ∧
      (e.file = fn → ∃ e', press dk k e = some e' ∧ e'.file = if k % 2 = 0 then fn else outputFn {} fn) := by
    intro k
    induction k with
    | zero => intro e _ _; exact ⟨fun h => ⟨e, rfl, by simpa using h⟩, fun h => ⟨e, rfl, by simpa using h⟩⟩
    | succ k ih =>
      intro e hs hjm
      constructor
      · intro hf
        have hg : gotoOrigin dk e = some { e with file := fn } := by
          unfold gotoOrigin
          simp [hf, hs, hjm, put, hne]
        obtain ⟨e', h1, h2⟩ := (ih { e with file := fn } hs hjm).2 rfl
        refine ⟨e', by rw [press, hg]; exact h1, ?_⟩
        rw [h2]
        by_cases hk : k % 2 = 0
        · have : (k + 1) % 2 ≠ 0 := by omega
          simp [hk, this]
        · have : (k + 1) % 2 = 0 := by omega
          simp [hk, this]
      · intro hf
        have hg : gotoOrigin dk e = some { e with file := outputFn {} fn } := by
          unfold gotoOrigin
          simp [hf, hs, hjm, put]
        obtain ⟨e', h1, h2⟩ := (ih { e with file := outputFn {} fn } hs hjm).1 rfl
        refine ⟨e', by rw [press, hg]; exact h1, ?_⟩
        rw [h2]
        by_cases hk : k % 2 = 0
        · have : (k + 1) % 2 ≠ 0 := by omega
          simp [hk, this]
        · have : (k + 1) % 2 = 0 := by omega
          simp [hk, this]
  exact (step k _ rfl rfl).1 hfile

example : Recovered (lit "a.yu-c") := .yuExt (s := lit "a") (x := lit "c") ⟨'a', by decide, by decide⟩ (by decide) (by decide) (by decide) (by
  intro t _ h
  have := congrArg List.length h
  simp at this
  have h2 : (lit "a").length = 1 := by decide
  have h6 : (lit ".yugen").length = 6 := by decide
  omega)

/-- **C67** fails for `a.c.yu`: its output is `a.c`, for which the plug-in looks for `a.yu-c`. -/
theorem C67_double_extension_wrong : outputFn {} (lit "a.c.yu") = lit "a.c" ∧ originName (lit "a.c") = some (lit "a.yu-c") := by
  decide

end Yupp
