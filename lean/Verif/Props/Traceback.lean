import Verif.Model.Codec
import Verif.Spec.Traceback
/-!
# C64, C65: tracebacks of preprocessed programs
-/

namespace Yupp

open Spec

/-! ## C64: the file and the line -/

/-- C64, Python 2: a frame of a program whose first `head` lines were taken off is shown at its line of the generated file. -/
theorem C64_python2 (files : SubstFiles) (f : TbFrame) (fnO : Str) (head : Nat)
    (hreg : files.lookup f.file = some (fnO, head)) (hline : (head : Int) < f.line) :
    locate2 files f = { f with file := fnO, line := lineOf head f.line } := by
  have h : ¬ (f.line - (head : Int) < 1) := by omega
  simp only [locate2, hreg, atLeastOne, if_neg h, lineOf]

/-- C64, Python 2: a frame of any other file is shown as it is. -/
theorem C64_python2_other (files : SubstFiles) (f : TbFrame) (hreg : files.lookup f.file = none) (hline : 0 < f.line) :
    locate2 files f = f := by
  have h : ¬ (f.line - 0 < 1) := by omega
  simp only [locate2, hreg, atLeastOne, if_neg h]
  simp

example : locate2 [(lit "a.py", lit "a.yugen.py", 1)] ⟨lit "a.py", 5, lit "f", []⟩ = ⟨lit "a.yugen.py", 4, lit "f", []⟩ :=
  C64_python2 _ _ _ 1 (by decide) (by decide)

/-- C64, Python 3: if Python counts `head` lines before the generated text, the line shown is the right one exactly if one
    line more was registered. -/
theorem C64_python3_iff (files : SubstFiles) (f : TbFrame) (fnO : Str) (shrink head : Nat)
    (hreg : files.lookup f.file = some (fnO, shrink)) (hline : (shrink : Int) ≤ f.line) :
    locate3 files f = { f with file := fnO, line := lineOf head f.line } ↔ head + 1 = shrink := by
  have h : ¬ (f.line - ((shrink : Int) - 1) < 1) := by omega
  simp only [locate3, hreg, atLeastOne, if_neg h, lineOf]
  constructor
  · intro he
    have := congrArg TbFrame.line he
    simp only at this
    omega
  · intro he
    have : f.line - ((shrink : Int) - 1) = f.line - (head : Int) := by omega
    rw [this]

/-- C64 fails in Python 3 for files that are not preprocessed: every frame is shown one line too far. -/
theorem C64_python3_other_wrong (files : SubstFiles) (f : TbFrame) (hreg : files.lookup f.file = none) (hline : 0 < f.line) :
    locate3 files f = { f with line := f.line + 1 } := by
  have h : ¬ (f.line - (0 - 1) < 1) := by omega
  simp only [locate3, hreg, atLeastOne, if_neg h]
  congr 1

example : locate3 [] ⟨lit "lib.py", 7, lit "g", []⟩ = ⟨lit "lib.py", 8, lit "g", []⟩ :=
  C64_python3_other_wrong _ _ (by decide) (by decide)

example : locate3 [(lit "/a.py", lit "/a.yugen.py", 1)] ⟨lit "/a.py", 5, lit "f", []⟩ = ⟨lit "/a.yugen.py", 5, lit "f", []⟩ :=
  (C64_python3_iff _ _ _ 1 0 (by decide) (by decide)).mpr rfl

/-- C64: line numbers are positive whatever was registered. -/
theorem C64_positive (files : SubstFiles) (f : TbFrame) : 1 ≤ (locate2 files f).line ∧ 1 ≤ (locate3 files f).line := by
  constructor
  · unfold locate2; split <;> simp only [atLeastOne] <;> split <;> omega
  · unfold locate3; split <;> simp only [atLeastOne] <;> split <;> omega

/-- C64: frames of the same file keep their distance, before and after the translation, as long as they lie in the
    generated text. -/
theorem C64_distance (files : SubstFiles) (f g : TbFrame) (fnO : Str) (shrink : Nat) (hsame : g.file = f.file)
    (hreg : files.lookup f.file = some (fnO, shrink)) (hf : (shrink : Int) < f.line) (hg : (shrink : Int) < g.line) :
    (locate2 files g).line - (locate2 files f).line = g.line - f.line ∧
    (locate3 files g).line - (locate3 files f).line = g.line - f.line := by
  have h1 : ¬ (f.line - (shrink : Int) < 1) := by omega
  have h2 : ¬ (g.line - (shrink : Int) < 1) := by omega
  have h3 : ¬ (f.line - ((shrink : Int) - 1) < 1) := by omega
  have h4 : ¬ (g.line - ((shrink : Int) - 1) < 1) := by omega
  constructor
  · simp only [locate2, hsame, hreg, atLeastOne, if_neg h1, if_neg h2]; omega
  · simp only [locate3, hsame, hreg, atLeastOne, if_neg h3, if_neg h4]; omega

/-- C64: the last registration of a name counts and other names are left alone. -/
theorem C64_registration (files : SubstFiles) (fn fnO : Str) (shrink : Nat) (f : TbFrame) :
    (f.file = fn → locate2 (substitution2 files fn fnO shrink) f = locate2 [(fn, fnO, shrink)] f) ∧
    (f.file ≠ fn → locate2 (substitution2 files fn fnO shrink) f = locate2 files f) := by
  constructor
  · intro h
    simp only [locate2, substitution2, List.lookup, h, beq_self_eq_true]
  · intro h
    have hb : (f.file == fn) = false := by simpa using h
    simp only [locate2, substitution2, List.lookup, hb]

/-- C64, Python 3: a frame is taken for one of the preprocessed file exactly if its name is the real path of that file. -/
theorem C64_registration3 (real : Str → Str) (files : SubstFiles) (fn fnO : Str) (shrink : Nat) (f : TbFrame) :
    (f.file = real fn → locate3 (substitution3 real files fn fnO shrink) f = locate3 [(real fn, real fnO, shrink)] f) ∧
    (f.file ≠ real fn → locate3 (substitution3 real files fn fnO shrink) f = locate3 files f) := by
  constructor
  · intro h
    simp only [locate3, substitution3, List.lookup, h, beq_self_eq_true]
  · intro h
    have hb : (f.file == real fn) = false := by simpa using h
    simp only [locate3, substitution3, List.lookup, hb]

/-- C64: so a file that was preprocessed under a relative name shows, in Python 3, lines of the source of the program
    instead of lines of the generated file, if nothing else was registered. -/
theorem C64_relative_name_wrong (real : Str → Str) (fn fnO : Str) (shrink : Nat) (f : TbFrame) (hf : f.file = fn)
    (hrel : real fn ≠ fn) (hline : 0 < f.line) :
    locate3 (substitution3 real [] fn fnO shrink) f = { f with line := f.line + 1 } := by
  rw [(C64_registration3 real [] fn fnO shrink f).2 (by rw [hf]; exact fun h => hrel h.symm)]
  exact C64_python3_other_wrong [] f rfl hline

/-- C64: what the codec registers: the name and the number of lines that the translation reported, if it succeeded; nothing
    otherwise. -/
theorem C64_codec_registers (py3 : Bool) (parses : Str → Bool) (proc : Prog (Bool × Plain × Str × Nat)) (o : Oracle) (s s' : Sys)
    (code : Str) (reg : Option (Str × Nat)) (h : decodeStream py3 parses proc o s = .done (code, reg) s') :
    (∀ fno n, reg = some (fno, n) ↔ ∃ plain, proc o s = .done (true, plain, fno, n) s') ∧ (reg = none → code = []) := by
  unfold decodeStream at h
  cases hp : proc o s with
  | crashed s1 => rw [hp] at h; simp at h
  | raised s1 => rw [hp] at h; cases py3 <;> cases h; simp
  | done v s1 =>
    obtain ⟨ok, plain, fno, n⟩ := v
    rw [hp] at h
    cases ok with
    | false => cases h; simp
    | true =>
      simp only [Bool.not_true, Bool.false_eq_true, if_false] at h
      by_cases hq : parses plain.txt = true
      · rw [if_pos hq] at h
        cases h
        simp
      · rw [if_neg hq] at h
        cases py3 <;> cases h
        simp

/-! ## C64: how many frames are shown -/

theorem extractTb2_eq (files : SubstFiles) (limit : Option Int) (fs : List TbFrame) (n : Int) :
    extractTb2 files limit n fs =
      (match limit with | none => fs | some k => fs.take (k - n).toNat).map (locate2 files) := by
  induction fs generalizing n with
  | nil => cases limit <;> simp [extractTb2]
  | cons f fs ih =>
    cases limit with
    | none => simp [extractTb2, ih]
    | some k =>
      simp only [extractTb2]
      by_cases hk : n < k
      · have : (k - n).toNat = (k - (n + 1)).toNat + 1 := by omega
        simp [hk, ih, this]
      · have : (k - n).toNat = 0 := by omega
        simp [hk, this]

/-- C64: without a limit every frame is shown, in order; with limit `k` the first `k`. -/
theorem C64_limit2 (files : SubstFiles) (fs : List TbFrame) :
    extractTb2 files none 0 fs = fs.map (locate2 files) ∧
    (∀ k : Nat, extractTb2 files (some k) 0 fs = (fs.take k).map (locate2 files)) ∧
    extractStack2 files none fs = (fs.map (locate2 files)).reverse := by
  refine ⟨extractTb2_eq _ _ _ _, fun k => ?_, by rw [extractStack2, extractTb2_eq]⟩
  rw [extractTb2_eq]
  simp

theorem dequeGo_eq (k : Nat) (q xs : List α) (hq : q.length ≤ k) :
    dequeGo k q xs = (q ++ xs).drop ((q ++ xs).length - k) := by
  induction xs generalizing q with
  | nil =>
    have : q.length - k = 0 := by omega
    simp [dequeGo, this]
  | cons x xs ih =>
    rw [dequeGo]
    by_cases hk : k < (q ++ [x]).length
    · rw [if_pos hk]
      have hl : q.length = k := by simp at hk; omega
      cases q with
      | nil =>
        rw [ih _ (by simp)]
        have hk0 : k = 0 := by simpa using hl.symm
        subst hk0
        simp
      | cons y ys =>
        rw [List.cons_append, List.drop_succ_cons, List.drop_zero, ih _ (by simp at hl ⊢; omega)]
        have h1 : (y :: ys ++ x :: xs).length - k = ((ys ++ [x] ++ xs).length - k) + 1 := by simp at hl ⊢; omega
        rw [h1]
        simp
    · rw [if_neg hk, ih _ (by omega)]
      simp

/-- C64, Python 3: without a limit every frame, in order; with limit `k` the first `k`, with limit `-k` the last `k`. -/
theorem C64_limit3 (files : SubstFiles) (fs : List TbFrame) :
    extract3 files none none fs = fs.map (locate3 files) ∧
    (∀ (sys : Option Int) (k : Nat), extract3 files sys (some k) fs = (fs.take k).map (locate3 files)) ∧
    (∀ (sys : Option Int) (k : Nat), 0 < k → extract3 files sys (some (-k)) fs = (fs.drop (fs.length - k)).map (locate3 files)) ∧
    (∀ k : Int, k ≤ 0 → extract3 files (some k) none fs = []) := by
  refine ⟨rfl, fun sys k => ?_, fun sys k hk => ?_, fun k hk => ?_⟩
  · simp [extract3, limit3]
  · have h : ¬ (0 ≤ -(k : Int)) := by omega
    simp only [extract3, limit3, if_neg h, Int.neg_neg, Int.toNat_natCast]
    rw [dequeGo_eq _ _ _ (by simp)]
    simp
  · have : (if k < 0 then 0 else k) = 0 := by split <;> omega
    simp [extract3, limit3, this]

example : (extract3 [] none (some (-2)) [⟨lit "a", 1, [], []⟩, ⟨lit "b", 2, [], []⟩, ⟨lit "c", 3, [], []⟩]).map (·.file) =
    [lit "b", lit "c"] := by decide

/-! ## C65: the shortened form -/

/-- The frames that continue the run of `k`, and the others. -/
theorem formatGo_run (last : Str × Int × Str) (c : Nat) (g rest : List TbFrame) (hg : ∀ f ∈ g, f.key = last)
    (hrest : ∀ f, rest.head? = some f → f.key ≠ last) :
    formatGo (some last) c (g ++ rest) =
      (g.take (3 - c)).map tbRow ++ tbSummary (c + g.length) ++ formatGo none 0 rest := by
  induction g generalizing c with
  | nil =>
    cases rest with
    | nil => simp [formatGo, tbSummary]
    | cons f fs =>
      have hne : ¬ (some last = some f.key) := by
        intro h; exact hrest f rfl (Option.some.inj h).symm
      simp only [List.nil_append, List.length_nil, Nat.add_zero, List.take_nil, List.map_nil]
      rw [formatGo, if_neg hne]
      simp [formatGo, tbSummary, recursiveCutoff]
  | cons f g ih =>
    have hk : some last = some f.key := by rw [hg f (by simp)]
    rw [List.cons_append, formatGo, if_pos hk, ih _ (fun x hx => hg x (by simp [hx]))]
    have hc : c + 1 + g.length = c + (f :: g).length := by simp; omega
    rw [hc]
    by_cases h3 : recursiveCutoff < c + 1
    · have h0 : 3 - c = 0 := by unfold recursiveCutoff at h3; omega
      have h1 : 3 - (c + 1) = 0 := by omega
      simp [if_pos h3, h0, h1]
    · have h0 : 3 - c = (3 - (c + 1)) + 1 := by unfold recursiveCutoff at h3; omega
      rw [if_neg h3, h0]
      simp

/-- The leading run. -/
def leadRun (k : Str × Int × Str) : List TbFrame → List TbFrame × List TbFrame
  | [] => ([], [])
  | f :: fs => if f.key = k then (f :: (leadRun k fs).1, (leadRun k fs).2) else ([], f :: fs)

theorem leadRun_spec (k : Str × Int × Str) (fs : List TbFrame) :
    (leadRun k fs).1 ++ (leadRun k fs).2 = fs ∧ (∀ f ∈ (leadRun k fs).1, f.key = k) ∧
    (∀ f, (leadRun k fs).2.head? = some f → f.key ≠ k) := by
  induction fs with
  | nil => simp [leadRun]
  | cons f fs ih =>
    rw [leadRun]
    by_cases h : f.key = k
    · rw [if_pos h]
      obtain ⟨h1, h2, h3⟩ := ih
      refine ⟨by simp [h1], ?_, h3⟩
      intro x hx
      rcases List.mem_cons.mp hx with rfl | hx
      · exact h
      · exact h2 x hx
    · rw [if_neg h]
      refine ⟨by simp, by simp, ?_⟩
      intro x hx
      cases hx
      exact h

/-- What the code prints for a run. -/
def printedRun (g : List TbFrame) : List Str :=
  (g.take 3).map tbRow ++ if 3 < g.length then [tbMore (g.length - 3)] else []

theorem tbMore_row {n : Nat} (h : 1 ≤ n) : tbMore n = moreRow n := by
  unfold tbMore moreRow
  by_cases h1 : n = 1
  · subst h1; decide +kernel
  · rw [if_pos (by omega), if_neg h1]
    simp only [List.append_assoc]
    rfl

theorem format_runs (n : Nat) (fs : List TbFrame) (hn : fs.length ≤ n) :
    ∃ gs, Runs fs gs ∧ tbFormat fs = gs.flatMap printedRun ∧
      (∀ f g, fs.head? = some f → gs.head? = some g → ∀ a ∈ g, a.key = f.key) := by
  induction n generalizing fs with
  | zero =>
    cases fs with
    | nil => exact ⟨[], ⟨rfl, by simp, by simp, by simp⟩, rfl, by simp⟩
    | cons f fs => simp at hn
  | succ n ih =>
    cases fs with
    | nil => exact ⟨[], ⟨rfl, by simp, by simp, by simp⟩, rfl, by simp⟩
    | cons f fs =>
      obtain ⟨h1, h2, h3⟩ := leadRun_spec f.key fs
      generalize leadRun f.key fs = lr at h1 h2 h3
      obtain ⟨g, rest⟩ := lr
      simp only at h1 h2 h3
      have hlen : rest.length ≤ n := by
        have := congrArg List.length h1
        simp at this hn
        omega
      obtain ⟨gs, hr, hf, hh⟩ := ih rest hlen
      have hkeys : ∀ a ∈ f :: g, a.key = f.key := by
        intro a ha
        rcases List.mem_cons.mp ha with rfl | ha
        · rfl
        · exact h2 a ha
      refine ⟨(f :: g) :: gs, ⟨?_, ?_, ?_, ?_⟩, ?_, ?_⟩
      · rw [List.flatten_cons, hr.all, List.cons_append, h1]
      · intro x hx
        rcases List.mem_cons.mp hx with rfl | hx
        · simp
        · exact hr.some x hx
      · intro x hx a ha b hb
        rcases List.mem_cons.mp hx with rfl | hx
        · exact (hkeys a ha).trans (hkeys b hb).symm
        · exact hr.same x hx a ha b hb
      · intro i x y hx hy a ha b hb
        cases i with
        | zero =>
          simp only [List.getElem?_cons_zero, Option.some.injEq] at hx
          subst hx
          cases gs with
          | nil => simp at hy
          | cons g1 gs =>
            simp only [Nat.zero_add, List.getElem?_cons_succ, List.getElem?_cons_zero, Option.some.injEq] at hy
            subst hy
            cases rest with
            | nil =>
              have hall := hr.all
              have hsome := hr.some g1 (by simp)
              rw [List.flatten_cons] at hall
              exact absurd (List.append_eq_nil_iff.mp hall).1 hsome
            | cons r rest =>
              intro he
              have e1 : a.key = f.key := hkeys a ha
              have e2 : b.key = r.key := hh r g1 rfl rfl b hb
              exact h3 r rfl (e2.symm.trans ((show b.key = a.key from he.symm).trans e1))
        | succ i =>
          simp only [List.getElem?_cons_succ] at hx hy
          exact hr.differ i x y hx hy a ha b hb
      · have hrun := formatGo_run f.key 0 (f :: g) rest hkeys h3
        have hstart : tbFormat (f :: fs) = formatGo (some f.key) 0 ((f :: g) ++ rest) := by
          rw [List.cons_append, h1]
          simp [tbFormat, formatGo, tbSummary]
        rw [hstart, hrun, List.flatMap_cons, ← hf]
        simp [printedRun, tbSummary, recursiveCutoff, tbFormat]
      · intro x y hx hy a ha
        cases hx
        cases hy
        exact hkeys a ha

/-- C65: a long traceback is printed run by run: of each maximal run of equal frames the first three, and the exact number of
    the others. No frame is lost and no frame is counted twice. -/
theorem C65_format (fs : List TbFrame) : ∃ gs, Runs fs gs ∧ tbFormat fs = gs.flatMap printed := by
  obtain ⟨gs, h1, h2, _⟩ := format_runs fs.length fs (Nat.le_refl _)
  refine ⟨gs, h1, h2.trans (congrArg (List.flatMap · gs) (funext fun g => ?_))⟩
  unfold printedRun printed
  congr 1
  split
  · rw [tbMore_row (by omega)]
  · rfl

/-- C65: a stack without equal neighbours is printed in full. -/
theorem C65_no_recursion (fs : List TbFrame)
    (hne : ∀ i a b, fs[i]? = some a → fs[i + 1]? = some b → (a.file, a.line, a.name) ≠ (b.file, b.line, b.name)) :
    tbFormat fs = fs.map frameRow := by
  have aux : ∀ (fs : List TbFrame) (last : Option (Str × Int × Str)) (c : Nat), c ≤ 1 →
      (∀ f, fs.head? = some f → last ≠ some f.key) →
      (∀ i a b, fs[i]? = some a → fs[i + 1]? = some b → (a.file, a.line, a.name) ≠ (b.file, b.line, b.name)) →
      formatGo last c fs = fs.map tbRow := by
    intro fs
    induction fs with
    | nil =>
      intro last c hc _ _
      have : ¬ recursiveCutoff < c := by unfold recursiveCutoff; omega
      simp [formatGo, tbSummary, if_neg this]
    | cons f fs ih =>
      intro last c hc hl hn
      have hcc : ¬ recursiveCutoff < c := by unfold recursiveCutoff; omega
      rw [formatGo, if_neg (hl f rfl), ih (some f.key) 1 (Nat.le_refl _)]
      · rw [tbSummary, if_neg hcc]
        simp [recursiveCutoff]
      · intro g hg he
        cases fs with
        | nil => simp at hg
        | cons g' fs =>
          cases hg
          exact hn 0 f g rfl rfl (Option.some.inj he)
      · intro i a b ha hb
        exact hn (i + 1) a b (by simpa using ha) (by simpa using hb)
  exact aux fs none 0 (by omega) (by simp) hne

/-- C65: of a stack of `n + 4` equal frames three are printed, and that there were `n + 1` more. -/
theorem C65_recursion (f : TbFrame) (n : Nat) :
    tbFormat (List.replicate (n + 4) f) = [frameRow f, frameRow f, frameRow f, moreRow (n + 1)] := by
  rw [← tbMore_row (by omega)]
  change _ = [tbRow f, tbRow f, tbRow f, tbMore (n + 1)]
  have h := formatGo_run f.key 0 (List.replicate (n + 4) f) [] (by
    intro x hx; rw [List.eq_of_mem_replicate hx]) (by simp)
  have hstart : tbFormat (List.replicate (n + 4) f) = formatGo (some f.key) 0 (List.replicate (n + 4) f ++ []) := by
    rw [List.append_nil, List.replicate_succ]
    simp [tbFormat, formatGo, tbSummary]
  rw [hstart, h]
  simp [tbSummary, recursiveCutoff, formatGo, List.replicate_succ]

example : tbFormat [⟨lit "a.py", 3, lit "f", []⟩] = [lit "  File \"a.py\", line 3, in f\n"] := by decide +kernel

end Yupp
