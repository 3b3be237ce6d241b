import Verif.Props.StdSample
/-!
# C100 — A program that begins with the import of the library

The evaluator is run by the kernel on the pieces of the library; the environment is left open but for what the library
takes for granted.
-/

namespace Yupp
open Spec (push Avoids emits until' Generates Yield Reports fragment indentBehind atLineStart)

/-- The definitions are entered, with at most `N` levels of evaluation each and no `$emit`: the outcome. -/
def entered (e : EEnv) (N : Nat) : List Node → Indent → Bool → ESt → Option (Indent × Bool × Str × Nat × ESt)
  | [], ind, cut, s => some (ind, cut, [], 0, s)
  | .plain w i c :: ys, ind, cut, s => match entered e N ys (indentBehind ind i) false s with
    | some (ind', cut', t, n, s') => some (ind', cut', fragment e.cfg w.txt (cut || c) ++ t, n, s')
    | none => none
  | .comment :: ys, ind, _, s => entered e N ys ind (atLineStart ind) s
  | .set l x :: ys, ind, _, s => match until' e emits N (.set l x) s with
    | .ok (.env f, s1) => match entered e N ys ind (atLineStart ind) (push s1 f) with
      | some (ind', cut', t, n, s') => some (ind', cut', t, n + 1, s')
      | none => none
    | _ => none
  | .macro a ps b :: ys, ind, _, s => match until' e emits N (.macro a ps b) s with
    | .ok (.env f, s1) => match entered e N ys ind (atLineStart ind) (push s1 f) with
      | some (ind', cut', t, n, s') => some (ind', cut', t, n + 1, s')
      | none => none
    | _ => none
  | _, _, _, _ => none

theorem entered_sound {e : EEnv} {N : Nat} : ∀ {ys : List Node} {ind : Indent} {cut : Bool} {s : ESt} {ind' : Indent} {cut' : Bool} {t : Str}
    {n : Nat} {s' : ESt}, entered e N ys ind cut s = some (ind', cut', t, n, s') → Enters (Avoids e emits) e.cfg ind cut ys s ind' cut' t n s' := by
  intro ys
  induction ys with
  | nil => intro ind cut s ind' cut' t n s' h; cases h; exact .nil
  | cons y ys ih =>
    intro ind cut s ind' cut' t n s' h
    cases y with
    | plain w i c =>
      simp only [entered] at h
      split at h
      · rename_i h1; cases h; exact .plain (ih h1)
      · cases h
    | comment => exact .comment (ih h)
    | set l x =>
      simp only [entered] at h
      split at h
      · rename_i f s1 h1
        split at h
        · rename_i h2; cases h; exact .names (.set _ _) ⟨_, h1⟩ (ih h2)
        · cases h
      · cases h
    | «macro» a ps b =>
      simp only [entered] at h
      split at h
      · rename_i f s1 h1
        split at h
        · rename_i h2; cases h; exact .names (.macro_ _ _ _) ⟨_, h1⟩ (ih h2)
        · cases h
      · cases h
    | _ => cases h

/-- An environment that has what the library takes for granted and is open otherwise. -/
def openEnv (x : BExt) (e : EEnv) (cfg : Config) (k1 k2 : PyState → Int) (names : List Str) : EEnv :=
  { pe := e.pe, cfg := cfg, passage := e.passage, repr := e.repr
    builtin := fun sc f => if f ∈ stdUsed then some .fn else if f ∈ stdFree then none else e.builtin sc f
    pyParse := fun t => if t = stdMax.text then some stdMax else if t = stdMin.text then some stdMin
      else if t = (stdLess []).text then some (stdLess names) else e.pyParse t
    pyEval := fun st q f => if q = stdMax ∧ f.isEmpty then some (.int (k1 st)) else if q = stdMin ∧ f.isEmpty then some (.int (k2 st))
      else e.pyEval st q f
    call := fun st f as seen => if f ∈ stdUsed then builtinCall x f as seen else e.call st f as seen
    reduce := e.reduce }

theorem openEnv_eq {e : EEnv} {x : BExt} (h : StdEnv e x) : ∃ k1 k2 names, (names = [['_', '_', 'i'], ['_', '_', 'l', 'a', 's', 't']] ∨
    names = [['_', '_', 'l', 'a', 's', 't'], ['_', '_', 'i']]) ∧ e = openEnv x e e.cfg k1 k2 names := by
  obtain ⟨h1, h2, h3, ⟨h4, h5⟩, h6, h7⟩ := h
  obtain ⟨k1, hk1⟩ : ∃ k1 : PyState → Int, ∀ st, e.pyEval st stdMax [] = some (.int (k1 st)) :=
    ⟨fun st => (h5 st).choose, fun st => (h5 st).choose_spec⟩
  obtain ⟨k2, hk2⟩ : ∃ k2 : PyState → Int, ∀ st, e.pyEval st stdMin [] = some (.int (k2 st)) :=
    ⟨fun st => (h7 st).choose, fun st => (h7 st).choose_spec⟩
  obtain ⟨names, hn, hp⟩ : ∃ names, (names = [['_', '_', 'i'], ['_', '_', 'l', 'a', 's', 't']] ∨
      names = [['_', '_', 'l', 'a', 's', 't'], ['_', '_', 'i']]) ∧ e.pyParse (stdLess []).text = some (stdLess names) := by
    rcases h3 with h | h
    · exact ⟨_, .inl rfl, h⟩
    · exact ⟨_, .inr rfl, h⟩
  refine ⟨k1, k2, names, hn, ?_⟩
  have b : e.builtin = fun sc f => if f ∈ stdUsed then some .fn else if f ∈ stdFree then none else e.builtin sc f := by
    funext sc f
    split
    · rename_i h; exact (h1 f h).table sc
    · split
      · rename_i h; exact h2 f h sc
      · rfl
  have c : e.call = fun st f as seen => if f ∈ stdUsed then builtinCall x f as seen else e.call st f as seen := by
    funext st f as seen
    split
    · rename_i h; exact (h1 f h).call st as seen
    · rfl
  have p : e.pyParse = fun t => if t = stdMax.text then some stdMax else if t = stdMin.text then some stdMin
      else if t = (stdLess []).text then some (stdLess names) else e.pyParse t := by
    funext t
    split
    · rename_i h; rw [h, h4]
    · split
      · rename_i h; rw [h, h6]
      · split
        · rename_i h; rw [h, hp]
        · rfl
  have v : e.pyEval = fun st q f => if q = stdMax ∧ f.isEmpty then some (.int (k1 st)) else if q = stdMin ∧ f.isEmpty then some (.int (k2 st))
      else e.pyEval st q f := by
    funext st q f
    split
    · rename_i h; obtain ⟨rfl, h⟩ := h; rw [List.isEmpty_iff.1 h, hk1]
    · split
      · rename_i h; obtain ⟨rfl, h⟩ := h; rw [List.isEmpty_iff.1 h, hk2]
      · rfl
  obtain ⟨pe, cfg, pass, repr, bi, pp, pv, ca, re⟩ := e
  dsimp only at b c p v
  unfold openEnv
  congr

/-- What is looked at in the outcome. -/
def outcome : Indent × Bool × Str × Nat × ESt → Indent × Bool × Nat × PSt × Option Str × Bool × List Node
  | (ind, _, t, n, s) => (ind, t.all (· == '\n'), n, s.p, s.outputFile, s.rept, s.seen)

section
variable (o : Option Loc) (x : BExt) (e : EEnv) (k1 k2 : PyState → Int) (p : PSt) (out : Option Str) (rept : Bool) (seen : List Node)
  (i : Str) (cut : Bool) (k : Nat)

theorem run_a_true_true_true : (entered (openEnv x e ⟨true, true, true, k⟩ k1 k2 [['_', '_', 'i'], ['_', '_', 'l', 'a', 's', 't']]) 60 (stdTree o)
    (.str i) cut ⟨[], p, out, rept, seen⟩).map outcome = some (.str [], true, 18, p, out, rept, seen) := by kernel_rfl

theorem run_a_true_true_false : (entered (openEnv x e ⟨true, true, false, k⟩ k1 k2 [['_', '_', 'i'], ['_', '_', 'l', 'a', 's', 't']]) 60 (stdTree o)
    (.str i) cut ⟨[], p, out, rept, seen⟩).map outcome = some (.str [], true, 18, p, out, rept, seen) := by kernel_rfl

theorem run_a_true_false_true : (entered (openEnv x e ⟨true, false, true, k⟩ k1 k2 [['_', '_', 'i'], ['_', '_', 'l', 'a', 's', 't']]) 60 (stdTree o)
    (.str i) cut ⟨[], p, out, rept, seen⟩).map outcome = some (.str [], true, 18, p, out, rept, seen) := by kernel_rfl

theorem run_a_true_false_false : (entered (openEnv x e ⟨true, false, false, k⟩ k1 k2 [['_', '_', 'i'], ['_', '_', 'l', 'a', 's', 't']]) 60 (stdTree o)
    (.str i) cut ⟨[], p, out, rept, seen⟩).map outcome = some (.str [], true, 18, p, out, rept, seen) := by kernel_rfl

theorem run_a_false_true_true : (entered (openEnv x e ⟨false, true, true, k⟩ k1 k2 [['_', '_', 'i'], ['_', '_', 'l', 'a', 's', 't']]) 60 (stdTree o)
    (.str i) cut ⟨[], p, out, rept, seen⟩).map outcome = some (.str [], true, 18, p, out, rept, seen) := by kernel_rfl

theorem run_a_false_true_false : (entered (openEnv x e ⟨false, true, false, k⟩ k1 k2 [['_', '_', 'i'], ['_', '_', 'l', 'a', 's', 't']]) 60 (stdTree o)
    (.str i) cut ⟨[], p, out, rept, seen⟩).map outcome = some (.str [], true, 18, p, out, rept, seen) := by kernel_rfl

theorem run_a_false_false_true : (entered (openEnv x e ⟨false, false, true, k⟩ k1 k2 [['_', '_', 'i'], ['_', '_', 'l', 'a', 's', 't']]) 60 (stdTree o)
    (.str i) cut ⟨[], p, out, rept, seen⟩).map outcome = some (.str [], true, 18, p, out, rept, seen) := by kernel_rfl

theorem run_a_false_false_false : (entered (openEnv x e ⟨false, false, false, k⟩ k1 k2 [['_', '_', 'i'], ['_', '_', 'l', 'a', 's', 't']]) 60 (stdTree o)
    (.str i) cut ⟨[], p, out, rept, seen⟩).map outcome = some (.str [], true, 18, p, out, rept, seen) := by kernel_rfl

theorem run_b_true_true_true : (entered (openEnv x e ⟨true, true, true, k⟩ k1 k2 [['_', '_', 'l', 'a', 's', 't'], ['_', '_', 'i']]) 60 (stdTree o)
    (.str i) cut ⟨[], p, out, rept, seen⟩).map outcome = some (.str [], true, 18, p, out, rept, seen) := by kernel_rfl

theorem run_b_true_true_false : (entered (openEnv x e ⟨true, true, false, k⟩ k1 k2 [['_', '_', 'l', 'a', 's', 't'], ['_', '_', 'i']]) 60 (stdTree o)
    (.str i) cut ⟨[], p, out, rept, seen⟩).map outcome = some (.str [], true, 18, p, out, rept, seen) := by kernel_rfl

theorem run_b_true_false_true : (entered (openEnv x e ⟨true, false, true, k⟩ k1 k2 [['_', '_', 'l', 'a', 's', 't'], ['_', '_', 'i']]) 60 (stdTree o)
    (.str i) cut ⟨[], p, out, rept, seen⟩).map outcome = some (.str [], true, 18, p, out, rept, seen) := by kernel_rfl

theorem run_b_true_false_false : (entered (openEnv x e ⟨true, false, false, k⟩ k1 k2 [['_', '_', 'l', 'a', 's', 't'], ['_', '_', 'i']]) 60 (stdTree o)
    (.str i) cut ⟨[], p, out, rept, seen⟩).map outcome = some (.str [], true, 18, p, out, rept, seen) := by kernel_rfl

theorem run_b_false_true_true : (entered (openEnv x e ⟨false, true, true, k⟩ k1 k2 [['_', '_', 'l', 'a', 's', 't'], ['_', '_', 'i']]) 60 (stdTree o)
    (.str i) cut ⟨[], p, out, rept, seen⟩).map outcome = some (.str [], true, 18, p, out, rept, seen) := by kernel_rfl

theorem run_b_false_true_false : (entered (openEnv x e ⟨false, true, false, k⟩ k1 k2 [['_', '_', 'l', 'a', 's', 't'], ['_', '_', 'i']]) 60 (stdTree o)
    (.str i) cut ⟨[], p, out, rept, seen⟩).map outcome = some (.str [], true, 18, p, out, rept, seen) := by kernel_rfl

theorem run_b_false_false_true : (entered (openEnv x e ⟨false, false, true, k⟩ k1 k2 [['_', '_', 'l', 'a', 's', 't'], ['_', '_', 'i']]) 60 (stdTree o)
    (.str i) cut ⟨[], p, out, rept, seen⟩).map outcome = some (.str [], true, 18, p, out, rept, seen) := by kernel_rfl

theorem run_b_false_false_false : (entered (openEnv x e ⟨false, false, false, k⟩ k1 k2 [['_', '_', 'l', 'a', 's', 't'], ['_', '_', 'i']]) 60 (stdTree o)
    (.str i) cut ⟨[], p, out, rept, seen⟩).map outcome = some (.str [], true, 18, p, out, rept, seen) := by kernel_rfl

end

/-- **C100.** The definitions of the library at the start of a program, when no name is bound: all of them are entered. They
    leave 18 scopes and nothing but line ends in the output, and change nothing else. -/
theorem C100_entered {e : EEnv} {x : BExt} (hs : StdEnv e x) (o : Option Loc) {s : ESt} (h0 : s.env = []) (i : Str) (cut : Bool) :
    ∃ cut' t s', Enters (Avoids e emits) e.cfg (.str i) cut (stdTree o) s (.str []) cut' t 18 s' ∧ (∀ c ∈ t, c = '\n') ∧
      s'.p = s.p ∧ s'.outputFile = s.outputFile ∧ s'.rept = s.rept ∧ s'.seen = s.seen := by
  obtain ⟨k1, k2, names, hn, he⟩ := openEnv_eq hs
  obtain ⟨env, p, out, rept, seen⟩ := s
  obtain rfl : env = [] := h0
  have key : (entered e 60 (stdTree o) (.str i) cut ⟨[], p, out, rept, seen⟩).map outcome = some (.str [], true, 18, p, out, rept, seen) := by
    rw [he]
    obtain ⟨a, b, c, k⟩ := e.cfg
    rcases hn with rfl | rfl
    · cases a <;> cases b <;> cases c
      · exact run_a_false_false_false ..
      · exact run_a_false_false_true ..
      · exact run_a_false_true_false ..
      · exact run_a_false_true_true ..
      · exact run_a_true_false_false ..
      · exact run_a_true_false_true ..
      · exact run_a_true_true_false ..
      · exact run_a_true_true_true ..
    · cases a <;> cases b <;> cases c
      · exact run_b_false_false_false ..
      · exact run_b_false_false_true ..
      · exact run_b_false_true_false ..
      · exact run_b_false_true_true ..
      · exact run_b_true_false_false ..
      · exact run_b_true_false_true ..
      · exact run_b_true_true_false ..
      · exact run_b_true_true_true ..
  cases hr : entered e 60 (stdTree o) (.str i) cut ⟨[], p, out, rept, seen⟩ with
  | none => rw [hr] at key; cases key
  | some q =>
    obtain ⟨ind', cut', t, n, s'⟩ := q
    rw [hr] at key
    simp only [Option.map_some, outcome, Option.some.injEq, Prod.mk.injEq] at key
    obtain ⟨rfl, ht, rfl, h1, h2, h3, h4⟩ := key
    exact ⟨cut', t, s', entered_sound hr, by simpa using ht, h1, h2, h3, h4⟩

/-- What is generated behind definitions that are entered. -/
theorem enters_generates {e : EEnv} {ind ind' : Indent} {cut cut' : Bool} {ys : List Node} {s s' : ESt} {t : Str} {n : Nat}
    (h : Enters (Evaluates e) e.cfg ind cut ys s ind' cut' t n s') {xs : List Node} (hx : xs ≠ []) : ∀ {o : Yield},
    Generates e ind cut (ys ++ xs) s o → ∃ o', Generates e ind' cut' xs s' o' ∧ o = (leaveAll n o').after t := by
  induction h with
  | nil => intro o h; exact ⟨o, h, by rw [leaveAll, after_nil]⟩
  | plain _ ih =>
    intro o h
    obtain ⟨o1, rfl, h1⟩ := generates_plain.1 h
    obtain ⟨o', h2, rfl⟩ := ih h1
    exact ⟨o', h2, by rw [after_after]⟩
  | comment _ ih => intro o h; exact ih (generates_comment.1 h)
  | mark hm _ ih => intro o h; exact ih ((generates_mark hm).1 h)
  | names hd hv _ ih =>
    intro o h
    rcases defPiece_cases hd with ⟨w, i, c, rfl⟩ | rfl | hm | hdef
    · obtain ⟨k, hk⟩ := hv; cases k <;> cases hk
    · obtain ⟨k, hk⟩ := hv; cases k <;> cases hk
    · obtain ⟨h, -⟩ := mark_value hm hv; rcases hm with rfl | rfl <;> cases h
    · rcases (generates_definition hdef (by simp [hx])).1 h with ⟨f, s1, o1, h1, h2, rfl⟩ | ⟨s1, h1, -⟩ | ⟨-, h1⟩
      · obtain ⟨a1, rfl⟩ := evaluates_det hv h1
        cases a1
        obtain ⟨o', h3, rfl⟩ := ih h2
        exact ⟨o', h3, by rw [after_leave]; rfl⟩
      · cases (evaluates_det hv h1).1
      · rw [evaluates_iff] at hv; rw [raises_iff, hv] at h1; cases h1
  | output hd hv _ ih =>
    intro o h
    rcases defPiece_cases hd with ⟨w, i, c, rfl⟩ | rfl | hm | hdef
    · obtain ⟨k, hk⟩ := hv; cases k <;> cases hk
    · obtain ⟨k, hk⟩ := hv; cases k <;> cases hk
    · obtain ⟨h, -⟩ := mark_value hm hv; rcases hm with rfl | rfl <;> cases h
    · rcases (generates_definition hdef (by simp [hx])).1 h with ⟨f, s1, o1, h1, h2, rfl⟩ | ⟨s1, h1, h2⟩ | ⟨-, h1⟩
      · cases (evaluates_det hv h1).1
      · obtain ⟨-, rfl⟩ := evaluates_det hv h1
        exact ih h2
      · rw [evaluates_iff] at hv; rw [raises_iff, hv] at h1; cases h1

theorem enters_evaluates {e : EEnv} {ind ind' : Indent} {cut cut' : Bool} {ys : List Node} {s s' : ESt} {t : Str} {n : Nat} {cfg : Config}
    (h : Enters (Avoids e emits) cfg ind cut ys s ind' cut' t n s') : Enters (Evaluates e) cfg ind cut ys s ind' cut' t n s' := by
  induction h with
  | nil => exact .nil
  | plain _ ih => exact .plain ih
  | comment _ ih => exact .comment ih
  | mark h _ ih => exact .mark h ih
  | names h h1 _ ih => exact .names h (C95_avoids h1) ih
  | output h h1 _ ih => exact .output h (C95_avoids h1) ih

/-- **C100.** A program that begins with the import of the library never fails in it: the definitions are entered, nothing is
    output but line ends, and what the program comes to is what its rest comes to in the scopes they leave. -/
theorem C100_start (e : EEnv) (readable : Node → Str) (input : Option Str) (seen : List Node) {x : BExt} (hs : StdEnv e x)
    {xs : List SourcePart} {src path text : Str} {r : Expanded} {known : List Str}
    (hS : Source (modeOf e.pe) (.lib ['s', 't', 'd', 'l', 'i', 'b'] :: xs) src)
    (hlib : e.pe.readLib stdKey = some (path, text)) (htext : unifyEol text = stdText)
    (hE : Expands (modeOf e.pe) e.pe [stdKey, e.pe.inputFile, ['<', 'n', 'u', 'l', 'l', '>']] xs r known)
    (hcr : '\r' ∉ src) (hnull : e.pe.inputFile ≠ ['<', 'n', 'u', 'l', 'l', '>']) (hin : e.pe.inputFile ≠ stdKey)
    (hm : e.pe.outputPython = true → ¬ MagicFirst e.pe.word src ∧ ¬ MagicSecond e.pe.word src) :
    ∃ ys ns st cut t s', StdPieces ys ∧ ModuleTrees false r ns ∧
      Enters (Avoids e emits) e.cfg (.str []) false ys { p := st, seen := seen } (.str []) cut t 18 s' ∧
      (∀ c ∈ t, c = '\n') ∧ s'.p = st ∧ s'.outputFile = none ∧ s'.rept = false ∧ s'.seen = seen ∧
      (∀ o, Generates e (.str []) false ns s' o → ∃ run, Translates e readable input seen src run ∧ Reports ((leaveAll 18 o).after t) run) ∧
      ∀ run, Translates e readable input seen src run →
        ∃ o, Generates e (.str []) false ns s' o ∧ Reports ((leaveAll 18 o).after t) run := by
  obtain ⟨o, ns, st, h2, N, hp⟩ := std_read e.pe input hS hlib htext hE hcr hnull hin hm
  obtain ⟨cut, t, s', h3, h4, h5⟩ := C100_entered hs o (s := { p := st, seen := seen }) rfl [] false
  have h6 := enters_evaluates h3
  refine ⟨stdTree o, ns, st, cut, t, s', stdTree_is o, h2, h3, h4, h5.1, h5.2.1, h5.2.2.1, h5.2.2.2, fun o' ho => ?_, fun run hrun => ?_⟩
  · have := (generates_mark (e := e) (m := .importBegin) (cut := false) (.inl rfl)).2
      ((C100_scope e (stdTree o) (.importEnd :: ns) (stdTree_is o).defs (by simp) (.str []) false { p := st, seen := seen } _).2
        (.inl ⟨_, cut, t, 18, s', o', h6, (generates_mark (.inr rfl)).2 ho, rfl⟩))
    exact run_made hp (textMade_of (generates_made this))
  · obtain ⟨o1, ho, hr⟩ := made_run hp hrun
    obtain ⟨o', h7, rfl⟩ := enters_generates h6 (by simp) ((generates_mark (.inl rfl)).1 ho)
    exact ⟨o', (generates_mark (.inr rfl)).1 h7, hr⟩

/-! ## A case -/

theorem leaveAll_text (n : Nat) (t : Str) (s : ESt) : ∃ s', leaveAll n (.text t s) = .text t s' := by
  induction n with
  | zero => exact ⟨s, rfl⟩
  | succ n ih => obtain ⟨s', h⟩ := ih; exact ⟨_, by rw [leaveAll, h]; rfl⟩

/-- An environment with what the library takes for granted. -/
def startEnv : EEnv :=
  openEnv {} { pe := { inputFile := ['p'], readLib := fun k => if k = stdKey then some (['/'], stdText) else none } } {}
    (fun _ => 9223372036854775807) (fun _ => -9223372036854775808) [['_', '_', 'i'], ['_', '_', 'l', 'a', 's', 't']]

theorem startEnv_std : StdEnv startEnv {} where
  used := fun f h => ⟨fun _ => if_pos h, fun _ _ _ => if_pos h⟩
  free := fun f h sc => by
    have : f ∉ stdUsed := (by decide : ∀ f ∈ stdFree, f ∉ stdUsed) f h
    simp only [startEnv, openEnv]
    rw [if_neg this, if_pos h]
  less := .inl (by decide)
  max := ⟨by decide, fun _ => ⟨_, rfl⟩⟩
  min := ⟨by decide, fun _ => ⟨_, rfl⟩⟩

/-- The program `($import stdlib)`, line break, `y`, line break: a run of it ends with these two lines behind line ends. -/
example (readable : Node → Str) : ∃ t run, Translates startEnv readable none [] sampleProgram run ∧ (∀ c ∈ t, c = '\n') ∧
    ∃ s, Reports (.text (t ++ ['\n', 'y', '\n']) s) run := by
  obtain ⟨ys, ns, st, cut, t, s', -, hn, -, ht, -, -, -, -, h1, -⟩ := C100_start startEnv readable none [] startEnv_std
    (sampleProgram_source _) (r := .chars ['\n', 'y', '\n'] .nil) rfl (C12_no_cr_id _ (by decide +kernel)) (.chars .nil) (by decide) (by decide) (by decide)
    (by intro h; cases h)
  generalize hx : Expanded.chars ['\n', 'y', '\n'] .nil = r at hn
  cases hn with
  | chars hi hz =>
    obtain ⟨hw, rfl⟩ := Expanded.chars.inj hx
    cases hz
    obtain ⟨run, h2, h3⟩ := h1 _ (.plain .nil)
    obtain ⟨s2, h4⟩ := leaveAll_text 18 (fragment startEnv.cfg ['\n', 'y', '\n'] false ++ []) s'
    rw [← hw] at h3
    change Reports ((leaveAll 18 (.text (fragment startEnv.cfg ['\n', 'y', '\n'] false ++ []) s')).after t) run at h3
    rw [h4] at h3
    exact ⟨t, run, h2, ht, s2, h3⟩
  | _ => cases hx

end Yupp
