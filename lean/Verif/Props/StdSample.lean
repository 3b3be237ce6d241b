import Verif.Props.ModuleScope
import Verif.Props.Builtin
/-!
# C100 — The library, a concrete case

The pieces of `lib/stdlib.yu`, entered in a concrete environment.
-/

namespace Yupp
open Spec (push Avoids emits until')

/-- The definitions are entered, with at most `N` levels of evaluation each and no `$emit`. -/
def entersAll (e : EEnv) (N : Nat) : List Node → ESt → Bool
  | [], _ => true
  | .plain .. :: ys, s => entersAll e N ys s
  | .comment :: ys, s => entersAll e N ys s
  | .set l x :: ys, s => match until' e emits N (.set l x) s with
    | .ok (.env f, s1) => entersAll e N ys (push s1 f)
    | _ => false
  | .macro a ps b :: ys, s => match until' e emits N (.macro a ps b) s with
    | .ok (.env f, s1) => entersAll e N ys (push s1 f)
    | _ => false
  | _, _ => false

theorem entersAll_sound {e : EEnv} {N : Nat} : ∀ {ys : List Node} {s : ESt} {ind : Indent} {cut : Bool}, entersAll e N ys s = true →
    ∃ ind' cut' t n s', Enters (Avoids e emits) e.cfg ind cut ys s ind' cut' t n s' := by
  intro ys
  induction ys with
  | nil => intro s ind cut _; exact ⟨_, _, _, _, _, .nil⟩
  | cons y ys ih =>
    intro s ind cut h
    cases y with
    | plain w i c =>
      obtain ⟨_, _, _, _, _, h'⟩ := ih (s := s) h
      exact ⟨_, _, _, _, _, .plain h'⟩
    | comment =>
      obtain ⟨_, _, _, _, _, h'⟩ := ih (s := s) h
      exact ⟨_, _, _, _, _, .comment h'⟩
    | set l x =>
      simp only [entersAll] at h
      split at h
      · rename_i f s1 h1
        obtain ⟨_, _, _, _, _, h'⟩ := ih h
        exact ⟨_, _, _, _, _, .names (.set _ _) ⟨_, h1⟩ h'⟩
      · cases h
    | «macro» a ps b =>
      simp only [entersAll] at h
      split at h
      · rename_i f s1 h1
        obtain ⟨_, _, _, _, _, h'⟩ := ih h
        exact ⟨_, _, _, _, _, .names (.macro_ _ _ _) ⟨_, h1⟩ h'⟩
      · cases h
    | _ => cases h

/-- An environment with the functions of the table that the library's definitions name. The value of an embedded Python
    expression is 5. -/
def sampleEnv : EEnv where
  pe := { inputFile := ['a'] }
  pyParse := fun t => some ⟨t, []⟩
  pyEval := fun _ _ _ => some (.int 5)
  builtin := fun _ f => if f ∈ [lit "not", lit "join", lit "split", lit "unq", lit "sum", lit "range", lit "len", lit "reversed", lit "sub",
    lit "atoi"] then some .fn else none
  call := fun _ f as seen => builtinCall {} f as seen

set_option maxRecDepth 100000 in
theorem sampleStd_entered : ∃ ind' cut' t n s', Enters (Avoids sampleEnv emits) sampleEnv.cfg (.str []) false (stdTree none) {} ind' cut' t n s' :=
  entersAll_sound (N := 60) (by decide +kernel)

theorem sampleEnv_standard {f : Str} (h : f ∈ [lit "not", lit "join", lit "split", lit "unq", lit "sum", lit "range", lit "len", lit "reversed",
    lit "sub", lit "atoi"]) : Spec.Standard sampleEnv {} f :=
  ⟨fun _ => by simp only [sampleEnv]; rw [if_pos h], fun _ _ _ => rfl⟩

theorem sample_digits : Denotes 2 ['1', '0', '1'] 5 :=
  .snoc (s := ['1', '0']) (n := 2) (d := 1) (.snoc (s := ['1']) (n := 1) (d := 0) (.snoc (s := []) (n := 0) (d := 1) .nil
    (.dec (by decide) (by decide)) (by decide)) (.dec (by decide) (by decide)) (by decide)) (.dec (by decide) (by decide)) (by decide)

/-- Behind the library `($if 1 "a" "b")` is `a`, `($BIN "101")` is 5, and `($define "A" "1")` is one directive. -/
example : ∃ s', Scopes.lookup s'.env (lit "x") = none ∧
    (∃ v, Evaluates sampleEnv (.apply (.var false [] { txt := lit "if" }) [.int 1, .pstr ['a'], .pstr ['b']] [] none) s' v s' ∧
      Spec.Chosen (.int 1) (some (.pstr ['a'])) (some (.pstr ['b'])) v) ∧
    Evaluates sampleEnv (.apply (.var false [] { txt := lit "BIN" }) [.pstr ['1', '0', '1']] [] none) s' (.int 5) s' ∧
    ∃ lines u, Evaluates sampleEnv (.apply (.var false [] { txt := lit "define" }) [.pstr ['A'], .pstr ['1']] [] none) s' (.pstr u) s' ∧
      Spec.Joined [' ', '\\', '\n'] lines u := by
  obtain ⟨_, _, _, _, s', h⟩ := sampleStd_entered
  refine ⟨s', C100_stdlib_others (stdTree_is none) h (by decide +kernel), ?_, ?_, ?_⟩
  · exact C100_if (stdTree_is none) h rfl rfl (data_arg (.int _) (by simp) (data_arg (.pstr _) (by simp) (data_arg (.pstr _) (by simp) (.nil _))))
      (.int _) (by simp only [List.forall_mem_cons]; exact ⟨.inl ⟨.pstr _, by simp⟩, .inl ⟨.pstr _, by simp⟩, by simp⟩) (by simp)
  · exact (C100_bin (stdTree_is none) h (sampleEnv_standard (by simp)) rfl rfl rfl (data_arg (.pstr _) (by simp) (.nil _)) rfl (by decide)).1 5
      (.mk (s := []) (g := []) (p := []) (ds := ['1', '0', '1']) (t := []) (by simp) (by simp) .none (.inl rfl) (by simp) sample_digits)
  · obtain ⟨l, u, h1, -, h2, -⟩ := C100_define (stdTree_is none) h (sampleEnv_standard (by simp)) (sampleEnv_standard (by simp))
      (sampleEnv_standard (by simp)) (sampleEnv_standard (by simp)) (fun _ _ => rfl)
      (fun _ => by simp only [sampleEnv]; exact ⟨if_neg (by decide +kernel), if_neg (by decide +kernel)⟩) (z := s') (z2 := s') rfl (i := { txt := lit "define" }) rfl (loc := none)
      (data_arg (.pstr ['A']) (by simp) (data_arg (.pstr ['1']) (by simp) (.nil _))) (.pstr _) (.pstr _) (by simp) (by simp)
    exact ⟨l, u, h1, h2⟩

/-- The program `($import stdlib)`, line break, `y`, line break. -/
def sampleProgram : Str := ['(', '$', 'i', 'm', 'p', 'o', 'r', 't', ' ', 's', 't', 'd', 'l', 'i', 'b', ')', '\n', 'y', '\n']

theorem sampleProgram_source (m : Mode) : Source m [.lib ['s', 't', 'd', 'l', 'i', 'b'], .chars ['\n', 'y', '\n']] sampleProgram := by
  have hg : IsGap [' '] := by intro c hc; simp at hc; subst hc; decide
  have h0 : IsGap [] := by intro c hc; cases hc
  refine Source.lib (g1 := [' ']) (g2 := []) hg ⟨_, _, rfl, .inl (by decide), by intro c hc; simp at hc; rcases hc with rfl | rfl | rfl | rfl | rfl <;> (unfold NameChar NameStart; decide)⟩ h0 .plain ?_
  refine Source.chars (w := ['\n', 'y', '\n']) (s := []) (by simp) (plainRun_quiet m _ ?_ ?_) rfl .done
  · intro c hc; simp at hc; rcases hc with rfl | rfl | rfl <;> (unfold Admissible; decide)
  · intro c hc; simp at hc; rcases hc with rfl | rfl | rfl <;> (unfold QuoteMark PrefixChar; decide)

/-- Its pieces, where the file of the library is found. -/
example (e : PEnv) (input : Option Str) (ho : e.outputPython = false) (h0 : e.inputFile = ['p']) (hlib : e.readLib stdKey = some (['/'], stdText)) :
    ∃ ys ns st, StdPieces ys ∧ ModuleTrees false (.chars ['\n', 'y', '\n'] .nil) ns ∧
      ∃ N, ∀ n, N ≤ n → (P e n).parse e.inputFile (PSt.start e input sampleProgram) = .ok (.importBegin :: (ys ++ .importEnd :: ns), st) :=
  C100_read e input (sampleProgram_source _) hlib (C12_no_cr_id _ (by decide +kernel)) (.chars .nil) (by decide) (by rw [h0]; decide)
    (by rw [h0]; decide) (by rw [ho]; intro h; cases h)

end Yupp
