import Verif.Lemmas.Provenance
import Verif.Spec.Lines
/-!
# Line ends and steady blanks: C12, C13
-/

namespace Yupp
open Spec

theorem unifyEol_eq (s : Str) : unifyEol s = oneEol s := by
  unfold unifyEol replace
  rw [replaceGo_char]
  fun_induction oneEol s with
  | case1 => rfl
  | case2 t ih =>
    have : replaceGo ['\r', '\n'] ['\n'] 0 ('\r' :: '\n' :: t)
        = '\n' :: replaceGo ['\r', '\n'] ['\n'] 0 t := by simp [replaceGo]
    rw [this]
    simpa using ih
  | case3 t h ih =>
    have hp : List.isPrefixOf ['\r', '\n'] ('\r' :: t) = false := by
      cases t with
      | nil => rfl
      | cons a t =>
        simp only [List.isPrefixOf]
        have : a ≠ '\n' := by rintro rfl; exact h t rfl
        simpa using fun h => absurd h.symm this
    simp only [replaceGo, hp]
    simpa using ih
  | case4 c t h1 h2 ih =>
    have hc : c ≠ '\r' := by rintro rfl; exact h2 rfl
    have hp : List.isPrefixOf ['\r', '\n'] (c :: t) = false := by
      simp only [List.isPrefixOf]
      have : ('\r' == c) = false := by simpa using fun h => hc h.symm
      simp [this]
    simp only [replaceGo, hp]
    simpa [hc] using ih

/-- **C12**. The effect of `_unify_eol`. -/
theorem C12_unify_eol (s : Str) : unifyEol s = oneEol s := unifyEol_eq s

/-- **C12**. No CR is left. -/
theorem C12_no_cr (s : Str) : '\r' ∉ unifyEol s := by
  rw [unifyEol_eq]
  fun_induction oneEol s with
  | case1 => simp
  | case2 t ih => simpa using ih
  | case3 t h ih => simpa using ih
  | case4 c t h1 h2 ih =>
    intro h
    rcases List.mem_cons.mp h with h | h
    · exact h2 h.symm
    · exact ih h

/-- **C12**. A text without CR is not changed; so unifying twice is unifying once. -/
theorem C12_no_cr_id (s : Str) (h : '\r' ∉ s) : unifyEol s = s := by
  rw [unifyEol_eq]
  induction s with
  | nil => rfl
  | cons c t ih =>
    have hc : c ≠ '\r' := by rintro rfl; exact h (by simp)
    rw [oneEol]
    · rw [ih (fun hh => h (List.mem_cons_of_mem _ hh))]
    · intro t' h1 _; exact hc h1
    · exact hc

/-- **C12**. Idempotence. -/
theorem C12_idempotent (s : Str) : unifyEol (unifyEol s) = unifyEol s := C12_no_cr_id _ (C12_no_cr s)

/-- **C12**. The other characters are kept, in order. -/
theorem C12_other_chars (s : Str) :
    (unifyEol s).filter (fun c => c != '\n') = s.filter (fun c => c != '\n' && c != '\r') := by
  rw [unifyEol_eq]
  fun_induction oneEol s with
  | case1 => rfl
  | case2 t ih => simpa using ih
  | case3 t h ih => simpa using ih
  | case4 c t h1 h2 ih =>
    have : (c != '\r') = true := by simpa using h2
    simp only [List.filter_cons, this, Bool.and_true, ih]

example : unifyEol (lit "a\r\n\r\rb\n\r\nc\r") = lit "a\n\n\nb\n\nc\n" := by decide

/-- **C13**. Each character is replaced on its own; only U+00FE and U+00FF change. -/
theorem C13_steady (s : Str) :
    replaceSteady s = s.map (fun c => if c = 'ÿ' then '\t' else if c = 'þ' then ' ' else c) :=
  replaceSteady_map s

/-- **C13**. The length is kept, and a text without these two characters is not changed. -/
theorem C13_length (s : Str) : (replaceSteady s).length = s.length := by simp [replaceSteady_map]

theorem C13_id (s : Str) (h1 : 'þ' ∉ s) (h2 : 'ÿ' ∉ s) : replaceSteady s = s := by
  rw [replaceSteady_map]
  conv => rhs; rw [← List.map_id s]
  apply List.map_congr_left
  intro c hc
  have e1 : c ≠ 'þ' := by rintro rfl; exact h1 hc
  have e2 : c ≠ 'ÿ' := by rintro rfl; exact h2 hc
  simp [e1, e2]

/-- **C13**. Reading the tables gives the same before and after the replacement. -/
theorem C13_tables (r : Res) (p : Int) : resolve r.replaceSteady p = resolve r p := rfl

example : replaceSteady (lit "aþÿb") = lit "a \tb" := by decide

end Yupp
