import Verif.Props.Shell
import Verif.Spec.Command
/-!
# C58 — The file a program names as its output is the one that is written
-/

namespace Yupp

theorem finalFn_chosen {run : Run} {d out : Str} : finalFn run d = out ↔ Chosen run.outputFile d out := by
  unfold finalFn
  cases run.outputFile with
  | none => exact ⟨fun h => by cases h; exact .derived _, fun h => by cases h; rfl⟩
  | some f =>
    cases f with
    | nil => exact ⟨fun h => by cases h; exact .empty _, fun h => by
        cases h with
        | empty => rfl
        | named _ h => exact absurd rfl h⟩
    | cons c t => exact ⟨fun h => by cases h; exact .named _ (by simp), fun h => by cases h; rfl⟩

/-- C58: after a successful translation the file the program has named holds the text; the file whose name is derived from that
    of the source, and every other file but the backup and the table of the named one, is as it was. -/
theorem C58_written (cfg sh json) (eng : Engine) (passage) (text fn fno out : Str) (o : Oracle) (s : Sys) (ho : NoFault o) (v s')
    (h : ppStream cfg sh json eng passage (Prog.pure text) fn fno o s = .done v s') (hok : v.1.ok = true)
    (hc : Chosen (eng s.fs passage fn fno text).outputFile fno out) :
    v.1.fnO = out ∧ Holds s'.fs out v.1.plain.txt ∧
      ∀ x, x ≠ out → x ≠ out ++ lit ".bak" → x ≠ out ++ lit ".json" → s'.fs x = s.fs x := by
  have hv := ppStream_val (s' := s) rfl h
  have hfs := ppStream_fs (cfg := cfg) (sh := sh) (json := json) (eng := eng) (passage := passage)
    (rd := Prog.pure text) (fn := fn) (fno := fno) (o := o) (s := s) (s' := s) rfl
  obtain ⟨⟨g, h1, h2, -⟩, -⟩ := success_written cfg sh json eng passage text fn fno o s ho v s' h hok
  rw [h] at hfs
  simp only [] at hfs hv
  have hok' : (pp cfg (eng s.fs passage fn fno text).raw).1 = true := by rw [hv] at hok; exact hok
  have hout : v.1.fnO = out := by
    rw [hv]
    simp only [hok', if_true]
    exact finalFn_chosen.2 hc
  rw [hout] at h1
  refine ⟨hout, ⟨g, h1, h2⟩, fun x hx hb hj => ?_⟩
  rw [hok'] at hfs
  simp only [if_true] at hfs
  rw [finalFn_chosen.2 hc] at hfs
  show (Out.done v s').fs x = _
  rw [hfs]
  exact (store_frame (ok := true) hx fun _ => ⟨hb, hj⟩).fs (P := fun fs => fs x = s.fs x) rfl

/-- A source `a.yu-c` that names `b.c`: `b.c` is written, `a.c` is not. -/
example : ∃ v s', ppStream {} {} (fun _ => []) (fun _ _ _ _ _ => { raw := .str (lit "x"), outputFile := some (lit "b.c") }) 0
      (Prog.pure []) (lit "a.yu-c") (lit "a.c") calm ⟨fun _ => none, 0⟩ = .done v s' ∧ v.1.ok = true ∧
    Holds s'.fs (lit "b.c") (lit "x\n") ∧ s'.fs (lit "a.c") = none :=
  ⟨_, _, rfl, rfl, ⟨_, rfl, by decide⟩, by decide⟩

end Yupp
