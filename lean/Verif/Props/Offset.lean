import Verif.Lemmas.Provenance
import Verif.Model.World
/-!
# Offset tables and provenance: C06 – C08
-/

namespace Yupp
open Spec

/-- **C07**. The binary search returns the number of entries whose key is not greater than `x`. -/
theorem C07_bisect (a : Offset) (x : Int) (h : Ascending a) :
    bisect a x = (a.filter (fun e => decide (e.1 ≤ x))).length := by
  rw [bisect_eq_cnt a x h]
  simp [cnt]

example : Ascending ([(1, 5), (3, 6), (3, 7), (9, 8)] : Offset) ∧
    bisect [(1, 5), (3, 6), (3, 7), (9, 8)] 3 = 3 := by
  refine ⟨by simp [Ascending], by decide⟩

/-- **C06**. Merging two tables is composition of the translations. -/
theorem C06_merge_is_composition (P N : Offset) (hP : Ascending P) (hN : StrictlyAscending N)
    (hm : Spec.Monotone N) (q : Int) :
    posMap (mergeOffset P N) q = posMap P (posMap N q) :=
  mergeOffset_shift P N hP hN hm q

/-- The merged table can be searched, and merged again. -/
theorem C06_merge_ascending (P N : Offset) (hP : Ascending P) (hN : StrictlyAscending N)
    (hm : Spec.Monotone N) : Ascending (mergeOffset P N) := mergeOffset_asc P N hP hN hm

/-- The hypotheses hold for every table that the code merges: those of the trimmer … -/
theorem C06_trim_tables (indent : Str) (s : Str) :
    StrictlyAscending (trimOffsets (cutLen (splitKeep s)) indent.length true (splitKeep s) 0 0) ∧
    Spec.Monotone (trimOffsets (cutLen (splitKeep s)) indent.length true (splitKeep s) 0 0) := by
  have := trimCells_reloc indent (blankCells s)
  rw [text_blankCells] at this
  exact ⟨this.asc, this.mono⟩

/-- … and those of the empty-line reduction. -/
theorem C06_reduce_tables (s : Str) :
    StrictlyAscending ((splitKeep s).foldl reduceStep {}).offset ∧
    Spec.Monotone ((splitKeep s).foldl reduceStep {}).offset := by
  have := reduce_reloc (blankCells s)
  rw [text_blankCells] at this
  exact ⟨this.asc, this.mono⟩

example : posMap (mergeOffset [(0, 2), (4, 6)] [(1, 3)]) 1 = posMap [(0, 2), (4, 6)] (posMap [(1, 3)] 1) := by
  decide

/-- References of a location stand at its start, for every state of the sources. -/
theorem World.loc_zero (w : World) : ∀ n l, ∀ e ∈ w.loc n l, e.1 = 0 := by
  intro n
  induction n with
  | zero => intro l e he; simp [World.loc] at he
  | succ n ih =>
    intro l e he
    unfold World.loc at he
    split at he
    · simp at he
    · split at he
      · split at he
        · split at he
          · rcases List.mem_append.mp he with h | h
            · exact ih _ e h
            · exact ih _ e h
          · exact ih _ e he
        · split at he
          · exact ih _ e he
          · simp at he
      · split at he
        · simp at he; subst he; rfl
        · simp at he; subst he; rfl

/-- **C08**. For every generated text (any nesting of texts, lists, trimming, reduction and
    replacement of steady blanks), and every character in it that was copied from a located fragment,
    reading the tables at the character's position gives the innermost reference of the fragment and
    the index of the character in the fragment; the entries there are all its references, outermost first. The text of the cells is the generated text. -/
theorem C08_provenance (cfg : Config) (repr : Node → Str) (w : World) (fuel : Nat) (r : Res)
    (cs : List Cell) (h : Generated cfg { repr := repr, locs := w.loc fuel } r cs) :
    r.txt = text cs ∧
    ∀ (i : Nat) (c : Cell) (o : Origin), cs[i]? = some c → c.org = some o →
      resolve r i = some (o.file, o.pos, (o.idx : Int)) ∧ references r i = o.outer ++ [(o.file, o.pos)] := by
  obtain ⟨orig, hinv⟩ := generated_inv cfg _ (fun l e he => w.loc_zero fuel l e he) h
  exact ⟨hinv.txt, fun i c o hc ho => ⟨hinv.resolve i c o hc ho, hinv.references i c o hc ho⟩⟩

/-- Two files, an application indented by two blanks inside a trimmed block, then reduction. -/
def exWorld : World := { source := [(lit "a", .path none, []), (lit "b", .path (some (lit "/l/b")), [])] }
/-- The tree of the example. -/
def exTree : Node :=
  .t [.plain { txt := lit "x\n\n\n", loc := some ⟨lit "a", 0⟩ } .none false,
      .trim (.t [.plain { txt := lit "    u\n      v\n", loc := some ⟨lit "b", 7⟩ } .none false] .none) (lit "  ")] .none

example :
    let x : TextExt := { repr := fun _ => [], locs := exWorld.loc 3 }
    let r := (plainBrowse { browse := true } x exTree).reduceEmptiness { browse := true }
    let cs := reduceCells { browse := true } (treeCells { browse := true } x (fun _ => []) exTree)
    Generated { browse := true } x r cs ∧ r.txt = lit "x\n\nu\n    v\n" ∧
    cs[9]? = some ⟨'v', some ⟨lit "/l/b", 7, 12, []⟩⟩ ∧ resolve r 9 = some (lit "/l/b", 7, 12) := by
  refine ⟨.reduce _ _ (.tree _ _ ?_), by decide, by decide, by decide⟩
  intro r hr
  simp [exTree, results, resultss] at hr

end Yupp
