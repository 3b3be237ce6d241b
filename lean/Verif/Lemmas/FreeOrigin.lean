import Verif.Lemmas.Free
import Verif.Lemmas.Origin
/-!
# Macro-free text keeps its place
-/

namespace Yupp
open Spec

/-- The fragment is located. -/
def FragLoc : Node → Prop
  | .plain s _ tr => s.loc.isSome ∧ tr = false
  | .str s => s.loc.isSome
  | .remark s => s.loc.isSome
  | _ => False

/-- Literals are located: for Python, or if there are none. -/
def NoBareLiteral (e : PEnv) (t : Str) : Prop := e.outputPython = true ∨ ('"' ∉ t ∧ '\'' ∉ t)

theorem NoBareLiteral.drop {e : PEnv} {t : Str} (h : NoBareLiteral e t) (n : Nat) : NoBareLiteral e (t.drop n) :=
  h.imp id fun h => ⟨fun hm => h.1 (List.mem_of_mem_drop hm), fun hm => h.2 (List.mem_of_mem_drop hm)⟩

theorem loc_drop {s : Src} {n : Nat} (h : s.loc.isSome) : (s.drop n).loc.isSome := by
  simpa [Src.drop] using h

theorem free_leg_loc (e : PEnv) (p : Parsers) (s : Src) (st : PSt) (h : MacroFree s.txt) (hb : NoBareLiteral e s.txt)
    (hs : s.loc.isSome) {r : Src × Option (List Node)} {st' : PSt} (hm : psTextLeg e p s st = .ok (r, st')) :
    (r = (s, none)) ∨ ∃ k x, r = (s.drop k, some [x]) ∧ FragLoc x := by
  rw [free_alternatives e p s st h] at hm
  have hq : psQuoted s st = .ok ((s, none), st) := by
    unfold psQuoted
    rw [free_bquote h, show s.starts kQuote = false from free_starts h _]
    rfl
  have hquote : psQuote e s st = .err ∨ psQuote e s st = .ok ((s, none), st) ∨
      ∃ k, psQuote e s st = .ok ((s.drop k, some (.str (s.take k))), st) := by
    unfold psQuote
    split
    · cases pyStrLen s.txt with
      | no => exact .inr (.inl hq)
      | raises => exact .inl rfl
      | yes n => exact .inr (.inr ⟨n, rfl⟩)
    · next hp =>
      have : cStrLen s.txt = none := by
        rcases hb with hb | hb
        · exact absurd hb hp
        · unfold cStrLen
          split
          · next ht => rw [ht] at hb; simp at hb
          · next ht => rw [ht] at hb; simp at hb
          · rfl
      rw [this]
      exact .inr (.inl hq)
  have hrem : psRemark e s st = .err ∨ psRemark e s st = .ok ((s, none), st) ∨
      ∃ k, psRemark e s st = .ok ((s.drop k, some (.remark (s.take k))), st) := by
    unfold psRemark
    cases e.skip with
    | none => exact .inr (.inl rfl)
    | c =>
      simp only []
      cases remarkCLen s.txt with
      | no => exact .inr (.inl rfl)
      | raises => exact .inl rfl
      | yes n => exact .inr (.inr ⟨n, rfl⟩)
    | python =>
      simp only []
      cases remarkPyLen s.txt with
      | no => exact .inr (.inl rfl)
      | raises => exact .inl rfl
      | yes n => exact .inr (.inr ⟨n, rfl⟩)
  rcases hquote with hq | hq | ⟨k, hq⟩
  · rw [orElse_err (oneNode_err hq)] at hm; cases hm
  · rw [orElse_no (oneNode_ok hq)] at hm
    rcases hrem with hr | hr | ⟨k, hr⟩
    · rw [oneNode_err hr] at hm; cases hm
    · rw [oneNode_ok hr] at hm; cases hm; exact .inl rfl
    · rw [oneNode_ok hr] at hm; cases hm; exact .inr ⟨k, _, rfl, hs⟩
  · rw [orElse_some (oneNode_ok hq)] at hm; cases hm; exact .inr ⟨k, _, rfl, hs⟩

theorem free_text_loc (e : PEnv) : ∀ (n : Nat) (t : TextSt) (st : PSt) (r : Src × List Node) (st' : PSt), MacroFree t.sou.txt →
    NoBareLiteral e t.sou.txt → t.sou.loc.isSome → (∀ x ∈ t.ast, FragLoc x) → (∀ g, t.gen = some g → g.start.loc.isSome) →
    (P e n).text .eof t st = .ok (r, st') → ∀ x ∈ r.2, FragLoc x := by
  intro n
  induction n with
  | zero => intro t st r st' _ _ _ _ _ h; cases h
  | succ n ih =>
    intro t st r st' hf hb hs ha hg h
    change psText e (P e n) .eof t st = _ at h
    unfold psText at h
    change PM.bind (psTextLeg e (P e n) t.sou) _ st = _ at h
    unfold PM.bind at h
    split at h
    · next a s1 hleg =>
      rcases free_leg_loc e _ _ st hf hb hs hleg with rfl | ⟨k, x, rfl, hx⟩
      · dsimp only at h
        cases hst : stopAt .eof t.sou t.sq t.pth with
        | some rest => rw [hst] at h; cases h; exact ha
        | none =>
          rw [hst] at h
          cases hps : plainStep t with
          | none =>
            change PM.bind (PM.ofOption (plainStep t)) _ s1 = _ at h
            unfold PM.bind at h
            rw [hps] at h
            cases h
          | some t' =>
            change PM.bind (PM.ofOption (plainStep t)) _ s1 = _ at h
            unfold PM.bind at h
            rw [hps] at h
            have key : t'.sou = t.sou.drop 1 ∧ (∀ x ∈ t'.ast, FragLoc x) ∧ ∀ g, t'.gen = some g → g.start.loc.isSome := by
              unfold plainStep at hps
              cases hgen : t.gen with
              | none =>
                rw [hgen] at hps
                dsimp only at hps
                split at hps
                · cases hps
                · split at hps
                  · cases hps
                  · cases hps
                    refine ⟨rfl, ?_, ?_⟩
                    · intro x hx
                      rcases List.mem_append.mp hx with hx | hx
                      · exact ha x hx
                      · cases List.mem_singleton.mp hx; exact ⟨hs, rfl⟩
                    · intro g hg'; cases hg'; exact hs
              | some g =>
                rw [hgen] at hps
                dsimp only at hps
                split at hps
                · cases hps
                · split at hps
                  · cases hps
                  · cases hps
                    refine ⟨rfl, ?_, ?_⟩
                    · intro x hx
                      rcases List.mem_append.mp hx with hx | hx
                      · exact ha x (List.dropLast_subset _ hx)
                      · cases List.mem_singleton.mp hx; exact ⟨hg g hgen, rfl⟩
                    · intro g' hg'; cases hg'; exact hg g hgen
            refine ih t' s1 r st' ?_ ?_ ?_ key.2.1 key.2.2 h
            · rw [key.1]; exact macroFree_drop 1 hf
            · rw [key.1]; exact hb.drop 1
            · rw [key.1]; exact loc_drop hs
      · refine ih _ s1 r st' (macroFree_drop k hf) (hb.drop k) (loc_drop hs) ?_ (by intro g hg; cases hg) h
        intro y hy
        rcases List.mem_append.mp hy with hy | hy
        · exact ha y hy
        · cases List.mem_singleton.mp hy; exact hx
    · cases h
    · cases h

theorem free_parse_loc (e : PEnv) (n : Nat) (input : Option Str) (text : Str) (hf : MacroFree (unifyEol text))
    (hh : e.outputPython = true → psHeader e.word { txt := unifyEol text, loc := some ⟨e.inputFile, 0⟩ } = none)
    (hb : NoBareLiteral e (unifyEol text)) {xs st} (h : (P e n).parse e.inputFile (PSt.start e input text) = .ok (xs, st)) :
    ∀ x ∈ xs, FragLoc x := by
  cases n with
  | zero => cases h
  | succ n =>
    change psParse e (P e n) e.inputFile _ = _ at h
    have hfind : (PSt.start e input text).world.find e.inputFile = some (.path input, unifyEol text) := by
      simp [PSt.start, World.find]
    unfold psParse at h
    have hget : PM.get (PSt.start e input text) = .ok (PSt.start e input text, PSt.start e input text) := rfl
    rw [pm_bind_ok hget, hfind] at h
    cases htx : unifyEol text with
    | nil => rw [htx] at h; cases h; simp
    | cons c r =>
      rw [htx] at h hf hh hb
      have hrun : psRun (P e n) { txt := c :: r, loc := some ⟨e.inputFile, 0⟩ } [] (PSt.start e input text) = .ok (xs, st) := by
        simp only [] at h
        split at h
        · next hc => rw [hh (by simpa using hc)] at h; exact h
        · exact h
      unfold psRun at hrun
      rw [if_neg (by simp)] at hrun
      change PM.bind _ _ _ = _ at hrun
      unfold PM.bind at hrun
      split at hrun
      · next a s1 h1 =>
        have := free_text_loc e n _ _ a s1 hf hb rfl (by simp) (by simp) h1
        cases hrun
        split
        · simp
        · simpa using this
      · cases hrun
      · cases hrun

/-- The cells of located fragments have origins. -/
theorem located_cells (cfg : Config) (x : TextExt) (σ : Res → List Cell) : ∀ (xs : List Node), (∀ y ∈ xs, FragLoc y) →
    (∀ y ∈ xs, ∀ s ∈ y.srcs, ∀ l, s.loc = some l → (x.locs l).getLast?.isSome) → ∀ c ∈ treesCells cfg x σ xs, c.org.isSome
  | [], _, _, c, hc => by cases hc
  | y :: ys, h, hl, c, hc => by
    have src : ∀ s : Src, s.loc.isSome → (∀ l, s.loc = some l → (x.locs l).getLast?.isSome) → ∀ c ∈ srcCells x s, c.org.isSome := by
      intro s hs hl c hc
      unfold srcCells at hc
      split at hc
      · next h => rw [h] at hs; cases hs
      · next l hsl =>
        have := hl l hsl
        split at hc
        · next h => rw [h] at this; cases this
        · obtain ⟨i, hi⟩ := List.mem_iff_getElem?.mp hc
          rw [fragCells_getElem _ _ _ _ _ _ hi]; rfl
    simp only [treesCells] at hc
    rcases List.mem_append.mp hc with hc | hc
    · have hy := h y (by simp)
      have hly := hl y (by simp)
      cases y with
      | plain s i tr =>
        obtain ⟨hy, rfl⟩ := hy
        exact src s hy (hly s (by simp [Node.srcs])) c (by simpa [treeCells, getTrimmedWithBrowse] using hc)
      | str s => exact src s hy (hly s (by simp [Node.srcs])) c (by simpa [treeCells] using hc)
      | remark s => exact src s hy (hly s (by simp [Node.srcs])) c (by simpa [treeCells] using hc)
      | _ => exact hy.elim
    · exact located_cells cfg x σ ys (fun z hz => h z (by simp [hz])) (fun z hz => hl z (by simp [hz])) c hc

end Yupp
