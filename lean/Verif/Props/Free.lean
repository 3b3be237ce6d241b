import Verif.Lemmas.Free
import Verif.Props.Eol
import Verif.Props.Reduce
import Verif.Props.Shell
/-!
# C01 — Macro-free text is passed through
-/

namespace Yupp

open Spec

theorem admissible_any {t : Str} (h : Admissible t) : ∀ c ∈ t, isAny c = true := by
  intro c hc
  rcases h c hc with rfl | rfl | ⟨h1, h2⟩
  · decide
  · decide
  · simp [isAny, h1, h2]

theorem admissible_cr {t : Str} (h : Admissible t) : '\r' ∉ t := by
  intro hc
  rcases h _ hc with h | h | ⟨h, _⟩
  · exact absurd h (by decide)
  · exact absurd h (by decide)
  · exact absurd h (by decide)

/-- A test for `MacroFree`. -/
def freeTest : Str → Bool
  | '(' :: '$' :: _ => false
  | '(' :: '`' :: _ => false
  | _ :: t => freeTest t
  | [] => true

theorem macroFree_of : ∀ {t : Str}, freeTest t = true → MacroFree t := by
  intro t ht a
  induction a generalizing t with
  | nil => intro b; constructor <;> rintro rfl <;> simp [freeTest] at ht
  | cons c a ih =>
    intro b
    constructor <;> rintro rfl
    · refine (ih (t := a ++ ['(', '$'] ++ b) ?_ b).1 rfl
      simp only [List.cons_append] at ht
      unfold freeTest at ht
      split at ht <;> simp_all
    · refine (ih (t := a ++ ['(', '`'] ++ b) ?_ b).2 rfl
      simp only [List.cons_append] at ht
      unfold freeTest at ht
      split at ht <;> simp_all

/-- The text a successful translation gives. -/
theorem pp_text (cfg : Config) (hr : cfg.reduceEmptiness = false) {raw : Raw} {t : Str}
    (h : raw = .str t ∨ ∃ r, raw = .res r ∧ r.txt = t) :
    (pp cfg raw).1 = true ∧ (pp cfg raw).2.txt = t.map steady := by
  rcases h with rfl | ⟨r, rfl, rfl⟩
  · refine ⟨rfl, ?_⟩
    change replaceSteady (reduceEmptiness cfg t) = _
    rw [C02_reduce_off cfg hr, replaceSteady_map]
    rfl
  · refine ⟨rfl, ?_⟩
    change replaceSteady (Res.reduceEmptiness cfg r).txt = _
    rw [show Res.reduceEmptiness cfg r = r by simp [Res.reduceEmptiness, hr], replaceSteady_map]
    rfl

/-- **C01**. Without `($` and `` (` ``, made of TAB, LF and U+0020..U+00FF, not for Python and with comments
    not looked for, with the reduction of empty lines off: every text is translated, whatever its quotes and
    brackets, and the result is the text, with U+00FE and U+00FF turned into a space and a TAB. No request to
    repeat is made and the output file is not changed. This holds with and without browsing information. -/
theorem C01_passed_through (e : EEnv) (readable : Node → Str) (input : Option Str) (seen : List Node) (text : Str)
    (hp : e.pe.outputPython = false) (hs : e.pe.skip = .none) (hr : e.cfg.reduceEmptiness = false)
    (hf : MacroFree text) (ha : Admissible text) :
    ∃ run, Translates e readable input seen text run ∧ (pp e.cfg run.raw).1 = true ∧
      (pp e.cfg run.raw).2.txt = text.map steady ∧ run.rept = false ∧ run.outputFile = none := by
  have hu := C12_no_cr_id text (admissible_cr ha)
  rcases free_run e readable input seen text (by rw [hu]; exact hf) (by rw [hp]; simp) with ⟨_, h⟩ | ⟨_, h⟩ | ⟨r, _, h, hr'⟩
  · rw [hu] at h
    rcases h with h | h | ⟨c, hc, h⟩
    · rw [hp] at h; cases h
    · exact absurd hs h
    · rw [admissible_any ha c hc] at h; cases h
  · have := pp_text e.cfg hr (raw := .str (unifyEol text)) (.inl rfl)
    rw [hu] at this h
    exact ⟨_, h, this.1, this.2, rfl, rfl⟩
  · have := pp_text e.cfg hr (raw := .res r) (.inr ⟨r, rfl, hr'⟩)
    rw [hu] at this
    exact ⟨_, h, this.1, this.2, rfl, rfl⟩

/-- **C01**. Without U+00FE and U+00FF the result is the text itself. -/
theorem C01_identity (e : EEnv) (readable : Node → Str) (input : Option Str) (seen : List Node) (text : Str)
    (hp : e.pe.outputPython = false) (hs : e.pe.skip = .none) (hr : e.cfg.reduceEmptiness = false)
    (hf : MacroFree text) (ha : Admissible text) (h1 : 'þ' ∉ text) (h2 : 'ÿ' ∉ text) :
    ∃ run, Translates e readable input seen text run ∧ (pp e.cfg run.raw).1 = true ∧ (pp e.cfg run.raw).2.txt = text := by
  obtain ⟨run, h, hok, ht, _⟩ := C01_passed_through e readable input seen text hp hs hr hf ha
  refine ⟨run, h, hok, ht.trans ?_⟩
  have : ∀ c ∈ text, steady c = c := by
    intro c hc
    unfold steady
    rw [if_neg (by rintro rfl; exact h2 hc), if_neg (by rintro rfl; exact h1 hc)]
  exact (List.map_congr_left this).trans (List.map_id _)

/-- **C01**. Nothing else changes a text: in every mode, for Python too (without the magic comment), and with
    all characters, a translation that ends in a text gives the input with its line ends made uniform and
    those two characters replaced. -/
theorem C01_never_changed (e : EEnv) (readable : Node → Str) (input : Option Str) (seen : List Node) (text : Str)
    (hr : e.cfg.reduceEmptiness = false) (hf : MacroFree (unifyEol text))
    (hh : e.pe.outputPython = true → psHeader e.pe.word { txt := unifyEol text, loc := some ⟨e.pe.inputFile, 0⟩ } = none)
    (run : Run) (h : Translates e readable input seen text run) :
    run.raw = .raised ∨ ((pp e.cfg run.raw).1 = true ∧ (pp e.cfg run.raw).2.txt = (unifyEol text).map steady) := by
  rcases free_run e readable input seen text hf hh with ⟨h1, _⟩ | ⟨_, h1⟩ | ⟨r, _, h1, hr'⟩ <;>
    have h := translates_det h h1 <;> subst h
  · exact .inl rfl
  · exact .inr (pp_text e.cfg hr (.inl rfl))
  · exact .inr (pp_text e.cfg hr (.inr ⟨r, rfl, hr'⟩))

/-- **C01**. The restriction to these characters is needed: if the first character that is not one of them
    stands before every quote, the text is refused. -/
theorem C01_other_characters_are_refused (e : EEnv) (readable : Node → Str) (input : Option Str) (seen : List Node)
    (a b : Str) (c : Char) (hp : e.pe.outputPython = false) (hs : e.pe.skip = .none)
    (hf : MacroFree (a ++ c :: b)) (hr : '\r' ∉ a ++ c :: b) (h1 : '"' ∉ a) (h2 : '\'' ∉ a) (hc : ¬ Admissible [c])
    (run : Run) (h : Translates e readable input seen (a ++ c :: b) run) : run.raw = .raised := by
  have hu := C12_no_cr_id (a ++ c :: b) hr
  have hc' : isAny c = false := by
    cases h : isAny c with
    | false => rfl
    | true =>
      refine absurd ?_ hc
      intro d hd
      rw [List.mem_singleton] at hd
      subst hd
      have hdr : d ≠ '\r' := by rintro rfl; exact hr (by simp)
      simp only [isAny, isEol, Bool.or_eq_true, beq_iff_eq, Bool.and_eq_true, decide_eq_true_eq] at h
      rcases h with (h | h) | h
      · rcases h with h | h
        · exact .inr (.inl h)
        · exact absurd h hdr
      · exact .inl h
      · exact .inr (.inr h)
  have key : Translates e readable input seen (a ++ c :: b) { raw := .raised } := by
    refine ⟨a.length + 2, ?_⟩
    unfold runAt
    have : (P e.pe (a.length + 2)).parse e.pe.inputFile (PSt.start e.pe input (a ++ c :: b)) = .err := by
      change psParse e.pe (P e.pe (a.length + 1)) e.pe.inputFile _ = .err
      have hfind : (PSt.start e.pe input (a ++ c :: b)).world.find e.pe.inputFile = some (.path input, a ++ c :: b) := by
        simp [PSt.start, World.find, hu]
      unfold psParse
      have hget : PM.get (PSt.start e.pe input (a ++ c :: b)) = .ok (PSt.start e.pe input (a ++ c :: b), PSt.start e.pe input (a ++ c :: b)) := rfl
      rw [pm_bind_ok hget, hfind]
      have hrun : psRun (P e.pe (a.length + 1)) { txt := a ++ c :: b, loc := some ⟨e.pe.inputFile, 0⟩ } []
          (PSt.start e.pe input (a ++ c :: b)) = .err := by
        unfold psRun
        rw [if_neg (by simp)]
        change PM.bind _ _ _ = _
        unfold PM.bind
        rw [free_forbidden e.pe hp hs (a.length + 1) _ _ a c b hf rfl h1 h2 hc' (by omega)]
      cases htx : a ++ c :: b with
      | nil => simp at htx
      | cons d r =>
        rw [htx] at hrun
        simp only []
        rw [if_neg (by simp [hp])]
        exact hrun
    rw [this]
  rw [translates_det h key]

example : ¬ Admissible ['\u03b1'] ∧ MacroFree (lit "a ( " ++ '\u03b1' :: lit "\"") := by
  refine ⟨?_, macroFree_of (by decide)⟩
  unfold Admissible
  decide

/-- **C01**. The unrestricted claim is false: the two characters are changed. -/
theorem C01_two_characters_are_changed (e : EEnv) (readable : Node → Str) (input : Option Str) (seen : List Node)
    (hp : e.pe.outputPython = false) (hs : e.pe.skip = .none) (hr : e.cfg.reduceEmptiness = false) :
    ∃ text run, MacroFree text ∧ Admissible text ∧ Translates e readable input seen text run ∧
      (pp e.cfg run.raw).1 = true ∧ (pp e.cfg run.raw).2.txt ≠ text := by
  have hf : MacroFree ['þ', 'ÿ'] := by
    intro a b
    constructor <;> intro h <;> match a with
      | [] => simp at h
      | [_] => simp at h
      | _ :: _ :: a => simp at h
  have ha : Admissible ['þ', 'ÿ'] := by
    intro c hc
    simp only [List.mem_cons, List.not_mem_nil, or_false] at hc
    rcases hc with rfl | rfl <;> exact .inr (.inr (by decide))
  obtain ⟨run, h, hok, ht, _⟩ := C01_passed_through e readable input seen _ hp hs hr hf ha
  exact ⟨_, run, hf, ha, h, hok, by rw [ht]; decide⟩

/-- **C01**, to the output file: an engine that translates this text as the model does, and file operations
    that do not fail, leave the text in the output file. -/
theorem C01_output_file (e : EEnv) (readable : Node → Str) (seen : List Node) (text fn fno : Str) (sh : ShellCfg)
    (json : Res → Str) (eng : Engine) (passage : Nat) (o : Oracle) (s : Sys) (v s')
    (hp : e.pe.outputPython = false) (hs : e.pe.skip = .none) (hr : e.cfg.reduceEmptiness = false)
    (hf : MacroFree text) (ha : Admissible text)
    (heng : Translates e readable (some fn) seen text (eng s.fs passage fn fno text)) (ho : NoFault o)
    (h : ppStream e.cfg sh json eng passage (Prog.pure text) fn fno o s = .done v s') :
    v.1.ok = true ∧ v.1.fnO = fno ∧ Holds s'.fs fno (text.map steady) := by
  obtain ⟨run, h1, hok, ht, _, hout⟩ := C01_passed_through e readable (some fn) seen text hp hs hr hf ha
  have he := translates_det heng h1
  have hv := ppStream_val (s' := s) rfl h
  simp only [he, hok, if_true, finalFn, hout] at hv
  have h1 : v.1.ok = true := by rw [hv]
  have h2 : v.1.fnO = fno := by rw [hv]
  have h3 : v.1.plain.txt = text.map steady := by rw [hv]; exact ht
  obtain ⟨⟨g, hg, hc, _⟩, _⟩ := success_written e.cfg sh json eng passage text fn fno o s ho v s' h h1
  exact ⟨h1, h2, g, by rw [← h2]; exact hg, by rw [hc, h3]⟩

/-! A text with an open quote, brackets that do not match and the two special characters meets the hypotheses. -/

example : MacroFree (lit "int a[ 3 ] = \"((\\\"\", 'c) ( $ ` ]\n\tþÿ") ∧ Admissible (lit "int a[ 3 ] = \"((\\\"\", 'c) ( $ ` ]\n\tþÿ") := by
  refine ⟨macroFree_of (by decide), ?_⟩
  unfold Admissible
  decide

end Yupp
