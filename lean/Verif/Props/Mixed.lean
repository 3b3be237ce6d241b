import Verif.Props.Syntax
import Verif.Props.Header
/-!
# Source texts with forms in them: C61

The grammar of texts (`Reads` with `.text`), their trees (`TextTrees`) and the printer are those of C20, in
`Spec/Syntax` and `Spec/Print`. `modeOf` tells what kind of file is made and which comments are left alone.
-/

namespace Yupp

variable {e : PEnv}

/-! ## Reading a text -/

/-- **C61**. A text inside a form (`[..]`, `,,..;;`, `($code ..)`, `{..}`, ..) or a whole file, written according to the
    grammar, is divided into plain text, literals, definitions and forms as the grammar says, in this order, and nothing of
    it is lost: the parser goes on where the text ends, and no other text has the nodes it returns. -/
theorem C61_reading (e : PEnv) {k : TextEnd} {xs : ExprText} {s r : Str} (h : Reads (modeOf e) (.text k 0 0 xs) s r)
    (src : Src) (hs : src.txt = s) :
    ∃ src' nodes, src'.txt = r ∧ TextTrees true xs nodes ∧ (∀ ys, TextTrees true ys nodes → ys = xs) ∧
      ∃ N, ∀ n, N ≤ n → ∀ st, (P e n).text (stopOf k) { sou := src } st = .ok ((src', nodes), st) := by
  obtain ⟨src', ns, h1, h2, h3⟩ := reads_means h { sou := src } hs rfl rfl (fun _ => rfl)
  refine ⟨src', ns, h1, h2, fun ys hy => texts_inj hy h2, ?_⟩
  obtain ⟨N, h3⟩ := h3.text
  exact ⟨N, fun n hn st => h3 n hn st⟩

/-- **C61**. A text can be divided in at most one way. -/
theorem C61_unambiguous {m : Mode} {k : TextEnd} {xs ys : ExprText} {s r r' : Str} (h1 : Reads m (.text k 0 0 xs) s r)
    (h2 : Reads m (.text k 0 0 ys) s r') : xs = ys ∧ r = r' := by
  rw [← modeOf_envOf m] at h1 h2
  obtain ⟨a1, n1, b1, c1, -, N1, d1⟩ := C61_reading (envOf m) h1 { txt := s } rfl
  obtain ⟨a2, n2, b2, -, c2, N2, d2⟩ := C61_reading (envOf m) h2 { txt := s } rfl
  have e1 := d1 (max N1 N2) (by omega) {}
  rw [d2 (max N1 N2) (by omega) {}] at e1
  injection e1 with e1
  injection e1 with e1 _
  injection e1 with e1 e2
  subst e1 e2
  exact ⟨c2 xs c1, by rw [← b1, ← b2]⟩

/-! ## Whole files -/

/-- **C61**. A file that follows the grammar, and in Python mode has no magic comment, is parsed: its tree is the one of
    the text. -/
theorem C61_file (e : PEnv) (input : Option Str) {xs : ExprText} {s : Str} (h : Reads (modeOf e) (.text .file 0 0 xs) s [])
    (hne : s ≠ []) (hcr : '\r' ∉ s) (hm : e.outputPython = true → ¬ MagicFirst e.word s ∧ ¬ MagicSecond e.word s) :
    ∃ nodes, TextTrees true xs nodes ∧ (∀ ys, TextTrees true ys nodes → ys = xs) ∧ ∃ N, ∀ n, N ≤ n →
      (P e n).parse e.inputFile (PSt.start e input s) = .ok (nodes, PSt.start e input s) := by
  obtain ⟨src', nodes, h1, h2, h3, N, h4⟩ := C61_reading e h { txt := s, loc := some ⟨e.inputFile, 0⟩ } rfl
  refine ⟨nodes, h2, h3, N + 1, fun n hn => ?_⟩
  obtain ⟨m, rfl⟩ : ∃ m, n = m + 1 := ⟨n - 1, by omega⟩
  change psParse e (P e m) e.inputFile _ = _
  have hu := C12_no_cr_id s hcr
  have hfind : (PSt.start e input s).world.find e.inputFile = some (.path input, s) := by
    simp [PSt.start, World.find, hu]
  unfold psParse
  have hget : PM.get (PSt.start e input s) = .ok (PSt.start e input s, PSt.start e input s) := rfl
  rw [pm_bind_ok hget, hfind]
  have hrun : psRun (P e m) { txt := s, loc := some ⟨e.inputFile, 0⟩ } [] (PSt.start e input s) =
      .ok (nodes, PSt.start e input s) := by
    unfold psRun
    rw [if_neg (by simpa using hne)]
    have h5 := h4 m (by omega) (PSt.start e input s)
    change (P e m).text .eof _ _ = _ at h5
    rw [pm_bind_ok h5]
    cases nodes <;> rfl
  cases s with
  | nil => exact absurd rfl hne
  | cons c s =>
    dsimp only
    split
    · rename_i ho
      simp only [decide_true, Bool.true_and] at ho
      have := psHeader_neither e.word { txt := c :: s, loc := some ⟨e.inputFile, 0⟩ } hcr (hm ho).1 (hm ho).2
      rw [this]
      exact hrun
    · exact hrun

/-- **C61**. The same for printed texts: parsing undoes printing. -/
theorem C61_print_parse (e : PEnv) (input : Option Str) {xs : ExprText} (h : xs.Ok (modeOf e) true 0) (hne : xs.print ≠ [])
    (hcr : '\r' ∉ xs.print)
    (hm : e.outputPython = true → ¬ MagicFirst e.word xs.print ∧ ¬ MagicSecond e.word xs.print) :
    ∃ nodes, TextTrees true xs nodes ∧ (∀ ys, TextTrees true ys nodes → ys = xs) ∧ ∃ N, ∀ n, N ≤ n →
      (P e n).parse e.inputFile (PSt.start e input xs.print) = .ok (nodes, PSt.start e input xs.print) := by
  have := text_reads xs true 0 0 h [] (fun _ => rfl)
  simp only [tailOf, if_true, List.append_nil] at this
  exact C61_file e input this hne hcr hm

/-- **C61**. Different texts are printed differently. -/
theorem C61_print_injective {m : Mode} {xs ys : ExprText} (hx : xs.Ok m true 0) (hy : ys.Ok m true 0)
    (h : xs.print = ys.print) : xs = ys := by
  have h1 := text_reads xs true 0 0 hx [] (fun _ => rfl)
  have h2 := text_reads ys true 0 0 hy [] (fun _ => rfl)
  rw [h] at h1
  exact (C61_unambiguous h1 h2).1

/-! ## Concrete cases -/

/-- A check for plain text that is good in all modes. -/
def plainCheck : Str → Bool
  | [] => true
  | c :: s => (decide (c = '\t' ∨ c = '\n' ∨ c = '\r' ∨ (' ' ≤ c ∧ c ≤ 'ÿ'))) && c != '"' && c != '\'' && c != '#' && c != '/' &&
      !(c == '(' && (s.head? == some '$' || s.head? == some '`')) && plainCheck s

theorem plainCheck_spec (m : Mode) : ∀ {w : Str}, plainCheck w = true →
    (∀ c ∈ w, Admissible c ∧ ¬ QuoteMark c) ∧
    ∀ a b, w = a ++ b → ¬ ['(', '$'] <+: b ∧ ¬ ['(', '`'] <+: b ∧ ¬ StartsRemark m.remarks b := by
  intro w
  induction w with
  | nil =>
    intro _
    refine ⟨(fun _ h => by cases h), fun a b h => ?_⟩
    obtain ⟨rfl, rfl⟩ := List.append_eq_nil_iff.mp h.symm
    refine ⟨by simp, by simp, ?_⟩
    cases m.remarks <;> simp [StartsRemark]
  | cons c w ih =>
    intro h
    unfold plainCheck at h
    simp only [Bool.and_eq_true, decide_eq_true_eq, bne_iff_ne, ne_eq, Bool.not_eq_true', Bool.and_eq_false_iff,
      Bool.or_eq_false_iff, beq_eq_false_iff_ne] at h
    obtain ⟨⟨⟨⟨⟨⟨h1, h2⟩, h3⟩, h4⟩, h5⟩, h6⟩, h7⟩ := h
    obtain ⟨i1, i2⟩ := ih h7
    refine ⟨fun d hd => ?_, fun a b hab => ?_⟩
    · rcases List.mem_cons.mp hd with rfl | hd
      · exact ⟨h1, fun hq => hq.elim h2 h3⟩
      · exact i1 d hd
    · cases a with
      | cons d a =>
        simp only [List.cons_append, List.cons.injEq] at hab
        exact i2 a b hab.2
      | nil =>
        rw [List.nil_append] at hab
        subst hab
        refine ⟨?_, ?_, ?_⟩
        · rintro ⟨t, ht⟩
          simp only [List.cons_append, List.cons.injEq, List.nil_append] at ht
          rcases h6 with h6 | h6
          · exact h6 ht.1.symm
          · exact h6.1 (by rw [← ht.2]; rfl)
        · rintro ⟨t, ht⟩
          simp only [List.cons_append, List.cons.injEq, List.nil_append] at ht
          rcases h6 with h6 | h6
          · exact h6 ht.1.symm
          · exact h6.2 (by rw [← ht.2]; rfl)
        · cases m.remarks with
          | none => exact id
          | c =>
            rintro (⟨t, ht⟩ | ⟨t, ht⟩) <;> (simp only [List.cons_append, List.cons.injEq] at ht; exact h5 ht.1.symm)
          | python =>
            rintro ⟨t, ht⟩
            simp only [List.cons_append, List.cons.injEq] at ht
            exact h4 ht.1.symm

theorem plainOk_of_check (m : Mode) {w : Str} (hne : w ≠ []) (h : plainCheck w = true) : PlainOk m w :=
  ⟨hne, plainCheck_spec m h⟩

/-- A definition, plain text with parentheses and an application of the defined function to a text. -/
def sampleText : ExprText :=
  .set (.one ['f']) (.fn (.par [] ['t'] .nil) (.code (.chars ['<'] (.expr (.app (.name false [] ['t']) .nil .nil) (.chars ['>'] .nil)))))
    (.chars ['\n', 'g', '('] (.expr (.app (.name false [] ['f']) (.pos (.code (.chars ['a', '(', ')', ' '] (.str ['"', 'b', '"'] .nil))) .nil) .nil)
      (.chars [')', ';', '\n'] (.macro ['m'] [['x']] ['x', '+', '1'] (.comment .nil)))))

example : sampleText.print =
    lit "($set f \\t.($code<($ t)>))\ng(($ f ($codea() (`\"b\"))));\n($macro m( x)x+1)($!)" := by decide +kernel

theorem sampleText_ok (m : Mode) : sampleText.Ok m true 0 := by
  have hn : ∀ c : Char, 'a' ≤ c ∧ c ≤ 'z' → IsName [c] := fun c h => isName_letter h
  have hv : ∀ c : Char, 'a' ≤ c ∧ c ≤ 'z' → (Expr.name false [] [c]).Ok m := fun c h =>
    ⟨hn c h, fun _ h => (by cases h), fun h => by cases h⟩
  refine ⟨hn _ (by decide), ⟨⟨?_, hn _ (by decide), trivial⟩, ?_, ⟨plainOk_of_check m (by decide) (by decide), rfl, 0, rfl,
    ⟨hv _ (by decide), trivial, trivial⟩, rfl, plainOk_of_check m (by decide) (by decide), rfl, 0, rfl, .inr rfl⟩, rfl⟩,
    plainOk_of_check m (by decide) (by decide), rfl, 1, rfl, ⟨hv _ (by decide), ⟨⟨plainOk_of_check m (by decide) (by decide), rfl, 0, rfl,
      ?_, ?_, .inr rfl⟩, rfl, trivial⟩, trivial⟩, rfl, plainOk_of_check m (by decide) (by decide), rfl, 0, rfl,
    hn _ (by decide), ?_, ?_, ?_, .inl rfl⟩
  · intro _ h; cases h
  · intro h; cases h
  · exact .char (by decide) (by decide) (.char (by decide) (by decide) (.char (by decide) (by decide) .nil))
  · intro c hc; simp at hc; rcases hc with rfl | rfl | rfl <;> (unfold Admissible; decide)
  · intro p hp; simp at hp; subst hp; exact hn _ (by decide)
  · exact .char (by decide) (by decide) (.char (by decide) (by decide) (.char (by decide) (by decide) .nil))
  · intro c hc; simp at hc; rcases hc with rfl | rfl | rfl <;> (unfold Admissible; decide)

example (e : PEnv) (input : Option Str) (h : e.outputPython = false) : ∃ nodes, TextTrees true sampleText nodes ∧
    (∀ ys, TextTrees true ys nodes → ys = sampleText) ∧ ∃ N, ∀ n, N ≤ n →
      (P e n).parse e.inputFile (PSt.start e input sampleText.print) = .ok (nodes, PSt.start e input sampleText.print) :=
  C61_print_parse e input (sampleText_ok _) (by decide +kernel) (by decide +kernel) (fun h' => by rw [h] at h'; cases h')

theorem starts_head_eq {a c : Char} {k s : Str} (h : a :: k <+: c :: s) : c = a := by
  obtain ⟨t, ht⟩ := h
  simp only [List.cons_append, List.cons.injEq] at ht
  exact ht.1.symm

/-- A text in square brackets: inner brackets belong to it. -/
example (m : Mode) : Reads m (.text .square 0 0 (.chars ['[', ']'] .nil)) ['[', ']', ']', 'x'] ['x'] := by
  have hp : ∀ (sq pth : Nat) (c : Char) (s : Str), (c = '[' ∨ (c = ']' ∧ sq ≠ 0)) → PlainAt m .square sq pth c s := by
    intro sq pth c s h
    have hq : c ≠ '(' ∧ ¬ QuoteMark c ∧ c ≠ '/' ∧ c ≠ '#' ∧ ¬ PrefixChar c := by
      rcases h with rfl | ⟨rfl, -⟩ <;> (unfold QuoteMark PrefixChar; decide)
    refine ⟨by rcases h with rfl | ⟨rfl, -⟩ <;> (unfold Admissible; decide), fun r hr => ?_, fun hf => ?_, fun hf => ?_, fun hl => ?_, fun hr => ?_⟩
    · cases hr
      rcases h with h | ⟨-, h⟩
      · cases h
      · exact h rfl
    · exact hq.1 (starts_head_eq hf)
    · exact hq.1 (starts_head_eq hf)
    · obtain ⟨p, q, t, hpp, hqq, he⟩ := literal_quote hl
      cases p with
      | nil => cases he; exact hq.2.1 hqq
      | cons d p => cases he; exact hq.2.2.2.2 (prefix_chars hpp _ List.mem_cons_self)
    · revert hr
      cases m.remarks with
      | none => exact id
      | c => rintro (h | h) <;> exact hq.2.2.1 (starts_head_eq h)
      | python => exact fun h => hq.2.2.2.1 (starts_head_eq h)
  exact .textChar (hp _ _ _ _ (.inl rfl)) (.runChar (hp _ _ _ _ (.inr ⟨rfl, by decide⟩)) (.runEnd rfl (.textEnd .square)))

end Yupp
