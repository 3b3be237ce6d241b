import Verif.Lemmas.Generate
import Verif.Props.Mixed
import Verif.Props.Feature
import Verif.Props.Free
/-!
# C78 — The text a program generates
-/

namespace Yupp

open Spec

variable {e : EEnv}

/-- What a text evaluates to is told by `Generates`, whenever its evaluation ends. -/
theorem text_generates {ind : Indent} {xs : List Node} {s : ESt} (h : ev e (.t xs ind) s ≠ .timeout) :
    ∃ o, Generates e ind false xs s o ∧ TextMade (ev e (.t xs ind) s) o := by
  have key : ∃ n, E e n (.t xs ind) s ≠ .timeout := by
    cases hr : ev e (.t xs ind) s with
    | ok p =>
      obtain ⟨n, hn⟩ := evaluates_iff.2 hr
      exact ⟨n, by rw [hn]; simp⟩
    | err =>
      obtain ⟨n, hn⟩ := raises_iff.2 hr
      exact ⟨n, by rw [hn]; simp⟩
    | timeout => exact absurd hr h
  obtain ⟨n, hn⟩ := key
  cases n with
  | zero => exact absurd rfl hn
  | succ n =>
    obtain ⟨o, ho⟩ := made_generates (e := e) n xs.length ind false xs s (Nat.le_refl _) (made_exists rfl hn)
    exact ⟨o, ho, textMade_of (generates_made ho)⟩

/-- **C78**. A text evaluates to the text `t`, and leaves the state `s'`, exactly if its pieces generate `t` one after
    another. -/
theorem C78_text (e : EEnv) (ind : Indent) (xs : List Node) (s : ESt) (t : Str) (s' : ESt) :
    Generates e ind false xs s (.text t s') ↔
      ∃ w, Evaluates e (.t xs ind) s w s' ∧ IsText w ∧ ∀ x, strOf x w = t := by
  constructor
  · intro h
    obtain ⟨w, h1, h2, h3⟩ := textMade_of (generates_made h)
    exact ⟨w, evaluates_iff.2 h1, h2, h3⟩
  · rintro ⟨w, h1, h2, h3⟩
    rw [evaluates_iff] at h1
    obtain ⟨o, ho, hm⟩ := text_generates (e := e) (ind := ind) (xs := xs) (s := s) (by rw [h1]; simp)
    rw [h1] at hm
    cases o with
    | text u s1 =>
      obtain ⟨w', h4, h5, h6⟩ := hm
      cases h4
      have : u = t := by rw [← h6 { repr := e.repr, locs := fun _ => [] }, h3]
      rw [this] at ho; exact ho
    | unfinished s1 =>
      obtain ⟨ys, i, h4, h5⟩ := hm
      cases h4; cases h2
    | fails => cases hm

/-- **C78**. It evaluates to something that is not a text exactly if one of its pieces is not reduced to text and none
    raises an exception. -/
theorem C78_unfinished (e : EEnv) (ind : Indent) (xs : List Node) (s : ESt) (s' : ESt) :
    Generates e ind false xs s (.unfinished s') ↔ ∃ w, Evaluates e (.t xs ind) s w s' ∧ ¬ Final w := by
  constructor
  · intro h
    obtain ⟨ys, i, h1, h2⟩ := textMade_of (generates_made h)
    exact ⟨_, evaluates_iff.2 h1, by rw [final_iff]; simp [isTerm, h2]⟩
  · rintro ⟨w, h1, h2⟩
    rw [evaluates_iff] at h1
    obtain ⟨o, ho, hm⟩ := text_generates (e := e) (ind := ind) (xs := xs) (s := s) (by rw [h1]; simp)
    rw [h1] at hm
    cases o with
    | text u s1 =>
      obtain ⟨w', h4, h5, h6⟩ := hm
      cases h4
      exact absurd (by cases h5 <;> constructor) h2
    | unfinished s1 =>
      obtain ⟨ys, i, h4, h5⟩ := hm
      cases h4; exact ho
    | fails => cases hm

/-- **C78**. Its evaluation ends with an exception exactly if that of a piece that is come to does. -/
theorem C78_fails (e : EEnv) (ind : Indent) (xs : List Node) (s : ESt) :
    Generates e ind false xs s .fails ↔ Raises e (.t xs ind) s := by
  constructor
  · intro h
    exact raises_iff.2 (textMade_of (generates_made h))
  · intro h
    rw [raises_iff] at h
    obtain ⟨o, ho, hm⟩ := text_generates (e := e) (ind := ind) (xs := xs) (s := s) (by rw [h]; simp)
    rw [h] at hm
    cases o with
    | text u s1 => obtain ⟨w', h4, _⟩ := hm; cases h4
    | unfinished s1 => obtain ⟨ys, i, h4, _⟩ := hm; cases h4
    | fails => exact ho

/-- The pieces come to one thing only. -/
theorem C78_one_outcome (e : EEnv) (ind : Indent) (xs : List Node) (s : ESt) {o o' : Yield}
    (h : Generates e ind false xs s o) (h' : Generates e ind false xs s o') : o = o' := by
  have h := textMade_of (generates_made h)
  have h' := textMade_of (generates_made h')
  cases o with
  | text t s1 =>
    obtain ⟨w, h1, h2, h3⟩ := h
    cases o' with
    | text u s2 =>
      obtain ⟨w', h1', h2', h3'⟩ := h'
      rw [h1] at h1'; cases h1'
      rw [← h3 { repr := e.repr, locs := fun _ => [] }, ← h3' { repr := e.repr, locs := fun _ => [] }]
    | unfinished s2 => obtain ⟨ys, i, h1', _⟩ := h'; rw [h1] at h1'; cases h1'; cases h2
    | fails => rw [h1] at h'; cases h'
  | unfinished s1 =>
    obtain ⟨ys, i, h1, h2⟩ := h
    cases o' with
    | text u s2 => obtain ⟨w', h1', h2', _⟩ := h'; rw [h1] at h1'; cases h1'; cases h2'
    | unfinished s2 => obtain ⟨ys', i', h1', _⟩ := h'; rw [h1] at h1'; cases h1'; rfl
    | fails => rw [h1] at h'; cases h'
  | fails =>
    cases o' with
    | text u s2 => obtain ⟨w', h1', _⟩ := h'; rw [h] at h1'; cases h1'
    | unfinished s2 => obtain ⟨ys', i', h1', _⟩ := h'; rw [h] at h1'; cases h1'
    | fails => rfl

/-! ## Whole programs -/

theorem ev_text (e : EEnv) (xs : List Node) (s : ESt) : ev e (.text xs) s = ev e (.t xs (.str [])) s := by rw [ev_at]; rfl

theorem run_made {readable : Node → Str} {input : Option Str} {seen : List Node} {src : Str} {nodes : List Node} {st : PSt} {N : Nat}
    (hp : ∀ n, N ≤ n → (P e.pe n).parse e.pe.inputFile (PSt.start e.pe input src) = .ok (nodes, st)) {o : Yield}
    (h : TextMade (ev e (.t nodes (.str [])) { p := st, seen := seen }) o) :
    ∃ run, Translates e readable input seen src run ∧ Reports o run := by
  rw [← ev_text] at h
  have step : ∀ {r : PRes (Node × ESt)}, r ≠ .timeout → ev e (.text nodes) { p := st, seen := seen } = r →
      ∃ n, N ≤ n ∧ E e n (.text nodes) { p := st, seen := seen } = r := by
    intro r hr he
    have : ∃ n, E e n (.text nodes) { p := st, seen := seen } = r := by
      cases r with
      | ok p => exact evaluates_iff.2 he
      | err => exact raises_iff.2 he
      | timeout => exact absurd rfl hr
    obtain ⟨n, hn⟩ := this
    refine ⟨max n N, Nat.le_max_right _ _, ?_⟩
    rcases E_le e (Nat.le_max_left n N) (.text nodes) { p := st, seen := seen } with h | h
    · rw [hn] at h; exact absurd h hr
    · rw [← h, hn]
  cases o with
  | text t s1 =>
    obtain ⟨w, h1, h2, h3⟩ := h
    obtain ⟨n, hn, hE⟩ := step (by simp) h1
    have hrun : runAt e readable n input seen src = .ok { raw := rawOf e readable s1 w, outputFile := s1.outputFile, rept := s1.rept, shrink := s1.p.shrink } := by unfold runAt; rw [hp n hn]; dsimp only; rw [hE]
    refine ⟨_, ⟨n, hrun⟩, ?_⟩
    · refine ⟨?_, rfl, rfl, rfl⟩
      cases h2 with
      | pstr u => exact .inl (by simp [rawOf, Node.isStr, h3])
      | result r => exact .inr ⟨r, rfl, h3 { repr := e.repr, locs := fun _ => [] }⟩
  | unfinished s1 =>
    obtain ⟨ys, i, h1, h2⟩ := h
    obtain ⟨n, hn, hE⟩ := step (by simp) h1
    have hrun : runAt e readable n input seen src = .ok { raw := rawOf e readable s1 (.t ys i), outputFile := s1.outputFile, rept := s1.rept, shrink := s1.p.shrink } := by unfold runAt; rw [hp n hn]; dsimp only; rw [hE]
    refine ⟨_, ⟨n, hrun⟩, ?_⟩
    · exact ⟨⟨_, rfl⟩, rfl, rfl, rfl⟩
  | fails =>
    obtain ⟨n, hn, hE⟩ := step (by simp) h
    have hrun : runAt e readable n input seen src = .ok { raw := .raised } := by unfold runAt; rw [hp n hn]; dsimp only; rw [hE]
    refine ⟨_, ⟨n, hrun⟩, ?_⟩
    · rfl

theorem made_run {readable : Node → Str} {input : Option Str} {seen : List Node} {src : Str} {nodes : List Node} {st : PSt} {N : Nat}
    (hp : ∀ n, N ≤ n → (P e.pe n).parse e.pe.inputFile (PSt.start e.pe input src) = .ok (nodes, st)) {run : Run}
    (hrun : Translates e readable input seen src run) :
    ∃ o, Generates e (.str []) false nodes { p := st, seen := seen } o ∧ Reports o run := by
  have hd := hrun
  obtain ⟨n, hn⟩ := hrun
  have hev : ev e (.t nodes (.str [])) { p := st, seen := seen } ≠ .timeout := by
    rw [← ev_text]
    unfold runAt at hn
    cases hpn : (P e.pe n).parse e.pe.inputFile (PSt.start e.pe input src) with
    | timeout => rw [hpn] at hn; cases hn
    | err =>
      have h2 := hp (max n N) (Nat.le_max_right _ _)
      have h3 := (P_le e.pe (Nat.le_max_left n N)).parse e.pe.inputFile (PSt.start e.pe input src)
      rw [hpn, h2] at h3
      simp at h3
    | ok p =>
      have h2 := hp (max n N) (Nat.le_max_right _ _)
      have h3 := (P_le e.pe (Nat.le_max_left n N)).parse e.pe.inputFile (PSt.start e.pe input src)
      rw [hpn, h2] at h3
      obtain rfl : p = (nodes, st) := by simpa using h3
      rw [hpn] at hn
      dsimp only at hn
      cases hE : E e n (.text nodes) { p := st, seen := seen } with
      | timeout => rw [hE] at hn; cases hn
      | err => rw [raises_iff.1 ⟨n, hE⟩]; simp
      | ok q => rw [(evaluates_iff (v := q.1) (s' := q.2)).1 ⟨n, hE⟩]; simp
  obtain ⟨o, ho, hmade⟩ := text_generates hev
  obtain ⟨run', hr, hrep⟩ := run_made (readable := readable) hp hmade
  rw [translates_det hd hr]
  exact ⟨o, ho, hrep⟩

/-- **C78**. A source that follows the grammar has one sequence of pieces. If they come to something, the translation ends
    and reports it: the text they generate, the output file they choose, whether they ask for another pass. If the
    translation ends, they come to something. -/
theorem C78_program (e : EEnv) (readable : Node → Str) (input : Option Str) (seen : List Node) {xs : ExprText} {src : Str}
    (h : Reads (modeOf e.pe) (.text .file 0 0 xs) src []) (hne : src ≠ []) (hcr : '\r' ∉ src)
    (hm : e.pe.outputPython = true → ¬ MagicFirst e.pe.word src ∧ ¬ MagicSecond e.pe.word src) :
    ∃ nodes, TextTrees true xs nodes ∧
      (∀ o, Generates e (.str []) false nodes { p := PSt.start e.pe input src, seen := seen } o →
        ∃ run, Translates e readable input seen src run ∧ Reports o run) ∧
      ∀ run, Translates e readable input seen src run →
        ∃ o, Generates e (.str []) false nodes { p := PSt.start e.pe input src, seen := seen } o ∧ Reports o run := by
  obtain ⟨nodes, h1, -, N, hp⟩ := C61_file e.pe input h hne hcr hm
  exact ⟨nodes, h1, fun o ho => run_made hp (textMade_of (generates_made ho)), fun run hrun => made_run hp hrun⟩

/-- **C78**. With the reduction of empty lines off, what is written is the generated text, the two characters of C01
    replaced. -/
theorem C78_output (e : EEnv) (hr : e.cfg.reduceEmptiness = false) {t : Str} {s : ESt} {run : Run} (h : Reports (.text t s) run) :
    (pp e.cfg run.raw).1 = true ∧ (pp e.cfg run.raw).2.txt = t.map steady := pp_text e.cfg hr h.1

/-! ## Several files from one source -/

/-- **C40**. `($set __OUTPUT_FILE__ ($__PASSAGE__ list))` at the beginning of a program: the rest generates the text of
    the file the item of this pass names, and another pass is asked for exactly while there are items left. -/
theorem C40_files (e : EEnv) (a b : Src) (x : Node) (items : List Node) (loc : Option Loc) (ind : Indent) (cut : Bool)
    (rest : List Node) (s s1 : ESt) (t : Str) (o : Yield) (ha : a.txt = lit "__OUTPUT_FILE__") (hb : b.txt = lit "__PASSAGE__")
    (hr : Reserved e s b.txt) (hx : Evaluates e x s (.list items) s1) (hp : e.passage < items.length)
    (ht : Template items[e.passage] t ∨ ∃ c, items[e.passage] = .atom c ∧ c.txt = t)
    (ho : Generates e ind false rest { s1 with rept := decide (e.passage + 1 < items.length), outputFile := some (e.pe.unq t) } o) :
    Generates e ind cut (.set (.one a) (.apply (.var false [] b) [x] [] loc) :: rest) s o := by
  have h1 := C40_form e b x items loc s s1 hb hr hx hp
  have h2 := (C58_output_file e a _ _ _ _ ha h1).1 t ht
  refine .nothing ⟨?_, by simp⟩ h2 (.inl rfl) ho
  rintro ⟨_, _, _, h⟩; cases h

/-- **C40**. An item of `($__PASSAGE__ list)` in the text: at every pass the text around it is the same and the item of
    that pass stands in it; another pass is asked for exactly while there are items left. -/
theorem C40_text (e : EEnv) (b u w : Src) (x : Node) (items : List Node) (loc : Option Loc) (ind i j : Indent)
    (s s1 : ESt) (a : Node) (hb : b.txt = lit "__PASSAGE__")
    (hr : Reserved e s b.txt) (hx : Evaluates e x s (.list items) s1) (hp : e.passage < items.length)
    (ha : Item items[e.passage] a) (hf : Final a) :
    Generates e ind false [.plain u i false, .apply (.var false [] b) [x] [] loc, .plain w j false] s
      (.text (u.txt ++ (itemText e (indentBehind ind i) (.apply (.var false [] b) [x] [] loc) a ++ w.txt))
        { s1 with rept := decide (e.passage + 1 < items.length) }) := by
  have h1 := C40_form e b x items loc s s1 hb hr hx hp
  have hpl : ∀ (v : Src), fragment e.cfg v.txt false = v.txt := by intro v; simp [fragment]
  have h3 : Generates e .no false [.plain w j false] { s1 with rept := decide (e.passage + 1 < items.length) } _ := .plain .nil
  have h2 := Generates.plain (c := false) (cut := false) (ind := ind) (w := u) (i := i)
    (.item (cut := false) (ind := indentBehind ind i) ⟨(by rintro ⟨_, _, _, h⟩; cases h), by simp⟩ h1 ha hf h3)
  simpa [Yield.after, hpl] using h2

/-! ## Concrete cases -/

/-- A definition at the beginning of a line, its line end, and two uses of it: the line end behind the definition is not
    written, the value is. -/
example (e : EEnv) (hc : e.cfg.trimAppIndent = true) (s : ESt) :
    Generates e (.str []) false
      [.set (.one ⟨['x'], none⟩) (.int 5), .plain ⟨['\n', 'a', '='], none⟩ .no false, .var false [] ⟨['x'], none⟩,
        .comment, .plain ⟨[';', '\n'], none⟩ (.str []) false] s
      (.text ['a', '=', '5', ';', '\n'] s) := by
  have h1 : Evaluates e (.set (.one ⟨['x'], none⟩) (.int 5)) s (.env [(['x'], .int 5)]) s := ⟨2, rfl⟩
  have h2 : Evaluates e (.var false [] ⟨['x'], none⟩) (push s [(['x'], .int 5)]) (.int 5) (push s [(['x'], .int 5)]) := ⟨2, rfl⟩
  have nf : ∀ x : Node, (∀ a b c, x ≠ .plain a b c) → x ≠ .comment → Form x := fun x h h' => ⟨by rintro ⟨_, _, _, h2⟩; exact h _ _ _ h2, h'⟩
  have h5 : Generates e .no false [.comment, .plain ⟨[';', '\n'], none⟩ (.str []) false] (push s [(['x'], .int 5)]) _ :=
    .comment (.plain .nil)
  have h4 := Generates.item (ind := .no) (cut := false) (nf _ (by simp) (by simp)) h2
    (.value (by simp) (by simp) (by simp) (by simp) (by simp) (by simp)) (.int 5) h5
  have h3 := Generates.plain (ind := .str []) (cut := true) (c := false) (w := ⟨['\n', 'a', '='], none⟩) (i := .no) h4
  have h := Generates.definition (ind := .str []) (cut := false) (nf _ (by simp) (by simp)) h1 (by simp) h3
  have e1 : itemText e .no (.var false [] ⟨['x'], none⟩) (.int 5) = ['5'] := by
    simp only [itemText, shown]; decide
  have e2 : lstrip ['\n', 'a', '='] = ['a', '='] := by decide
  simpa [Yield.leave, Yield.after, fragment, hc, e1, e2, atLineStart, push, pop] using h

end Yupp
