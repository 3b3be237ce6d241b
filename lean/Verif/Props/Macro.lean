import Verif.Props.Mixed
import Verif.Props.Feature
import Verif.Props.Generate
/-!
# C82 — A macro call stands for its text
-/

namespace Yupp

open Spec

/-- A text that is registered and follows the grammar is parsed to what the grammar says. -/
theorem recorded_parses (e : EEnv) {xs : ExprText} {t : Str} (h : Reads (modeOf e.pe) (.text .file 0 0 xs) t []) (hne : t ≠ [])
    (s : ESt) (decl call : Option Loc)
    (hk : e.pe.outputPython = true → e.pe.inputFile ≠ (record s t decl call).1) :
    ∃ nodes, TextTrees true xs nodes ∧ (∀ ys, TextTrees true ys nodes → ys = xs) ∧
      Parses e (record s t decl call).1 (record s t decl call).2 nodes (record s t decl call).2 := by
  obtain ⟨src', nodes, h1, h2, h3, N, h4⟩ := C61_reading e.pe h { txt := t, loc := some ⟨(record s t decl call).1, 0⟩ } rfl
  refine ⟨nodes, h2, h3, N + 1, (record s t decl call).2.p, ?_, rfl⟩
  generalize hkey : (record s t decl call).1 = key at *
  generalize hst : (record s t decl call).2.p = st
  have hfind : ∃ d, st.world.find key = some (d, t) := by
    subst hst hkey
    clear hk h4
    cases decl <;> exact ⟨_, by simp [World.find, record]; rfl⟩
  obtain ⟨d, hfind⟩ := hfind
  change psParse e.pe (P e.pe N) key st = _
  unfold psParse
  have hget : PM.get st = .ok (st, st) := rfl
  rw [pm_bind_ok hget, hfind]
  have hrun : psRun (P e.pe N) { txt := t, loc := some ⟨key, 0⟩ } [] st = .ok (nodes, st) := by
    unfold psRun
    rw [if_neg (by simpa using hne)]
    have h5 := h4 N (Nat.le_refl _) st
    change (P e.pe N).text .eof _ _ = _ at h5
    rw [pm_bind_ok h5]
    cases nodes <;> rfl
  cases t with
  | nil => exact absurd rfl hne
  | cons c t =>
    dsimp only
    rw [if_neg]
    · exact hrun
    · intro ho
      simp only [Bool.and_eq_true, decide_eq_true_eq] at ho
      exact hk ho.2 ho.1

theorem run_some_text {m : Mode} {k : TextEnd} {sq pth : Nat} {w t r : Str} (h : Reads m (.run k sq pth w .nil) t r) : False := by
  generalize hc : Cat.run k sq pth w .nil = c at h
  induction h generalizing sq pth w <;> try (cases hc; done)
  case runChar ih => cases hc; exact ih rfl

theorem not_nil_of_read {m : Mode} {t : Str} (hne : t ≠ []) (h : Reads m (.text .file 0 0 .nil) t []) : False := by
  cases h with
  | textEnd h => cases h; exact hne rfl
  | textChar _ h => exact run_some_text h

/-- The pieces in place of a piece that comes to a text with definitions. -/
theorem generates_block {e : EEnv} {x : Node} {ys : List Node} {i : Indent} {s s1 : ESt} (hx : Form x)
    (h : Evaluates e x s (.embed (.t ys i)) s1) (ind : Indent) (cut : Bool) (rest : List Node) (o : Yield) :
    Generates e ind cut (x :: rest) s o ↔ Generates e ind false (putIn ind ys ++ rest) s1 o := by
  constructor
  · intro hg
    cases hg with
    | plain _ => exact absurd ⟨_, _, _, rfl⟩ hx.1
    | comment _ => exact absurd rfl hx.2
    | nothing _ h1 h2 _ =>
      obtain ⟨rfl, -⟩ := evaluates_det h h1
      rcases h2 with h2 | h2 | h2 <;> cases h2
    | item _ h1 h2 _ _ =>
      obtain ⟨rfl, -⟩ := evaluates_det h h1
      cases h2 with
      | embed h2 => exact absurd rfl (h2 _ _)
      | value _ _ _ _ _ h2 => exact absurd rfl (h2 _)
    | waits _ h1 h2 _ _ =>
      obtain ⟨rfl, -⟩ := evaluates_det h h1
      cases h2 with
      | embed h2 => exact absurd rfl (h2 _ _)
      | value _ _ _ _ _ h2 => exact absurd rfl (h2 _)
    | definition _ h1 _ _ => cases (evaluates_det h h1).1
    | lastDefinition _ h1 => cases (evaluates_det h h1).1
    | block _ h1 h2 =>
      obtain ⟨h3, rfl⟩ := evaluates_det h h1
      cases h3
      exact h2
    | skip _ h1 _ => cases (evaluates_det h h1).1
    | fails _ h1 => exact absurd h1 (not_raises h)
  · exact fun hg => .block hx h hg

/-- A form whose outcome is that of evaluating a code that follows the grammar. -/
theorem stands_for (e : EEnv) (fn : Node) (args : List Node) (loc : Option Loc) (T : Str) (decl call : Option Src) (s s2 : ESt)
    (hexp : SameOutcome e (.apply fn args [] loc) s (.eval (.pstr T) decl call) s2)
    {xs : ExprText} (hr : Reads (modeOf e.pe) (.text .file 0 0 xs) T []) (hne : T ≠ [])
    (hk : e.pe.outputPython = true → e.pe.inputFile ≠ natStr s2.p.world.inclusion.length) :
    ∃ nodes s3, TextTrees true xs nodes ∧ s3 = (record s2 T (decl.bind (·.loc)) (call.bind (·.loc))).2 ∧
      ((∃ x ∈ nodes, Defines x) → ∀ ind cut rest o, Generates e ind cut (.apply fn args [] loc :: rest) s o ↔
        Generates e ind false (putIn ind nodes ++ rest) s3 o) ∧
      (∀ x, nodes = [x] → ¬ Defines x → SameOutcome e (.apply fn args [] loc) s x s3) ∧
      ((∀ x ∈ nodes, ¬ Defines x) → nodes.length ≠ 1 → SameOutcome e (.apply fn args [] loc) s (.text nodes) s3) := by
  obtain ⟨nodes, h1, -, h2⟩ := recorded_parses e hr hne s2 (decl.bind (·.loc)) (call.bind (·.loc)) hk
  have hcode : SourceOf e.pe.unq (.pstr T) T :=
    .code (.pstr _) (fun _ h => by cases h)
  have hval : Evaluates e (.pstr T) s2 (.pstr T) s2 := ⟨1, rfl⟩
  have trans : ∀ {x : Node} {s' : ESt}, SameOutcome e (.eval (.pstr T) decl call) s2 x s' → SameOutcome e (.apply fn args [] loc) s x s' :=
    fun h => ⟨fun v s' => (hexp.1 v s').trans (h.1 v s'), hexp.2.trans h.2⟩
  refine ⟨nodes, _, h1, rfl, fun hd => ?_, fun x hx hd => ?_, fun hd hlen => ?_⟩
  · have hev := ev_eval (decl := decl) (call := call) hval hcode h2
    have hany : nodes.any Node.isSet = true := by
      rw [List.any_eq_true]
      obtain ⟨x, hx, lval, a, rfl⟩ := hd
      exact ⟨_, hx, rfl⟩
    have hne' : nodes.isEmpty = false := by
      obtain ⟨x, hx, _⟩ := hd
      cases nodes with
      | nil => cases hx
      | cons => rfl
    rw [hne', hany] at hev
    have hev' : Evaluates e (.apply fn args [] loc) s (.embed (.t nodes (.str []))) _ := (hexp.1 _ _).2 (evaluates_iff.2 hev)
    intro ind cut rest o
    exact generates_block ⟨(by rintro ⟨_, _, _, h⟩; cases h), (by intro h; cases h)⟩ hev' ind cut rest o
  · subst hx
    exact trans (C59_one_form e _ _ x decl call _ s2 s2 _ hval hcode h2 hd)
  · refine trans ((C59_text e _ _ decl call _ nodes s2 s2 _ hval hcode h2 hd hlen).2 ?_)
    rintro rfl
    cases h1
    exact not_nil_of_read hne hr

/-- **C82**. A macro call whose text, the arguments put in, follows the grammar: the outcome is that of the pieces of this
    text. If there are definitions among them, the pieces stand in place of the call, so that the definitions hold for
    what follows it; otherwise they are a text of their own, or a form of its own if there is only one. The text is
    registered, with the place of the definition of the macro (see C35). -/
theorem C82_macro (e : EEnv) (fn : Node) (text decl : Src) (c0 : Option Src) (ps : List Str) (args vs : List Node)
    (ts : List Str) (loc : Option Loc) (s s1 s2 : ESt)
    (hf : Evaluates e fn s (.mclosure text (ps.map (fun p => (p, Node.bound))) decl c0) s1)
    (ha : Args e args s1 vs s2) (hps : ps ≠ []) (hl : vs.length = ps.length) (hnd : ps.Nodup) (hva : vaArgs ∉ ps)
    (hv : ∀ v ∈ vs, Value v) (hn : ∀ v ∈ vs, v ≠ .none) (hts : Each2 ArgText vs ts)
    (hok : NamesOk (ps.zip ts)) (hclean : Unmarked (ps.zip ts) (substitute (ps.zip ts) text.txt))
    {xs : ExprText} (hr : Reads (modeOf e.pe) (.text .file 0 0 xs) (substitute (ps.zip ts) text.txt) [])
    (hne : substitute (ps.zip ts) text.txt ≠ [])
    (hk : e.pe.outputPython = true → e.pe.inputFile ≠ natStr s2.p.world.inclusion.length) :
    ∃ nodes s3, TextTrees true xs nodes ∧ s3 = (record s2 (substitute (ps.zip ts) text.txt) decl.loc
        ((if ps.length = 1 then callOf fn else none).bind (·.loc))).2 ∧
      ((∃ x ∈ nodes, Defines x) → ∀ ind cut rest o, Generates e ind cut (.apply fn args [] loc :: rest) s o ↔
        Generates e ind false (putIn ind nodes ++ rest) s3 o) ∧
      (∀ x, nodes = [x] → ¬ Defines x → SameOutcome e (.apply fn args [] loc) s x s3) ∧
      ((∀ x ∈ nodes, ¬ Defines x) → nodes.length ≠ 1 → SameOutcome e (.apply fn args [] loc) s (.text nodes) s3) := by
  exact stands_for e fn args loc _ (some decl) _ s s2
    (C33_expansion e fn text decl c0 ps args vs ts loc s s1 s2 hf ha hps hl hnd hva hv hn hts hok hclean) hr hne hk

/-- **C82**. The same for a macro without parameters, which is called with the name alone in parentheses. -/
theorem C82_without_parameters (e : EEnv) (fn : Node) (text decl : Src) (c0 : Option Src) (args : List Node) (loc : Option Loc)
    (s s1 s2 : ESt) (hf : Evaluates e fn s (.mclosure text [] decl c0) s1) (ha : Args e args s1 [] s2)
    {xs : ExprText} (hr : Reads (modeOf e.pe) (.text .file 0 0 xs) text.txt []) (hne : text.txt ≠ [])
    (hk : e.pe.outputPython = true → e.pe.inputFile ≠ natStr s2.p.world.inclusion.length) :
    ∃ nodes s3, TextTrees true xs nodes ∧ s3 = (record s2 text.txt decl.loc ((callOf fn).bind (·.loc))).2 ∧
      ((∃ x ∈ nodes, Defines x) → ∀ ind cut rest o, Generates e ind cut (.apply fn args [] loc :: rest) s o ↔
        Generates e ind false (putIn ind nodes ++ rest) s3 o) ∧
      (∀ x, nodes = [x] → ¬ Defines x → SameOutcome e (.apply fn args [] loc) s x s3) ∧
      ((∀ x ∈ nodes, ¬ Defines x) → nodes.length ≠ 1 → SameOutcome e (.apply fn args [] loc) s (.text nodes) s3) :=
  stands_for e fn args loc _ (some decl) _ s s2 (C33_without_parameters e fn text decl c0 args loc s s1 s2 hf ha) hr hne hk

end Yupp
