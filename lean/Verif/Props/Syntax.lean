import Verif.Lemmas.Print
import Verif.Lemmas.Free
import Verif.Props.Eol
import Verif.Props.Parse
/-!
# Expressions are read as written: C20

The grammar, the printer and the syntax trees are in `Spec/Syntax` and `Spec/Print`.
-/

namespace Yupp

/-! ## The tree determines the expression -/

mutual
theorem tree_inj : ∀ {x y : Expr} {n : Node}, Tree x n → Tree y n → x = y
  | .name .., _, _, h1, h2 => by cases h1; cases h2; rfl
  | .int _, _, _, h1, h2 => by cases h1; cases h2; rfl
  | .str _, _, _, h1, h2 => by cases h1; cases h2; rfl
  | .list xs, _, _, h1, h2 => by
    cases h1 with
    | list a1 => cases h2 with
      | list a2 => rw [args_inj a1 a2]
  | .app f xs ms, _, _, h1, h2 => by
    cases h1 with
    | app f1 a1 b1 => cases h2 with
      | app f2 a2 b2 => rw [tree_inj f1 f2, args_inj a1 a2, named_inj b1 b2]
  | .eval f xs ms, _, _, h1, h2 => by
    cases h1 with
    | eval f1 a1 b1 => cases h2 with
      | eval f2 a2 b2 => rw [tree_inj f1 f2, args_inj a1 a2, named_inj b1 b2]
  | .fn ps x, _, _, h1, h2 => by
    cases h1 with
    | fn f1 a1 => cases h2 with
      | fn f2 a2 => rw [params_inj f1 f2, tree_inj a1 a2]
  | .fnOf _ _ _ x, _, _, h1, h2 => by
    cases h1 with
    | fnOf a1 => cases h2 with
      | fnOf a2 => rw [tree_inj a1 a2]
  | .cond c x y, _, _, h1, h2 => by
    cases h1 with
    | cond a1 b1 c1 => cases h2 with
      | cond a2 b2 c2 => rw [tree_inj a1 a2, tree_inj b1 b2, tree_inj c1 c2]
      | when a2 b2 => cases c1
  | .when c x, _, _, h1, h2 => by
    cases h1 with
    | when a1 b1 => cases h2 with
      | cond a2 b2 c2 => cases c2
      | when a2 b2 => rw [tree_inj a1 a2, tree_inj b1 b2]
  | .letIn t x y, _, _, h1, h2 => by
    cases h1 with
    | letIn t1 a1 b1 => cases h2 with
      | letIn t2 a2 b2 =>
        rw [tree_inj a1 a2, tree_inj b1 b2]
        cases t1 <;> cases t2 <;> rfl
  | .emit .., _, _, h1, h2 => by
    cases h1 with
    | emit => cases h2 with
      | emit => rfl
      | emitWith a => cases a
  | .emitWith _ _ _ f, _, _, h1, h2 => by
    cases h1 with
    | emitWith a1 => cases h2 with
      | emit => cases a1
      | emitWith a2 => rw [tree_inj a1 a2]
  | .code xs, _, _, h1, h2 => by
    cases h1 with
    | code a1 => cases h2 with
      | code a2 => rw [texts_inj a1 a2]
  | .python xs, _, _, h1, h2 => by
    cases h1 with
    | python a1 => cases h2 with
      | python a2 => rw [texts_inj a1 a2]

theorem args_inj : ∀ {xs ys : ExprArgs} {ns : List Node}, ArgTrees xs ns → ArgTrees ys ns → xs = ys
  | .nil, _, _, h1, h2 => by cases h1; cases h2; rfl
  | .pos x xs, _, _, h1, h2 => by
    cases h1 with
    | pos t1 a1 => cases h2 with
      | pos t2 a2 => rw [tree_inj t1 t2, args_inj a1 a2]
      | embed t2 a2 => cases t1
  | .embed x xs, _, _, h1, h2 => by
    cases h1 with
    | embed t1 a1 => cases h2 with
      | pos t2 a2 => cases t2
      | embed t2 a2 => rw [tree_inj t1 t2, args_inj a1 a2]

theorem named_inj : ∀ {xs ys : ExprNamed} {ms : List (Src × Node)}, NamedTrees xs ms → NamedTrees ys ms → xs = ys
  | .nil, _, _, h1, h2 => by cases h1; cases h2; rfl
  | .cons a x xs, _, _, h1, h2 => by
    cases h1 with
    | cons t1 a1 => cases h2 with
      | cons t2 a2 => rw [tree_inj t1 t2, named_inj a1 a2]

theorem params_inj : ∀ {ps qs : ExprParams} {bs : List (List Src × Src × Option Node)}, ParamTrees ps bs → ParamTrees qs bs →
    ps = qs
  | .nil, _, _, h1, h2 => by cases h1; cases h2; rfl
  | .par l a ps, _, _, h1, h2 => by
    cases h1 with
    | par n1 a1 => cases h2 with
      | par n2 a2 => rw [params_inj a1 a2]
      | dots a2 => exact absurd rfl n1
  | .dflt l a x ps, _, _, h1, h2 => by
    cases h1 with
    | dflt t1 a1 => cases h2 with
      | dflt t2 a2 => rw [tree_inj t1 t2, params_inj a1 a2]
  | .dots ps, _, _, h1, h2 => by
    cases h1 with
    | dots a1 => cases h2 with
      | par n2 a2 => exact absurd rfl n2
      | dots a2 => rw [params_inj a1 a2]

theorem texts_inj : ∀ {xs ys : ExprText} {f g : Bool} {ns : List Node}, TextTrees f xs ns → TextTrees g ys ns → xs = ys
  | .nil, _, _, _, _, h1, h2 => by cases h1; cases h2; rfl
  | .chars w xs, _, _, _, _, h1, h2 => by
    cases h1 with
    | chars _ a1 => cases h2 with
      | chars _ a2 => rw [texts_inj a1 a2]
      | expr _ t2 _ => cases t2
  | .expr x xs, _, _, _, _, h1, h2 => by
    cases h1 with
    | expr n1 t1 a1 => cases h2 with
      | chars _ _ => cases t1
      | expr _ t2 a2 => rw [tree_inj t1 t2, texts_inj a1 a2]
      | set _ _ _ => cases t1
      | «macro» _ => cases t1
      | comment _ => cases t1
      | str _ => cases t1; exact absurd rfl (n1 _)
      | remark _ => cases t1
  | .set t x xs, _, _, _, _, h1, h2 => by
    cases h1 with
    | set t1 x1 a1 => cases h2 with
      | expr _ t2 _ => cases t2
      | set t2 x2 a2 =>
        rw [tree_inj x1 x2, texts_inj a1 a2]
        cases t1 <;> cases t2 <;> rfl
  | .macro a ps b xs, _, _, _, _, h1, h2 => by
    cases h1 with
    | «macro» a1 => cases h2 with
      | expr _ t2 _ => cases t2
      | «macro» a2 => rw [texts_inj a1 a2]
  | .comment xs, _, _, _, _, h1, h2 => by
    cases h1 with
    | comment a1 => cases h2 with
      | expr _ t2 _ => cases t2
      | comment a2 => rw [texts_inj a1 a2]
  | .str s xs, _, _, _, _, h1, h2 => by
    cases h1 with
    | str a1 => cases h2 with
      | expr n2 t2 _ => cases t2; exact absurd rfl (n2 _)
      | str a2 => rw [texts_inj a1 a2]
  | .remark s xs, _, _, _, _, h1, h2 => by
    cases h1 with
    | remark a1 => cases h2 with
      | expr _ t2 _ => cases t2
      | remark a2 => rw [texts_inj a1 a2]
end

/-! ## Reading -/

/-- **C20**. Whatever is written according to the grammar is read as the expression it stands for: the parser
    goes on exactly behind it, and no other expression has the tree it returns. -/
theorem C20_reading (e : PEnv) {x : Expr} {s r : Str} (h : Reads (modeOf e) (.form x) s r) (src : Src) (hs : src.txt = s) :
    ∃ src' node, src'.txt = r ∧ Tree x node ∧ (∀ y, Tree y node → y = x) ∧
      ∃ N, ∀ n, N ≤ n → ∀ st, (P e n).form src st = .ok ((src', some node), st) := by
  obtain ⟨src', node, h1, h2, h3⟩ := reads_means (e := e) h src hs
  exact ⟨src', node, h1, h2, fun y hy => tree_inj hy h2, h3.form⟩

/-- **C20**. Every expression that can be written, printed in front of any text that does not continue it, is
    read back, and the rest of the text is left. -/
theorem C20_print_parse (e : PEnv) {x : Expr} (h : x.Ok (modeOf e)) (g r : Str) (hg : IsGap g) (hr : Stops r) (he : Ended (g ++ r))
    (src : Src) (hs : src.txt = x.print ++ (g ++ r)) :
    ∃ src' node, src'.txt = r ∧ Tree x node ∧ (∀ y, Tree y node → y = x) ∧
      ∃ N, ∀ n, N ≤ n → ∀ st, (P e n).form src st = .ok ((src', some node), st) :=
  C20_reading e ((expr_reads x h).form g r hg hr he) src hs

theorem stops_nil : Stops [] := ⟨(fun _ h => by cases h), by simp, by simp⟩
theorem ends_nil : Ended [] := ⟨⟨(fun _ h => by cases h), (fun _ _ _ h => by cases h)⟩, (fun _ h => by cases h)⟩

/-- **C20**. The same where the text ends with the expression. -/
theorem C20_print_parse_end (e : PEnv) {x : Expr} (h : x.Ok (modeOf e)) (src : Src) (hs : src.txt = x.print) :
    ∃ src' node, src'.txt = [] ∧ Tree x node ∧ (∀ y, Tree y node → y = x) ∧
      ∃ N, ∀ n, N ≤ n → ∀ st, (P e n).form src st = .ok ((src', some node), st) :=
  C20_print_parse e h [] [] isGap_nil stops_nil ends_nil src (by simpa using hs)

/-- Settings for a mode. -/
def envOf (m : Mode) : PEnv :=
  { inputFile := [], outputPython := m.python,
    skip := match m.remarks with | .none => .none | .c => .c | .python => .python }

theorem modeOf_envOf (m : Mode) : modeOf (envOf m) = m := by
  obtain ⟨p, r⟩ := m
  cases r <;> rfl

/-- **C20**. A text is written in at most one way: the grammar is unambiguous. -/
theorem C20_unambiguous {m : Mode} {x y : Expr} {s r r' : Str} (h1 : Reads m (.form x) s r) (h2 : Reads m (.form y) s r') :
    x = y ∧ r = r' := by
  rw [← modeOf_envOf m] at h1 h2
  obtain ⟨a1, n1, b1, c1, -, N1, d1⟩ := C20_reading (envOf m) h1 { txt := s } rfl
  obtain ⟨a2, n2, b2, -, c2, N2, d2⟩ := C20_reading (envOf m) h2 { txt := s } rfl
  have e1 := d1 (max N1 N2) (by omega) {}
  rw [d2 (max N1 N2) (by omega) {}] at e1
  injection e1 with e1
  injection e1 with e1 _
  injection e1 with e1 e2
  injection e2 with e2
  subst e1 e2
  exact ⟨c2 x c1, by rw [← b1, ← b2]⟩

/-- **C20**. Different expressions are printed differently. -/
theorem C20_print_injective {m : Mode} {x y : Expr} (hx : x.Ok m) (hy : y.Ok m) (h : x.print = y.print) : x = y := by
  have h1 := (expr_reads x hx).form [] [] isGap_nil stops_nil ends_nil
  have h2 := (expr_reads y hy).form [] [] isGap_nil stops_nil ends_nil
  rw [h] at h1
  exact (C20_unambiguous h1 h2).1

/-! ## Expressions in a text -/

theorem leg_body {x : Expr} {s r : Str} (h : Reads (modeOf e) (.body x) s r) (hs : ['(', '$'] <+: s) (hd : NoDirective s)
    (src : Src) (hsrc : src.txt = s) :
    ∃ src' n, src'.txt = r ∧ Tree x n ∧ Gives e (fun p => psTextLeg e p src) (src', some [n]) := by
  obtain ⟨src', n, a1, a2, -, -, a3⟩ := reads_means h src hsrc
  exact ⟨src', n, a1, a2, a3 hs hd⟩

/-- **C20**. An application, a `$let` or an `$emit` in a text becomes one node of the tree, and parsing goes
    on directly behind its closing parenthesis. -/
theorem C20_in_text (e : PEnv) {x : Expr} {s r : Str} (h : Reads (modeOf e) (.body x) s r) (hs : ['(', '$'] <+: s)
    (hd : NoDirective s) (stop : Stop) (t : TextSt) (ht : t.sou.txt = s) :
    ∃ src' node, src'.txt = r ∧ Tree x node ∧ (∀ y, Tree y node → y = x) ∧ ∃ N, ∀ n, N ≤ n → ∀ st,
      (P e (n + 1)).text stop t st =
        (P e n).text stop { t with sou := src', ast := t.ast ++ [node], gen := none } st := by
  obtain ⟨src', node, h1, h2, N, h3⟩ := leg_body (e := e) h hs hd t.sou ht
  refine ⟨src', node, h1, h2, fun y hy => tree_inj hy h2, N, fun n hn st => ?_⟩
  change psText e (P e n) stop t st = _
  unfold psText
  exact bind_ok (h3 n hn st)

theorem leg_empty (e : PEnv) (p : Parsers) (s : Src) (hs : s.txt = []) (st : PSt) :
    psTextLeg e p s st = .ok ((s, none), st) := by
  have hf : Spec.MacroFree s.txt := by
    rw [hs]
    intro a b
    constructor <;> (intro h; have := congrArg List.length h; simp at this)
  have hst : ∀ c k, s.starts (c :: k) = false := fun c k => starts_head (by rw [hs]; simp)
  rw [free_alternatives e p s st hf]
  have hq : psQuote e s = noMatch s := psQuote_none (by rw [hs]; rfl) (by rw [hs]; rfl) (hst _ _) (hst _ _)
  have hr : psRemark e s st = .ok ((s, none), st) := by
    unfold psRemark
    rw [hs]
    cases e.skip <;> rfl
  rw [orElse_no (oneNode_ok (show psQuote e s st = .ok ((s, none), st) by rw [hq]; rfl)), oneNode_ok hr]
  rfl

/-- **C20**. A file that is one application, `$let` or `$emit`, in every mode: its tree is that expression. -/
theorem C20_program (e : PEnv) (input : Option Str) {x : Expr} {s : Str} (h : Reads (modeOf e) (.body x) s []) (hs : ['(', '$'] <+: s)
    (hd : NoDirective s) (hcr : '\r' ∉ s) :
    ∃ node, Tree x node ∧ (∀ y, Tree y node → y = x) ∧ ∃ N, ∀ n, N ≤ n →
      (P e n).parse e.inputFile (PSt.start e input s) = .ok ([node], PSt.start e input s) := by
  obtain ⟨src', node, h1, h2, h3, N, h4⟩ := C20_in_text e h hs hd .eof { sou := { txt := s, loc := some ⟨e.inputFile, 0⟩ } } rfl
  refine ⟨node, h2, h3, N + 3, fun n hn => ?_⟩
  obtain ⟨m, rfl⟩ : ∃ m, n = m + 1 + 1 + 1 := ⟨n - 3, by omega⟩
  change psParse e (P e (m + 1 + 1)) e.inputFile _ = _
  have hu := C12_no_cr_id s hcr
  have hfind : (PSt.start e input s).world.find e.inputFile = some (.path input, s) := by
    simp [PSt.start, World.find, hu]
  unfold psParse
  have hget : PM.get (PSt.start e input s) = .ok (PSt.start e input s, PSt.start e input s) := rfl
  rw [pm_bind_ok hget, hfind]
  have hrun : psRun (P e (m + 1 + 1)) { txt := s, loc := some ⟨e.inputFile, 0⟩ } [] (PSt.start e input s) =
      .ok ([node], PSt.start e input s) := by
    unfold psRun
    rw [if_neg (by obtain ⟨t, rfl⟩ := hs; simp)]
    have : (P e (m + 1 + 1)).text .eof { sou := { txt := s, loc := some ⟨e.inputFile, 0⟩ } } (PSt.start e input s) =
        .ok ((src', [node]), PSt.start e input s) := by
      rw [h4 (m + 1) (by omega)]
      change psText e (P e m) .eof _ _ = _
      unfold psText
      rw [pm_bind_ok (leg_empty e (P e m) src' h1 _)]
      simp only [stopAt, h1, List.isEmpty_nil, if_true]
      rfl
    rw [pm_bind_ok this]
    rfl
  have hhd : psHeader e.word { txt := s, loc := some ⟨e.inputFile, 0⟩ } = none := by
    obtain ⟨t, rfl⟩ := hs
    rfl
  obtain ⟨t, rfl⟩ := hs
  simp only [List.cons_append]
  split
  · simp only [List.cons_append] at hhd
    rw [hhd]
    exact hrun
  · exact hrun

/-- **C20**. The same for printed expressions. -/
theorem C20_program_print (e : PEnv) (input : Option Str) {x : Expr} (h : x.Ok (modeOf e)) (ht : x.isText = true) (hcr : '\r' ∉ x.print) :
    ∃ node, Tree x node ∧ (∀ y, Tree y node → y = x) ∧ ∃ N, ∀ n, N ≤ n →
      (P e n).parse e.inputFile (PSt.start e input x.print) = .ok ([node], PSt.start e input x.print) := by
  have hb : x.isBody = true := by cases x <;> first | rfl | cases ht
  have hr := (expr_reads x h).body hb []
  rw [List.append_nil] at hr
  refine C20_program e input hr ?_ ?_ hcr
  · obtain ⟨t, ht⟩ := expr_parens ht
    rw [ht]
    exact ⟨_, rfl⟩
  · have := expr_noDirective ht []
    rwa [List.append_nil] at this

/-! ## Concrete cases -/

/-- An application with all kinds of arguments; its text is in the example below. -/
def sampleExpr : Expr :=
  .app (.name false [['m'], ['n']] ['f'])
    (.pos (.int (-12)) (.embed (.name true [] ['a']) (.pos (.str [' ', '(', 'a', ')', ' ', '"']) .nil)))
    (.cons ['n'] (.cond (.int 1)
      (.fn (.par [['x']] ['y'] (.dflt [] ['z'] (.int 0) (.dots .nil))) (.list (.pos (.name false [] ['y']) .nil)))
      (.str ['"', '(', '\\', '"', '"'])) .nil)

theorem isName_letter {c : Char} (h : 'a' ≤ c ∧ c ≤ 'z') : IsName [c] := ⟨c, [], rfl, .inl h, fun _ h => by cases h⟩

theorem sampleExpr_ok (m : Mode) : sampleExpr.Ok m := by
  have hn : ∀ c : Char, 'a' ≤ c ∧ c ≤ 'z' → IsName [c] := fun c h => isName_letter h
  refine ⟨⟨hn _ (by decide), ?_, fun h => by cases h⟩, ⟨trivial, rfl, ⟨hn _ (by decide), fun _ h => (by cases h), fun _ => rfl⟩, ⟨.inl ⟨?_, ?_⟩, rfl, trivial⟩⟩,
    hn _ (by decide), by simp [Expr.fname], ⟨trivial, rfl, ⟨⟨?_, hn _ (by decide), ?_, hn _ (by decide), trivial, trivial⟩, ?_,
    ⟨⟨hn _ (by decide), fun _ h => (by cases h), fun _ => rfl⟩, trivial⟩, rfl⟩, rfl, .inr ⟨'"', ['(', '\\', '"'], .inl rfl, rfl, ?_⟩⟩, trivial⟩
  · intro r hr; simp at hr; rcases hr with rfl | rfl <;> exact hn _ (by decide)
  · exact .char (by decide) (by decide) (.paren (a := ['a']) (.char (by decide) (by decide) .nil)
      (.char (by decide) (by decide) (.char (by decide) (by decide) .nil)))
  · intro c hc; simp at hc; rcases hc with rfl | rfl | rfl | rfl | rfl | rfl <;> (unfold Admissible; decide)
  · intro r hr; simp at hr; subst hr; exact hn _ (by decide)
  · intro _ h; cases h
  · intro h; cases h
  · exact .char (by decide) (by decide) (by decide) (.escape (by decide) .nil)

example : sampleExpr.print = lit "($ m::n::f -12 *&a (` (a) \") \\n \\x..\\y.\\z:0.\\...( y) ? 1 | \"(\\\"\")" := by
  decide +kernel

example (e : PEnv) (input : Option Str) : ∃ node, Tree sampleExpr node ∧ (∀ y, Tree y node → y = sampleExpr) ∧ ∃ N, ∀ n, N ≤ n →
    (P e n).parse e.inputFile (PSt.start e input sampleExpr.print) = .ok ([node], PSt.start e input sampleExpr.print) :=
  C20_program_print e input (sampleExpr_ok _) rfl (by decide +kernel)

/-- Whether the parser refuses a text. -/
def refuses (r : PRes α) : Bool :=
  match r with
  | .err => true
  | _ => false

/-- The restrictions on what can be written are those of the program. A function whose first parameter has a
    default is taken for a named argument. -/
theorem C20_default_is_taken_for_name : refuses ((P { inputFile := [] } 12).form { txt := lit "($ f \\x:1.(x))" } {}) = true := by
  decide +kernel

/-- Inside a list it can be written. -/
example : refuses ((P { inputFile := [] } 12).form { txt := lit "( f \\x:1.(x))" } {}) = false := by decide +kernel

/-- A name that begins with a keyword cannot follow `($` directly. -/
theorem C20_keyword_prefix : refuses ((P { inputFile := [] } 12).form { txt := lit "($letter)" } {}) = true ∧
    refuses ((P { inputFile := [] } 12).form { txt := lit "($ letter)" } {}) = false := by
  constructor <;> decide +kernel

/-- A named argument with the name of the function ends the application. -/
theorem C20_own_name_ends : refuses ((P { inputFile := [] } 12).form { txt := lit "($ f \\f 1)" } {}) = true ∧
    refuses ((P { inputFile := [] } 12).form { txt := lit "($ f \\g 1)" } {}) = false ∧
    refuses ((P { inputFile := [] } 12).form { txt := lit "($ f 1 \\f)" } {}) = false := by
  refine ⟨?_, ?_, ?_⟩ <;> decide +kernel

/-- A conditional cannot be the condition of another one; a name cannot be the body of a function. -/
theorem C20_no_nesting : refuses ((P { inputFile := [] } 12).form { txt := lit "(a ? b ? c)" } {}) = true ∧
    refuses ((P { inputFile := [] } 12).form { txt := lit "(\\x.x)" } {}) = true := by
  constructor <;> decide +kernel

end Yupp
