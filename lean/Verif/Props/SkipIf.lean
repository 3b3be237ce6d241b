import Verif.Props.StdMacro
import Verif.Props.Dict
/-!
# C91 — `$skip-if` and `$skip-if-not` of the library
-/

namespace Yupp

open Spec

variable {m : Mode} {e : EEnv}

/-! ## What a piece adds -/

/-- The rest of the module is left out behind a piece that comes to `($skip)`. -/
theorem generates_skip {x : Node} {s s1 : ESt} (hx : Form x) (h : Evaluates e x s .skip s1) (ind : Indent) (cut : Bool) (rest : List Node)
    (o : Yield) : Generates e ind cut (x :: rest) s o ↔ Generates e ind false (behindModule 1 rest) s1 o := by
  constructor
  · intro hg
    cases hg with
    | plain _ => exact absurd ⟨_, _, _, rfl⟩ hx.1
    | comment _ => exact absurd rfl hx.2
    | nothing _ h1 h2 _ =>
      obtain ⟨rfl, -⟩ := evaluates_det h h1
      rcases h2 with h2 | h2 | h2 <;> cases h2
    | item _ h1 h2 _ _ =>
      obtain ⟨rfl, -⟩ := evaluates_det h h1
      cases h2 with
      | value _ h2 _ _ _ _ => exact absurd rfl h2
    | waits _ h1 h2 _ _ =>
      obtain ⟨rfl, -⟩ := evaluates_det h h1
      cases h2 with
      | value _ h2 _ _ _ _ => exact absurd rfl h2
    | definition _ h1 _ _ => cases (evaluates_det h h1).1
    | lastDefinition _ h1 => cases (evaluates_det h h1).1
    | block _ h1 h2 => cases (evaluates_det h h1).1
    | skip _ h1 h2 => obtain ⟨-, rfl⟩ := evaluates_det h h1; exact h2
    | fails _ h1 => exact absurd h1 (not_raises h)
  · exact fun hg => .skip hx h hg

theorem text_final {v : Node} {t : Str} (h : v.text? = some t) : Final v := by
  cases v <;> first | (cases h; done) | constructor | skip
  all_goals first | (simp [Node.text?] at h; done) | exact .atom _ | exact .plain .. | exact .result _

theorem reindent_empty (cfg : Config) (i : Str) : reindent cfg i [] = [] := by
  unfold reindent trim trimWithBrowse
  cases cfg.browse <;> cases cfg.trimAppIndent <;> rfl

theorem itemText_empty {fn : Node} {args : List Node} {named : List (Src × Node)} {loc : Option Loc} {v : Node} (ind : Indent)
    (h : v.text? = some []) : itemText e ind (.apply fn args named loc) v = [] := by
  have hs : shown e.cfg e.repr v = [] := by
    cases v <;> simp_all [Node.text?, shown, fragment]
    all_goals (intros; rfl)
  cases ind <;> simp [itemText, hs, reindent_empty]

/-- Nothing is added by an application that comes to the empty text. -/
theorem generates_empty {fn : Node} {args : List Node} {named : List (Src × Node)} {loc : Option Loc} {v : Node} {s s1 : ESt}
    (h : Evaluates e (.apply fn args named loc) s v s1) (hv : v.text? = some []) (ind : Indent) (cut : Bool) (rest : List Node) (o : Yield) :
    Generates e ind cut (.apply fn args named loc :: rest) s o ↔ Generates e .no false rest s1 o := by
  have hx : Form (.apply fn args named loc) := ⟨(by rintro ⟨_, _, _, h⟩; cases h), (by intro h; cases h)⟩
  have hot : ∀ o : Yield, o.after [] = o := by intro o; cases o <;> rfl
  constructor
  · intro hg
    cases hg with
    | nothing _ h1 h2 _ =>
      obtain ⟨rfl, -⟩ := evaluates_det h h1
      rcases h2 with rfl | rfl | rfl <;> cases hv
    | item _ h1 h2 _ h3 =>
      obtain ⟨rfl, rfl⟩ := evaluates_det h h1
      cases h2 with
      | embed h2 => cases hv
      | value => rw [itemText_empty _ hv, hot]; exact h3
    | waits _ h1 h2 h3 _ =>
      obtain ⟨rfl, -⟩ := evaluates_det h h1
      cases h2 with
      | embed h2 => cases hv
      | value => exact absurd (text_final hv) h3
    | definition _ h1 _ _ => obtain ⟨rfl, -⟩ := evaluates_det h h1; cases hv
    | lastDefinition _ h1 => obtain ⟨rfl, -⟩ := evaluates_det h h1; cases hv
    | block _ h1 h2 => obtain ⟨rfl, -⟩ := evaluates_det h h1; cases hv
    | skip _ h1 h2 => obtain ⟨rfl, -⟩ := evaluates_det h h1; cases hv
    | fails _ h1 => exact absurd h1 (not_raises h)
  · intro hg
    have := Generates.item (ind := ind) (cut := cut) hx h
      (.value (by rintro rfl; cases hv) (by rintro rfl; cases hv) (by rintro rfl; cases hv) (by rintro rfl; cases hv)
        (by rintro f rfl; cases hv) (by rintro f rfl; cases hv)) (text_final hv) hg
    rwa [itemText_empty _ hv, hot] at this

/-! ## Reading -/

theorem name_if : IsName ['i', 'f'] := ⟨'i', ['f'], rfl, .inl (by decide), by intro x hx; unfold NameChar NameStart; revert x hx; decide⟩
theorem name_skip : IsName ['s', 'k', 'i', 'p'] :=
  ⟨'s', ['k', 'i', 'p'], rfl, .inl (by decide), by intro x hx; unfold NameChar NameStart; revert x hx; decide⟩
theorem name_not : IsName ['n', 'o', 't'] :=
  ⟨'n', ['o', 't'], rfl, .inl (by decide), by intro x hx; unfold NameChar NameStart; revert x hx; decide⟩

theorem notNamed_of {s : Str} (h : s.head? ≠ some '\\') : NotNamed s := by
  intro a g r hs
  rw [hs] at h
  exact absurd rfl h

/-- What `$skip-if` is replaced by. -/
def skipIfText (a : Str) : Str := '(' :: '$' :: 'i' :: 'f' :: ' ' :: (a ++ (' ' :: '(' :: '$' :: 's' :: 'k' :: 'i' :: 'p' :: ')' :: [')']))

/-- What `$skip-if-not` is replaced by. -/
def skipIfNotText (a : Str) : Str :=
  '(' :: '$' :: 'i' :: 'f' :: ' ' :: '(' :: '$' :: 'n' :: 'o' :: 't' :: ' ' :: (a ++ (')' :: ' ' :: '(' :: '$' :: 's' :: 'k' :: 'i' :: 'p' :: ')' :: [')']))

def skipExpr : Expr := .app (.name false [] ['s', 'k', 'i', 'p']) .nil .nil
def skipIfExpr (x : Expr) : Expr := .app (.name false [] ['i', 'f']) (.pos x (.pos skipExpr .nil)) .nil
def notExpr (x : Expr) : Expr := .app (.name false [] ['n', 'o', 't']) (.pos x .nil) .nil

theorem skip_reads (r : Str) : Reads m (.form skipExpr) ('(' :: '$' :: 's' :: 'k' :: 'i' :: 'p' :: ')' :: ')' :: r) (')' :: r) := by
  refine form_shut (.former (.app (g := []) isGap_nil (.inr (by simp [NoKeyword])) (form_shut (.name (t := ['s', 'k', 'i', 'p']) (.plain name_skip)
    (ended_close _))) .argsEnd))

theorem if_reads {x : Expr} {t : Str} {c : Char} (hc : ¬ GapChar c ∧ c ≠ '?' ∧ c ≠ '\\')
    (hx : ∀ r, Reads m (.form x) (c :: t ++ ' ' :: '(' :: r) ('(' :: r)) :
    Reads m (.text .file 0 0 (.expr (skipIfExpr x) .nil))
      ('(' :: '$' :: 'i' :: 'f' :: ' ' :: (c :: t ++ (' ' :: '(' :: '$' :: 's' :: 'k' :: 'i' :: 'p' :: ')' :: [')']))) [] := by
  refine .textExpr (s' := []) ?_ ⟨_, rfl⟩ (by simp [NoDirective]) (.textEnd .file)
  refine .app (g := []) isGap_nil (.inr (by simp [NoKeyword])) (form_space (.name (t := ['i', 'f']) (.plain name_if) (ended_space _)) hc.1 hc.2.1) ?_
  exact .arg (notNamed_of (by simp [hc.2.2])) (hx _) (.arg (notNamed_of (by simp)) (skip_reads _) .argsEnd)

theorem not_reads {x : Expr} {t : Str} {c : Char} (hc : ¬ GapChar c ∧ c ≠ '?' ∧ c ≠ '\\')
    (hx : ∀ r, Reads m (.form x) (c :: t ++ ')' :: r) (')' :: r)) (r : Str) :
    Reads m (.form (notExpr x)) ('(' :: ('$' :: 'n' :: 'o' :: 't' :: ' ' :: (c :: t ++ [')'])) ++ ' ' :: '(' :: r) ('(' :: r) := by
  refine form_space (.former ?_) (by unfold GapChar; decide) (by decide)
  have := hx (' ' :: '(' :: r)
  simp only [List.cons_append, List.append_assoc, List.nil_append]
  refine .app (g := []) isGap_nil (.inr (by simp [NoKeyword])) (form_space (.name (t := ['n', 'o', 't']) (.plain name_not) (ended_space _)) hc.1 hc.2.1) ?_
  exact .arg (notNamed_of (by simp [hc.2.2])) this .argsEnd

theorem skipIf_pieces {x : Expr} {nodes : List Node} (h : TextTrees true (.expr (skipIfExpr x) .nil) nodes) :
    ∃ (f k : Src) (y : Node) (l1 l2 : Option Loc), f.txt = lit "if" ∧ k.txt = lit "skip" ∧ Tree x y ∧
      nodes = [.apply (.var false [] f) [y, .apply (.var false [] k) [] [] l2] [] l1] := by
  obtain ⟨n, ms, rfl, hn, hm⟩ := text_expr h
  cases text_nil hm
  obtain ⟨g, ns, loc, rfl, hg, hns⟩ := tree_app hn
  obtain ⟨f, rfl, hf⟩ := tree_name0 hg
  obtain ⟨y, ns, rfl, hy, hns⟩ := args_pos hns
  obtain ⟨z, ns, rfl, hz, hns'⟩ := args_pos hns
  cases args_nil hns'
  obtain ⟨g, ns, loc2, rfl, hg, hns''⟩ := tree_app hz
  obtain ⟨k, rfl, hk⟩ := tree_name0 hg
  cases args_nil hns''
  exact ⟨f, k, y, loc, loc2, hf, hk, hy, rfl⟩

theorem not_piece {x : Expr} {y : Node} (h : Tree (notExpr x) y) :
    ∃ (z : Node) (l loc : Option Loc), Tree x z ∧ y = fnCall (lit "not") l loc [z] := by
  obtain ⟨g, ns, loc, rfl, hg, hns⟩ := tree_app h
  obtain ⟨f, rfl, hf⟩ := tree_name0 hg
  obtain ⟨z, ns, rfl, hz, hns⟩ := args_pos hns
  cases args_nil hns
  refine ⟨z, f.loc, loc, hz, ?_⟩
  cases f
  cases hf
  rfl

/-! ## C91 -/

theorem if_closure {d f : Node} {s0 s0' : ESt} (hd : Choice (lit "then") (lit "else") (lit "if") d)
    (hdef : Evaluates e d s0 (.env [(lit "if", f)]) s0') : f ≠ .bound := by
  generalize hn : lit "if" = n at hd hdef
  cases hd with
  | @mk n c1 t1 f1 c' a b loc1 h1 h2 h3 h4 h5 h6 =>
    obtain ⟨d, hd, hdt, h⟩ := choice_defined (e := e) (a := a) (b := b) (loc := loc1) h1 h2 h3 h4 (by rw [← hn]; decide) s0
    rw [evaluates_iff, h] at hdef
    simp only [PRes.ok.injEq, Prod.mk.injEq, Node.env.injEq, List.cons.injEq, true_and, and_true] at hdef
    obtain ⟨rfl, -⟩ := hdef
    simp

/-- A mark without the character `c` lies on one side of it. -/
theorem infix_beside {p x y : Str} {c : Char} (hp : c ∉ p) (h : p <:+: x ++ c :: y) : p <:+: x ∨ p <:+: y := by
  induction x with
  | nil =>
    rw [List.nil_append, List.infix_cons_iff] at h
    rcases h with h | h
    · cases p with
      | nil => exact .inl (List.nil_infix)
      | cons d p =>
        obtain ⟨_, h⟩ := h
        simp only [List.cons_append, List.cons.injEq] at h
        exact absurd (by rw [h.1]; simp) hp
    · exact .inr h
  | cons d x ih =>
    rw [List.cons_append, List.infix_cons_iff] at h
    rcases h with h | h
    · have : p <+: d :: x := by
        obtain ⟨t, h⟩ := h
        rw [← List.cons_append] at h
        rcases List.append_eq_append_iff.1 h with ⟨as, h1, -⟩ | ⟨bs, h1, h2⟩
        · exact ⟨as, h1.symm⟩
        · cases bs with
          | nil => rw [List.append_nil] at h1; rw [h1]; exact List.prefix_rfl
          | cons b bs =>
            simp only [List.cons_append, List.cons.injEq] at h2
            exact absurd (by rw [h1, h2.1]; simp) hp
      exact .inl this.isInfix
    · rcases ih h with h | h
      · exact .inl (List.infix_cons_iff.2 (.inr h))
      · exact .inr h

theorem skipIf_unmarked {a y : Str} (ha : ¬ ['(', '$', 'c', 'o', 'n', 'd', ')'] <:+: a ++ [')']) :
    Unmarked [(['c', 'o', 'n', 'd'], y)] (skipIfText a) ∧ Unmarked [(['c', 'o', 'n', 'd'], y)] (skipIfNotText a) := by
  have ha' : ¬ ['(', '$', 'c', 'o', 'n', 'd', ')'] <:+: a := fun h => ha (h.trans (List.prefix_append ..).isInfix)
  constructor
  · intro p hp b c h
    simp only [List.mem_singleton] at hp
    subst hp
    have h : ['(', '$', 'c', 'o', 'n', 'd', ')'] <:+: skipIfText a := ⟨b, c, by rw [h]; simp⟩
    rcases infix_beside (c := ' ') (x := ['(', '$', 'i', 'f']) (by decide) h with h | h
    · revert h; decide
    · rcases infix_beside (c := ' ') (by decide) h with h | h
      · exact ha' h
      · revert h; decide
  · intro p hp b c h
    simp only [List.mem_singleton] at hp
    subst hp
    have h : ['(', '$', 'c', 'o', 'n', 'd', ')'] <:+: skipIfNotText a := ⟨b, c, by rw [h]; simp⟩
    rcases infix_beside (c := ' ') (x := ['(', '$', 'i', 'f']) (by decide) h with h | h
    · revert h; decide
    · rcases infix_beside (c := ' ') (x := ['(', '$', 'n', 'o', 't']) (by decide) h with h | h
      · revert h; decide
      · have h : ['(', '$', 'c', 'o', 'n', 'd', ')'] <:+: (a ++ [')']) ++ ' ' :: ['(', '$', 's', 'k', 'i', 'p', ')', ')'] := by simpa using h
        rcases infix_beside (c := ' ') (by decide) h with h | h
        · exact ha h
        · revert h; decide

theorem skipIf_text (a : Str) : substitute [(['c', 'o', 'n', 'd'], a)] skipIfBody = skipIfText a := rfl
theorem skipIfNot_text (a : Str) : substitute [(['c', 'o', 'n', 'd'], a)] skipIfNotBody = skipIfNotText a := rfl

theorem lookup_if {f : Node} {s : ESt} {g : Src} (hg : g.txt = lit "if") (hif : Scopes.lookup s.env (lit "if") = some f) (hb : f ≠ .bound) :
    Evaluates e (.var false [] g) s f s := by
  rw [evaluates_iff]
  exact var_value (by rw [hg]; exact hif) hb

/-- `($if y ($skip))`, when `y` comes to `c`. -/
theorem if_skip {d f y c : Node} {s0 s0' s : ESt} {g k : Src} {l1 l2 : Option Loc} (hg : g.txt = lit "if") (hk : k.txt = lit "skip")
    (hd : Choice (lit "then") (lit "else") (lit "if") d)
    (hdef : Evaluates e d s0 (.env [(lit "if", f)]) s0') (hif : Scopes.lookup s.env (lit "if") = some f) (hskip : Reserved e s (lit "skip"))
    (hy : Evaluates e y s c s) (hc : Data c) (hn : c ≠ .none) :
    ∃ v, Evaluates e (.apply (.var false [] g) [y, .apply (.var false [] k) [] [] l2] [] l1) s v s ∧
      (¬ False' c → v = .skip) ∧ (False' c → v.text? = some []) := by
  have ha : Args e [y, .apply (.var false [] k) [] [] l2] s [c, .skip] s := by
    refine .one hy hn (by rintro a rfl; cases hc) (.one (C30_skip_form e k l2 s hk (by rw [hk]; exact hskip.scope) (by rw [hk]; exact hskip.table))
      (by simp) (by simp) (.nil s))
  obtain ⟨v, h1, h2⟩ := C76_if hd (by decide) hdef (lookup_if hg hif (if_closure hd hdef)) ha hc (by intro v hv; simp at hv; exact .inr hv) (by simp)
  refine ⟨v, h1, fun hc => ?_, fun hc => ?_⟩
  · rcases h2 with ⟨-, h2⟩ | ⟨h, -⟩
    · rcases h2 with h2 | ⟨h2, -⟩
      · simpa using h2.symm
      · simp at h2
    · exact absurd h hc
  · rcases h2 with ⟨h, -⟩ | ⟨-, h2⟩
    · exact absurd hc h
    · rcases h2 with h2 | ⟨-, h2⟩
      · simp at h2
      · exact h2

/-- The outcome of a form carries over to the pieces. -/
theorem generates_same {fn y : Node} {args : List Node} {loc : Option Loc} {s s3 : ESt} {P : Prop} {v : Node}
    (hs : SameOutcome e (.apply fn args [] loc) s y s3) (h : Evaluates e y s3 v s3)
    (h1 : P → v = .skip) (h2 : ¬ P → v.text? = some []) :
    (P → ∀ ind cut rest o, Generates e ind cut (.apply fn args [] loc :: rest) s o ↔ Generates e ind false (behindModule 1 rest) s3 o) ∧
    (¬ P → ∀ ind cut rest o, Generates e ind cut (.apply fn args [] loc :: rest) s o ↔ Generates e .no false rest s3 o) := by
  have hv := (hs.1 _ _).2 h
  constructor
  · intro hp ind cut rest o
    rw [h1 hp] at hv
    exact generates_skip ⟨(by rintro ⟨_, _, _, h⟩; cases h), (by intro h; cases h)⟩ hv ind cut rest o
  · intro hp ind cut rest o
    exact generates_empty hv (h2 hp) ind cut rest o

theorem not_false {p : Prop} : False' (truth p) ↔ ¬ p := by
  rw [← falsy_iff]
  by_cases h : p <;> simp [truth, truthy, h]

/-- **C91**. `($skip-if COND)`, the condition being handed over as a text that reads as an expression; `p`: its value counts as true.
    Then the rest of the module is left out; otherwise nothing is written and the text goes on. -/
theorem C91_skip_if (e : EEnv) (fn : Node) (text decl : Src) (c0 : Option Src) (args : List Node)
    (v : Node) (a : Str) (loc : Option Loc) (s s1 s2 : ESt)
    (hf : Evaluates e fn s (.mclosure text [(lit "cond", .bound)] decl c0) s1) (htext : text.txt = skipIfBody)
    (harg : Args e args s1 [v] s2) (hv : Value v) (hn : v ≠ .none) (ht : ArgText v a)
    {d f : Node} {s0 s0' : ESt} (hd : Choice (lit "then") (lit "else") (lit "if") d) (hdef : Evaluates e d s0 (.env [(lit "if", f)]) s0')
    (hif : Scopes.lookup s2.env (lit "if") = some f) (hskip : Reserved e s2 (lit "skip"))
    (hk : e.pe.outputPython = true → e.pe.inputFile ≠ natStr s2.p.world.inclusion.length)
    {x : Expr} {p : Prop} (hx : Condition (modeOf e.pe) a x) (s3 : ESt)
    (h3 : s3 = (record s2 (substitute [(lit "cond", a)] skipIfBody) decl.loc ((callOf fn).bind (·.loc))).2)
    (hc : ∀ y, Tree x y → ∃ c, Evaluates e y s3 c s3 ∧ Data c ∧ c ≠ .none ∧ (p ↔ ¬ False' c)) :
    (p → ∀ ind cut rest o, Generates e ind cut (.apply fn args [] loc :: rest) s o ↔
      Generates e ind false (behindModule 1 rest) s3 o) ∧
    (¬ p → ∀ ind cut rest o, Generates e ind cut (.apply fn args [] loc :: rest) s o ↔ Generates e .no false rest s3 o) := by
  rw [show lit "cond" = ['c', 'o', 'n', 'd'] by decide, skipIf_text] at h3
  have hsub : substitute ([['c', 'o', 'n', 'd']].zip [a]) text.txt = skipIfText a := by rw [htext]; rfl
  have hmac := C82_macro e fn text decl c0 [['c', 'o', 'n', 'd']] args [v] [a] loc s s1 s2 hf harg (by simp) rfl (by simp)
    (by decide) (by simpa using hv) (by simpa using hn) (.cons ht .nil)
    (by intro p hp; simp at hp; subst hp; exact (by decide : ('(' ∉ (['c', 'o', 'n', 'd'] : Str) ∧ ')' ∉ (['c', 'o', 'n', 'd'] : Str))))
    (by rw [hsub]; exact (skipIf_unmarked hx.unmarked).1)
    (xs := .expr (skipIfExpr x) .nil)
    (by
      rw [hsub]
      obtain ⟨c, t, rfl, h1⟩ := hx.begins
      exact if_reads h1 hx.beforeBlank)
    (by rw [hsub]; simp [skipIfText]) hk
  rw [hsub] at hmac
  obtain ⟨nodes, s3', h1, h2, -, h4, -⟩ := hmac
  have h2 : s3' = s3 := by rw [h2, h3]; rfl
  subst h2
  obtain ⟨g, k, y, l1, l2, hg, hk', hy, rfl⟩ := skipIf_pieces h1
  have hsame := h4 _ rfl (by rintro ⟨_, _, h⟩; cases h)
  obtain ⟨c, hc, hdc, hcn, hp⟩ := hc y hy
  obtain ⟨w, hw, w1, w2⟩ := if_skip (l1 := l1) (l2 := l2) (s := s3') hg hk' hd hdef (by rw [h3]; exact hif) (by rw [h3]; exact ⟨hskip.scope, hskip.table⟩) hc hdc hcn
  exact generates_same (P := p) hsame hw (fun h => w1 (hp.1 h)) (fun h => w2 (Classical.not_not.1 fun h' => h (hp.2 h')))

/-- **C91**. `($skip-if-not COND)`: the other way round. -/
theorem C91_skip_if_not (e : EEnv) (b : BExt) (hs : Standard e b (lit "not")) (fn : Node) (text decl : Src) (c0 : Option Src) (args : List Node)
    (v : Node) (a : Str) (loc : Option Loc) (s s1 s2 : ESt)
    (hf : Evaluates e fn s (.mclosure text [(lit "cond", .bound)] decl c0) s1) (htext : text.txt = skipIfNotBody)
    (harg : Args e args s1 [v] s2) (hv : Value v) (hn : v ≠ .none) (ht : ArgText v a)
    {d f : Node} {s0 s0' : ESt} (hd : Choice (lit "then") (lit "else") (lit "if") d) (hdef : Evaluates e d s0 (.env [(lit "if", f)]) s0')
    (hif : Scopes.lookup s2.env (lit "if") = some f) (hskip : Reserved e s2 (lit "skip")) (hnot : Unbound (lit "not") s2)
    (hk : e.pe.outputPython = true → e.pe.inputFile ≠ natStr s2.p.world.inclusion.length)
    {x : Expr} {p : Prop} (hx : Condition (modeOf e.pe) a x) (s3 : ESt)
    (h3 : s3 = (record s2 (substitute [(lit "cond", a)] skipIfNotBody) decl.loc ((callOf fn).bind (·.loc))).2)
    (hc : ∀ y, Tree x y → ∃ c, Evaluates e y s3 c s3 ∧ Data c ∧ c ≠ .none ∧ (p ↔ ¬ False' c)) :
    (¬ p → ∀ ind cut rest o, Generates e ind cut (.apply fn args [] loc :: rest) s o ↔
      Generates e ind false (behindModule 1 rest) s3 o) ∧
    (p → ∀ ind cut rest o, Generates e ind cut (.apply fn args [] loc :: rest) s o ↔ Generates e .no false rest s3 o) := by
  rw [show lit "cond" = ['c', 'o', 'n', 'd'] by decide, skipIfNot_text] at h3
  have hsub : substitute ([['c', 'o', 'n', 'd']].zip [a]) text.txt = skipIfNotText a := by rw [htext]; rfl
  have hmac := C82_macro e fn text decl c0 [['c', 'o', 'n', 'd']] args [v] [a] loc s s1 s2 hf harg (by simp) rfl (by simp)
    (by decide) (by simpa using hv) (by simpa using hn) (.cons ht .nil)
    (by intro p hp; simp at hp; subst hp; exact (by decide : ('(' ∉ (['c', 'o', 'n', 'd'] : Str) ∧ ')' ∉ (['c', 'o', 'n', 'd'] : Str))))
    (by rw [hsub]; exact (skipIf_unmarked hx.unmarked).2)
    (xs := .expr (skipIfExpr (notExpr x)) .nil)
    (by
      rw [hsub]
      obtain ⟨c, t, rfl, h1⟩ := hx.begins
      have := if_reads (x := notExpr x) (m := modeOf e.pe) (c := '(') ⟨by unfold GapChar; decide, by decide, by decide⟩ (not_reads h1 hx.beforeClose)
      simpa [skipIfNotText] using this)
    (by rw [hsub]; simp [skipIfNotText]) hk
  rw [hsub] at hmac
  obtain ⟨nodes, s3', h1, h2, -, h4, -⟩ := hmac
  have h2 : s3' = s3 := by rw [h2, h3]; rfl
  subst h2
  obtain ⟨g, k, y, l1, l2, hg, hk', hy, rfl⟩ := skipIf_pieces h1
  have hsame := h4 _ rfl (by rintro ⟨_, _, h⟩; cases h)
  obtain ⟨z, l, lc, hz, rfl⟩ := not_piece hy
  obtain ⟨c, hc, hdc, hcn, hp⟩ := hc z hz
  have hnc := C54_not (l := l) (loc := lc) (s := s3') hs (by rw [h3]; exact hnot) (.one hc hcn (by rintro a rfl; cases hdc) (.nil _)) (data_value hdc)
  obtain ⟨w, hw, w1, w2⟩ := if_skip (l1 := l1) (l2 := l2) (s := s3') hg hk' hd hdef (by rw [h3]; exact hif) (by rw [h3]; exact ⟨hskip.scope, hskip.table⟩) hnc
    (by unfold truth; split <;> constructor) (by unfold truth; split <;> simp)
  rw [not_false] at w1 w2
  have hp' : ¬ p ↔ False' c := by rw [hp]; exact Classical.not_not
  have := generates_same (P := ¬ p) hsame hw (fun h => w1 (Classical.not_not.2 (hp'.1 h))) (fun h => w2 (fun h' => h (hp'.2 h')))
  exact ⟨this.1, fun h => this.2 (fun h' => h' h)⟩

/-! ## Conditions -/

theorem condition_name {a : Str} (ha : IsName a) : Condition m a (.name false [] a) := by
  have hp : '(' ∉ a := fun h => (nameChar_plain (isName_chars ha _ h)).2.2.2.2.2.2.1 rfl
  refine ⟨fun r => form_space (.name (.plain ha) (ended_space _)) (by unfold GapChar; decide) (by decide),
    fun r => form_shut (.name (.plain ha) (ended_close r)), ?_, fun h => ?_⟩
  · obtain ⟨c, t, rfl, h1, -⟩ := ha
    have h2 := (nameChar_plain (.inl h1)).2.1
    refine ⟨c, t, rfl, h2, ?_, ?_⟩ <;> (rintro rfl; revert h1; unfold NameStart; decide)
  · have := infix_past hp h
    revert this; decide

theorem decimal_str (n : Nat) : decimal n = natStr n := by
  have he : natStr n = Nat.toDigits 10 n := Nat.toList_repr
  rw [he]
  clear he
  induction n using decimal.induct with
  | case1 n h => rw [Nat.toDigits_of_lt_base h]; unfold decimal; rw [if_pos h]
  | case2 n h ih =>
    rw [Nat.toDigits_of_base_le (by omega) (by omega), ← ih]
    conv => lhs; unfold decimal
    rw [if_neg h]

theorem printInt_str (n : Int) : printInt n = (toString n).toList := by
  cases n with
  | ofNat n => exact decimal_str n
  | negSucc n =>
    change '-' :: decimal (n + 1) = ("-" ++ toString (n + 1)).toList
    rw [String.toList_append, decimal_str]; rfl

theorem condition_int (n : Int) : Condition m (toString n).toList (.int n) := by
  have hpr := printInt_str n
  obtain ⟨c, t, hct, hch⟩ := int_chars n
  have hdig : ∀ d ∈ (toString n).toList, d = '-' ∨ d.isDigit = true := by rw [hct]; exact hch
  refine ⟨fun r => ?_, fun r => ?_, ?_, fun h => ?_⟩
  · rw [← hpr]
    exact form_space (printInt_reads n (ended_space _)) (by unfold GapChar; decide) (by decide)
  · rw [← hpr]
    exact form_shut (printInt_reads n (ended_close r))
  · refine ⟨c, t, hct, ?_, ?_, ?_⟩
    · have := hch c (by simp)
      rintro (rfl | rfl | rfl | rfl) <;> (revert this; decide)
    · rintro rfl; have := hch '?' (by simp); revert this; decide
    · rintro rfl; have := hch '\\' (by simp); revert this; decide
  · have := infix_past (a := (toString n).toList) (fun h => by have := hdig _ h; revert this; decide) h
    revert this; decide

/-- **C91**. A condition whose value is a number, as that of a name after `($def A)` or `($undef A)`: `$skip-if` leaves out the rest of the
    module if it is not zero, `$skip-if-not` if it is zero; otherwise nothing is written and the text goes on. -/
theorem C91_number (e : EEnv) (b : BExt) (hs : Standard e b (lit "not")) (fn : Node) (text decl : Src) (c0 : Option Src) (args : List Node)
    (n : Int) (loc : Option Loc) (s s1 s2 : ESt) (body : Str) (skips : Prop)
    (hb : (body = skipIfBody ∧ skips = (n ≠ 0)) ∨ (body = skipIfNotBody ∧ skips = (n = 0)))
    (hf : Evaluates e fn s (.mclosure text [(lit "cond", .bound)] decl c0) s1) (htext : text.txt = body)
    (harg : Args e args s1 [.int n] s2)
    {d f : Node} {s0 s0' : ESt} (hd : Choice (lit "then") (lit "else") (lit "if") d) (hdef : Evaluates e d s0 (.env [(lit "if", f)]) s0')
    (hif : Scopes.lookup s2.env (lit "if") = some f) (hskip : Reserved e s2 (lit "skip")) (hnot : Unbound (lit "not") s2)
    (hk : e.pe.outputPython = true → e.pe.inputFile ≠ natStr s2.p.world.inclusion.length) :
    ∃ s3, s3 = (record s2 (substitute [(lit "cond", (toString n).toList)] body) decl.loc ((callOf fn).bind (·.loc))).2 ∧
    (skips → ∀ ind cut rest o, Generates e ind cut (.apply fn args [] loc :: rest) s o ↔
      Generates e ind false (behindModule 1 rest) s3 o) ∧
    (¬ skips → ∀ ind cut rest o, Generates e ind cut (.apply fn args [] loc :: rest) s o ↔ Generates e .no false rest s3 o) := by
  refine ⟨_, rfl, ?_⟩
  have hfalse : False' (.int n) ↔ n = 0 := by rw [← falsy_iff]; simp [truthy]
  have hc : ∀ (s : ESt) (y : Node), Tree (.int n) y → ∃ c, Evaluates e y s c s ∧ Data c ∧ c ≠ .none ∧ (n ≠ 0 ↔ ¬ False' c) := by
    intro s y hy
    cases tree_int hy
    exact ⟨_, evaluates_iff.2 (ev_value e (.int n) s), .int n, by simp, by rw [hfalse]⟩
  rcases hb with ⟨rfl, rfl⟩ | ⟨rfl, rfl⟩
  · have := C91_skip_if e fn text decl c0 args (.int n) _ loc s s1 s2 hf htext harg (.int n) (by simp) (.int n) hd hdef hif hskip hk
      (condition_int n) _ rfl (hc _)
    exact this
  · have := C91_skip_if_not e b hs fn text decl c0 args (.int n) _ loc s s1 s2 hf htext harg (.int n) (by simp) (.int n) hd hdef hif hskip hnot hk
      (condition_int n) _ rfl (hc _)
    exact ⟨fun h => this.1 (fun h' => h' h), this.2⟩

/-- **C91**. A condition whose value is written as a name that has no value — a name never defined, or `True` and `False`, the
    outcome of a comparison in Python — counts as true: `$skip-if` leaves out the rest of the module, `$skip-if-not` does not. -/
theorem C91_name (e : EEnv) (b : BExt) (hs : Standard e b (lit "not")) (fn : Node) (text decl : Src) (c0 : Option Src) (args : List Node)
    (v : Node) (a : Str) (loc : Option Loc) (s s1 s2 : ESt)
    (hf : Evaluates e fn s (.mclosure text [(lit "cond", .bound)] decl c0) s1)
    (harg : Args e args s1 [v] s2) (hv : Value v) (hn : v ≠ .none) (ht : ArgText v a) (ha : IsName a) (hbare : Bare e s2 a)
    {d f : Node} {s0 s0' : ESt} (hd : Choice (lit "then") (lit "else") (lit "if") d) (hdef : Evaluates e d s0 (.env [(lit "if", f)]) s0')
    (hif : Scopes.lookup s2.env (lit "if") = some f) (hskip : Reserved e s2 (lit "skip")) (hnot : Unbound (lit "not") s2)
    (hk : e.pe.outputPython = true → e.pe.inputFile ≠ natStr s2.p.world.inclusion.length) :
    (text.txt = skipIfBody → ∃ s3, s3 = (record s2 (substitute [(lit "cond", a)] skipIfBody) decl.loc ((callOf fn).bind (·.loc))).2 ∧
      ∀ ind cut rest o, Generates e ind cut (.apply fn args [] loc :: rest) s o ↔ Generates e ind false (behindModule 1 rest) s3 o) ∧
    (text.txt = skipIfNotBody → ∃ s3, s3 = (record s2 (substitute [(lit "cond", a)] skipIfNotBody) decl.loc ((callOf fn).bind (·.loc))).2 ∧
      ∀ ind cut rest o, Generates e ind cut (.apply fn args [] loc :: rest) s o ↔ Generates e .no false rest s3 o) := by
  have hc : ∀ (s3 : ESt), s3.env = s2.env → s3.p.scripts = s2.p.scripts → ∀ (y : Node), Tree (.name false [] a) y →
      ∃ c, Evaluates e y s3 c s3 ∧ Data c ∧ c ≠ .none ∧ (True ↔ ¬ False' c) := by
    intro s3 h1 h2 y hy
    obtain ⟨w, rfl, hw⟩ := tree_name0 hy
    subst hw
    refine ⟨_, bare_eval ⟨by rw [h1]; exact hbare.unbound, by rw [h2]; exact hbare.notBuiltin, hbare.notSpecial, hbare.noHyphen⟩, .atom w, by simp, ?_⟩
    rw [← falsy_iff]
    obtain ⟨c, t, hct, -⟩ := ha
    simp [truthy, hct]
  refine ⟨fun htext => ⟨_, rfl, ?_⟩, fun htext => ⟨_, rfl, ?_⟩⟩
  · exact (C91_skip_if e fn text decl c0 args v a loc s s1 s2 hf htext harg hv hn ht hd hdef hif hskip hk
      (condition_name ha) _ rfl (hc _ rfl rfl)).1 trivial
  · exact (C91_skip_if_not e b hs fn text decl c0 args v a loc s s1 s2 hf htext harg hv hn ht hd hdef hif hskip hnot hk
      (condition_name ha) _ rfl (hc _ rfl rfl)).2 trivial

/-! ## The library -/

/-- A macro with this name, the parameter `cond` and this text. -/
def isSkipMacro (name body : Str) : Node → Bool
  | .macro v [p] t => decide (v.txt = name) && decide (p.txt = lit "cond") && decide (t.txt = body)
  | _ => false

theorem isSkipMacro_sound {name body : Str} {d : Node} (h : isSkipMacro name body d = true) :
    ∃ v p t, d = .macro v [p] t ∧ v.txt = name ∧ p.txt = lit "cond" ∧ t.txt = body := by
  unfold isSkipMacro at h
  split at h
  · simp only [Bool.and_eq_true, decide_eq_true_eq] at h
    exact ⟨_, _, _, rfl, h.1.1, h.1.2, h.2⟩
  · cases h

set_option maxRecDepth 100000 in
theorem skipIf_parsed : parsedAlone 100 (stdlibLines[78]?.getD []) (isSkipMacro (lit "skip-if") skipIfBody) = true := by decide +kernel

set_option maxRecDepth 100000 in
theorem skipIfNot_parsed : parsedAlone 100 (stdlibLines[79]?.getD []) (isSkipMacro (lit "skip-if-not") skipIfNotBody) = true := by decide +kernel

/-- **C91**. The macros that the theorems are about are those of the library file: a line of it, parsed, is one such definition. -/
theorem C91_library :
    (∃ (i : Nat) (l : Str) (n : Nat) (v p t : Src) (st : PSt), stdlibLines[i]? = some l ∧
      (P { inputFile := ['a'] } n).parse ['a'] (PSt.start { inputFile := ['a'] } none l) = .ok ([.macro v [p] t], st) ∧
      v.txt = lit "skip-if" ∧ p.txt = lit "cond" ∧ t.txt = skipIfBody) ∧
    (∃ (i : Nat) (l : Str) (n : Nat) (v p t : Src) (st : PSt), stdlibLines[i]? = some l ∧
      (P { inputFile := ['a'] } n).parse ['a'] (PSt.start { inputFile := ['a'] } none l) = .ok ([.macro v [p] t], st) ∧
      v.txt = lit "skip-if-not" ∧ p.txt = lit "cond" ∧ t.txt = skipIfNotBody) := by
  obtain ⟨d1, p1, h1, k1⟩ := parsedAlone_sound skipIf_parsed
  obtain ⟨d2, p2, h2, k2⟩ := parsedAlone_sound skipIfNot_parsed
  obtain ⟨v, p, t, rfl, hv, hp, ht⟩ := isSkipMacro_sound k1
  obtain ⟨v', p', t', rfl, hv', hp', ht'⟩ := isSkipMacro_sound k2
  exact ⟨⟨78, _, 100, v, p, t, p1, rfl, h1, hv, hp, ht⟩, ⟨79, _, 100, v', p', t', p2, rfl, h2, hv', hp', ht'⟩⟩

/-! Examples: `($skip-if X)` in a module, in front of a text, with `X` bound to 1; `($skip-if-not False)`. -/

example (e : EEnv) (b : BExt) (hs : Standard e b (lit "not")) (decl m : Src) (s : ESt) {d f : Node} {s0 s0' : ESt}
    (hm : Scopes.lookup s.env m.txt = some (.mclosure ⟨skipIfBody, none⟩ [(['c', 'o', 'n', 'd'], .bound)] decl none))
    (hd : Choice (lit "then") (lit "else") (lit "if") d) (hdef : Evaluates e d s0 (.env [(lit "if", f)]) s0')
    (hif : Scopes.lookup s.env (lit "if") = some f) (hskip : Reserved e s (lit "skip")) (hnot : Unbound (lit "not") s)
    (hx : Scopes.lookup s.env (lit "X") = some (.int 1)) (hk : e.pe.outputPython = false) (w z : Src) :
    ∃ s', Generates e .no false [.apply (.var false [] m) [.var false [] ⟨lit "X", none⟩] [] none, .plain w .none false, .importEnd, .plain z .none false] s
      (.text z.txt s') := by
  have hf : Evaluates e (.var false [] m) s (.mclosure ⟨skipIfBody, none⟩ [(['c', 'o', 'n', 'd'], .bound)] decl none) s :=
    evaluates_iff.2 (var_value hm (by simp))
  obtain ⟨s3, -, h, -⟩ := C91_number e b hs _ _ decl none [.var false [] ⟨lit "X", none⟩] 1 none s s s skipIfBody _ (.inl ⟨rfl, rfl⟩) hf rfl
    (.one (evaluates_iff.2 (var_value hx (by simp))) (by simp) (by simp) (.nil s)) hd hdef hif hskip hnot (by simp [hk])
  refine ⟨s3, (h (by decide) .no false _ _).2 ?_⟩
  have := Generates.plain (e := e) (ind := .no) (cut := false) (w := z) (i := .none) (c := false) (xs := []) (s := s3) .nil
  rw [show fragment e.cfg z.txt (false || false) = z.txt by simp [fragment]] at this
  simpa [Yield.after, behindModule] using this

example (e : EEnv) (s : ESt) (h : Bare e s (lit "False")) : IsName (lit "False") ∧ Bare e s (lit "False") ∧ ArgText (.bool false) (lit "False") :=
  ⟨⟨'F', ['a', 'l', 's', 'e'], rfl, .inr (.inl (by decide)), by intro x hx; unfold NameChar NameStart; revert x hx; decide⟩, h, .bool false⟩

end Yupp
