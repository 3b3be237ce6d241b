import Verif.Spec.Variant
import Verif.Props.SkipIf
import Verif.Props.Modules
import Verif.Props.DefIf
import Verif.Props.Feature
import Verif.Props.Arith
import Verif.Props.HNamed
/-!
# C107 — The variants of a library
-/

namespace Yupp
open Spec

/-! ## How the files are read -/

/-- `hlib-light` -/
def lightVar : Str := ['h', 'l', 'i', 'b', '-', 'l', 'i', 'g', 'h', 't']

/-- `corolib-use-c-macro` -/
def cMacroVar : Str := ['c', 'o', 'r', 'o', 'l', 'i', 'b', '-', 'u', 's', 'e', '-', 'c', '-', 'm', 'a', 'c', 'r', 'o']

theorem name_light : Yupp.IsName lightVar :=
  ⟨'h', lightVar.tail, rfl, .inl (by decide), by intro x hx; unfold NameChar NameStart; revert x hx; decide⟩

theorem name_cMacro : Yupp.IsName cMacroVar :=
  ⟨'c', cMacroVar.tail, rfl, .inl (by decide), by intro x hx; unfold NameChar NameStart; revert x hx; decide⟩

theorem variant_reads {m : Mode} {a : Str} (ha : Yupp.IsName a) (r : Str) : Reads m (.body (variantExpr a))
    ('(' :: '$' :: '0' :: ' ' :: '?' :: ' ' :: '(' :: '$' :: 'i' :: 's' :: 'a' :: 't' :: 'o' :: 'm' :: ' ' :: (a ++ ')' :: ' ' :: '|' :: ' ' :: (a ++ ')' :: r))) r := by
  have hq : Yupp.IsName ['i', 's', 'a', 't', 'o', 'm'] :=
    ⟨'i', _, rfl, .inl (by decide), by intro x hx; unfold NameChar NameStart; revert x hx; decide⟩
  refine .app (g := []) isGap_nil (.inr (by simp [NoKeyword])) ?_ .argsEnd
  refine .cond (g1 := [' ']) (g2 := [' ']) (g3 := [' ']) (g4 := [' '])
    (s2 := '(' :: '$' :: 'i' :: 's' :: 'a' :: 't' :: 'o' :: 'm' :: ' ' :: (a ++ ')' :: ' ' :: '|' :: ' ' :: (a ++ ')' :: r)))
    (s3 := a ++ ')' :: r)
    (.int (g := []) (b := ['0']) (f := []) (n := 0) (v := 0) .none (.zero (by simp) (by simp)) (.inl rfl) (ended_space _)) ?_ ?_
    isGap_space isGap_space isGap_space isGap_space
  · refine .former (.app (g := []) isGap_nil (.inr (by simp [NoKeyword])) (s' := a ++ ')' :: ' ' :: '|' :: ' ' :: (a ++ ')' :: r)) ?_ ?_)
    · obtain ⟨c, t, rfl, hc, ht⟩ := ha
      exact form_space (.name (t := ['i', 's', 'a', 't', 'o', 'm']) (.plain hq) (ended_space _)) (nameChar_not_gap (.inl hc)) (by rintro rfl; revert hc; unfold NameStart; decide)
    · have hn : NotNamed (a ++ ')' :: ' ' :: '|' :: ' ' :: (a ++ ')' :: r)) := by
        obtain ⟨c, t, rfl, hc, ht⟩ := ha
        exact notNamed_of (by rintro h; injection h with h; subst h; revert hc; unfold NameStart; decide)
      exact .arg hn (form_shut (.name (.plain ha) (ended_close _))) .argsEnd
  · exact form_shut (.name (.plain ha) (ended_close _))


theorem skipOn_reads {m : Mode} {a : Str} (ha : Yupp.IsName a) (r : Str) : Reads m (.body (skipOn a))
    ('(' :: '$' :: 's' :: 'k' :: 'i' :: 'p' :: ' ' :: '?' :: ' ' :: ('(' :: '$' :: '0' :: ' ' :: '?' :: ' ' :: '(' :: '$' :: 'i' :: 's' :: 'a' :: 't' :: 'o' :: 'm' :: ' ' ::
      (a ++ ')' :: ' ' :: '|' :: ' ' :: (a ++ ')' :: ')' :: r)))) r := by
  have hq : Yupp.IsName ['s', 'k', 'i', 'p'] :=
    ⟨'s', _, rfl, .inl (by decide), by intro x hx; unfold NameChar NameStart; revert x hx; decide⟩
  refine .app (g := []) isGap_nil (.inr (by simp [NoKeyword])) (s' := ')' :: r) ?_ .argsEnd
  exact .when (g1 := [' ']) (g2 := [' ']) (g3 := []) (.name (t := ['s', 'k', 'i', 'p']) (.plain hq) (ended_space _)) (.former (variant_reads ha _))
    isGap_space isGap_space isGap_nil (noGap_close _) (by simp)

theorem skipOff_reads {m : Mode} {a : Str} (ha : Yupp.IsName a) (r : Str) : Reads m (.body (skipOff a))
    ('(' :: '$' :: 's' :: 'k' :: 'i' :: 'p' :: ' ' :: '?' :: ' ' :: '(' :: '$' :: 'n' :: 'o' :: 't' :: ' ' ::
      ('(' :: '$' :: '0' :: ' ' :: '?' :: ' ' :: '(' :: '$' :: 'i' :: 's' :: 'a' :: 't' :: 'o' :: 'm' :: ' ' ::
      (a ++ ')' :: ' ' :: '|' :: ' ' :: (a ++ ')' :: ')' :: ')' :: r)))) r := by
  have hq : Yupp.IsName ['s', 'k', 'i', 'p'] :=
    ⟨'s', _, rfl, .inl (by decide), by intro x hx; unfold NameChar NameStart; revert x hx; decide⟩
  have hq2 : Yupp.IsName ['n', 'o', 't'] :=
    ⟨'n', _, rfl, .inl (by decide), by intro x hx; unfold NameChar NameStart; revert x hx; decide⟩
  refine .app (g := []) isGap_nil (.inr (by simp [NoKeyword])) (s' := ')' :: r) ?_ .argsEnd
  refine .when (g1 := [' ']) (g2 := [' ']) (g3 := []) (.name (t := ['s', 'k', 'i', 'p']) (.plain hq) (ended_space _)) (.former ?_)
    isGap_space isGap_space isGap_nil (noGap_close _) (by simp)
  exact .app (g := []) isGap_nil (.inr (by simp [NoKeyword]))
    (form_space (.name (t := ['n', 'o', 't']) (.plain hq2) (ended_space _)) (by unfold GapChar; decide) (by decide))
    (.arg (notNamed_of (by simp)) (form_shut (.former (variant_reads ha _))) .argsEnd)

/-- The comment of `lib/hlib.yu`. -/
def hlibComment : Str := lit "\n\t($set hlib-light 0) to use full version of storage classes macros,\n\t($set hlib-light 1) to use light version of storage classes macros.\n"

/-- The comment of `lib/corolib.yu`. -/
def corolibComment : Str := lit "\n\t($set corolib-use-c-macro 0) to generate direct C source code for coroutines,\n\t($set corolib-use-c-macro 1) to generate source code based on macro definitions from \"coroutine.h\".\n"

theorem plainRun_lines (m : Mode) {w : Str} (s : Str) (h : ∀ c ∈ w, c = '\n') : PlainRun m w s :=
  plainRun_quiet m s (fun c hc => by rw [h c hc]; unfold Admissible; decide) (fun c hc => by rw [h c hc]; unfold QuoteMark PrefixChar; decide)

/-- **C107.** `lib/hlib.yu` is divided into a comment, the import of `h-light`, the line that decides, and the import of `h`. -/
theorem C107_hlib (m : Mode) : Source m [.piece (.comment .nil), .chars ['\n', '\n'], .lib (lit "h-light"), .chars ['\n', '\n'],
    .piece (.expr (skipOn (lit "hlib-light")) .nil), .chars ['\n', '\n'], .lib (lit "h"), .chars ['\n']] hlibText := by
  have e0 : hlibText = '(' :: '$' :: '!' :: (hlibComment ++ ')' :: (['\n', '\n'] ++ ('(' :: '$' :: 'i' :: 'm' :: 'p' :: 'o' :: 'r' :: 't' ::
      ([' '] ++ (lit "h-light" ++ ([] ++ (')' :: (['\n', '\n'] ++
      ('(' :: '$' :: 's' :: 'k' :: 'i' :: 'p' :: ' ' :: '?' :: ' ' :: ('(' :: '$' :: '0' :: ' ' :: '?' :: ' ' :: '(' :: '$' :: 'i' :: 's' :: 'a' :: 't' :: 'o' :: 'm' :: ' ' ::
      (lit "hlib-light" ++ ')' :: ' ' :: '|' :: ' ' :: (lit "hlib-light" ++ ')' :: ')' :: (['\n', '\n'] ++ ('(' :: '$' :: 'i' :: 'm' :: 'p' :: 'o' :: 'r' :: 't' ::
      ([' '] ++ (lit "h" ++ ([] ++ (')' :: (['\n'] ++ []))))))))))))))))))) := by decide +kernel
  rw [e0]
  refine .piece (.comment ((depth_balanced _).1 (by decide +kernel)) (by unfold Admissible; decide +kernel)) ?_
  refine .chars (by simp) (plainRun_lines m _ (by simp)) rfl ?_
  refine .lib isGap_space ⟨'h', ['-', 'l', 'i', 'g', 'h', 't'], rfl, .inl (by decide), by intro x hx; unfold NameChar NameStart; revert x hx; decide⟩
    isGap_nil .plain ?_
  refine .chars (by simp) (plainRun_lines m _ (by simp)) rfl ?_
  refine .piece (.expr (skipOn_reads name_light _) ⟨_, rfl⟩ (by simp [NoDirective])) ?_
  refine .chars (by simp) (plainRun_lines m _ (by simp)) rfl ?_
  refine .lib isGap_space ⟨'h', [], rfl, .inl (by decide), by simp⟩ isGap_nil .plain ?_
  exact .chars (by simp) (plainRun_lines m _ (by simp)) rfl .done

/-- **C107.** `lib/corolib.yu` is divided into a comment, the import of `coroutine`, the line that decides, and the import of
    `coroutine-h`. -/
theorem C107_corolib (m : Mode) : Source m [.piece (.comment .nil), .chars ['\n', '\n'], .lib (lit "coroutine"), .chars ['\n', '\n'],
    .piece (.expr (skipOff (lit "corolib-use-c-macro")) .nil), .chars ['\n', '\n'], .lib (lit "coroutine-h"), .chars ['\n']] corolibText := by
  have e0 : corolibText = '(' :: '$' :: '!' :: (corolibComment ++ ')' :: (['\n', '\n'] ++ ('(' :: '$' :: 'i' :: 'm' :: 'p' :: 'o' :: 'r' :: 't' ::
      ([' '] ++ (lit "coroutine" ++ ([] ++ (')' :: (['\n', '\n'] ++
      ('(' :: '$' :: 's' :: 'k' :: 'i' :: 'p' :: ' ' :: '?' :: ' ' :: '(' :: '$' :: 'n' :: 'o' :: 't' :: ' ' ::
      ('(' :: '$' :: '0' :: ' ' :: '?' :: ' ' :: '(' :: '$' :: 'i' :: 's' :: 'a' :: 't' :: 'o' :: 'm' :: ' ' ::
      (lit "corolib-use-c-macro" ++ ')' :: ' ' :: '|' :: ' ' :: (lit "corolib-use-c-macro" ++ ')' :: ')' :: ')' :: (['\n', '\n'] ++
      ('(' :: '$' :: 'i' :: 'm' :: 'p' :: 'o' :: 'r' :: 't' ::
      ([' '] ++ (lit "coroutine-h" ++ ([] ++ (')' :: (['\n'] ++ []))))))))))))))))))) := by decide +kernel
  rw [e0]
  refine .piece (.comment ((depth_balanced _).1 (by decide +kernel)) (by unfold Admissible; decide +kernel)) ?_
  refine .chars (by simp) (plainRun_lines m _ (by simp)) rfl ?_
  refine .lib isGap_space ⟨'c', ['o', 'r', 'o', 'u', 't', 'i', 'n', 'e'], rfl, .inl (by decide), by intro x hx; unfold NameChar NameStart; revert x hx; decide⟩
    isGap_nil .plain ?_
  refine .chars (by simp) (plainRun_lines m _ (by simp)) rfl ?_
  refine .piece (.expr (skipOff_reads name_cMacro _) ⟨_, rfl⟩ (by simp [NoDirective])) ?_
  refine .chars (by simp) (plainRun_lines m _ (by simp)) rfl ?_
  refine .lib isGap_space ⟨'c', ['o', 'r', 'o', 'u', 't', 'i', 'n', 'e', '-', 'h'], rfl, .inl (by decide), by intro x hx; unfold NameChar NameStart; revert x hx; decide⟩ isGap_nil .plain ?_
  exact .chars (by simp) (plainRun_lines m _ (by simp)) rfl .done

/-! ## What the line that decides comes to -/

variable {e : EEnv}

theorem tree_when {c x : Expr} {n : Node} (h : Tree (.when c x) n) : ∃ nc nx, n = .cond nc nx .none ∧ Tree c nc ∧ Tree x nx := by
  cases h with
  | when h1 h2 => exact ⟨_, _, rfl, h1, h2⟩

/-- A name that has no value and stands for nothing else. -/
theorem free_value {a : Src} {s : ESt} (h : Reserved e s a.txt) (hs : isSpecial a.txt = false) :
    ∃ v, Evaluates e (.var false [] a) s v s ∧ (v = .var true [] a ∨ v = .atom a) := by
  by_cases hh : '-' ∈ a.txt
  · refine ⟨_, evaluates_iff.2 ?_, .inl rfl⟩
    rw [ev_at]
    change evalVar e false [] a s = _
    unfold evalVar
    rw [h.scope]; dsimp only
    rw [if_neg (by simp), if_neg (by simp), h.table]; dsimp only
    rw [if_neg (by simp [hs]), if_pos hh]
  · refine ⟨_, evaluates_iff.2 ?_, .inr rfl⟩
    rw [ev_at]
    change evalVar e false [] a s = _
    unfold evalVar
    rw [h.scope]; dsimp only
    rw [if_neg (by simp), if_neg (by simp), h.table]; dsimp only
    rw [if_neg (by simp [hs]), if_neg hh]

theorem isatom_value {a : Src} {x v : Node} {loc : Option Loc} {s s1 : ESt} (ha : a.txt = lit "isatom")
    (hr : Reserved e s a.txt) (hx : Evaluates e x s v s1) (hn : v ≠ .none) (hm : ∀ b, v ≠ .embed b) :
    Evaluates e (.apply (.var false [] a) [x] [] loc) s (.int (if v.isAtom || v.isVar then 1 else 0)) s1 := by
  rw [evaluates_iff, ev_special hr (by rw [ha]; decide) (.one hx hn hm (.nil s1))]
  unfold applySpecial
  have h1 : ¬ lit "isatom" = lit "lazy" := by decide
  have h2 : ¬ lit "isatom" = lit "repr" := by decide
  have h3 : ¬ lit "isatom" = lit "reduce" := by decide
  simp only [ha, h1, h2, h3, if_false, if_true]
  rfl

theorem apply_int {f : Node} {n : Int} {l : Option Loc} {s s1 : ESt} (h : Evaluates e f s (.int n) s1) :
    Evaluates e (.apply f [] [] l) s (.int n) s1 := by
  rw [evaluates_iff, ev_apply h (.nil s1)]; rfl

/-- The number a switch stands for. -/
theorem variant_value {a : Str} {n : Node} {s : ESt} (ht : Tree (variantExpr a) n) (hq : Reserved e s (lit "isatom"))
    (ha : e.builtin s.p.scripts a = none) (hs : isSpecial a = false) :
    (∀ k : Int, Scopes.lookup s.env a = some (.int k) → Evaluates e n s (.int k) s) ∧
    (Scopes.lookup s.env a = none → Evaluates e n s (.int 0) s) := by
  obtain ⟨g, ns, l, rfl, hg, hns⟩ := tree_app ht
  obtain rfl := args_nil hns
  obtain ⟨nc, nx, ny, rfl, hc, hx, hy⟩ := tree_cond hg
  obtain rfl := tree_int hx
  obtain ⟨b, rfl, hb⟩ := tree_name0 hy
  obtain ⟨g, ns, l', rfl, hg, hns⟩ := tree_app hc
  obtain ⟨q, rfl, hqt⟩ := tree_name0 hg
  obtain ⟨y, ns', rfl, hy, hns⟩ := args_pos hns
  obtain rfl := args_nil hns
  obtain ⟨b', rfl, hb'⟩ := tree_name0 hy
  rw [← hqt] at hq
  constructor
  · intro k hk
    have h1 : Evaluates e (.var false [] b') s (.int k) s := evaluates_iff.2 (var_value (by rw [hb']; exact hk) (by simp))
    have h2 : Evaluates e (.var false [] b) s (.int k) s := evaluates_iff.2 (var_value (by rw [hb]; exact hk) (by simp))
    have h3 := isatom_value (loc := l') hqt hq h1 (by simp) (by simp)
    exact apply_int (((C25_false_leg e _ _ _ _ s s h3 (.int _) .int).1 _ _).2 h2)
  · intro hk
    obtain ⟨v, h1, hv⟩ := free_value (a := b') (s := s) (e := e) ⟨by rw [hb']; exact hk, by rw [hb']; exact ha⟩ (by rw [hb']; exact hs)
    have h3 := isatom_value (loc := l') hqt hq h1 (by rcases hv with rfl | rfl <;> simp) (by rcases hv with rfl | rfl <;> simp)
    have h4 : (v.isAtom || v.isVar) = true := by rcases hv with rfl | rfl <;> rfl
    rw [h4] at h3
    exact apply_int (((C25_true_leg e _ _ _ _ s s h3 (.int _) (by intro h; cases h)).1 _ _).2 (C24_values_are_fixed_points e (.int 0) s).1)

theorem skip_when {c k : Node} {l : Option Loc} {v : Node} {s : ESt} (hk : Tree (.name false [] (lit "skip")) k) (hr : Reserved e s (lit "skip"))
    (hc : Evaluates e c s v s) (hv : Value v) :
    (¬ False' v → Evaluates e (.apply (.cond c k .none) [] [] l) s .skip s) ∧
    (False' v → Evaluates e (.apply (.cond c k .none) [] [] l) s .none s) := by
  obtain ⟨b, rfl, hb⟩ := tree_name0 hk
  constructor
  · intro ht
    have h1 : Evaluates e (.var false [] b) s (.builtin b true) s := by
      rw [evaluates_iff, ev_at]
      change evalVar e false [] b s = _
      unfold evalVar
      have : isSpecial b.txt = true := by rw [hb]; decide
      rw [← hb] at hr
      rw [hr.scope, hr.table, this]; rfl
    rw [evaluates_iff, ev_apply (((C25_true_leg e c _ .none v s s hc hv ht).1 _ _).2 h1) (.nil s)]
    change applyBuiltin e b true [] [] l s = _
    unfold applyBuiltin applySpecial
    rw [hb]
    rfl
  · intro hf
    rw [evaluates_iff, ev_apply (C25_no_alternative e c _ v s s hc hv hf) (.nil s)]; rfl

/-- **C107.** `($skip ? ($0 ? ($isatom a) | a))` comes to `$skip` if the switch `a` is on, and to nothing if it is off. -/
theorem C107_skip_on (a : Str) (n : Node) (s : ESt) (ht : Tree (skipOn a) n) (hq : Reserved e s (lit "isatom")) (hk : Reserved e s (lit "skip"))
    (ha : e.builtin s.p.scripts a = none) (hs : isSpecial a = false) :
    (SwitchedOn s a → Evaluates e n s .skip s) ∧ (SwitchedOff s a → Evaluates e n s .none s) := by
  obtain ⟨g, ns, l, rfl, hg, hns⟩ := tree_app ht
  obtain rfl := args_nil hns
  obtain ⟨c, k, rfl, hc, hkt⟩ := tree_when hg
  obtain ⟨h1, h2⟩ := variant_value hc hq ha hs
  constructor
  · rintro ⟨i, hi, hl⟩
    exact (skip_when hkt hk (h1 i hl) (.int _)).1 (by intro h; cases h; exact hi rfl)
  · rintro (hl | hl)
    · exact (skip_when hkt hk (h2 hl) (.int _)).2 .int
    · exact (skip_when hkt hk (h1 0 hl) (.int _)).2 .int

/-- **C107.** `($skip ? ($not ($0 ? ($isatom a) | a)))`: the other way round. -/
theorem C107_skip_off (b : BExt) (a : Str) (n : Node) (s : ESt) (ht : Tree (skipOff a) n) (hq : Reserved e s (lit "isatom")) (hk : Reserved e s (lit "skip"))
    (hst : Standard e b (lit "not")) (hu : Unbound (lit "not") s) (ha : e.builtin s.p.scripts a = none) (hs : isSpecial a = false) :
    (SwitchedOn s a → Evaluates e n s .none s) ∧ (SwitchedOff s a → Evaluates e n s .skip s) := by
  obtain ⟨g, ns, l, rfl, hg, hns⟩ := tree_app ht
  obtain rfl := args_nil hns
  obtain ⟨c, k, rfl, hc, hkt⟩ := tree_when hg
  obtain ⟨g, ns, l', rfl, hg, hns⟩ := tree_app hc
  obtain ⟨f, rfl, hf⟩ := tree_name0 hg
  obtain ⟨y, ns', rfl, hy, hns⟩ := args_pos hns
  obtain rfl := args_nil hns
  obtain ⟨h1, h2⟩ := variant_value hy hq ha hs
  have hnot : ∀ i : Int, Evaluates e y s (.int i) s → Evaluates e (.apply (.var false [] f) [y] [] l') s (truth (False' (.int i))) s := by
    intro i hi
    have := C54_not (l := f.loc) (loc := l') hst hu (.one hi (by simp) (by simp) (.nil s)) (.int i)
    unfold fnCall at this
    rw [← hf] at this
    exact this
  have hvt : ∀ p, Value (truth p) := by intro p; unfold truth; split <;> exact .int _
  constructor
  · rintro ⟨i, hi, hl⟩
    exact (skip_when hkt hk (hnot i (h1 i hl)) (hvt _)).2 (not_false.2 (by intro h; cases h; exact hi rfl))
  · rintro (hl | hl)
    · exact (skip_when hkt hk (hnot 0 (h2 hl)) (hvt _)).1 (fun h => not_false.1 h .int)
    · exact (skip_when hkt hk (hnot 0 (h1 0 hl)) (hvt _)).1 (fun h => not_false.1 h .int)

/-! ## What is left of the module -/

/-- The marks of a source text with what it imports are in pairs. -/
theorem moduleTrees_paired {f : Bool} {q : Expanded} {ns : List Node} (h : ModuleTrees f q ns) : Paired ns := by
  induction h with
  | nil => exact .nil
  | chars _ _ ih => exact .node (by simp) (by simp) ih
  | @piece f x n r ns ht _ ih =>
    refine .node ?_ ?_ ih
    · rintro rfl
      cases ht with
      | expr _ h _ => cases h
    · rintro rfl
      cases ht with
      | expr _ h _ => cases h
  | empty _ _ _ ih => exact ih
  | module _ _ _ ih1 ih2 => exact .module ih1 ih2

theorem behind_paired {xs : List Node} (h : Paired xs) : ∀ (k : Nat) (ys : List Node), behindModule (k + 1) (xs ++ ys) = behindModule (k + 1) ys := by
  induction h with
  | nil => intro k ys; rfl
  | @node x xs h1 h2 _ ih =>
    intro k ys
    rw [List.cons_append]
    cases x <;> first | exact absurd rfl h1 | exact absurd rfl h2 | exact ih k ys
  | @module xs ys _ _ ih1 ih2 =>
    intro k zs
    simp only [List.cons_append, List.append_assoc, behindModule]
    rw [ih1]
    simp only [behindModule]
    exact ih2 k zs

/-- Nothing is added by a piece that comes to nothing. -/
theorem generates_none {x : Node} {s s1 : ESt} (hx : Form x) (h : Evaluates e x s .none s1) (ind : Indent) (cut : Bool) (rest : List Node)
    (o : Yield) : Generates e ind cut (x :: rest) s o ↔ Generates e ind false rest s1 o := by
  constructor
  · intro hg
    cases hg with
    | plain _ => exact absurd ⟨_, _, _, rfl⟩ hx.1
    | comment _ => exact absurd rfl hx.2
    | nothing _ h1 _ h3 => obtain ⟨-, rfl⟩ := evaluates_det h h1; exact h3
    | item _ h1 h2 _ _ =>
      obtain ⟨rfl, -⟩ := evaluates_det h h1
      cases h2 with
      | value h2 _ _ _ _ _ => exact absurd rfl h2
    | waits _ h1 h2 _ _ =>
      obtain ⟨rfl, -⟩ := evaluates_det h h1
      cases h2 with
      | value h2 _ _ _ _ _ => exact absurd rfl h2
    | definition _ h1 _ _ => cases (evaluates_det h h1).1
    | lastDefinition _ h1 => cases (evaluates_det h h1).1
    | block _ h1 h2 => cases (evaluates_det h h1).1
    | skip _ h1 h2 => cases (evaluates_det h h1).1
    | fails _ h1 => exact absurd h1 (not_raises h)
  · exact fun hg => .nothing hx h (.inl rfl) hg

theorem form_apply (f : Node) (args : List Node) (named : List (Src × Node)) (l : Option Loc) : Form (.apply f args named l) :=
  ⟨(by rintro ⟨_, _, _, h⟩; cases h), (by intro h; cases h)⟩

/-- **C107.** The pieces of an imported module from `($skip ? ($0 ? ($isatom a) | a))` on, `q` being what stands behind that in the
    module (with all it imports): if the switch is on, nothing of `q` is in the result; if it is off, the result is that of `q`. -/
theorem C107_module_on (a : Str) (q : Expanded) (ns : List Node) (s : ESt) (ht : ModuleTrees false (.piece (.expr (skipOn a) .nil) q) ns)
    (hq : Reserved e s (lit "isatom")) (hk : Reserved e s (lit "skip")) (ha : e.builtin s.p.scripts a = none) (hs : isSpecial a = false) :
    ∃ ms, ModuleTrees false q ms ∧ ∀ ind cut rest o,
      (SwitchedOn s a → (Generates e ind cut (ns ++ .importEnd :: rest) s o ↔ Generates e ind false rest s o)) ∧
      (SwitchedOff s a → (Generates e ind cut (ns ++ .importEnd :: rest) s o ↔ Generates e ind false (ms ++ .importEnd :: rest) s o)) := by
  cases ht with
  | @piece _ _ n _ ms h1 h2 =>
    obtain ⟨n', ks, hn, hy, hx⟩ := text_expr h1
    obtain rfl : n = n' := by injection hn
    obtain ⟨h3, h4⟩ := C107_skip_on a n s hy hq hk ha hs
    obtain ⟨g, xs, l, rfl, -, -⟩ := tree_app hy
    refine ⟨ms, h2, fun ind cut rest o => ⟨fun h => ?_, fun h => ?_⟩⟩
    · rw [List.cons_append, generates_skip (form_apply ..) (h3 h), behind_paired (moduleTrees_paired h2)]; simp only [behindModule]
    · rw [List.cons_append, generates_none (form_apply ..) (h4 h)]

/-- **C107.** The same with `($skip ? ($not ($0 ? ($isatom a) | a)))`: nothing of `q` is in the result if the switch is off. -/
theorem C107_module_off (b : BExt) (a : Str) (q : Expanded) (ns : List Node) (s : ESt) (ht : ModuleTrees false (.piece (.expr (skipOff a) .nil) q) ns)
    (hq : Reserved e s (lit "isatom")) (hk : Reserved e s (lit "skip")) (hst : Standard e b (lit "not")) (hu : Unbound (lit "not") s)
    (ha : e.builtin s.p.scripts a = none) (hs : isSpecial a = false) :
    ∃ ms, ModuleTrees false q ms ∧ ∀ ind cut rest o,
      (SwitchedOff s a → (Generates e ind cut (ns ++ .importEnd :: rest) s o ↔ Generates e ind false rest s o)) ∧
      (SwitchedOn s a → (Generates e ind cut (ns ++ .importEnd :: rest) s o ↔ Generates e ind false (ms ++ .importEnd :: rest) s o)) := by
  cases ht with
  | @piece _ _ n _ ms h1 h2 =>
    obtain ⟨n', ks, hn, hy, hx⟩ := text_expr h1
    obtain rfl : n = n' := by injection hn
    obtain ⟨h3, h4⟩ := C107_skip_off b a n s hy hq hk hst hu ha hs
    obtain ⟨g, xs, l, rfl, -, -⟩ := tree_app hy
    refine ⟨ms, h2, fun ind cut rest o => ⟨fun h => ?_, fun h => ?_⟩⟩
    · rw [List.cons_append, generates_skip (form_apply ..) (h4 h), behind_paired (moduleTrees_paired h2)]; simp only [behindModule]
    · rw [List.cons_append, generates_none (form_apply ..) (h3 h)]

/-! ## Concrete cases -/

/-- An environment with `$not`. -/
def switchEnv : EEnv where
  pe := { inputFile := ['a'] }
  builtin := fun _ f => if f = lit "not" then some .fn else none
  call := fun _ f as seen => builtinCall {} f as seen

/-- The tree of `($0 ? ($isatom a) | a)`. -/
def variantNode (a : Str) : Node :=
  .apply (.cond (.apply (.var false [] { txt := lit "isatom" }) [.var false [] { txt := a }] [] none) (.int 0) (.var false [] { txt := a })) [] [] none

theorem variantNode_tree (a : Str) : Tree (variantExpr a) (variantNode a) :=
  .app (.cond (.app (.name (rs := []) (a := { txt := lit "isatom" })) (.pos (.name (rs := []) (a := { txt := a })) .nil) .nil) .int
    (.name (rs := []) (a := { txt := a }))) .nil .nil

/-- `hlib.yu` from the line that decides on, the library `h` being `x` and a line end. -/
def hlibTail : List Node := [.apply (.cond (variantNode (lit "hlib-light")) (.var false [] { txt := lit "skip" }) .none) [] [] none,
  .plain { txt := ['x'] } .no false]

theorem hlibTail_trees : ModuleTrees false (.piece (.expr (skipOn (lit "hlib-light")) .nil) (.chars ['x'] .nil)) hlibTail :=
  .piece (.expr (by intro s h; cases h) (.app (.when (variantNode_tree _) (.name (rs := []) (a := { txt := lit "skip" }))) .nil .nil) .nil)
    (.chars (w := { txt := ['x'] }) (.text (a := []) (b := []) (c := 'x') (by unfold GapChar; decide) (by simp)) .nil)

theorem switchEnv_free {k : List Str} {f : Str} (h : f ≠ lit "not") : switchEnv.builtin k f = none := by
  simp only [switchEnv]; rw [if_neg h]

theorem switchEnv_standard : Standard switchEnv {} (lit "not") :=
  ⟨fun _ => by simp only [switchEnv]; rw [if_pos trivial], fun _ _ _ => rfl⟩

theorem switchEnv_reserved {s : ESt} {f : Str} (h : f ≠ lit "not") (hl : Scopes.lookup s.env f = none) : Reserved switchEnv s f :=
  ⟨hl, switchEnv_free h⟩

/-- With `hlib-light` set to 1 the text is left out, without it the text stays. -/
example (o : Yield) :
    (Generates switchEnv (.str []) false (hlibTail ++ [.importEnd]) { env := [[(lit "hlib-light", .int 1)]] } o ↔
      Generates switchEnv (.str []) false [] { env := [[(lit "hlib-light", .int 1)]] } o) ∧
    ∃ ms, ModuleTrees false (.chars ['x'] .nil) ms ∧ (Generates switchEnv (.str []) false (hlibTail ++ [.importEnd]) {} o ↔
      Generates switchEnv (.str []) false (ms ++ [.importEnd]) {} o) := by
  constructor
  · obtain ⟨ms, -, h⟩ := C107_module_on (e := switchEnv) _ _ _ { env := [[(lit "hlib-light", .int 1)]] } hlibTail_trees
      (switchEnv_reserved (by decide +kernel) (by decide +kernel)) (switchEnv_reserved (by decide +kernel) (by decide +kernel))
      (switchEnv_free (by decide +kernel)) (by decide +kernel)
    exact (h _ _ _ _).1 ⟨1, by decide, by rfl⟩
  · obtain ⟨ms, h1, h⟩ := C107_module_on (e := switchEnv) _ _ _ {} hlibTail_trees
      (switchEnv_reserved (by decide +kernel) (by decide +kernel)) (switchEnv_reserved (by decide +kernel) (by decide +kernel))
      (switchEnv_free (by decide +kernel)) (by decide +kernel)
    exact ⟨ms, h1, (h _ _ _ _).2 (.inl (by decide +kernel))⟩

/-- `corolib.yu` from the line that decides on comes to `$skip` without the switch. -/
example : Evaluates switchEnv (.apply (.cond (.apply (.var false [] { txt := lit "not" }) [variantNode (lit "corolib-use-c-macro")] [] none)
    (.var false [] { txt := lit "skip" }) .none) [] [] none) {} .skip {} :=
  (C107_skip_off (e := switchEnv) {} (lit "corolib-use-c-macro") _ {}
    (.app (.when (.app (.name (rs := []) (a := { txt := lit "not" })) (.pos (variantNode_tree _) .nil) .nil) (.name (rs := []) (a := { txt := lit "skip" }))) .nil .nil)
    (switchEnv_reserved (by decide +kernel) (by decide +kernel)) (switchEnv_reserved (by decide +kernel) (by decide +kernel))
    switchEnv_standard (by unfold Unbound; decide +kernel) (switchEnv_free (by decide +kernel)) (by decide +kernel)).2 (.inl (by decide +kernel))

end Yupp
