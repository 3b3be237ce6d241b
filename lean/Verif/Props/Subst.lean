import Verif.Lemmas.Subst
import Verif.Lemmas.Eval
import Verif.Lemmas.Parse
import Verif.Props.Scope
/-!
# Substitution in strings and macros: C32, C33
-/

namespace Yupp

open Spec

/-! ## Auxiliary facts -/

theorem textOf_plain {cfg : Config} {x : TextExt} {v : Node} {t : Str} (h : TextOf v t) : plainStr cfg x v = t := by
  induction h with
  | none => rfl
  | plain s i => simp [plainStr, getTrimmed]
  | bool b => cases b <;> rfl
  | lazy _ ih => simpa [plainStr] using ih
  | nil => rfl
  | cons _ _ ih1 ih2 =>
    simp only [plainStr] at *
    simp only [plainStrs]
    rw [ih1, ih2]
  | _ => rfl

theorem texts_plain {cfg : Config} {x : TextExt} {vs : List Node} {ts : List Str} (h : Each2 TextOf vs ts) :
    vs.map (plainStr cfg x) = ts := by
  induction h with
  | nil => rfl
  | cons h _ ih => rw [List.map_cons, textOf_plain h, ih]

theorem argText_back {x : TextExt} {v : Node} {t : Str} (h : ArgText v t) : plainBack x v = t := by
  cases h with
  | bool b => cases b <;> rfl
  | _ => rfl

theorem numbered_positions : ∀ (ts : List Str) (i : Nat), numbered i ts = positions i ts := by
  intro ts
  induction ts with
  | nil => intro i; rfl
  | cons t ts ih => intro i; simp only [numbered, positions, ih]

theorem positions_names : ∀ (ts : List Str) (i : Nat), NamesOk (positions i ts) := by
  intro ts
  induction ts with
  | nil => intro i p hp; simp [positions] at hp
  | cons t ts ih =>
    intro i p hp
    simp only [positions, List.mem_cons] at hp
    rcases hp with rfl | hp
    · have e : natStr i = Nat.toDigits 10 i := Nat.toList_repr
      have dig : ∀ c ∈ Nat.toDigits 10 i, c.isDigit = true := fun c hc =>
        Nat.isDigit_of_mem_toDigits (b := 10) (by decide) (by decide) hc
      simp only [e]
      exact ⟨fun h => absurd (dig _ h) (by decide), fun h => absurd (dig _ h) (by decide)⟩
    · exact ih _ p hp

theorem namesOk_append {ρ σ : List (Str × Str)} (h : NamesOk ρ) (h' : NamesOk σ) : NamesOk (ρ ++ σ) := by
  intro p hp
  rcases List.mem_append.1 hp with hp | hp
  · exact h p hp
  · exact h' p hp

theorem named_ev {e : EEnv} {named : List (Src × Node)} {s s' : ESt} {vs : List (Str × Node)}
    (h : Named e named s vs s') : ∃ r, evalNamed (ev e) named s = .ok (r, s') ∧ r.map (fun p => (p.1.txt, p.2)) = vs := by
  induction h with
  | nil s => exact ⟨[], rfl, rfl⟩
  | @cons a x r s v s1 vs s2 h1 _ ih =>
    obtain ⟨r', hr, hm⟩ := ih
    refine ⟨(a, v) :: r', ?_, by simp [hm]⟩
    unfold evalNamed
    rw [em_bind_ok (evaluates_iff.1 h1), em_bind_ok hr]; rfl

/-- The table of named arguments with their texts. -/
inductive NamedTexts : List (Str × Node) → List (Str × Str) → Prop
  | nil : NamedTexts [] []
  | cons {k v t vs ts} : TextOf v t → NamedTexts vs ts → NamedTexts ((k, v) :: vs) ((k, t) :: ts)

theorem namedTexts_plain {cfg : Config} {x : TextExt} {vs : List (Str × Node)} {ts : List (Str × Str)}
    (h : NamedTexts vs ts) : vs.map (fun p => (p.1, plainStr cfg x p.2)) = ts := by
  induction h with
  | nil => rfl
  | cons h _ ih => rw [List.map_cons, textOf_plain h, ih]

theorem applyTo_template {e : EEnv} {rec : Node → EM Node} {f : Node} {t : Str} (h : Template f t) (call : Option Src)
    (args named loc) : applyTo e rec (f.setCall call) args named loc = applyStr e rec f args named loc := by
  cases h <;> rfl

theorem template_str {x : TextExt} {f : Node} {t : Str} (h : Template f t) : strOf x f = t := by
  cases h <;> rfl

/-! ## C32 — strings -/

/-- Without arguments a string is itself. -/
theorem C32_no_arguments (e : EEnv) (fn f : Node) (t : Str) (args : List Node) (loc : Option Loc) (s s1 s2 : ESt)
    (hf : Evaluates e fn s f s1) (ht : Template f t) (ha : Args e args s1 [] s2) :
    Evaluates e (.apply fn args [] loc) s f s2 := by
  rw [evaluates_iff, ev_apply hf ha, applyTo_template ht]
  rfl

/-- A string applied to positional arguments with the texts `ts` and named arguments with the texts `ns`: every
    marker `($0)`, `($1)`, … and `($name)` is replaced by the text of its argument, and everything else is kept,
    provided that no marker arises out of that. -/
theorem C32_markers_are_replaced (e : EEnv) (fn f : Node) (t : Str) (args vs : List Node) (named : List (Src × Node))
    (nvs : List (Str × Node)) (ts : List Str) (ns : List (Str × Str)) (loc : Option Loc) (s s1 s2 s3 : ESt)
    (hf : Evaluates e fn s f s1) (ht : Template f t)
    (ha : Args e args s1 vs s2) (hv : ∀ v ∈ vs, Value v) (hts : Each2 TextOf vs ts)
    (hn : Named e named s2 nvs s3) (hnv : ∀ p ∈ nvs, Value p.2) (hns : NamedTexts nvs ns)
    (hsome : vs ≠ [] ∨ named ≠ [])
    (hok : NamesOk ns)
    (hclean : Unmarked (positions 0 ts ++ ns) (substitute (positions 0 ts ++ ns) t)) :
    Evaluates e (.apply fn args named loc) s (.str { txt := substitute (positions 0 ts ++ ns) t }) s3 := by
  rw [evaluates_iff, ev_apply hf ha, applyTo_template ht]
  unfold applyStr
  have hne : (named.isEmpty && vs.isEmpty) = false := by
    rcases hsome with h | h
    · cases vs with
      | nil => exact absurd rfl h
      | cons => simp
    · cases named with
      | nil => exact absurd rfl h
      | cons => rfl
  rw [hne]
  simp only [Bool.false_eq_true, if_false]
  obtain ⟨r, hr, hm⟩ := named_ev hn
  rw [em_bind_ok hr, values_terms hv]
  have hall : r.all (fun p => isTerm p.2) = true := by
    rw [List.all_eq_true]
    intro p hp
    apply value_term
    apply hnv (p.1.txt, p.2)
    rw [← hm]
    exact List.mem_map.2 ⟨p, hp, rfl⟩
  rw [hall]
  simp only [Bool.and_self, if_true]
  rw [em_bind_ok (em_get s3), em_pure, texts_plain hts, template_str ht, numbered_positions]
  have hmap : r.map (fun p => (p.1.txt, plainStr e.cfg (textExt e s3) p.2)) = ns := by
    rw [← namedTexts_plain (cfg := e.cfg) (x := textExt e s3) hns, ← hm, List.map_map]
    rfl
  rw [hmap, substAll_eq _ (namesOk_append (positions_names ts 0) hok) t hclean]

/-- Text without markers is kept. -/
theorem C32_without_markers (ρ : List (Str × Str)) (t : Str) (h : Unmarked ρ t) : substitute ρ t = t := simul_id ρ t h

/-- In general the substitutions are made one after another: an argument that holds the marker of a later one
    is changed again. -/
theorem C32_arguments_are_substituted_again (e : EEnv) (s : ESt) :
    let t : Str := ['(', '$', '0', ')', ',', '(', '$', '1', ')']
    let x : Node := .apply (.pstr t) [.pstr ['(', '$', '1', ')'], .pstr ['x']] [] none
    substitute [(['0'], ['(', '$', '1', ')']), (['1'], ['x'])] t = ['(', '$', '1', ')', ',', 'x'] ∧
    Evaluates e x s (.str { txt := ['x', ',', 'x'] }) s := ⟨by decide, 2, rfl⟩

/-- A template with two markers and a name, for instance. -/
example (e : EEnv) (s : ESt) :
    Evaluates e (.apply (.str { txt := ['f', '(', '(', '$', '0', ')', ',', '(', '$', 'a', ')', ')', '(', '$', 'b', ')'] })
      [.int 7] [({ txt := ['a'] }, .list [.pstr ['u'], .int (-1)])] none) s
      (.str { txt := ['f', '(', '7', ',', 'u', '-', '1', ')', '(', '$', 'b', ')'] }) s := by
  have := C32_markers_are_replaced e (.str { txt := ['f', '(', '(', '$', '0', ')', ',', '(', '$', 'a', ')', ')', '(', '$', 'b', ')'] })
    _ _ [.int 7] [.int 7] [({ txt := ['a'] }, .list [.pstr ['u'], .int (-1)])] _ [['7']] [(['a'], ['u', '-', '1'])] none s s s s
    (evaluates_iff.2 (ev_value e (.str _) s)) (.str _)
    (.one (evaluates_iff.2 (ev_value e (.int 7) s)) (by simp) (by simp) (.nil s)) (by simp; exact .int 7)
    (.cons (.int 7) .nil)
    (.cons (evaluates_iff.2 (ev_value e (.list _ (by simp; exact ⟨.pstr _, .int _⟩) (by simp)) s)) (.nil s))
    (by simp; exact .list _ (by simp; exact ⟨.pstr _, .int _⟩) (by simp))
    (.cons (.cons (.pstr ['u']) (.cons (.int (-1)) .nil)) .nil)
    (by simp) (by intro p hp; simp at hp; subst hp; decide) (unmarked_of (by decide))
  exact this

/-! ## C33 — macros -/

/-- Values and missing values of parameters are not changed by evaluation. -/
theorem evalLocal_settled {e : EEnv} {f : Frame} (s : ESt) (hf : ∀ p ∈ f, p.2 = .bound ∨ Value p.2) :
    evalLocal (ev e) f s = .ok (f, s) := by
  induction f with
  | nil => rfl
  | cons p f ih =>
    obtain ⟨k, v⟩ := p
    unfold evalLocal
    have hv : ev e v s = .ok (v, s) := by
      rcases hf (k, v) (by simp) with h | h
      · simp only at h; subst h; rw [ev_at]; rfl
      · exact ev_value e h s
    rw [em_bind_ok hv, em_bind_ok (ih (fun p hp => hf p (by simp [hp])))]; rfl

/-- A macro some of whose parameters have no value stays as it is. -/
theorem macro_pending {e : EEnv} {text decl : Src} {call : Option Src} {f : Frame} (s : ESt)
    (hf : ∀ p ∈ f, p.2 = .bound ∨ Value p.2) (hb : ∃ p ∈ f, p.2 = .bound) :
    ev e (.mclosure text f decl call) s = .ok (.mclosure text f decl call, s) := by
  rw [ev_at]
  change evalMacro e (ev e) text f decl call s = _
  unfold evalMacro
  rw [em_bind_ok (evalLocal_settled s hf)]
  have : Frame.terms f = false := by
    unfold Frame.terms
    rw [List.all_eq_false]
    obtain ⟨p, hp, h⟩ := hb
    exact ⟨p, hp, by rw [h]; simp [isTerm]⟩
  rw [this]; rfl

/-- A macro all of whose parameters have values: its text with the substitutions is evaluated. -/
theorem macro_full {e : EEnv} {text decl : Src} {call : Option Src} {f : Frame} (s : ESt)
    (hf : ∀ p ∈ f, Value p.2) : ev e (.mclosure text f decl call) s =
      ev e (.eval (.pstr (substAll text.txt (f.map (fun p => (p.1, plainBack (textExt e s) p.2))))) (some decl) call) s := by
  rw [ev_at]
  change evalMacro e (ev e) text f decl call s = _
  unfold evalMacro
  rw [em_bind_ok (evalLocal_settled s (fun p hp => .inr (hf p hp)))]
  have : Frame.terms f = true := by
    unfold Frame.terms
    rw [List.all_eq_true]
    exact fun p hp => value_term (hf p hp)
  rw [this]
  simp only [if_true]
  rw [em_bind_ok (em_get s)]

/-- A scope with the missing parameters first. -/
def pendingFrame (ps : List Str) (done : Frame) : Frame := ps.map (fun p => (p, Node.bound)) ++ done

theorem pending_unassigned {p : Str} {ps : List Str} {done : Frame} :
    Frame.unassigned (pendingFrame (p :: ps) done) = some p := by
  simp [Frame.unassigned, pendingFrame, Node.isBound]

theorem pending_set {p : Str} {ps : List Str} {done : Frame} {v : Node} (hp : p ∉ ps) (hd : ∀ q ∈ done, q.1 ≠ p) :
    Frame.set (pendingFrame (p :: ps) done) p v = pendingFrame ps (done ++ [(p, v)]) := by
  have h1 : Frame.del (pendingFrame (p :: ps) done) p = pendingFrame ps done := by
    unfold Frame.del pendingFrame
    rw [List.map_cons, List.cons_append, List.filter_cons]
    simp only [beq_self_eq_true, Bool.not_true, Bool.false_eq_true, if_false]
    rw [List.filter_eq_self]
    intro q hq
    simp only [List.mem_append, List.mem_map] at hq
    have : q.1 ≠ p := by
      rcases hq with ⟨r, hr, rfl⟩ | hq
      · intro h; simp only at h; subst h; exact hp hr
      · exact hd q hq
    simpa using this
  unfold Frame.set
  rw [h1]
  simp [pendingFrame]

theorem value_not_embed {v : Node} (h : Value v) (as : List Node) (e : EEnv) (s : ESt) :
    listEval1 (ev e) (v :: as) s = .ok ((some v, as), s) := by
  unfold listEval1
  rw [em_bind_ok (ev_value e h s)]
  cases h <;> rfl

theorem evalList_values {e : EEnv} {vs : List Node} (h : ∀ v ∈ vs, Value v) (hn : ∀ v ∈ vs, v ≠ .none) (s : ESt) :
    Args e vs s vs s := by
  induction vs with
  | nil => exact .nil s
  | cons v vs ih =>
    refine .one (evaluates_iff.2 (ev_value e (h v (by simp)) s)) (hn v (by simp)) ?_
      (ih (fun w hw => h w (by simp [hw])) (fun w hw => hn w (by simp [hw])))
    intro a ha
    have := h v (by simp)
    rw [ha] at this
    cases this

/-- The rounds of an application of a macro. -/
theorem macro_rounds {e : EEnv} {text decl : Src} {loc : Option Loc} : ∀ (ps : List Str) (vs : List Node) (done : Frame)
    (fn : Node) (c0 : Option Src) (args : List Node) (s s1 s2 : ESt),
    Evaluates e fn s (.mclosure text (pendingFrame ps done) decl c0) s1 → Args e args s1 vs s2 →
    ps ≠ [] → vs.length = ps.length → ps.Nodup → vaArgs ∉ ps → (∀ q ∈ done, q.1 ∉ ps) → (∀ q ∈ done, Value q.2) →
    (∀ v ∈ vs, Value v) → (∀ v ∈ vs, v ≠ .none) →
    ev e (.apply fn args [] loc) s =
      ev e (.mclosure text (done ++ ps.zip vs) decl (if ps.length = 1 then callOf fn else none)) s2 := by
  intro ps
  induction ps with
  | nil => intro vs done fn c0 args s s1 s2 _ _ h; exact absurd rfl h
  | cons p ps ih =>
    intro vs done fn c0 args s s1 s2 hf ha _ hl hnd hva hd hdv hv hn
    cases vs with
    | nil => simp at hl
    | cons v vs =>
      simp only [List.nodup_cons] at hnd
      simp only [List.mem_cons, not_or] at hva
      simp only [List.length_cons, Nat.add_right_cancel_iff] at hl
      have hd' : ∀ q ∈ done, q.1 ≠ p := fun q hq h => hd q hq (by simp [h])
      rw [ev_apply hf ha]
      change applyClosure (ev e) (.mclosure text (pendingFrame (p :: ps) done) decl (callOf fn))
        (pendingFrame (p :: ps) done) [] [] (v :: vs) [] loc s2 = _
      unfold applyClosure
      rw [pending_unassigned]
      simp only []
      rw [if_neg (Ne.symm hva.1), em_bind_ok (value_not_embed (hv v (by simp)) vs e s2)]
      simp only []
      unfold bindArg
      have hlv : lateVal (ev e) [] p v s2 = .ok (v, s2) := rfl
      rw [em_bind_ok hlv, pending_set hnd.1 hd']
      unfold applyNext
      have hdef : hasDefault [] (Frame.unassigned (pendingFrame ps (done ++ [(p, v)]))) = false := by
        cases Frame.unassigned (pendingFrame ps (done ++ [(p, v)])) <;> rfl
      rw [hdef]
      cases ps with
      | nil =>
        have : vs = [] := by cases vs with
          | nil => rfl
          | cons => simp at hl
        subst this
        simp [Node.setFrame, pendingFrame]
      | cons p' ps =>
        cases vs with
        | nil => simp at hl
        | cons v' vs =>
          simp only [List.isEmpty_nil, List.isEmpty_cons, Bool.and_false, Bool.false_and, Bool.false_eq_true, if_false,
            Node.setFrame]
          have hdv' : ∀ q ∈ done ++ [(p, v)], Value q.2 := by
            intro q hq
            simp at hq
            rcases hq with hq | rfl
            · exact hdv q hq
            · exact hv v (by simp)
          have hpend : Evaluates e (.mclosure text (pendingFrame (p' :: ps) (done ++ [(p, v)])) decl (callOf fn)) s2
              (.mclosure text (pendingFrame (p' :: ps) (done ++ [(p, v)])) decl (callOf fn)) s2 := by
            refine evaluates_iff.2 (macro_pending s2 ?_ ⟨(p', .bound), by simp [pendingFrame], rfl⟩)
            intro q hq
            simp only [pendingFrame, List.mem_append, List.mem_map] at hq
            rcases hq with ⟨r, _, rfl⟩ | hq
            · exact .inl rfl
            · exact .inr (hdv' q (by simpa using hq))
          rw [ih (v' :: vs) (done ++ [(p, v)]) _ (callOf fn) (v' :: vs) s2 s2 s2 hpend
            (evalList_values (fun w hw => hv w (by simp [hw])) (fun w hw => hn w (by simp [hw])) s2)
            (by simp) hl hnd.2 hva.2 ?_ hdv' (fun w hw => hv w (by simp [hw])) (fun w hw => hn w (by simp [hw]))]
          · simp [callOf]
          · intro q hq
            simp at hq
            rcases hq with hq | rfl
            · exact fun h => hd q hq (List.mem_cons_of_mem _ h)
            · exact hnd.1

theorem zip_back {x : TextExt} {ps : List Str} {vs : List Node} {ts : List Str} (h : Each2 ArgText vs ts) :
    (ps.zip vs).map (fun p => (p.1, plainBack x p.2)) = ps.zip ts := by
  induction h generalizing ps with
  | nil => simp
  | cons h _ ih =>
    cases ps with
    | nil => rfl
    | cons p ps => simp [ih, argText_back h]

/-- `($macro name (pars) text)` binds the name to a macro with that text and these parameters, none of which
    has a value. -/
theorem C33_definition (e : EEnv) (name text : Src) (pars : List Src) (s : ESt) (hnd : (pars.map (·.txt)).Nodup) :
    Evaluates e (.macro name pars text) s
      (.env [(name.txt, .mclosure text ((pars.map (·.txt)).map (fun p => (p, Node.bound))) name none)]) s := by
  refine ⟨1, ?_⟩
  change (pure (macroEnv name pars text) : EM Node) s = _
  have := ofList_nodup (pars.map (·.txt)) [] (by simpa using hnd)
  rw [em_pure]
  unfold macroEnv Frame.ofList
  simp only [List.map_map, List.nil_append] at *
  rw [← this]
  rfl

/-- A macro with the parameters `ps`, applied to as many arguments, expands to its text with every `($par)`
    replaced by the text of the argument (provided that no marker of a parameter arises out of that); the outcome is
    that of evaluating the expanded text, after the effects of the arguments. The place of the call is kept for
    macros with one parameter only. -/
theorem C33_expansion (e : EEnv) (fn : Node) (text decl : Src) (c0 : Option Src) (ps : List Str) (args vs : List Node)
    (ts : List Str) (loc : Option Loc) (s s1 s2 : ESt)
    (hf : Evaluates e fn s (.mclosure text (ps.map (fun p => (p, Node.bound))) decl c0) s1)
    (ha : Args e args s1 vs s2) (hps : ps ≠ []) (hl : vs.length = ps.length) (hnd : ps.Nodup) (hva : vaArgs ∉ ps)
    (hv : ∀ v ∈ vs, Value v) (hn : ∀ v ∈ vs, v ≠ .none) (hts : Each2 ArgText vs ts)
    (hok : NamesOk (ps.zip ts)) (hclean : Unmarked (ps.zip ts) (substitute (ps.zip ts) text.txt)) :
    SameOutcome e (.apply fn args [] loc) s
      (.eval (.pstr (substitute (ps.zip ts) text.txt)) (some decl) (if ps.length = 1 then callOf fn else none)) s2 := by
  apply sameOutcome_of
  rw [macro_rounds ps vs [] fn c0 args s s1 s2 (by simpa [pendingFrame] using hf) ha hps hl hnd hva (by simp) (by simp) hv hn]
  rw [macro_full, List.nil_append, zip_back hts, substAll_eq _ hok _ hclean]
  intro q hq
  exact hv q.2 (List.of_mem_zip hq).2

/-- A macro without parameters expands to its text. -/
theorem C33_without_parameters (e : EEnv) (fn : Node) (text decl : Src) (c0 : Option Src) (args : List Node)
    (loc : Option Loc) (s s1 s2 : ESt) (hf : Evaluates e fn s (.mclosure text [] decl c0) s1) (ha : Args e args s1 [] s2) :
    SameOutcome e (.apply fn args [] loc) s (.eval (.pstr text.txt) (some decl) (callOf fn)) s2 := by
  apply sameOutcome_of
  rw [ev_apply hf ha]
  change ev e (.mclosure text [] decl (callOf fn)) s2 = _
  rw [macro_full s2 (by simp)]; rfl

/-- The order of the parameters plays no role under that condition. -/
theorem C33_order_of_parameters (e : EEnv) (text decl : Src) (call : Option Src) (f g : Frame) (s : ESt)
    (hp : f.Perm g) (hnd : (f.map (·.1)).Nodup) (hv : ∀ p ∈ f, Value p.2) (ts : List Str)
    (hts : Each2 ArgText (f.map (·.2)) ts) (hok : NamesOk ((f.map (·.1)).zip ts))
    (hclean : Unmarked ((f.map (·.1)).zip ts) (substitute ((f.map (·.1)).zip ts) text.txt)) :
    SameOutcome e (.mclosure text f decl call) s (.mclosure text g decl call) s := by
  apply sameOutcome_of
  rw [macro_full s hv, macro_full s (fun p h => hv p (hp.mem_iff.2 h))]
  have hzip : f.map (fun p => (p.1, plainBack (textExt e s) p.2)) = (f.map (·.1)).zip ts := by
    rw [← zip_back (x := textExt e s) hts]
    clear hts hp hnd hv hok hclean
    induction f with
    | nil => rfl
    | cons p f ih => simp [ih]
  have hperm := hp.map (fun p : Str × Node => (p.1, plainBack (textExt e s) p.2))
  rw [← hzip] at hok hclean
  have hnd' : ((f.map (fun p : Str × Node => (p.1, plainBack (textExt e s) p.2))).map (·.1)).Nodup := by
    rw [List.map_map]; exact hnd
  have heq := simul_perm hok hnd' hperm text.txt
  rw [substAll_eq _ hok _ hclean, substAll_eq]
  · rw [heq]
  · exact fun p h => hok p (hperm.mem_iff.2 h)
  · rw [← heq]; exact fun p h => hclean p (hperm.mem_iff.2 h)

/-- In general it does: if the argument for `a` holds the marker of `b`, that is substituted again or not,
    depending on the order. -/
theorem C33_order_matters_in_general (e : EEnv) (decl : Src) (call : Option Src) (s : ESt) :
    let text : Src := { txt := ['(', '$', 'a', ')'] }
    let a : Str × Node := (['a'], .pstr ['(', '$', 'b', ')'])
    let b : Str × Node := (['b'], .pstr ['1'])
    SameOutcome e (.mclosure text [a, b] decl call) s (.eval (.pstr ['1']) (some decl) call) s ∧
    SameOutcome e (.mclosure text [b, a] decl call) s (.eval (.pstr ['(', '$', 'b', ')']) (some decl) call) s := by
  intro text a b
  constructor <;>
  · apply sameOutcome_of
    rw [macro_full]
    · rfl
    · intro p hp
      simp [a, b] at hp
      rcases hp with rfl | rfl <;> exact .pstr _

/-- A macro with two parameters, for instance: `($macro m (a b) ($f ($a)($b)))` applied to `7` and `x`. -/
example (e : EEnv) (s : ESt) (decl m : Src) (hm : Scopes.lookup s.env m.txt = some (.mclosure
      { txt := ['(', '$', 'f', ' ', '(', '$', 'a', ')', '(', '$', 'b', ')', ')'] } [(['a'], .bound), (['b'], .bound)] decl none)) :
    SameOutcome e (.apply (.var false [] m) [.int 7, .pstr ['x']] [] none) s
      (.eval (.pstr ['(', '$', 'f', ' ', '7', 'x', ')']) (some decl) none) s := by
  have hv : ∀ v ∈ [Node.int 7, .pstr ['x']], Value v := by simp; exact ⟨.int _, .pstr _⟩
  have hf : Evaluates e (.var false [] m) s (.mclosure
      { txt := ['(', '$', 'f', ' ', '(', '$', 'a', ')', '(', '$', 'b', ')', ')'] } [(['a'], .bound), (['b'], .bound)] decl none) s :=
    ⟨1, by change evalVar e false [] m s = _; unfold evalVar; rw [hm]; rfl⟩
  exact C33_expansion e _ _ decl none [['a'], ['b']] _ _ [['7'], ['x']] none s s s hf
    (evalList_values hv (by simp) s) (by simp) rfl (by decide) (by decide) hv (by simp)
    (.cons (.int 7) (.cons (.pstr _) .nil)) (by intro p hp; simp at hp; rcases hp with rfl | rfl <;> decide)
    (unmarked_of (by decide))

end Yupp
