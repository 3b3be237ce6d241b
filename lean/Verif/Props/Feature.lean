import Verif.Spec.Feature
import Verif.Props.Scope
import Verif.Lemmas.Beta
import Verif.Props.Parse
/-!
# C40 (`$__PASSAGE__`), C56 (`$lazy`, `$isatom`), C57 (parameters from a list), C58 (`__OUTPUT_FILE__`),
C59 (evaluated texts), C60 (lists)
-/

namespace Yupp

open Spec

theorem ev_special {e : EEnv} {a : Src} {args vs : List Node} {loc : Option Loc} {s s1 : ESt} (h : Reserved e s a.txt)
    (hs : isSpecial a.txt = true) (ha : Args e args s vs s1) :
    ev e (.apply (.var false [] a) args [] loc) s = applySpecial e a vs loc s1 := by
  have h1 : Evaluates e (.var false [] a) s (.builtin a true) s := by
    rw [evaluates_iff, ev_at]
    change evalVar e false [] a s = _
    unfold evalVar
    rw [h.scope, h.table, hs]; rfl
  rw [ev_apply h1 ha]
  change applyBuiltin e a true vs [] loc s1 = _
  unfold applyBuiltin
  rfl

/-! ## `$__PASSAGE__` -/

/-- `($__PASSAGE__ list)`: the item of the current pass, and another pass is asked for while there are more items. -/
theorem C40_form (e : EEnv) (a : Src) (x : Node) (xs : List Node) (loc : Option Loc) (s s1 : ESt) (ha : a.txt = lit "__PASSAGE__")
    (hr : Reserved e s a.txt) (hx : Evaluates e x s (.list xs) s1) (hp : e.passage < xs.length) :
    Evaluates e (.apply (.var false [] a) [x] [] loc) s xs[e.passage] { s1 with rept := decide (e.passage + 1 < xs.length) } := by
  rw [evaluates_iff, ev_special hr (by rw [ha]; decide) (.one hx (by simp) (by simp) (.nil s1))]
  unfold applySpecial
  have h1 : ¬ lit "__PASSAGE__" = lit "lazy" := by decide
  have h2 : ¬ lit "__PASSAGE__" = lit "repr" := by decide
  have h3 : ¬ lit "__PASSAGE__" = lit "reduce" := by decide
  have h4 : ¬ lit "__PASSAGE__" = lit "isatom" := by decide
  simp only [ha, h1, h2, h3, h4, if_false, if_true, Node.asList, applyPassage]
  have h5 : decide ((e.passage : Int) < (xs.length : Int) - 1) = decide (e.passage + 1 < xs.length) := by
    rw [decide_eq_decide]; omega
  rw [h5]
  simp [hp]

example (e : EEnv) (hr : Reserved e {} (lit "__PASSAGE__")) (hp : e.passage = 1) :
    Evaluates e (.apply (.var false [] { txt := lit "__PASSAGE__" }) [.list [.int 7, .int 8, .int 9]] [] none) {} (.int 8) { rept := true } := by
  have := C40_form e { txt := lit "__PASSAGE__" } (.list [.int 7, .int 8, .int 9]) [.int 7, .int 8, .int 9] none {} {} rfl hr ⟨2, rfl⟩ (by simp [hp])
  simpa [hp] using this

/-! ## `$isatom` and `$lazy` -/

/-- `($isatom x)` is 1 if the value of `x` is a name, and 0 for every other value. -/
theorem C56_isatom (e : EEnv) (a : Src) (x v : Node) (loc : Option Loc) (s s1 : ESt) (ha : a.txt = lit "isatom")
    (hr : Reserved e s a.txt) (hx : Evaluates e x s v s1) (hv : Value v) (hn : v ≠ .none) :
    (IsName v → Evaluates e (.apply (.var false [] a) [x] [] loc) s (.int 1) s1) ∧
    (¬ IsName v → Evaluates e (.apply (.var false [] a) [x] [] loc) s (.int 0) s1) := by
  have key : ev e (.apply (.var false [] a) [x] [] loc) s = .ok (.int (if v.isAtom || v.isVar then 1 else 0), s1) := by
    rw [ev_special hr (by rw [ha]; decide) (.one hx hn (by intro b h; subst h; cases hv) (.nil s1))]
    unfold applySpecial
    have h1 : ¬ lit "isatom" = lit "lazy" := by decide
    have h2 : ¬ lit "isatom" = lit "repr" := by decide
    have h3 : ¬ lit "isatom" = lit "reduce" := by decide
    simp only [ha, h1, h2, h3, if_false, if_true]
    rfl
  have hva : v.isVar = false := by cases hv <;> rfl
  rw [hva, Bool.or_false] at key
  constructor
  · rintro ⟨b, rfl⟩; exact evaluates_iff.2 key
  · intro h
    have : v.isAtom = false := by cases v <;> first | rfl | exact absurd ⟨_, rfl⟩ h
    rw [this] at key; exact evaluates_iff.2 key

/-- `($ ($lazy x) args)`: the value of `x` is applied to the arguments, whatever it is. -/
theorem C56_lazy_applied (e : EEnv) (fn x : Node) (args vs : List Node) (named : List (Src × Node)) (loc : Option Loc) (s s1 s2 : ESt)
    (hf : Evaluates e fn s (.lazy x) s1) (ha : Args e args s1 vs s2) :
    SameOutcome e (.apply fn args named loc) s (.apply x vs named loc) s2 := by
  apply sameOutcome_of
  rw [ev_apply hf ha]
  rfl

/-- `($lazy x)` keeps the value of `x` as it is; of a list, each item. The kept values are not evaluated again. -/
theorem C56_lazy (e : EEnv) (a : Src) (x v : Node) (loc : Option Loc) (s s1 : ESt) (ha : a.txt = lit "lazy")
    (hr : Reserved e s a.txt) (hx : Evaluates e x s v s1) (hn : v ≠ .none) (he : ∀ b, v ≠ .embed b)
    (hv : ∀ l r b, v ≠ .var l r b) (ht : ∀ xs i, v ≠ .t xs i) :
    (∀ xs, v = .list xs → Evaluates e (.apply (.var false [] a) [x] [] loc) s (.list (xs.map .lazy)) s1) ∧
    ((∀ xs, v ≠ .list xs) → Evaluates e (.apply (.var false [] a) [x] [] loc) s (.lazy v) s1) ∧
    (∀ y t, Evaluates e (.lazy y) t (.lazy y) t) := by
  have key : ev e (.apply (.var false [] a) [x] [] loc) s = .ok (lazyOf v, s1) := by
    rw [ev_special hr (by rw [ha]; decide) (.one hx hn he (.nil s1))]
    unfold applySpecial
    have hva : v.isVar = false := by cases v <;> first | rfl | exact absurd rfl (hv _ _ _)
    simp only [ha, if_true, hva, Bool.false_eq_true, if_false]
    rfl
  refine ⟨?_, ?_, fun y t => ⟨1, rfl⟩⟩
  · rintro xs rfl; exact evaluates_iff.2 key
  · intro h
    have : lazyOf v = .lazy v := by
      cases v <;> first | rfl | exact absurd rfl (h _) | exact absurd rfl (ht _ _)
    rw [this] at key; exact evaluates_iff.2 key

example (e : EEnv) (hr : Reserved e {} (lit "isatom")) :
    Evaluates e (.apply (.var false [] { txt := lit "isatom" }) [.atom { txt := ['x'] }] [] none) {} (.int 1) {} ∧
    Evaluates e (.apply (.var false [] { txt := lit "isatom" }) [.str { txt := ['x'] }] [] none) {} (.int 0) {} :=
  ⟨(C56_isatom e { txt := lit "isatom" } _ _ none {} {} rfl hr ⟨1, rfl⟩ (.atom _) (by simp)).1 ⟨_, rfl⟩,
   (C56_isatom e { txt := lit "isatom" } _ _ none {} {} rfl hr ⟨1, rfl⟩ (.str _) (by simp)).2 (by rintro ⟨_, h⟩; cases h)⟩

/-- `($ ($lazy \\x.x) 5)` -/
example (e : EEnv) (hr : Reserved e {} (lit "lazy")) :
    Evaluates e (.apply (.apply (.var false [] { txt := lit "lazy" }) [.lambda [([], { txt := ['x'] }, none)] (.var false [] { txt := ['x'] })] [] none)
      [.int 5] [] none) {} (.int 5) {} := by
  have h := (C56_lazy e { txt := lit "lazy" } (.lambda [([], { txt := ['x'] }, none)] (.var false [] { txt := ['x'] })) _ none {} {} rfl hr
    ⟨4, rfl⟩ (by simp) (by simp) (by simp) (by simp)).2.1 (by simp)
  exact ((C56_lazy_applied e _ _ [.int 5] [.int 5] [] none _ _ _ h (.one ⟨1, rfl⟩ (by simp) (by simp) (.nil _))).1 _ _).2 ⟨6, rfl⟩

/-! ## Parameters from a list -/

/-- `\\(params).body` where the variable `params` holds a list of names: the function with these parameters. -/
theorem C57_parameters_from_a_list (e : EEnv) (late : Bool) (reg : List Src) (a : Src) (ps : List Src) (body : Node) (s : ESt)
    (ha : Scopes.lookup s.env a.txt = some (.list (ps.map .atom))) :
    SameOutcome e (.lambdaVar late reg a body) s (.lambda (ps.map (fun p => ([], p, none))) body) s := by
  apply sameOutcome_of
  rw [ev_at, ev_at e (.lambda _ _)]
  change evalLambdaVar (ev e) late reg a body s = evalLambda (ev e) _ body s
  unfold evalLambdaVar
  rw [em_bind, em_get]
  simp only [ha]
  have hb : listToBound (ps.map .atom) = some (ps.map (fun p => ([], p, none))) := by
    induction ps with
    | nil => rfl
    | cons p ps ih =>
      have ih' : listToBound (ps.map .atom) = some (ps.map (fun p => ([], p, none))) := by
        clear ha ih
        induction ps with
        | nil => rfl
        | cons q qs ih => simp only [List.map_cons, listToBound, ih, Option.map_some]
      simp only [List.map_cons, listToBound, ih', Option.map_some]
  simp only [Node.isBound, Bool.false_eq_true, Node.asList, Option.bind_some, hb]
  rfl

/-- A variable that holds anything else than a list of names, or no variable: an error. -/
theorem C57_otherwise_an_error (e : EEnv) (late : Bool) (reg : List Src) (a : Src) (body : Node) (s : ESt)
    (ha : ∀ v, Scopes.lookup s.env a.txt = some v → v ≠ .bound ∧ ∀ xs, v = .list xs ∨ (∃ i, v = .t xs i) → ∃ x ∈ xs, ¬ IsName x) :
    Raises e (.lambdaVar late reg a body) s := by
  rw [raises_iff, ev_at]
  change evalLambdaVar (ev e) late reg a body s = _
  unfold evalLambdaVar
  have hget : EM.get s = .ok (s, s) := rfl
  rw [em_bind_ok hget]
  cases hl : Scopes.lookup s.env a.txt with
  | none => rfl
  | some v =>
    obtain ⟨hb, hx⟩ := ha v hl
    have hb' : v.isBound = false := by cases v <;> first | rfl | exact absurd rfl hb
    have hlb : ∀ xs : List Node, (∃ x ∈ xs, ¬ IsName x) → listToBound xs = none := by
      intro xs
      induction xs with
      | nil => rintro ⟨x, hx, _⟩; cases hx
      | cons y ys ih =>
        rintro ⟨x, hx, hn⟩
        cases y with
        | atom b =>
          rcases List.mem_cons.1 hx with rfl | hx
          · exact absurd ⟨_, rfl⟩ hn
          · simp only [listToBound, ih ⟨x, hx, hn⟩, Option.map_none]
        | _ => rfl
    have : v.asList.bind listToBound = none := by
      cases v with
      | list xs => exact hlb xs (hx xs (.inl rfl))
      | t xs i => exact hlb xs (hx xs (.inr ⟨i, rfl⟩))
      | _ => rfl
    simp only [hb', this]; rfl

/-- `($set params (y x)) ($ \\(params).x 1 2)` -/
example (e : EEnv) :
    let s : ESt := { env := [[(['p'], .list [.atom { txt := ['y'] }, .atom { txt := ['x'] }])]] }
    ∃ c, Evaluates e (.lambdaVar false [] { txt := ['p'] } (.var false [] { txt := ['x'] })) s c s ∧
      Evaluates e (.apply c [.int 1, .int 2] [] none) s (.int 2) s := by
  intro s
  have h := C57_parameters_from_a_list e false [] { txt := ['p'] } [{ txt := ['y'] }, { txt := ['x'] }] (.var false [] { txt := ['x'] }) s rfl
  exact ⟨_, (h.1 _ _).2 ⟨4, rfl⟩, ⟨8, rfl⟩⟩

example (e : EEnv) : Raises e (.lambdaVar false [] { txt := ['p'] } (.int 1)) { env := [[(['p'], .list [.int 1])]] } :=
  C57_otherwise_an_error e _ _ _ _ _ (by
    intro v h
    cases h
    refine ⟨by simp, ?_⟩
    rintro xs (h | ⟨i, h⟩) <;> cases h
    exact ⟨_, List.mem_cons_self .., by rintro ⟨_, h⟩; cases h⟩)

/-! ## `__OUTPUT_FILE__` -/

/-- `($set __OUTPUT_FILE__ expr)` names the output file: the text of the value without quotes. It yields nothing and no
    name is bound; a value that is no text changes nothing. -/
theorem C58_output_file (e : EEnv) (a : Src) (ast v : Node) (s s1 : ESt) (ha : a.txt = lit "__OUTPUT_FILE__")
    (hv : Evaluates e ast s v s1) :
    (∀ t, Template v t ∨ (∃ b, v = .atom b ∧ b.txt = t) →
      Evaluates e (.set (.one a) ast) s .none { s1 with outputFile := some (e.pe.unq t) }) ∧
    ((∀ t, ¬ Template v t) → ¬ IsName v → Evaluates e (.set (.one a) ast) s .none s1) := by
  have key : ev e (.set (.one a) ast) s = (setOutput e v >>= fun _ => pure .none : EM Node) s1 := by
    rw [ev_at]
    change evalSet e (ev e) (.one a) ast s = _
    unfold evalSet
    have : (LVal.one a).isOutput = true := by simp [LVal.isOutput, ha]
    rw [this]
    simp only [if_true]
    rw [em_bind_ok (evaluates_iff.1 hv)]
  constructor
  · intro t ht
    rw [evaluates_iff, key]
    rcases ht with ht | ⟨b, rfl, rfl⟩
    · cases ht <;> rfl
    · rfl
  · intro h1 h2
    rw [evaluates_iff, key]
    have : v.isStr = false := by
      cases v <;> first | rfl | exact absurd ⟨_, rfl⟩ h2 | exact absurd (by constructor) (h1 _)
    have h3 : setOutput e v s1 = .ok ((), s1) := by unfold setOutput; rw [this]; rfl
    rw [em_bind_ok h3]; rfl

example (e : EEnv) : Evaluates e (.set (.one { txt := lit "__OUTPUT_FILE__" }) (.pstr ['a', '.', 'c'])) {} .none
    { outputFile := some (e.pe.unq ['a', '.', 'c']) } :=
  (C58_output_file e { txt := lit "__OUTPUT_FILE__" } _ _ {} {} rfl ⟨1, rfl⟩).1 _ (.inl (.pstr _))

/-! ## Evaluated texts -/

theorem source_text {e : EEnv} {v : Node} {t : Str} (x : TextExt) (h : SourceOf e.pe.unq v t) : v.isStr = true ∧ evalText e x v = t := by
  cases h with
  | code h hs => cases h <;> first | exact ⟨rfl, rfl⟩ | exact absurd rfl (hs _)
  | @form s t h =>
    refine ⟨rfl, ?_⟩
    simp only [evalText, h]
    rw [if_pos]
    simp [startsWith]
  | @expr s t h hn =>
    refine ⟨rfl, ?_⟩
    simp only [evalText, h]
    rw [if_neg]
    · rfl
    · intro hp
      rw [startsWith, List.isPrefixOf_iff_prefix] at hp
      obtain ⟨u, hu⟩ := hp
      exact hn u hu.symm

theorem ev_eval {e : EEnv} {ast v : Node} {decl call : Option Src} {t : Str} {xs : List Node} {s s1 s2 : ESt}
    (hv : Evaluates e ast s v s1) (ht : SourceOf e.pe.unq v t)
    (hp : Parses e (record s1 t (decl.bind (·.loc)) (call.bind (·.loc))).1 (record s1 t (decl.bind (·.loc)) (call.bind (·.loc))).2 xs s2) :
    ev e (.eval ast decl call) s = (if xs.isEmpty then pure .none
      else if xs.any Node.isSet then pure (.embed (.t xs (.str [])))
      else match xs with
        | [x] => ev e x
        | xs => ev e (.t xs (.str [])) : EM Node) s2 := by
  obtain ⟨n, p, hp, rfl⟩ := hp
  rw [ev_at]
  change evalEval e (parsers e.pe) (ev e) ast decl call s = _
  unfold evalEval
  rw [em_bind_ok (evaluates_iff.1 hv), (source_text (textExt e s1) ht).1]
  simp only [Bool.not_true, Bool.false_eq_true, if_false]
  rw [em_bind, em_get]
  simp only [(source_text (textExt e s1) ht).2]
  have hreg : register decl call t s1 = .ok (record s1 t (decl.bind (·.loc)) (call.bind (·.loc))) := rfl
  rw [em_bind_ok hreg]
  have hpar : EM.parse ((parsers e.pe).parse (record s1 t (decl.bind (·.loc)) (call.bind (·.loc))).1)
      (record s1 t (decl.bind (·.loc)) (call.bind (·.loc))).2 = .ok (xs, { (record s1 t (decl.bind (·.loc)) (call.bind (·.loc))).2 with p := p }) := by
    unfold EM.parse
    rw [parsers_ok.2 ⟨n, hp⟩]
  refine Eq.trans (em_bind_ok hpar) ?_
  match xs with
  | [] => rfl
  | [_] => rfl
  | _ :: _ :: _ => rfl

/-- A text that parses to one form, which is no definition: the outcome is that of the form. -/
theorem C59_one_form (e : EEnv) (ast v x : Node) (decl call : Option Src) (t : Str) (s s1 s2 : ESt)
    (hv : Evaluates e ast s v s1) (ht : SourceOf e.pe.unq v t)
    (hp : Parses e (record s1 t (decl.bind (·.loc)) (call.bind (·.loc))).1 (record s1 t (decl.bind (·.loc)) (call.bind (·.loc))).2 [x] s2)
    (hd : ¬ Defines x) : SameOutcome e (.eval ast decl call) s x s2 := by
  apply sameOutcome_of
  rw [ev_eval hv ht hp]
  have : x.isSet = false := by cases x <;> first | rfl | exact absurd ⟨_, _, rfl⟩ hd
  simp [this]

/-- Any other text without definitions is evaluated as a text, and an empty one yields nothing. -/
theorem C59_text (e : EEnv) (ast v : Node) (decl call : Option Src) (t : Str) (xs : List Node) (s s1 s2 : ESt)
    (hv : Evaluates e ast s v s1) (ht : SourceOf e.pe.unq v t)
    (hp : Parses e (record s1 t (decl.bind (·.loc)) (call.bind (·.loc))).1 (record s1 t (decl.bind (·.loc)) (call.bind (·.loc))).2 xs s2)
    (hd : ∀ x ∈ xs, ¬ Defines x) (h1 : xs.length ≠ 1) :
    (xs = [] → Evaluates e (.eval ast decl call) s .none s2) ∧
    (xs ≠ [] → SameOutcome e (.eval ast decl call) s (.text xs) s2) := by
  constructor
  · rintro rfl
    rw [evaluates_iff, ev_eval hv ht hp]; rfl
  · intro hne
    apply sameOutcome_of
    rw [ev_eval hv ht hp, ev_at e (.text xs)]
    change _ = ev e (.t xs (.str [])) s2
    have hset : xs.any Node.isSet = false := by
      rw [List.any_eq_false]
      intro x hx
      have := hd x hx
      cases x <;> first | exact absurd ⟨_, _, rfl⟩ this | simp [Node.isSet]
    match xs, hne, h1 with
    | [_], _, h1 => exact absurd rfl h1
    | x :: y :: zs, _, _ => simp only [hset, List.isEmpty_cons, Bool.false_eq_true, if_false]

/-- A text with definitions, evaluated in a text (as a macro is): the outcome is as if what it parses to were written in
    its place, so that the definitions hold for the rest of that text. -/
theorem C59_definitions (e : EEnv) (ast v w : Node) (decl call : Option Src) (t : Str) (xs rest : List Node) (s s1 s2 s3 : ESt)
    (hv : Evaluates e ast s v s1) (ht : SourceOf e.pe.unq v t)
    (hp : Parses e (record s1 t (decl.bind (·.loc)) (call.bind (·.loc))).1 (record s1 t (decl.bind (·.loc)) (call.bind (·.loc))).2 xs s2)
    (hd : ∃ x ∈ xs, Defines x) (hw : Evaluates e (.text (xs ++ rest)) s2 w s3) (htw : IsText w) :
    ∃ w', IsText w' ∧ (∀ x, strOf x w' = strOf x w) ∧ Evaluates e (.text (.eval ast decl call :: rest)) s w' s3 := by
  have hev := ev_eval hv ht hp
  have hany : xs.any Node.isSet = true := by
    rw [List.any_eq_true]
    obtain ⟨x, hx, lval, a, rfl⟩ := hd
    exact ⟨_, hx, rfl⟩
  have hne : xs.isEmpty = false := by
    obtain ⟨x, hx, _⟩ := hd
    cases xs with
    | nil => cases hx
    | cons => rfl
  rw [hne, hany] at hev
  simp only [Bool.false_eq_true, if_false, if_true] at hev
  have hev : ev e (.eval ast decl call) s = .ok (.embed (.t xs (.str [])), s2) := hev
  have hT : evalT (ev e) (.str []) 0 false (.eval ast decl call :: rest) s = .ok ([w], s3) := by
    simp only [evalT, Bool.false_eq_true, if_false]
    rw [em_bind_ok hev]
    simp only [pieceOf, addIndents]
    have hw' : ev e (.t (xs ++ rest) (.str [])) s2 = .ok (w, s3) := by
      have := evaluates_iff.1 hw
      rw [ev_at] at this
      exact this
    rw [em_bind_ok hw']
    cases htw <;> rfl
  have hterm : isTerm w = true := by cases htw <;> rfl
  have hfin : ∃ w', IsText w' ∧ (∀ x, strOf x w' = strOf x w) ∧ finishT e (.str []) [w] s3 = .ok (w', s3) := by
    unfold finishT
    have : areTerms [w] = true := by unfold areTerms; rw [hterm]; rfl
    rw [this]
    simp only [if_true]
    by_cases hb : e.cfg.browse = true
    · rw [if_pos hb]
      refine ⟨_, .result _, fun x => ?_, rfl⟩
      cases htw <;> rfl
    · rw [if_neg hb]
      refine ⟨_, .pstr _, fun x => ?_, rfl⟩
      cases htw <;> simp [plainStr, plainStrs, strOf]
  obtain ⟨w', h1, h2, h3⟩ := hfin
  refine ⟨w', h1, h2, ?_⟩
  rw [evaluates_iff, ev_at]
  change ev e (.t (.eval ast decl call :: rest) (.str [])) s = _
  rw [ev_at]
  change (evalT (ev e) (.str []) 0 false (.eval ast decl call :: rest) >>= fun ys => finishT e (.str []) ys) s = _
  rw [em_bind_ok hT, h3]

/-- The hypotheses hold for `($$($1 7 8))`, say, … -/
example : ∃ x s2, Parses { pe := { readLib := fun _ => none, inputFile := ['m'] } } (record {} (lit "($1 7 8)") none none).1
    (record {} (lit "($1 7 8)") none none).2 [x] s2 ∧ ¬ Defines x := by
  have h : okWith ((P { readLib := fun _ => none, inputFile := ['m'] } 30).parse (record {} (lit "($1 7 8)") none none).1
    (record {} (lit "($1 7 8)") none none).2.p) (fun xs _ => match xs with | [.apply (.int 1) _ _ _] => true | _ => false) = true := by decide +kernel
  obtain ⟨xs, p, h1, h2⟩ := okWith_spec h
  split at h2
  · exact ⟨_, _, ⟨30, p, h1, rfl⟩, by rintro ⟨_, _, h⟩; cases h⟩
  · cases h2

/-- … and for a macro with the text ` ($set a 5) `. -/
example : ∃ xs s2, Parses { pe := { readLib := fun _ => none, inputFile := ['m'] } } (record {} (lit " ($set a 5) ") none none).1
    (record {} (lit " ($set a 5) ") none none).2 xs s2 ∧ ∃ x ∈ xs, Defines x := by
  have h : okWith ((P { readLib := fun _ => none, inputFile := ['m'] } 30).parse (record {} (lit " ($set a 5) ") none none).1
    (record {} (lit " ($set a 5) ") none none).2.p) (fun xs _ => xs.any Node.isSet) = true := by decide +kernel
  obtain ⟨xs, p, h1, h2⟩ := okWith_spec h
  rw [List.any_eq_true] at h2
  obtain ⟨x, hx, h3⟩ := h2
  refine ⟨xs, _, ⟨30, p, h1, rfl⟩, x, hx, ?_⟩
  cases x <;> first | exact ⟨_, _, rfl⟩ | cases h3

/-! ## Lists -/

/-- The value of a list is the list of the values of its items from left to right; those that yield nothing are left out,
    and an embedded list `*x` counts as its items. -/
theorem C60_list (e : EEnv) (xs vs : List Node) (s s1 : ESt) (h : Args e xs s vs s1) : Evaluates e (.list xs) s (.list vs) s1 := by
  rw [evaluates_iff, ev_at]
  change (evalList (ev e) xs >>= fun ys => pure (.list ys) : EM Node) s = _
  rw [em_bind_ok (args_ev h)]; rfl

theorem C60_embedded (e : EEnv) (x : Node) (xs zs vs : List Node) (s s1 s2 : ESt) (hx : Evaluates e x s (.list zs) s1)
    (h : Args e xs s1 vs s2) : Evaluates e (.list (.embed x :: xs)) s (.list (zs ++ vs)) s2 := by
  refine C60_list e _ _ _ _ (.embedded ?_ h)
  rw [evaluates_iff, ev_at]
  change (ev e x >>= fun v => pure (.embed v) : EM Node) s = _
  rw [em_bind_ok (evaluates_iff.1 hx)]; rfl

/-- The first item that fails makes the list fail. -/
theorem C60_failing_item (e : EEnv) (xs ys vs : List Node) (x : Node) (s s1 : ESt) (h : Args e xs s vs s1) (hx : Raises e x s1) :
    Raises e (.list (xs ++ x :: ys)) s := by
  rw [raises_iff, ev_at]
  change (evalList (ev e) (xs ++ x :: ys) >>= fun ys => pure (.list ys) : EM Node) s = _
  have key : evalList (ev e) (xs ++ x :: ys) s = .err := by
    induction h with
    | nil s =>
      rw [List.nil_append]
      unfold evalList
      rw [em_bind_err (raises_iff.1 hx)]
    | drop h1 _ ih =>
      rw [List.cons_append]
      unfold evalList
      rw [em_bind_ok (evaluates_iff.1 h1), em_bind_err (ih hx)]
    | one h1 _ _ _ ih =>
      rw [List.cons_append]
      unfold evalList
      rw [em_bind_ok (evaluates_iff.1 h1), em_bind_err (ih hx)]
    | embedded h1 _ ih =>
      rw [List.cons_append]
      unfold evalList
      rw [em_bind_ok (evaluates_iff.1 h1), em_bind_err (ih hx)]
  rw [em_bind_err key]

/-- `(5 4 *(3 2) 1)` -/
example (e : EEnv) (s : ESt) : Evaluates e (.list [.int 5, .embed (.list [.int 3, .int 2]), .none, .int 1]) s
    (.list [.int 5, .int 3, .int 2, .int 1]) s :=
  C60_list e _ _ s s (.one ⟨1, rfl⟩ (by simp) (by simp) (.embedded (zs := [.int 3, .int 2]) ⟨3, rfl⟩ (.drop ⟨1, rfl⟩
    (.one ⟨1, rfl⟩ (by simp) (by simp) (.nil s)))))

end Yupp
