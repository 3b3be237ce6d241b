import Verif.Props.Beta
import Verif.Props.Scope
/-!
# C29 — applying a function value, for every body

The rule for one parameter at a time. No restriction on the body: it may have effects, define functions, fail or never end.
-/

namespace Yupp

open Spec

variable {e : EEnv}

theorem isBound_iff {v : Node} : v.isBound = true ↔ v = .bound := by
  cases v <;> simp [Node.isBound]

theorem last_unassigned {f : Frame} {p : Str} (h : Last f p) : Frame.unassigned f = some p := by
  unfold Frame.unassigned
  cases hf : f.find? (fun e => e.2.isBound) with
  | none =>
    rw [List.find?_eq_none] at hf
    exact absurd rfl (hf _ h.1)
  | some q =>
    have h1 := List.find?_some hf
    have h2 := List.mem_of_find?_eq_some hf
    simp [h.2 q h2 (isBound_iff.1 h1)]

theorem last_filled {f : Frame} {p : Str} (h : Last f p) {v : Node} (hv : v ≠ .bound) : Frame.unassigned (Frame.set f p v) = none := by
  unfold Frame.unassigned
  rw [Option.map_eq_none_iff, List.find?_eq_none]
  intro q hq hb
  rw [isBound_iff] at hb
  unfold Frame.set Frame.del at hq
  rcases List.mem_append.1 hq with hq | hq
  · obtain ⟨h1, h2⟩ := List.mem_filter.1 hq
    have := h.2 q h1 hb
    simp [this] at h2
  · simp at hq
    subst hq
    exact hv hb

theorem scope_left {x v : Node} {s s' : ESt} {f : Frame} (h : Evaluates e x (push s f) v s') : ∃ f' env, s'.env = f' :: env := by
  have := C28_nothing_leaks e x v _ s' h
  cases he : s'.env with
  | nil => rw [he] at this; simp [names, push] at this
  | cons f' env => exact ⟨f', env, rfl⟩

/-- A closure without missing parameters. -/
theorem closure_scope {body : Node} {f : Frame} {late} {dflt : Frame} (hf : Frame.unassigned f = none) {x : Node} {s t : ESt}
    (h : ev e x s = ev e (.lclosure body f late dflt) t) : InScope e x s body f t := by
  have key : ev e x s = match ev e body (push t f) with
      | .ok (w, s1) => .ok (w, pop s1)
      | .err => .err
      | .timeout => .timeout := by
    rw [h, ev_lclosure]
    unfold evalClosure
    cases hb : ev e body (push t f) with
    | ok r =>
      obtain ⟨w, s1⟩ := r
      obtain ⟨f', env, hs⟩ := scope_left (evaluates_iff.2 hb)
      rw [em_bind_ok (inFrame_ok (s := t) hb hs)]
      simp only [hf]
      rw [em_pure]
      simp [pop, hs]
    | err => exact em_bind_err (by unfold EM.inFrame; unfold push at hb; rw [hb])
    | timeout => rw [em_bind]; unfold EM.inFrame; unfold push at hb; rw [hb]
  refine ⟨fun w s' => ?_, ?_⟩
  · rw [evaluates_iff, key]
    constructor
    · intro h
      cases hb : ev e body (push t f) with
      | ok r => rw [hb] at h; cases h; exact ⟨r.2, evaluates_iff.2 hb, rfl⟩
      | err => rw [hb] at h; cases h
      | timeout => rw [hb] at h; cases h
    · rintro ⟨s1, h1, rfl⟩
      rw [evaluates_iff.1 h1]
  · rw [raises_iff, raises_iff, key]
    cases ev e body (push t f) <;> simp

theorem lateVal_passed {late : List (Str × List Str)} {p : Str} {v c : Node} {s s' : ESt} (h : Passed e late p v s c s') :
    lateVal (ev e) late p v s = .ok (c, s') := by
  unfold lateVal
  have hget : ∀ (l : List (Str × List Str)), Frame.get l p = l.lookup p := by
    intro l
    induction l with
    | nil => rfl
    | cons q l ih =>
      unfold Frame.get
      rw [List.find?_cons, List.lookup_cons]
      by_cases hq : q.1 = p
      · simp [hq]
      · have h1 : (q.1 == p) = false := by simpa using hq
        have h2 : (p == q.1) = false := by simpa using Ne.symm hq
        simp only [h1, h2]
        exact ih
  rw [hget]
  cases h with
  | now h => rw [h]; rfl
  | @late names _ _ h hd hc =>
    rw [h]
    rw [evaluates_iff, ev_at] at hc
    change evalLambda (ev e) _ v s = _ at hc
    have hb : ∀ (ks : List Str) (f : Frame) σ, ['.', '.', '.'] ∉ ks →
        evalBound (ev e) (ks.map fun k => ([], ({ txt := k } : Src), none)) f [] [] σ =
          .ok (((ks.map fun k => (k, Node.bound)).foldl (fun f e => Frame.set f e.1 e.2) f, [], []), σ) := by
      intro ks
      induction ks with
      | nil => intro f σ _; rfl
      | cons k ks ih =>
        intro f σ hk
        simp only [List.mem_cons, not_or] at hk
        have hk1 : ¬ k = ['.', '.', '.'] := fun h => hk.1 h.symm
        simp only [List.map_cons, evalBound, List.isEmpty_nil, if_true, if_neg hk1, List.foldl_cons]
        rw [em_bind_ok (em_pure _ _)]
        exact ih _ σ hk.2
    unfold evalLambda at hc
    rw [em_bind_ok (hb names [] s hd)] at hc
    exact hc

/-- Assigning a parameter, nothing more to come. -/
theorem bind_last {body : Node} {f : Frame} {late} {dflt : Frame} {p : Str} (hp : Last f p) {v c : Node} {s s' : ESt} {loc : Option Loc}
    (hv : Passed e late p v s c s') (hc : c ≠ .bound) :
    bindArg (ev e) (.lclosure body f late dflt) f late dflt p v [] [] loc s = ev e (.lclosure body (Frame.set f p c) late dflt) s' := by
  unfold bindArg
  rw [em_bind_ok (lateVal_passed hv)]
  unfold applyNext
  simp only [last_filled hp hc, hasDefault, List.isEmpty_nil, Bool.and_self, Bool.not_false, if_true]
  rfl

/-- Assigning a parameter, there are further arguments. -/
theorem bind_more {body : Node} {f : Frame} {late} {dflt : Frame} {p : Str} {v c : Node} {s s' : ESt} {args : List Node}
    {named : List (Src × Node)} {loc : Option Loc} (hv : Passed e late p v s c s') (hmore : args ≠ [] ∨ named ≠ []) :
    bindArg (ev e) (.lclosure body f late dflt) f late dflt p v args named loc s =
      ev e (.apply (.lclosure body (Frame.set f p c) late dflt) args named loc) s' := by
  unfold bindArg
  rw [em_bind_ok (lateVal_passed hv)]
  unfold applyNext
  have : (named.isEmpty && args.isEmpty) = false := by
    rcases hmore with h | h
    · cases args with
      | nil => exact absurd rfl h
      | cons => simp
    · cases named with
      | nil => exact absurd rfl h
      | cons => simp
  simp only [this, Bool.false_and, Bool.false_eq_true, if_false]
  rfl

theorem listEval1_one {v : Node} {vs : List Node} {s : ESt} (hv : Evaluates e v s v s) (hne : ∀ a, v ≠ .embed a) :
    listEval1 (ev e) (v :: vs) s = .ok ((some v, vs), s) := by
  unfold listEval1
  rw [em_bind_ok (evaluates_iff.1 hv)]
  cases v <;> first | rfl | exact absurd rfl (hne _)

theorem closure_apply {fn body : Node} {f : Frame} {late} {dflt : Frame} {args vs : List Node} {named : List (Src × Node)} {loc : Option Loc}
    {s s1 s2 : ESt} (hf : Evaluates e fn s (.lclosure body f late dflt) s1) (ha : Args e args s1 vs s2) :
    ev e (.apply fn args named loc) s = applyClosure (ev e) (.lclosure body f late dflt) f late dflt vs named loc s2 := by
  rw [ev_apply hf ha]; rfl

/-- **C29** for the last parameter. A function value that lacks one parameter is applied to an argument: the outcome, whatever it
    is, is that of its body in the scope where the parameter has the value of the argument. -/
theorem C29_last_parameter (fn body : Node) (f : Frame) (late : List (Str × List Str)) (dflt : Frame) (p : Str) (args : List Node)
    (v c : Node) (loc : Option Loc) (s s1 s2 s3 : ESt) (hf : Evaluates e fn s (.lclosure body f late dflt) s1) (hp : Last f p)
    (hva : p ≠ vaArgs) (ha : Args e args s1 [v] s2) (hv : Evaluates e v s2 v s2) (hne : ∀ a, v ≠ .embed a)
    (hc : Passed e late p v s2 c s3) (hcb : c ≠ .bound) :
    InScope e (.apply fn args [] loc) s body (Frame.set f p c) s3 := by
  refine closure_scope (late := late) (dflt := dflt) (last_filled hp hcb) ?_
  rw [closure_apply hf ha]
  unfold applyClosure
  simp only [last_unassigned hp, if_neg hva]
  rw [em_bind_ok (listEval1_one hv hne)]
  exact bind_last hp hc hcb

/-- **C29** for `...`, called `__va_args__` in the body: it gets the list of all arguments. -/
theorem C29_all_the_rest (fn body : Node) (f : Frame) (late : List (Str × List Str)) (dflt : Frame) (args vs : List Node)
    (c : Node) (loc : Option Loc) (s s1 s2 s3 : ESt) (hf : Evaluates e fn s (.lclosure body f late dflt) s1) (hp : Last f (lit "__va_args__"))
    (ha : Args e args s1 vs s2) (hvs : vs ≠ []) (hc : Passed e late (lit "__va_args__") (.list vs) s2 c s3) (hcb : c ≠ .bound) :
    InScope e (.apply fn args [] loc) s body (Frame.set f (lit "__va_args__") c) s3 := by
  refine closure_scope (late := late) (dflt := dflt) (last_filled hp hcb) ?_
  rw [closure_apply hf ha]
  unfold applyClosure
  cases vs with
  | nil => exact absurd rfl hvs
  | cons v vs =>
    have : lit "__va_args__" = vaArgs := rfl
    simp only [last_unassigned hp, if_pos this]
    exact bind_last hp hc hcb

/-- **C29** for the last parameter, given by name. -/
theorem C29_last_by_name (fn body : Node) (f : Frame) (late : List (Str × List Str)) (dflt : Frame) (p : Src) (x : Node)
    (v c : Node) (loc : Option Loc) (s s1 s2 s3 : ESt) (hf : Evaluates e fn s (.lclosure body f late dflt) s1) (hp : Last f p.txt)
    (hv : Evaluates e x s1 v s2) (hc : Passed e late p.txt v s2 c s3) (hcb : c ≠ .bound) :
    InScope e (.apply fn [] [(p, x)] loc) s body (Frame.set f p.txt c) s3 := by
  refine closure_scope (late := late) (dflt := dflt) (last_filled hp hcb) ?_
  rw [closure_apply hf (.nil s1)]
  unfold applyClosure
  have hhas : Frame.has f p.txt = true := by
    unfold Frame.has Frame.get
    rw [Option.isSome_map, List.find?_isSome]
    exact ⟨_, hp.1, by simp⟩
  simp only [hhas, if_true]
  rw [em_bind_ok (evaluates_iff.1 hv)]
  exact bind_last hp hc hcb

/-- **C29** for the last parameter, not given: it gets the value of its default. -/
theorem C29_last_by_default (fn body : Node) (f : Frame) (late : List (Str × List Str)) (dflt : Frame) (p : Str) (d : Node)
    (v c : Node) (loc : Option Loc) (s s1 s2 s3 : ESt) (hf : Evaluates e fn s (.lclosure body f late dflt) s1) (hp : Last f p)
    (hd : dflt.lookup p = some d) (hv : Evaluates e d s1 v s2) (hc : Passed e late p v s2 c s3) (hcb : c ≠ .bound) :
    InScope e (.apply fn [] [] loc) s body (Frame.set f p c) s3 := by
  refine closure_scope (late := late) (dflt := dflt) (last_filled hp hcb) ?_
  rw [closure_apply hf (.nil s1)]
  unfold applyClosure
  have hget : Frame.get dflt p = some d := by rw [← lookup_get]; exact hd
  simp only [last_unassigned hp, hget]
  rw [em_bind_ok (evaluates_iff.1 hv)]
  exact bind_last hp hc hcb

/-- **C29** for a parameter that is not the last one, or has arguments after it: the function that is left when the parameter
    has its value is applied to the other arguments. If it was the last parameter, the result of the body is. -/
theorem C29_next_parameter (fn body : Node) (f : Frame) (late : List (Str × List Str)) (dflt : Frame) (p : Str) (args vs : List Node)
    (v c : Node) (loc : Option Loc) (s s1 s2 s3 : ESt) (hf : Evaluates e fn s (.lclosure body f late dflt) s1)
    (hp : Frame.unassigned f = some p) (hva : p ≠ vaArgs) (ha : Args e args s1 (v :: vs) s2) (hvs : vs ≠ [])
    (hv : Evaluates e v s2 v s2) (hne : ∀ a, v ≠ .embed a) (hc : Passed e late p v s2 c s3) :
    SameOutcome e (.apply fn args [] loc) s (.apply (.lclosure body (Frame.set f p c) late dflt) vs [] loc) s3 := by
  apply sameOutcome_of
  rw [closure_apply hf ha]
  unfold applyClosure
  simp only [hp, if_neg hva]
  rw [em_bind_ok (listEval1_one hv hne)]
  exact bind_more hc (.inl hvs)

/-- **C29** for named arguments: the first one is assigned, and the function that is left applied to the other arguments. -/
theorem C29_next_by_name (fn body : Node) (f : Frame) (late : List (Str × List Str)) (dflt : Frame) (p : Src) (x : Node)
    (args vs : List Node) (named : List (Src × Node)) (v c : Node) (loc : Option Loc) (s s1 s2 s3 s4 : ESt)
    (hf : Evaluates e fn s (.lclosure body f late dflt) s1) (hp : p.txt ∈ f.map (·.1)) (ha : Args e args s1 vs s2)
    (hmore : vs ≠ [] ∨ named ≠ []) (hv : Evaluates e x s2 v s3) (hc : Passed e late p.txt v s3 c s4) :
    SameOutcome e (.apply fn args ((p, x) :: named) loc) s
      (.apply (.lclosure body (Frame.set f p.txt c) late dflt) vs named loc) s4 := by
  apply sameOutcome_of
  rw [closure_apply hf ha]
  unfold applyClosure
  have hhas : Frame.has f p.txt = true := by
    unfold Frame.has Frame.get
    rw [Option.isSome_map, List.find?_isSome]
    obtain ⟨q, hq, hqp⟩ := List.mem_map.1 hp
    exact ⟨q, hq, by simp [hqp]⟩
  simp only [hhas, if_true]
  rw [em_bind_ok (evaluates_iff.1 hv)]
  exact bind_more hc hmore

/-- **C29**: positional arguments may be given one by one, whatever the body does. -/
theorem C29_one_by_one (fn body : Node) (f : Frame) (late : List (Str × List Str)) (p : Str) (v : Node) (vs : List Node)
    (loc loc' : Option Loc) (s : ESt) (hf : Evaluates e fn s (.lclosure body f late []) s)
    (hp : Frame.unassigned f = some p) (hva : p ≠ vaArgs) (hv : Value v) (hn : v ≠ .none) (hvs : vs ≠ [])
    (hvv : ∀ w ∈ vs, Value w ∧ w ≠ .none) (hlate : late.lookup p = none) :
    SameOutcome e (.apply fn (v :: vs) [] loc) s (.apply (.apply fn [v] [] loc') vs [] loc) s := by
  have hall : ∀ w ∈ v :: vs, Value w ∧ w ≠ .none := by
    intro w hw
    rcases List.mem_cons.1 hw with h | h
    · subst h; exact ⟨hv, hn⟩
    · exact hvv w h
  have ha : Args e (v :: vs) s (v :: vs) s := evalList_values (fun w hw => (hall w hw).1) (fun w hw => (hall w hw).2) s
  have hne : ∀ a, v ≠ .embed a := by rintro a rfl; cases hv
  have hvb : v ≠ .bound := by rintro rfl; cases hv
  have hev : Evaluates e v s v s := evaluates_iff.2 (ev_value e hv s)
  have h1 := C29_next_parameter (e := e) fn body f late [] p (v :: vs) vs v v loc s s s s hf hp hva ha hvs hev hne (.now hlate)
  have h2 : ev e (.apply fn [v] [] loc') s = ev e (.lclosure body (Frame.set f p v) late []) s := by
    rw [closure_apply (vs := [v]) hf (.one hev hn hne (.nil s))]
    unfold applyClosure
    simp only [hp, if_neg hva]
    rw [em_bind_ok (listEval1_one hev hne)]
    change bindArg (ev e) _ f late [] p v [] [] loc' s = _
    unfold bindArg
    rw [em_bind_ok (lateVal_passed (.now hlate))]
    unfold applyNext
    have : hasDefault [] (Frame.unassigned (Frame.set f p v)) = false := by
      cases Frame.unassigned (Frame.set f p v) <;> rfl
    simp only [this, List.isEmpty_nil, Bool.and_self, Bool.not_false, if_true]
    rfl
  have h3 : ev e (.apply (.lclosure body (Frame.set f p v) late []) vs [] loc) s = ev e (.apply (.apply fn [v] [] loc') vs [] loc) s := by
    rw [ev_apply_eq, ev_apply_eq]
    unfold callOf
    simp only [em_bind, h2]
  have h4 := sameOutcome_of h3
  exact ⟨fun w s' => (h1.1 w s').trans (h4.1 w s'), h1.2.trans h4.2⟩

set_option maxHeartbeats 2000000 in
/-- Where the rule for several parameters fails: an argument that is a name without a value yet is captured by a parameter of the
    same name. With `f = \\x \\y.(x y)`, applying `\\y.($f y 5)` to 7 yields `(5 5)`, the body with `y` bound to 7 `(7 5)`. -/
theorem C29_fails_for_captured_names (e : EEnv) :
    let f : Node := .lclosure (.list [.var false [] { txt := ['x'] }, .var false [] { txt := ['y'] }])
      [(['x'], .bound), (['y'], .bound)] [] []
    let s : ESt := { env := [[(['f'], f)]] }
    let body : Node := .apply (.var false [] { txt := ['f'] }) [.var false [] { txt := ['y'] }, .int 5] [] none
    Evaluates e (.apply (.lambda [([], { txt := ['y'] }, none)] body) [.int 7] [] none) s (.list [.int 5, .int 5]) s ∧
    Evaluates e body (push s [(['y'], .int 7)]) (.list [.int 7, .int 5]) (push s [(['y'], .int 7)]) :=
  ⟨⟨8, rfl⟩, ⟨5, rfl⟩⟩

/-! ## Cases -/

namespace ApplyExample

/-- `\\x.($emit x)`, whose body has an effect. -/
def taker : Node := .lclosure (.emit false [] { txt := ['x'] } .none) [(['x'], .bound)] [] []

example (e : EEnv) : let s : ESt := { env := [[(['g'], taker)]] }
    InScope e (.apply (.var false [] { txt := ['g'] }) [.list [.int 3, .int 4]] [] none) s
      (.emit false [] { txt := ['x'] } .none) [(['x'], .list [.int 3, .int 4])] s :=
  C29_last_parameter (e := e) _ _ [(['x'], .bound)] [] [] ['x'] _ (.list [.int 3, .int 4]) (.list [.int 3, .int 4]) none _ _ _ _ ⟨1, rfl⟩
    ⟨by simp, by simp⟩ (by decide) (.one ⟨3, rfl⟩ (by simp) (by simp) (.nil _)) ⟨3, rfl⟩ (by simp) (.now rfl) (by simp)

example (e : EEnv) : let s : ESt := { env := [[(['g'], taker)]] }
    InScope e (.apply (.var false [] { txt := ['g'] }) [] [({ txt := ['x'] }, .list [.int 3, .int 4])] none) s
      (.emit false [] { txt := ['x'] } .none) [(['x'], .list [.int 3, .int 4])] s :=
  C29_last_by_name (e := e) _ _ [(['x'], .bound)] [] [] { txt := ['x'] } _ (.list [.int 3, .int 4]) (.list [.int 3, .int 4]) none _ _ _ _ ⟨1, rfl⟩
    ⟨by simp, by simp⟩ ⟨3, rfl⟩ (.now rfl) (by simp)

/-- `\\x=7.($emit x)` -/
example (e : EEnv) : let s : ESt := { env := [[(['g'], .lclosure (.emit false [] { txt := ['x'] } .none) [(['x'], .bound)] [] [(['x'], .int 7)])]] }
    InScope e (.apply (.var false [] { txt := ['g'] }) [] [] none) s (.emit false [] { txt := ['x'] } .none) [(['x'], .int 7)] s :=
  C29_last_by_default (e := e) _ _ [(['x'], .bound)] [] [(['x'], .int 7)] ['x'] (.int 7) (.int 7) (.int 7) none _ _ _ _ ⟨1, rfl⟩
    ⟨by simp, by simp⟩ rfl ⟨1, rfl⟩ (.now rfl) (by simp)

/-- `\\...($emit __va_args__)` -/
example (e : EEnv) : let s : ESt := { env := [[(['g'], .lclosure (.emit false [] { txt := vaArgs } .none) [(vaArgs, .bound)] [] [])]] }
    InScope e (.apply (.var false [] { txt := ['g'] }) [.int 3, .int 4] [] none) s
      (.emit false [] { txt := vaArgs } .none) [(vaArgs, .list [.int 3, .int 4])] s :=
  C29_all_the_rest (e := e) _ _ [(vaArgs, .bound)] [] [] _ [.int 3, .int 4] (.list [.int 3, .int 4]) none _ _ _ _ ⟨1, rfl⟩
    ⟨.head _, by intro q hq _; rw [List.mem_singleton] at hq; rw [hq]; rfl⟩ (evalList_values (by simp; exact ⟨.int 3, .int 4⟩) (by simp) _) (by simp) (.now rfl) (by simp)

/-- `\\p..\\f.($f 5)`: the argument `(&p 1)` becomes a function of `p`. -/
example (e : EEnv) :
    let body : Node := .apply (.var false [] { txt := ['f'] }) [.int 5] [] none
    let s : ESt := { env := [[(['g'], .lclosure body [(['f'], .bound)] [(['f'], [['p']])] [])]] }
    let arg : Node := .list [.var true [] { txt := ['p'] }, .int 1]
    InScope e (.apply (.var false [] { txt := ['g'] }) [arg] [] none) s body [(['f'], .lclosure arg [(['p'], .bound)] [] [])] s ∧
    Evaluates e (.apply (.var false [] { txt := ['g'] }) [arg] [] none) s (.list [.int 5, .int 1]) s := by
  refine ⟨?_, ⟨6, rfl⟩⟩
  exact C29_last_parameter (e := e) _ _ [(['f'], .bound)] [(['f'], [['p']])] [] ['f'] _ (.list [.var true [] { txt := ['p'] }, .int 1])
    (.lclosure (.list [.var true [] { txt := ['p'] }, .int 1]) [(['p'], .bound)] [] []) none _ _ _ _ ⟨1, rfl⟩
    ⟨by simp, by simp⟩ (by decide) (.one ⟨3, rfl⟩ (by simp) (by simp) (.nil _)) ⟨3, rfl⟩ (by simp)
    (.late rfl (by decide) ⟨5, rfl⟩) (by simp)

/-- `f = \\x \\y.(x y)`, one by one, all at once, and by name. -/
def pair : Node := .lclosure (.list [.var false [] { txt := ['x'] }, .var false [] { txt := ['y'] }]) [(['x'], .bound), (['y'], .bound)] [] []

example (e : EEnv) : let s : ESt := { env := [[(['f'], pair)]] }
    SameOutcome e (.apply (.var false [] { txt := ['f'] }) [.int 1, .int 2] [] none) s
      (.apply (.apply (.var false [] { txt := ['f'] }) [.int 1] [] none) [.int 2] [] none) s :=
  C29_one_by_one (e := e) _ _ [(['x'], .bound), (['y'], .bound)] [] ['x'] (.int 1) [.int 2] none none _ ⟨1, rfl⟩ rfl (by decide) (.int 1) (by simp)
    (by simp) (by simp; exact .int 2) rfl

example (e : EEnv) : let s : ESt := { env := [[(['f'], pair)]] }
    SameOutcome e (.apply (.var false [] { txt := ['f'] }) [.int 1] [({ txt := ['y'] }, .int 2)] none) s
      (.apply (.lclosure (.list [.var false [] { txt := ['x'] }, .var false [] { txt := ['y'] }]) [(['x'], .bound), (['y'], .int 2)] [] []) [.int 1] [] none) s :=
  C29_next_by_name (e := e) _ _ [(['x'], .bound), (['y'], .bound)] [] [] { txt := ['y'] } (.int 2) [.int 1] [.int 1] [] (.int 2) (.int 2) none _ _ _ _ _
    ⟨1, rfl⟩ (by simp) (evalList_values (by simp; exact .int 1) (by simp) _) (by simp) ⟨1, rfl⟩ (.now rfl)

end ApplyExample

end Yupp
