import Verif.Spec.Stdlib
import Verif.Props.Apply
import Verif.Props.Texts
import Verif.Props.Call
/-!
# C76 — The library `stdlib.yu`
-/

namespace Yupp

open Spec

variable {e : EEnv}

/-! ## A closure takes one more argument -/

theorem closure_step {fn x : Node} {F : Frame} {dflt : Frame} {p : Str} {v : Node} {vs args : List Node} {loc : Option Loc} {s s1 s2 : ESt}
    (hf : Evaluates e fn s (.lclosure x F [] dflt) s1) (ha : Args e args s1 (v :: vs) s2) (hp : Frame.unassigned F = some p)
    (hva : p ≠ vaArgs) (hv : Evaluates e v s2 v s2) (hne : ∀ a, v ≠ .embed a) :
    ev e (.apply fn args [] loc) s = applyNext (ev e) (.lclosure x F [] dflt) (Frame.set F p v) dflt vs [] loc s2 := by
  rw [closure_apply hf ha]
  unfold applyClosure
  simp only [hp, if_neg hva]
  rw [em_bind_ok (listEval1_one hv hne)]
  rfl

theorem closure_default {fn x : Node} {F : Frame} {dflt : Frame} {p : Str} {d : Node} {loc : Option Loc} {s s1 : ESt}
    (hf : Evaluates e fn s (.lclosure x F [] dflt) s1) (hp : Frame.unassigned F = some p) (hd : Frame.get dflt p = some d)
    (hv : Evaluates e d s1 d s1) :
    ev e (.apply fn [] [] loc) s = applyNext (ev e) (.lclosure x F [] dflt) (Frame.set F p d) dflt [] [] loc s1 := by
  rw [closure_apply hf (.nil s1)]
  unfold applyClosure
  simp only [hp, hd]
  rw [em_bind_ok (evaluates_iff.1 hv)]
  rfl

/-- A closure whose body evaluates without effects. -/
theorem closure_value {x y : Node} {F : Frame} {dflt : Frame} {s : ESt} (h : ev e x (push s F) = .ok (y, push s F)) :
    ev e (.lclosure x F [] dflt) s = .ok (match Frame.unassigned F with | some _ => .lclosure y F [] dflt | none => y, s) := by
  rw [ev_lclosure]
  unfold evalClosure
  rw [em_bind_ok (inFrame_ok (s := s) (f' := F) (env := s.env) h rfl)]
  cases Frame.unassigned F <;> rfl

/-! ## Legs -/

theorem leg_eval {v : Node} (h : Leg v) (s : ESt) : Evaluates e v s v s := by
  rcases h with ⟨h, -⟩ | rfl
  · exact (C24_values_are_fixed_points e (data_value h) s).1
  · exact ⟨1, rfl⟩

theorem leg_embed {v : Node} (h : Leg v) (a : Node) : v ≠ .embed a := by
  rintro rfl
  rcases h with ⟨h, -⟩ | h <;> cases h

theorem leg_bound {v : Node} (h : Leg v) : v ≠ .bound := by
  rintro rfl
  rcases h with ⟨h, -⟩ | h <;> cases h

theorem leg_some {v : Node} (h : Leg v) : v ≠ .none := by
  rintro rfl
  rcases h with ⟨-, h⟩ | h
  · exact h rfl
  · cases h

theorem leg_args : ∀ {vs : List Node} (_ : ∀ v ∈ vs, Leg v) (s : ESt), Args e vs s vs s
  | [], _, s => .nil s
  | v :: vs, h, s => .one (leg_eval (h v (by simp)) s) (leg_some (h v (by simp))) (leg_embed (h v (by simp)))
      (leg_args (fun w hw => h w (by simp [hw])) s)

/-- A leg inserted, `($ leg)`. -/
theorem leg_applied {v : Node} (h : Leg v) (loc : Option Loc) (s : ESt) : applyTo e (ev e) v [] [] loc s = .ok (v, s) := by
  rcases h with ⟨h, -⟩ | rfl
  · cases h <;> try rfl
    rename_i xs hx hn
    unfold applyTo
    simp only [List.isEmpty_nil, if_true]
    rw [em_bind_ok (foreach_nothing _ hn _)]
    rfl
  · rfl

theorem leg_call {v : Node} (h : Leg v) (c : Option Src) : v.setCall c = v := by
  rcases h with ⟨h, -⟩ | rfl
  · cases h <;> rfl
  · rfl

/-! ## `$if` and `$unless` -/

section choice

variable {a b c' : Src} {loc : Option Loc}

/-- The parameters with the values they have so far. -/
def legFrame (c t f : Node) : Frame := [(lit "cond", c), (lit "then", t), (lit "else", f)]
def legFrame1 (c : Node) : Frame := [(lit "then", .bound), (lit "else", .bound), (lit "cond", c)]
def legFrame2 (c t : Node) : Frame := [(lit "else", .bound), (lit "cond", c), (lit "then", t)]

def choiceBody (c' a b : Src) (loc : Option Loc) : Node :=
  .apply (.condClosure (.var false [] c') (.var false [] a) (.var false [] b)) [] [] loc

theorem ev_var_bound {v : Src} {F : Frame} {s : ESt} (h : Frame.get F v.txt = some .bound) :
    ev e (.var false [] v) (push s F) = .ok (.var false [] v, push s F) := by
  rw [ev_at]
  change evalVar e false [] v (push s F) = _
  unfold evalVar
  have : Scopes.lookup (push s F).env v.txt = some .bound := by simp [push, Scopes.lookup, h]
  rw [this]; rfl

theorem ev_var_known {v : Src} {F : Frame} {s : ESt} {w : Node} (h : Frame.get F v.txt = some w) (hb : w ≠ .bound) :
    ev e (.var false [] v) (push s F) = .ok (w, push s F) := by
  rw [ev_at]
  change evalVar e false [] v (push s F) = _
  unfold evalVar
  have : Scopes.lookup (push s F).env v.txt = some w := by simp [push, Scopes.lookup, h]
  rw [this]
  have : w.isBound = false := by
    cases hw : w.isBound with
    | false => rfl
    | true => exact absurd (isBound_iff.1 hw) hb
  simp only [this]; rfl

/-- The name of a leg, inserted, while the leg is missing. -/
theorem leg_missing {v : Src} {F : Frame} {s : ESt} (h : Frame.get F v.txt = some .bound) :
    ev e (.apply (.var false [] v) [] [] loc) (push s F) = .ok (.apply (.var false [] v) [] [] loc, push s F) := by
  rw [ev_apply_eq, em_bind_ok (ev_var_bound h)]
  rfl

theorem leg_present {v : Src} {F : Frame} {s : ESt} {w : Node} (h : Frame.get F v.txt = some w) (hw : Leg w) :
    ev e (.apply (.var false [] v) [] [] loc) (push s F) = .ok (w, push s F) := by
  rw [ev_apply_eq, em_bind_ok (ev_var_known h (leg_bound hw)), leg_call hw]
  exact leg_applied hw loc _

/-- The body once the condition is known: the name of the leg chosen. -/
theorem choice_made {F : Frame} {s : ESt} {c : Node} (hc : Frame.get F c'.txt = some c) (hd : Data c)
    (ha : Frame.get F a.txt = some .bound) (hb : Frame.get F b.txt = some .bound) :
    ev e (choiceBody c' a b loc) (push s F) =
      .ok (.apply (.var false [] (if truthy c then a else b)) [] [] loc, push s F) := by
  unfold choiceBody
  have hcb : c ≠ .bound := by rintro rfl; cases hd
  have hk : ev e (.condClosure (.var false [] c') (.var false [] a) (.var false [] b)) (push s F) =
      .ok (.var false [] (if truthy c then a else b), push s F) := by
    rw [ev_at]
    change evalCondClosure (ev e) _ _ _ _ = _
    unfold evalCondClosure
    rw [em_bind_ok (ev_var_known hc hcb)]
    simp only [data_term hd, if_true]
    cases truthy c
    · simp only [Bool.false_eq_true, if_false]; rw [em_bind_ok (ev_var_bound hb), ev_var_bound hb]
    · simp only [if_true]; rw [em_bind_ok (ev_var_bound ha), ev_var_bound ha]
  rw [ev_apply_eq, em_bind_ok hk]
  rfl

/-- The next argument, or else the default. -/
inductive Next (d : Node) : List Node → Node → List Node → Prop
  | given (v vs) : Next d (v :: vs) v vs
  | missing : Next d [] d []

theorem applyNext_more {fn : Node} {F dflt : Frame} {vs : List Node} {s : ESt} (h : hasDefault dflt (Frame.unassigned F) = true) :
    applyNext (ev e) fn F dflt vs [] loc s = ev e (.apply (fn.setFrame F) vs [] loc) s := by
  unfold applyNext
  simp [h]

theorem applyNext_end {fn : Node} {F dflt : Frame} {s : ESt} (h : hasDefault dflt (Frame.unassigned F) = false) :
    applyNext (ev e) fn F dflt [] [] loc s = ev e (fn.setFrame F) s := by
  unfold applyNext
  simp [h]

theorem next_step {fn x : Node} {F dflt : Frame} {p : Str} {d v : Node} {legs vs : List Node} {s : ESt}
    (hf : Evaluates e fn s (.lclosure x F [] dflt) s) (hl : ∀ v ∈ legs, Leg v) (hp : Frame.unassigned F = some p) (hva : p ≠ vaArgs)
    (hd : Frame.get dflt p = some d) (hdl : Leg d) (hn : Next d legs v vs) :
    ev e (.apply fn legs [] loc) s = applyNext (ev e) (.lclosure x F [] dflt) (Frame.set F p v) dflt vs [] loc s := by
  cases hn with
  | given => exact closure_step hf (leg_args hl s) hp hva (leg_eval (hl v (by simp)) s) (leg_embed (hl v (by simp)))
  | missing => exact closure_default hf hp hd (leg_eval hdl s)

theorem closure_waits {x y : Node} {F : Frame} {dflt : Frame} {s : ESt} {p : Str} (h : ev e x (push s F) = .ok (y, push s F))
    (hp : Frame.unassigned F = some p) : Evaluates e (.lclosure x F [] dflt) s (.lclosure y F [] dflt) s := by
  rw [evaluates_iff, closure_value h, hp]

theorem setFrame_closure (x : Node) (F G : Frame) (late) (dflt : Frame) :
    (Node.lclosure x F late dflt).setFrame G = .lclosure x G late dflt := rfl

theorem un_bound (p : Str) (F : Frame) : Frame.unassigned ((p, .bound) :: F) = some p := rfl

theorem un_known {p : Str} {v : Node} {F : Frame} (h : v ≠ .bound) : Frame.unassigned ((p, v) :: F) = Frame.unassigned F := by
  unfold Frame.unassigned
  have : v.isBound = false := by
    cases hw : v.isBound with
    | false => rfl
    | true => exact absurd (isBound_iff.1 hw) h
  simp [List.find?_cons, this]

theorem next_leg {d v : Node} {legs vs : List Node} (hn : Next d legs v vs) (hd : Leg d) (hl : ∀ v ∈ legs, Leg v) :
    Leg v ∧ ∀ w ∈ vs, Leg w := by
  cases hn with
  | given => exact ⟨hl _ (by simp), fun w hw => hl w (by simp [hw])⟩
  | missing => exact ⟨hd, hl⟩

def legDefaults (d : Node) : Frame := [(lit "then", d), (lit "else", d)]

/-- A choice between legs: `a` names the leg taken if the condition holds, `b` the other one. -/
theorem choice_applied {fn c d t f : Node} {args legs rest : List Node} {s s1 s2 : ESt} {loc' : Option Loc}
    (hf : Evaluates e fn s (.lclosure (choiceBody c' a b loc') [(lit "cond", .bound), (lit "then", .bound), (lit "else", .bound)] []
      (legDefaults d)) s1)
    (ha : Args e args s1 (c :: legs) s2) (hc : Data c) (hl : ∀ v ∈ legs, Leg v) (hd : Leg d) (hc' : c'.txt = lit "cond")
    (hab : a.txt = lit "then" ∧ b.txt = lit "else" ∨ a.txt = lit "else" ∧ b.txt = lit "then")
    (h1 : Next d legs t rest) (h2 : Next d rest f []) :
    Evaluates e (.apply fn args [] loc) s (if (if truthy c then a else b).txt = lit "then" then t else f) s2 := by
  obtain ⟨ht, hr⟩ := next_leg h1 hd hl
  obtain ⟨hf', -⟩ := next_leg h2 hd hr
  have hcb : c ≠ .bound := by rintro rfl; cases hc
  rw [evaluates_iff]
  rw [closure_step hf ha (un_bound _ _) (by decide) (ev_data e hc s2 |> evaluates_iff.2) (by rintro x rfl; cases hc)]
  have e1 : ∀ v, Frame.set [(lit "cond", .bound), (lit "then", .bound), (lit "else", .bound)] (lit "cond") v = legFrame1 v := fun _ => rfl
  have e2 : ∀ c v, Frame.set (legFrame1 c) (lit "then") v = legFrame2 c v := fun _ _ => rfl
  have e3 : ∀ c t v, Frame.set (legFrame2 c t) (lit "else") v = legFrame c t v := fun _ _ _ => rfl
  rw [e1, applyNext_more rfl]
  -- the condition is known
  generalize hm : (if truthy c then a else b) = m
  have hmt : m.txt = lit "then" ∨ m.txt = lit "else" := by
    subst hm
    split <;> rcases hab with ⟨h, h'⟩ | ⟨h, h'⟩ <;> simp [h, h']
  have hb1 : ev e (choiceBody c' a b loc') (push s2 (legFrame1 c)) = .ok (.apply (.var false [] m) [] [] loc', push s2 (legFrame1 c)) := by
    subst hm
    refine choice_made (by rw [hc']; rfl) hc ?_ ?_ <;> rcases hab with ⟨h, h'⟩ | ⟨h, h'⟩ <;> first | (rw [h]; rfl) | (rw [h']; rfl)
  rw [setFrame_closure]
  rw [next_step (closure_waits hb1 (un_bound _ _)) hl (un_bound _ _) (by decide) rfl hd h1]
  rw [e2, applyNext_more rfl]
  rw [setFrame_closure]
  have hun : Frame.unassigned (legFrame c t f) = none := by
    unfold legFrame
    rw [un_known hcb, un_known (leg_bound ht), un_known (leg_bound hf')]; rfl
  rcases hmt with hmt | hmt
  · have hb2 : ev e (.apply (.var false [] m) [] [] loc') (push s2 (legFrame2 c t)) = .ok (t, push s2 (legFrame2 c t)) :=
      leg_present (by rw [hmt]; rfl) ht
    rw [next_step (closure_waits hb2 (un_bound _ _)) hr (un_bound _ _) (by decide) rfl hd h2]
    rw [e3, applyNext_end (by rw [hun]; rfl)]
    rw [setFrame_closure]
    rw [closure_value (evaluates_iff.1 (leg_eval ht _)), hun, if_pos hmt]
  · have hb2 : ev e (.apply (.var false [] m) [] [] loc') (push s2 (legFrame2 c t)) = .ok (.apply (.var false [] m) [] [] loc', push s2 (legFrame2 c t)) :=
      leg_missing (by rw [hmt]; rfl)
    rw [next_step (closure_waits hb2 (un_bound _ _)) hr (un_bound _ _) (by decide) rfl hd h2]
    rw [e3, applyNext_end (by rw [hun]; rfl)]
    rw [setFrame_closure]
    rw [closure_value (leg_present (v := m) (w := f) (by rw [hmt]; rfl) hf'), hun, if_neg (by rw [hmt]; decide)]

end choice

/-! ## The definitions -/

/-- The empty text `[]`. -/
theorem empty_text (s : ESt) : ∃ d, Evaluates e (.text []) s d s ∧ Data d ∧ d ≠ .none ∧ d.text? = some [] := by
  have h : Ends e (.text []) (withEnv s s.env) (some (textValue e s (.str []) [])) :=
    body_ends (K := fun _ => False) (ρ := fun _ => none) (n := 1) (fun k hk => hk.elim) (.text .nil)
  refine ⟨textValue e s (.str []) [], ends_gives h, ?_⟩
  unfold textValue
  split
  · refine ⟨.result _, by simp, ?_⟩
    simp [Node.text?, plainBrowse]
    rfl
  · exact ⟨.pstr _, by simp, rfl⟩

theorem set_one {n : Src} {x v : Node} {s : ESt} (ho : n.txt ≠ lit "__OUTPUT_FILE__")
    (h : ev e x (push s [(n.txt, .bound)]) = .ok (v, push s [(n.txt, .bound)])) :
    ev e (.set (.one n) x) s = .ok (.env [(n.txt, v)], s) := by
  rw [ev_at]
  change evalSet e (ev e) (.one n) x s = _
  unfold evalSet
  rw [if_neg (by simpa [LVal.isOutput] using ho)]
  have : evalAssign (ev e) (.one n) x s = .ok ([(n.txt, v)], s) := by
    unfold evalAssign
    rw [em_bind_ok (inFrame_ok (s := s) (f := (LVal.one n).frame) (f' := [(n.txt, .bound)]) (env := s.env) h rfl)]
    simp [assign, em_pure, Frame.set, Frame.del, LVal.frame, push]
  rw [em_bind_ok this]
  rfl

/-- What the definition of a choice stores. -/
theorem choice_defined {n c t f c' a b : Src} {loc : Option Loc} (hc : c.txt = lit "cond") (ht : t.txt = lit "then") (hf : f.txt = lit "else")
    (hc' : c'.txt = lit "cond")
    (ho : n.txt ≠ lit "__OUTPUT_FILE__") (s : ESt) :
    ∃ d, Leg d ∧ d.text? = some [] ∧
      ev e (.set (.one n) (.lambda [([], c, none), ([], t, some (.text [])), ([], f, some (.text []))]
        (.apply (.cond (.var false [] c') (.var false [] a) (.var false [] b)) [] [] loc))) s =
      .ok (.env [(n.txt, .lclosure (choiceBody c' a b loc) [(lit "cond", .bound), (lit "then", .bound), (lit "else", .bound)] []
        (legDefaults d))], s) := by
  obtain ⟨d, h1, h2, h3, h4⟩ := empty_text (e := e) (push s [(n.txt, .bound)])
  refine ⟨d, .inl ⟨h2, h3⟩, h4, set_one ho ?_⟩
  have hpar : Params e (push s [(n.txt, .bound)]) [([], c, none), ([], t, some (.text [])), ([], f, some (.text []))]
      [c.txt, t.txt, f.txt] [(t.txt, d), (f.txt, d)] :=
    .cons (by rw [hc]; decide) (.dflt (by rw [ht]; decide) h1 h2 (.dflt (by rw [hf]; decide) h1 h2 .nil))
  rw [ev_lambda _ _ hpar (by rw [hc, ht, hf]; decide)]
  simp only [List.map_cons, List.map_nil, hc, ht, hf]
  have hun : ∀ (p : ESt), ev e (.apply (.cond (.var false [] c') (.var false [] a) (.var false [] b)) [] [] loc)
      (push p [(lit "cond", .bound), (lit "then", .bound), (lit "else", .bound)]) =
      .ok (choiceBody c' a b loc, push p [(lit "cond", .bound), (lit "then", .bound), (lit "else", .bound)]) := by
    intro p
    have hk : ev e (.cond (.var false [] c') (.var false [] a) (.var false [] b))
        (push p [(lit "cond", .bound), (lit "then", .bound), (lit "else", .bound)]) =
        .ok (.condClosure (.var false [] c') (.var false [] a) (.var false [] b),
          push p [(lit "cond", .bound), (lit "then", .bound), (lit "else", .bound)]) := by
      rw [ev_at]
      change evalCond (ev e) _ _ _ _ = _
      unfold evalCond
      rw [em_bind_ok (ev_var_bound (by rw [hc']; rfl))]
      rfl
    rw [ev_apply_eq, em_bind_ok hk]
    rfl
  rw [closure_value (hun _), un_bound]
  rfl

/-- **C76**. The definitions of `$if` and `$unless` can be evaluated everywhere, without effects. -/
theorem C76_choice_defined {first second n : Str} {d : Node} (hd : Choice first second n d) (ho : n ≠ lit "__OUTPUT_FILE__") (s : ESt) :
    ∃ f, Evaluates e d s (.env [(n, f)]) s := by
  cases hd with
  | mk hc ht hf hc' =>
    obtain ⟨d, -, -, h⟩ := choice_defined hc ht hf hc' ho s
    exact ⟨_, evaluates_iff.2 h⟩

theorem next_two {d : Node} {legs : List Node} (hl : legs.length ≤ 2) :
    ∃ rest, Next d legs (legs[0]?.getD d) rest ∧ Next d rest (legs[1]?.getD d) [] := by
  match legs, hl with
  | [], _ => exact ⟨[], .missing, .missing⟩
  | [t], _ => exact ⟨[], .given _ _, .missing⟩
  | [t, f], _ => exact ⟨[f], .given _ _, .given _ _⟩

theorem data_false {c : Node} (_ : Data c) : truthy c = true ↔ ¬ False' c := by
  rw [← falsy_iff]
  cases truthy c <;> simp

theorem choose {d : Node} {o : Option Node} (hd : d.text? = some []) : o = some (o.getD d) ∨ o = none ∧ (o.getD d).text? = some [] := by
  cases o <;> simp [hd]

/-- **C76**, `$if`: the value is that of the leg the condition chooses, the empty text if that leg is not given. All arguments are
    evaluated before, in order. -/
theorem C76_if {n : Str} {d f fn : Node} {s0 s0' : ESt} (hd : Choice (lit "then") (lit "else") n d) (ho : n ≠ lit "__OUTPUT_FILE__")
    (hdef : Evaluates e d s0 (.env [(n, f)]) s0')
    {s s1 s2 : ESt} {args legs : List Node} {c : Node} {loc : Option Loc} (hf : Evaluates e fn s f s1) (ha : Args e args s1 (c :: legs) s2)
    (hc : Data c) (hl : ∀ v ∈ legs, Leg v) (hn : legs.length ≤ 2) :
    ∃ v, Evaluates e (.apply fn args [] loc) s v s2 ∧ Chosen c legs[0]? legs[1]? v := by
  cases hd with
  | @mk n c1 t1 f1 c' a b loc1 h1 h2 h3 h4 h5 h6 =>
    obtain ⟨d, hd, hdt, h⟩ := choice_defined (e := e) (a := a) (b := b) (loc := loc1) h1 h2 h3 h4 ho s0
    rw [evaluates_iff, h] at hdef
    simp only [PRes.ok.injEq, Prod.mk.injEq, Node.env.injEq, List.cons.injEq, true_and, and_true] at hdef
    obtain ⟨rfl, -⟩ := hdef
    obtain ⟨rest, n1, n2⟩ := next_two (d := d) hn
    refine ⟨_, choice_applied hf ha hc hl hd h4 (.inl ⟨h5, h6⟩) n1 n2, ?_⟩
    unfold Chosen
    rw [← data_false hc, show False' c ↔ ¬ truthy c = true by rw [data_false hc]; exact Classical.not_not.symm]
    cases truthy c
    · simp only [Bool.false_eq_true, if_false, h6]
      rw [if_neg (by decide)]
      exact .inr ⟨by simp, choose hdt⟩
    · simp only [if_true, h5]
      exact .inl ⟨by simp, choose hdt⟩

/-- **C76**, `$unless`: the other way round. -/
theorem C76_unless {n : Str} {d f fn : Node} {s0 s0' : ESt} (hd : Choice (lit "else") (lit "then") n d) (ho : n ≠ lit "__OUTPUT_FILE__")
    (hdef : Evaluates e d s0 (.env [(n, f)]) s0')
    {s s1 s2 : ESt} {args legs : List Node} {c : Node} {loc : Option Loc} (hf : Evaluates e fn s f s1) (ha : Args e args s1 (c :: legs) s2)
    (hc : Data c) (hl : ∀ v ∈ legs, Leg v) (hn : legs.length ≤ 2) :
    ∃ v, Evaluates e (.apply fn args [] loc) s v s2 ∧ Chosen c legs[1]? legs[0]? v := by
  cases hd with
  | @mk n c1 t1 f1 c' a b loc1 h1 h2 h3 h4 h5 h6 =>
    obtain ⟨d, hd, hdt, h⟩ := choice_defined (e := e) (a := a) (b := b) (loc := loc1) h1 h2 h3 h4 ho s0
    rw [evaluates_iff, h] at hdef
    simp only [PRes.ok.injEq, Prod.mk.injEq, Node.env.injEq, List.cons.injEq, true_and, and_true] at hdef
    obtain ⟨rfl, -⟩ := hdef
    obtain ⟨rest, n1, n2⟩ := next_two (d := d) hn
    refine ⟨_, choice_applied hf ha hc hl hd h4 (.inr ⟨h5, h6⟩) n1 n2, ?_⟩
    unfold Chosen
    rw [← data_false hc, show False' c ↔ ¬ truthy c = true by rw [data_false hc]; exact Classical.not_not.symm]
    cases truthy c
    · simp only [Bool.false_eq_true, if_false, h6]
      exact .inr ⟨by simp, choose hdt⟩
    · simp only [if_true, h5]
      rw [if_neg (by decide)]
      exact .inl ⟨by simp, choose hdt⟩

/-- **C76**. A leg that fails makes `$if` and every other application fail, chosen or not. -/
theorem C76_legs_are_evaluated {fn f x : Node} {pre post vs : List Node} {s s1 s2 : ESt} {loc : Option Loc} {named : List (Src × Node)}
    (hf : Evaluates e fn s f s1) (ha : Args e pre s1 vs s2) (hx : Raises e x s2) :
    Raises e (.apply fn (pre ++ x :: post) named loc) s := by
  have key : ∀ {pre vs : List Node} {s1 s2 : ESt}, Args e pre s1 vs s2 → Raises e x s2 → evalList (ev e) (pre ++ x :: post) s1 = .err := by
    intro pre vs s1 s2 h
    induction h with
    | nil s =>
      intro hx
      simp only [List.nil_append]
      unfold evalList
      exact em_bind_err (raises_iff.1 hx)
    | drop h1 _ ih | one h1 _ _ _ ih | embedded h1 _ ih =>
      intro hx
      simp only [List.cons_append]
      unfold evalList
      rw [em_bind_ok (evaluates_iff.1 h1)]
      exact em_bind_err (ih hx)
  rw [raises_iff, ev_apply_eq, em_bind_ok (evaluates_iff.1 hf)]
  exact em_bind_err (key ha hx)

/-! ## `$BIN` -/

theorem binary_defined {n b f b' : Src} {loc : Option Loc} (hb : b.txt = ['b']) (hf : f.txt = lit "atoi") (hb' : b'.txt = ['b'])
    (hn : n.txt = lit "BIN") {s : ESt} {v : BVal} (hu : InTable e s (lit "atoi") v) (hv : v = .fn) :
    ev e (.set (.one n) (.lambda [([], b, none)] (.apply (.var false [] f) [.var false [] b', .int 2] [] loc))) s =
      .ok (.env [(n.txt, .lclosure (.apply (.builtin f false) [.var false [] b', .int 2] [] loc) [(['b'], .bound)] [] [])], s) := by
  subst hv
  refine set_one (by rw [hn]; decide) ?_
  have hpar : Params e (push s [(n.txt, .bound)]) [([], b, none)] [b.txt] [] := .cons (by rw [hb]; decide) .nil
  rw [ev_lambda _ _ hpar (by simp)]
  simp only [List.map_cons, List.map_nil, hb]
  have hbody : ev e (.apply (.var false [] f) [.var false [] b', .int 2] [] loc) (push (push s [(n.txt, .bound)]) [(['b'], .bound)]) =
      .ok (.apply (.builtin f false) [.var false [] b', .int 2] [] loc, push (push s [(n.txt, .bound)]) [(['b'], .bound)]) := by
    obtain ⟨ft, fl⟩ := f
    simp only at hf
    subst hf
    have ha : Args e [.var false [] b', .int 2] (push (push s [(n.txt, .bound)]) [(['b'], .bound)]) [.var false [] b', .int 2]
        (push (push s [(n.txt, .bound)]) [(['b'], .bound)]) :=
      .one (evaluates_iff.2 (ev_var_bound (by rw [hb']; rfl))) (by simp) (by simp) (.one ⟨1, rfl⟩ (by simp) (by simp) (.nil _))
    have hin : InTable e (push (push s [(n.txt, .bound)]) [(['b'], .bound)]) (lit "atoi") .fn := by
      refine ⟨?_, hu.table⟩
      have := hu.scope
      unfold Unbound at this ⊢
      rw [hn]
      simp only [push, Scopes.lookup]
      rw [show Frame.get [(['b'], Node.bound)] (lit "atoi") = none from rfl, show Frame.get [(lit "BIN", Node.bound)] (lit "atoi") = none from rfl]
      exact this
    exact (ev_table_fn (l := fl) (loc := loc) hin ha hu.table).trans rfl
  rw [closure_value hbody, un_bound]

/-- `$atoi` already looked up, in a scope where the parameter has its value. -/
theorem atoi_ready {f b' : Src} {loc : Option Loc} {x : BExt} (hf : f.txt = lit "atoi") (hb' : b'.txt = ['b']) (hs : Standard e x (lit "atoi"))
    {w : Node} {t : Str} (hw : w.text? = some t) (s : ESt) :
    ev e (.apply (.builtin f false) [.var false [] b', .int 2] [] loc) (push s [(['b'], w)]) =
      applyFunction e f false [w, .int 2] loc (push s [(['b'], w)]) := by
  have hwb : w ≠ .bound := by rintro rfl; cases hw
  have hwn : w ≠ .none := by rintro rfl; cases hw
  have hwe : ∀ a, w ≠ .embed a := by rintro a rfl; cases hw
  have ha : Args e [.var false [] b', .int 2] (push s [(['b'], w)]) [w, .int 2] (push s [(['b'], w)]) :=
    .one (evaluates_iff.2 (ev_var_known (by rw [hb']; simp [Frame.get]) hwb)) hwn hwe (.one ⟨1, rfl⟩ (by simp) (by simp) (.nil _))
  rw [ev_apply (evaluates_iff.2 (ev_builtin f false _)) ha]
  change applyBuiltin e f false [w, .int 2] [] loc _ = _
  unfold applyBuiltin
  simp only [List.isEmpty_nil, Bool.not_true, Bool.false_eq_true, if_false]
  rw [em_bind_ok (show EM.get (push s [(['b'], w)]) = .ok (_, _) from rfl), hf, hs.table]

theorem text_fixed {w : Node} {t : Str} (hw : w.text? = some t) : Data w := by
  cases w <;> first | cases hw; done | (constructor; done)

/-- The outcome of `$BIN`, before it is known whether the text denotes a number. -/
theorem binary_applied {d f fn : Node} {s0 s0' : ESt} {x : BExt} (hs : Standard e x (lit "atoi")) (hu : Unbound (lit "atoi") s0)
    (hd : Binary d) (hdef : Evaluates e d s0 (.env [(lit "BIN", f)]) s0')
    {s s1 s2 : ESt} {args : List Node} {w : Node} {t : Str} {loc : Option Loc} (hf : Evaluates e fn s f s1) (ha : Args e args s1 [w] s2)
    (hw : w.text? = some t) :
    ∃ (g : Src) (l : Option Loc), g.txt = lit "atoi" ∧
      ev e (.apply fn args [] loc) s = (match applyFunction e g false [w, .int 2] l (push s2 [(['b'], w)]) with
        | .ok (v, s3) => .ok (v, pop s3)
        | .err => .err
        | .timeout => .timeout) := by
  cases hd with
  | @mk n b g b' l h1 h2 h3 h4 =>
    rw [evaluates_iff, binary_defined h2 h3 h4 h1 ⟨hu, hs.table _⟩ rfl] at hdef
    simp only [PRes.ok.injEq, Prod.mk.injEq, Node.env.injEq, List.cons.injEq, and_true] at hdef
    obtain ⟨⟨-, rfl⟩, -⟩ := hdef
    have hdw := text_fixed hw
    have hwb : w ≠ .bound := by rintro rfl; cases hw
    refine ⟨g, l, h3, ?_⟩
    have hun : Frame.unassigned [(['b'], w)] = none := by rw [un_known hwb]; rfl
    rw [closure_step hf ha (un_bound _ _) (by decide) (evaluates_iff.2 (ev_data e hdw s2)) (by rintro a rfl; cases hw)]
    rw [show Frame.set [(['b'], Node.bound)] ['b'] w = [(['b'], w)] from rfl, applyNext_end (by rw [hun]; rfl), setFrame_closure]
    have hin := closure_scope (e := e) (body := .apply (.builtin g false) [.var false [] b', .int 2] [] l) (late := []) (dflt := []) hun
      (x := .lclosure (.apply (.builtin g false) [.var false [] b', .int 2] [] l) [(['b'], w)] [] []) (s := s2) (t := s2) rfl
    rw [← atoi_ready h3 h4 hs hw]
    cases hb : ev e (.apply (.builtin g false) [.var false [] b', .int 2] [] l) (push s2 [(['b'], w)]) with
    | ok r => exact evaluates_iff.1 ((hin.1 r.1 (pop r.2)).2 ⟨r.2, evaluates_iff.2 hb, rfl⟩)
    | err => exact raises_iff.1 (hin.2.2 (raises_iff.2 hb))
    | timeout =>
      cases hx : ev e (.lclosure (.apply (.builtin g false) [.var false [] b', .int 2] [] l) [(['b'], w)] [] []) s2 with
      | ok r =>
        obtain ⟨s3, h, -⟩ := (hin.1 r.1 r.2).1 (evaluates_iff.2 hx)
        rw [evaluates_iff, hb] at h; cases h
      | err =>
        have := hin.2.1 (raises_iff.2 hx)
        rw [raises_iff, hb] at this; cases this
      | timeout => rfl

theorem atoi_call {x : BExt} {w : Node} {t : Str} (hw : w.text? = some t) (hc : ∀ c ∈ t, c.toNat < 128 ∧ c ≠ '_') (seen : List Node) :
    builtinCall x (lit "atoi") [w, .int 2] seen = (pyInt 2 t).map fun n => (.int n, seen) := by
  have h1 : (t.all fun c => c.toNat < 128 && c != '_') = true := by
    rw [List.all_eq_true]; intro c h; have := hc c h; simp [this.1, this.2]
  have : builtinCall x (lit "atoi") [w, .int 2] seen = bAtoi x [w, .int 2] w 2 seen := by
    simp [builtinCall, textCall, lit, Node.whole?]
  rw [this]
  unfold bAtoi
  rw [hw]
  simp only []
  rw [if_pos ⟨by simp, h1⟩]
  rfl

/-- **C76**, `$BIN`: the number that the digits denote in base two, and an error if they denote none. -/
theorem C76_binary {d f fn : Node} {s0 s0' : ESt} {x : BExt} (hs : Standard e x (lit "atoi")) (hu : Unbound (lit "atoi") s0)
    (hd : Binary d) (hdef : Evaluates e d s0 (.env [(lit "BIN", f)]) s0')
    {s s1 s2 : ESt} {args : List Node} {w : Node} {t : Str} {loc : Option Loc} (hf : Evaluates e fn s f s1) (ha : Args e args s1 [w] s2)
    (hw : w.text? = some t) (hc : ∀ c ∈ t, c.toNat < 128 ∧ c ≠ '_') :
    (∀ v, Written 2 t v → Evaluates e (.apply fn args [] loc) s (.int v) s2) ∧
    ((∀ v, ¬ Written 2 t v) → Raises e (.apply fn args [] loc) s) := by
  obtain ⟨g, l, hg, h⟩ := binary_applied (loc := loc) hs hu hd hdef hf ha hw
  have ht : areTerms [w, .int 2] = true := by simp [areTerms, text_isTerm hw, isTerm]
  have hk : applyFunction e g false [w, .int 2] l (push s2 [(['b'], w)]) = (match pyInt 2 t with
      | some n => .ok (.int n, push s2 [(['b'], w)])
      | none => .err) := by
    unfold applyFunction
    rw [if_pos ht, hg, hs.call, atoi_call hw hc]
    cases pyInt 2 t <;> rfl
  rw [hk] at h
  refine ⟨fun v hv => ?_, fun hv => ?_⟩
  · rw [evaluates_iff, h, (pyInt_iff (by omega) t v).2 hv]
    rfl
  · have : pyInt 2 t = none := by
      cases hp : pyInt 2 t with
      | none => rfl
      | some v => exact absurd ((pyInt_iff (by omega) t v).1 hp) (hv v)
    rw [raises_iff, h, this]

/-! ## The hypotheses can be met -/

/-- `($if 0 [yes] [no])` and `($if 1 [yes] ($skip))`, whatever the state; the second leg of the last one is `($skip)`. -/
example (s : ESt) {d : Node} (hd : Choice (lit "then") (lit "else") (lit "if") d) :
    ∃ f, Evaluates e d s (.env [(lit "if", f)]) s ∧
      (∀ fn, Evaluates e fn s f s → Evaluates e (.apply fn [.int 0, .pstr ['y'], .pstr ['n']] [] none) s (.pstr ['n']) s) ∧
      (∀ fn, Evaluates e fn s f s → Evaluates e (.apply fn [.int 1, .pstr ['y'], .skip] [] none) s (.pstr ['y']) s) := by
  obtain ⟨f, hf⟩ := C76_choice_defined (e := e) hd (by decide) s
  refine ⟨f, hf, fun fn hfn => ?_, fun fn hfn => ?_⟩
  · have hl : ∀ v ∈ [Node.pstr ['y'], .pstr ['n']], Leg v := by
      intro v hv
      simp only [List.mem_cons, List.not_mem_nil, or_false] at hv
      rcases hv with rfl | rfl <;> exact .inl ⟨.pstr _, by simp⟩
    obtain ⟨v, h1, h2⟩ := C76_if (loc := none) hd (by decide) hf hfn
      (.one (x := .int 0) ⟨1, rfl⟩ (by simp) (by simp) (leg_args hl s)) (.int 0) hl (by simp)
    rcases h2 with ⟨h, -⟩ | ⟨-, h | h⟩
    · exact absurd .int h
    · simp at h; subst h; exact h1
    · simp at h
  · have hl : ∀ v ∈ [Node.pstr ['y'], .skip], Leg v := by
      intro v hv
      simp only [List.mem_cons, List.not_mem_nil, or_false] at hv
      rcases hv with rfl | rfl
      · exact .inl ⟨.pstr _, by simp⟩
      · exact .inr rfl
    obtain ⟨v, h1, h2⟩ := C76_if (loc := none) hd (by decide) hf hfn
      (.one (x := .int 1) ⟨1, rfl⟩ (by simp) (by simp) (leg_args hl s)) (.int 1) hl (by simp)
    rcases h2 with ⟨-, h | h⟩ | ⟨h, -⟩
    · simp at h; subst h; exact h1
    · simp at h
    · cases h

/-- `($BIN,,101)` -/
example (x : BExt) (pe : PEnv) {d : Node} (hd : Binary d) {f fn : Node} {s : ESt}
    (hdef : Evaluates (stdEnv x pe) d {} (.env [(lit "BIN", f)]) {}) (hf : Evaluates (stdEnv x pe) fn s f s) :
    Evaluates (stdEnv x pe) (.apply fn [.pstr ['1', '0', '1']] [] none) s (.int 5) s :=
  (C76_binary (s0 := {}) (stdEnv_standard x pe _) rfl hd hdef hf (.one (x := .pstr ['1', '0', '1']) ⟨1, rfl⟩ (by simp) (by simp) (.nil s)) rfl (by decide)).1 5
    ((pyInt_iff (by omega) _ _).1 (by decide))

/-- Such a function is there once the definition is evaluated. -/
example (x : BExt) (pe : PEnv) {d : Node} (hd : Binary d) : ∃ f, Evaluates (stdEnv x pe) d {} (.env [(lit "BIN", f)]) {} := by
  cases hd with
  | mk h1 h2 h3 h4 =>
    rw [← h1]
    exact ⟨_, evaluates_iff.2 (binary_defined h2 h3 h4 h1 ⟨rfl, rfl⟩ rfl)⟩

end Yupp
