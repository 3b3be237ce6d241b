import Verif.Lemmas.Beta
/-!
# C29 — applying a function
-/

namespace Yupp

open Spec

/-- A function value applied to positional and named arguments: every parameter gets its named argument, the next
    positional one or its default, and the outcome is that of the body with the parameters bound to these values.
    Missing: bodies outside of `Reads` (nested functions, `$let`, `$set`, `$emit`, macros, …), arguments with
    effects, late parameters, too few or too many arguments. The theorems below show that the rule fails
    in general. -/
theorem C29_application_partial (e : EEnv) (s : ESt) (K : Str → Prop) (n : Nat) (fn body : Node) (ps : List Str)
    (dflt : List (Str × Node)) (args vs : List Node) (named : List (Src × Node)) (nvs b : List (Str × Node)) (loc : Option Loc)
    (r : Option Node)
    (hf : Evaluates e fn s (.lclosure body (ps.map (fun p => (p, Node.bound))) [] dflt) s) (hd : ∀ p ∈ dflt, Data p.2)
    (hps : ps ≠ []) (hnd : ps.Nodup)
    (ha : Args e args s vs s) (hv : ∀ v ∈ vs, Data v) (hvn : ∀ v ∈ vs, v ≠ .none)
    (ht : Tagged e s named nvs) (htn : (nvs.map (·.1)).Nodup) (htp : ∀ p ∈ nvs, p.1 ∈ ps)
    (hb : parameters nvs dflt ps vs = some b)
    (hr : Reads e s K (Scopes.lookup (b :: s.env)) n body r) :
    Gives e (.apply fn args named loc) s r ∧ Gives e body (push s b) r := by
  constructor
  · exact ends_gives (rounds hd ps.length ps [] named nvs args vs b fn body (Nat.le_refl _) hps hnd (by simp) (by simp)
      (by rw [evaluates_iff.1 hf]; simp [pendingFrame]) ha hv hvn ht htn htp hb (fun _ => rfl) hr)
  · exact ends_gives (body_ends (s := s) (env := b :: s.env) (fun _ _ => rfl) hr)

/-- A lambda applied to positional and named arguments, with defaults. Missing: as above. -/
theorem C29_beta_partial (e : EEnv) (s : ESt) (K : Str → Prop) (n : Nat) (bs : List (List Src × Src × Option Node)) (body : Node)
    (ps : List Str) (dflt : List (Str × Node)) (args vs : List Node) (named : List (Src × Node)) (nvs b : List (Str × Node))
    (loc : Option Loc) (r : Option Node)
    (hbs : Params e s bs ps dflt) (hps : ps ≠ []) (hnd : ps.Nodup)
    (ha : Args e args s vs s) (hv : ∀ v ∈ vs, Data v) (hvn : ∀ v ∈ vs, v ≠ .none)
    (ht : Tagged e s named nvs) (htn : (nvs.map (·.1)).Nodup) (htp : ∀ p ∈ nvs, p.1 ∈ ps)
    (hb : parameters nvs dflt ps vs = some b)
    (hr : Reads e s K (Scopes.lookup (b :: s.env)) n body r) :
    Gives e (.apply (.lambda bs body) args named loc) s r ∧ Gives e body (push s b) r := by
  refine ⟨?_, ends_gives (body_ends (s := s) (env := b :: s.env) (fun _ _ => rfl) hr)⟩
  have hfill : Filling (pendingFrame ps []) b := pending_filling (fun _ => rfl) (parameters_get hb) (by simp)
  have hun : ∃ q, Frame.unassigned (pendingFrame ps []) = some q := by
    cases ps with
    | nil => exact absurd rfl hps
    | cons q qs => exact ⟨q, head_pending⟩
  obtain ⟨q, hun⟩ := hun
  have hl := ev_lambda bs body hbs hnd
  have hpf : ps.map (fun p => (p, Node.bound)) = pendingFrame ps [] := by simp [pendingFrame]
  rw [hpf] at hl
  rcases closure_pending (dflt := dflt) hfill hun hr with ⟨he, hr'⟩ | ⟨y, he, hy⟩
  · subst hr'
    refine raises_iff.2 ?_
    rw [ev_apply_eq, em_bind_err (hl.trans he)]
  · have hf : Evaluates e (.lambda bs body) s (.lclosure y (ps.map (fun p => (p, Node.bound))) [] dflt) s := by
      rw [evaluates_iff, hpf]; exact hl.trans he
    exact (C29_application_partial e s K n _ y ps dflt args vs named nvs b loc r hf (params_data hbs) hps hnd ha hv hvn
      ht htn htp hb hy).1

/-- A function defined elsewhere (in the scopes `env0`), where the names in its body other than the parameters mean
    the same as where it is applied. -/
theorem C29_stored_function_partial (e : EEnv) (s : ESt) (env0 : Scopes) (K : Str → Prop) (n : Nat)
    (bs : List (List Src × Src × Option Node)) (fn body c : Node) (ps : List Str) (dflt : List (Str × Node)) (args vs : List Node)
    (named : List (Src × Node)) (nvs b : List (Str × Node)) (loc : Option Loc) (r : Option Node)
    (hbs : Params e { s with env := env0 } bs ps dflt) (hps : ps ≠ []) (hnd : ps.Nodup)
    (hc : Evaluates e (.lambda bs body) { s with env := env0 } c { s with env := env0 })
    (hsame : ∀ k, K k → k ∉ ps → Scopes.lookup env0 k = Scopes.lookup s.env k)
    (hf : Evaluates e fn s c s)
    (ha : Args e args s vs s) (hv : ∀ v ∈ vs, Data v) (hvn : ∀ v ∈ vs, v ≠ .none)
    (ht : Tagged e s named nvs) (htn : (nvs.map (·.1)).Nodup) (htp : ∀ p ∈ nvs, p.1 ∈ ps)
    (hb : parameters nvs dflt ps vs = some b)
    (hr : Reads e s K (Scopes.lookup (b :: s.env)) n body r) :
    Gives e (.apply fn args named loc) s r ∧ Gives e body (push s b) r := by
  refine ⟨?_, ends_gives (body_ends (s := s) (env := b :: s.env) (fun _ _ => rfl) hr)⟩
  have hl := ev_lambda bs body hbs hnd
  have htow : Toward K (Scopes.lookup (b :: s.env)) (ps.map (fun p => (p, Node.bound)) :: env0) := by
    intro k hk
    simp only [Scopes.lookup]
    rw [get_bounds]
    have hb' := parameters_get hb k
    by_cases hin : k ∈ ps
    · right
      simp only [hin, if_true, true_and]
      cases hg : Frame.get b k with
      | none => rw [hg] at hb'; simp [hin] at hb'
      | some => rfl
    · left
      simp only [hin, if_false]
      cases hg : Frame.get b k with
      | none => exact hsame k hk hin
      | some => rw [hg] at hb'; simp [hin] at hb'
  have hc' := evaluates_iff.1 hc
  rw [hl] at hc'
  rcases partly htow hr with ⟨he, _⟩ | ⟨y, he, hy⟩
  · have := closure_err (s := { s with env := env0 }) (dflt := dflt) he
    rw [this] at hc'; cases hc'
  · have hun : ∃ q, Frame.unassigned (ps.map (fun p => (p, Node.bound))) = some q := by
      cases ps with
      | nil => exact absurd rfl hps
      | cons q qs => exact ⟨q, by simp [Frame.unassigned, Node.isBound]⟩
    obtain ⟨q, hun⟩ := hun
    have := closure_ok (s := { s with env := env0 }) (dflt := dflt) he
    rw [this, hun] at hc'
    cases hc'
    exact (C29_application_partial e s K n fn y ps dflt args vs named nvs b loc r hf (params_data hbs) hps hnd ha hv hvn
      ht htn htp hb hy.reads).1

namespace BetaExample

def x : Src := { txt := ['x'] }
def y : Src := { txt := ['y'] }
/-- `(x (0 y x) (x ? a($y) | ...))` -/
def body : Node := .list [.var false [] x, .apply (.int 0) [.var false [] y, .var false [] x] [] none,
  .cond (.var false [] x) (.text [.plain { txt := ['a'] } .none false, .apply (.var false [] y) [] [] none]) (.int 0)]
/-- `\\x y=2.body` -/
def fn : Node := .lambda [([], x, none), ([], y, some (.int 2))] body

theorem params (e : EEnv) (s : ESt) : Params e s [([], x, none), ([], y, some (.int 2))] [['x'], ['y']] [(['y'], .int 2)] :=
  .cons (by decide) (.dflt (by decide) (evaluates_iff.2 (ev_value e (.int 2) s)) (.int 2) .nil)

theorem reads (e : EEnv) (s : ESt) (b : Frame) {K : Str → Prop} (kx : K ['x']) (ky : K ['y']) (v w : Int) (hv : v ≠ 0) (hx : Frame.get b ['x'] = some (.int v)) (hy : Frame.get b ['y'] = some (.int w)) :
    Reads e s K (Scopes.lookup (b :: s.env)) 4 body (some (.list [.int v, .int w,
      textValue e s (.str []) [.plain { txt := ['a'] } .none false, .trim (.int w) []]])) := by
  have rx : ∀ n, Reads e s K (Scopes.lookup (b :: s.env)) n (.var false [] x) (some (.int v)) := by
    intro n
    induction n with
    | zero => exact .name kx (by simp [Scopes.lookup, x, hx]) (.int v)
    | succ n ih => exact .up ih
  have ry : ∀ n, Reads e s K (Scopes.lookup (b :: s.env)) n (.var false [] y) (some (.int w)) := by
    intro n
    induction n with
    | zero => exact .name ky (by simp [Scopes.lookup, y, hy]) (.int w)
    | succ n ih => exact .up ih
  have h2 : Reads e s K (Scopes.lookup (b :: s.env)) 2 (.apply (.int 0) [.var false [] y, .var false [] x] [] none)
      (some (.int w)) := by
    exact .up (.subscript (.inl (.int 0)) (.data (.int 0)) (.int 0) (.item (ry 0) (.item (rx 0) .nil)))
  have h3 : Reads e s K (Scopes.lookup (b :: s.env)) 3
      (.cond (.var false [] x) (.text [.plain { txt := ['a'] } .none false, .apply (.var false [] y) [] [] none]) (.int 0))
      (some (textValue e s (.str []) [.plain { txt := ['a'] } .none false, .trim (.int w) []])) := by
    have ht : truthy (.int v) = true := by simp [truthy, hv]
    have h1 : Reads e s K (Scopes.lookup (b :: s.env)) 1 (.apply (.var false [] y) [] [] none) (some (.int w)) :=
      .insert (ry 0)
    have htx : Reads e s K (Scopes.lookup (b :: s.env)) 2
        (.text [.plain { txt := ['a'] } .none false, .apply (.var false [] y) [] [] none])
        (some (textValue e s (.str []) [.plain { txt := ['a'] } .none false, .trim (.int w) []])) :=
      .text (.plain (.insert h1 (by simp) .nil))
    have := ReadsStep.cond (e := e) (s := s) (K := K) (ρ := Scopes.lookup (b :: s.env)) (rx 2) htx (reads_of_data (.int 0))
    simp only [ht, if_true, Option.map_some] at this
    exact this
  have hs : ∃ t, textValue e s (.str []) [.plain { txt := ['a'] } .none false, .trim (.int w) []] = t ∧ single t = [t] := by
    unfold textValue; split <;> exact ⟨_, rfl, rfl⟩
  obtain ⟨t, ht, hst⟩ := hs
  rw [ht] at h3 ⊢
  have := ReadsStep.list (e := e) (s := s) (K := K) (ρ := Scopes.lookup (b :: s.env)) (.item (rx 3) (.item (.up h2) (.item h3 .nil)))
  simp only [hst, Option.map_some, Option.bind_some] at this
  exact this

/-- One argument and a default. -/
example (e : EEnv) (s : ESt) :
    let r := some (.list [.int 1, .int 2, textValue e s (.str []) [.plain { txt := ['a'] } .none false, .trim (.int 2) []]])
    Gives e (.apply fn [.int 1] [] none) s r ∧ Gives e body (push s [(['x'], .int 1), (['y'], .int 2)]) r :=
  C29_beta_partial e s (fun _ => True) 4 _ body _ _ [.int 1] [.int 1] [] [] _ none _ (params e s) (by simp) (by decide)
    (evalList_values (by simp; exact .int 1) (by simp) s) (by simp; exact .int 1) (by simp) .nil (by simp) (by simp) rfl
    (reads e s _ trivial trivial 1 2 (by decide) rfl rfl)

/-- Named arguments, the last parameter first. -/
example (e : EEnv) (s : ESt) :
    let r := some (.list [.int 1, .int 3, textValue e s (.str []) [.plain { txt := ['a'] } .none false, .trim (.int 3) []]])
    Gives e (.apply fn [] [(y, .int 3), (x, .int 1)] none) s r ∧ Gives e body (push s [(['x'], .int 1), (['y'], .int 3)]) r :=
  C29_beta_partial e s (fun _ => True) 4 _ body _ _ [] [] [(y, .int 3), (x, .int 1)] [(['y'], .int 3), (['x'], .int 1)] _ none _ (params e s)
    (by simp) (by decide) (.nil s) (by simp) (by simp)
    (.cons (evaluates_iff.2 (ev_value e (.int 3) s)) (.int 3) (.cons (evaluates_iff.2 (ev_value e (.int 1) s)) (.int 1) .nil))
    (by decide) (by simp) rfl (reads e s _ trivial trivial 1 3 (by decide) rfl rfl)

/-- `\\x \\...($1 __va_args__)` applied to three arguments gives the third one. -/
example (e : EEnv) (s : ESt) :
    let body := .apply (.int 1) [.var false [] { txt := vaArgs }] [] none
    let fn := Node.lambda [([], x, none), ([], { txt := ['.', '.', '.'] }, none)] body
    Gives e (.apply fn [.int 7, .int 8, .int 9] [] none) s (some (.int 9)) := by
  refine (C29_beta_partial e s (fun _ => True) 4 _ _ [['x'], vaArgs] [] [.int 7, .int 8, .int 9] [.int 7, .int 8, .int 9] [] []
    [(['x'], .int 7), (vaArgs, .list [.int 8, .int 9])] none _ (.cons (by decide) (.dots rfl .nil)) (by simp) (by decide)
    (evalList_values (by simp; exact ⟨.int 7, .int 8, .int 9⟩) (by simp) s) (by simp; exact ⟨.int 7, .int 8, .int 9⟩) (by simp)
    .nil (by simp) (by simp) rfl ?_).1
  have hl : Scopes.lookup ([(['x'], .int 7), (vaArgs, .list [.int 8, .int 9])] :: s.env) vaArgs = some (.list [.int 8, .int 9]) := by
    have : ¬ ['x'] = vaArgs := by decide
    simp [Scopes.lookup, Frame.get, this]
  have hd : Data (.list [.int 8, .int 9]) := .list _ (by simp; exact ⟨.int 8, .int 9⟩) (by simp)
  have hi : ReadsItems (Reads e s (fun _ => True) (Scopes.lookup ([(['x'], .int 7), (vaArgs, .list [.int 8, .int 9])] :: s.env)) 0)
      [.var false [] { txt := vaArgs }] (some [.list [.int 8, .int 9]]) :=
    ReadsItems.item (r := some (.list [.int 8, .int 9])) (rs := some []) (ReadsLeaf.name trivial hl hd) .nil
  exact .up (.up (.up (.subscript (.inl (.int 1)) (.data (.int 1)) (.int 1) hi)))

end BetaExample

theorem lookup_perm {α : Type} {f g : List (Str × α)} (h : f.Perm g) (hn : (f.map (·.1)).Nodup) (k : Str) : f.lookup k = g.lookup k := by
  induction h with
  | nil => rfl
  | cons x _ ih =>
    obtain ⟨p, v⟩ := x
    simp only [List.map_cons, List.nodup_cons] at hn
    rw [List.lookup_cons, List.lookup_cons, ih hn.2]
  | swap x y l =>
    obtain ⟨p, v⟩ := x
    obtain ⟨q, w⟩ := y
    simp only [List.map_cons, List.nodup_cons, List.mem_cons, not_or] at hn
    simp only [List.lookup_cons]
    by_cases h1 : k = p
    · subst h1
      have h2 : (k == q) = false := by simp only [beq_eq_false_iff_ne]; rintro rfl; exact hn.1.1 rfl
      simp [h2]
    · have h1' : (k == p) = false := by simpa using h1
      simp [h1']
  | trans h1 _ ih1 ih2 => rw [ih1 hn, ih2 ((h1.map _).nodup_iff.1 hn)]

theorem parameters_congr {named named' dflt : List (Str × Node)} (h : ∀ k, named.lookup k = named'.lookup k) :
    ∀ (ps : List Str) (vs : List Node), parameters named dflt ps vs = parameters named' dflt ps vs := by
  intro ps
  induction ps with
  | nil => intro vs; cases vs <;> rfl
  | cons p ps ih =>
    intro vs
    unfold parameters
    rw [h p]
    simp only [ih]

/-- Named arguments may be given in any order. -/
theorem C29_named_in_any_order_partial (e : EEnv) (s : ESt) (K : Str → Prop) (n : Nat) (fn body : Node) (ps : List Str)
    (dflt : List (Str × Node)) (args vs : List Node) (named named' : List (Src × Node)) (nvs nvs' b : List (Str × Node))
    (loc loc' : Option Loc) (r : Option Node)
    (hf : Evaluates e fn s (.lclosure body (ps.map (fun p => (p, Node.bound))) [] dflt) s) (hd : ∀ p ∈ dflt, Data p.2)
    (hps : ps ≠ []) (hnd : ps.Nodup)
    (ha : Args e args s vs s) (hv : ∀ v ∈ vs, Data v) (hvn : ∀ v ∈ vs, v ≠ .none)
    (ht : Tagged e s named nvs) (ht' : Tagged e s named' nvs') (hperm : nvs.Perm nvs')
    (htn : (nvs.map (·.1)).Nodup) (htp : ∀ p ∈ nvs, p.1 ∈ ps)
    (hb : parameters nvs dflt ps vs = some b)
    (hr : Reads e s K (Scopes.lookup (b :: s.env)) n body r) :
    Gives e (.apply fn args named loc) s r ∧ Gives e (.apply fn args named' loc') s r := by
  refine ⟨(C29_application_partial e s K n fn body ps dflt args vs named nvs b loc r hf hd hps hnd ha hv hvn ht htn htp hb hr).1,
    (C29_application_partial e s K n fn body ps dflt args vs named' nvs' b loc' r hf hd hps hnd ha hv hvn ht'
      ((hperm.map _).nodup_iff.1 htn) (fun p hp => htp p (hperm.mem_iff.2 hp)) ?_ hr).1⟩
  rw [← parameters_congr (lookup_perm hperm htn)]
  exact hb

theorem parameters_append {ps qs : List Str} {b : List (Str × Node)} : ∀ {vs ws : List Node}, vs.length = ps.length →
    vaArgs ∉ ps → parameters [] [] qs ws = some b → parameters [] [] (ps ++ qs) (vs ++ ws) = some (ps.zip vs ++ b) := by
  induction ps with
  | nil => intro vs ws h _ hb; cases vs with
    | nil => exact hb
    | cons => simp at h
  | cons p ps ih =>
    intro vs ws h hva hb
    cases vs with
    | nil => simp at h
    | cons v vs =>
      simp only [List.mem_cons, not_or] at hva
      have hp : ¬ p = lit "__va_args__" := fun h => hva.1 h.symm
      simp only [List.cons_append, parameters, List.lookup_nil, if_neg hp, ih (by simpa using h) hva.2 hb]; rfl

theorem gives_of_value {e : EEnv} {x y : Node} {s : ESt} {r : Option Node} (h : Ends e x s r) (h' : Ends e y s r) :
    SameOutcome e x s y s := by
  apply sameOutcome_of
  rcases h with ⟨h, rfl⟩ | ⟨v, h, rfl⟩ <;> rcases h' with ⟨h', hr⟩ | ⟨w, h', hr⟩
  · rw [h, h']
  · cases hr
  · cases hr
  · cases hr; rw [h, h']

/-- Positional arguments may be given in several steps. The last step may fill `...`. -/
theorem C29_in_steps_partial (e : EEnv) (s : ESt) (K : Str → Prop) (n : Nat) (fn body : Node) (ps qs : List Str)
    (args args' vs ws : List Node) (b : List (Str × Node)) (loc loc' loc'' : Option Loc) (r : Option Node)
    (hf : Evaluates e fn s (.lclosure body ((ps ++ qs).map (fun p => (p, Node.bound))) [] []) s)
    (hqs : qs ≠ []) (hnd : (ps ++ qs).Nodup) (hva : vaArgs ∉ ps)
    (ha : Args e args s vs s) (hv : ∀ v ∈ vs, Data v) (hvn : ∀ v ∈ vs, v ≠ .none) (hl : vs.length = ps.length)
    (ha' : Args e args' s ws s) (hw : ∀ v ∈ ws, Data v) (hwn : ∀ v ∈ ws, v ≠ .none) (hb : parameters [] [] qs ws = some b)
    (haa : Args e (args ++ args') s (vs ++ ws) s)
    (hr : Reads e s K (Scopes.lookup ((ps.zip vs ++ b) :: s.env)) n body r) :
    Gives e (.apply (.apply fn args [] loc) args' [] loc') s r ∧ Gives e (.apply fn (args ++ args') [] loc'') s r := by
  constructor
  · have hb' : ∀ k, (Frame.get b k).isSome = true ↔ k ∈ qs := parameters_get hb
    have hf' : ev e fn s = .ok (.lclosure body (pendingFrame (ps ++ qs) []) [] [], s) := by
      rw [evaluates_iff.1 hf]; simp [pendingFrame]
    apply ends_gives
    rcases rounds_few (loc := loc) (g := ps.zip vs ++ b) hqs ps [] args vs b fn body hl hnd
      hva (by simp) hf' ha hv hvn hb' (by intro k; rfl) hr with ⟨he, hr'⟩ | ⟨z, he, hz⟩
    · left
      refine ⟨?_, hr'⟩
      rw [ev_apply_eq, em_bind_err he]
    · rw [List.nodup_append] at hnd
      refine rounds (g := ps.zip vs ++ b) (dflt := []) (by simp) qs.length qs _ [] [] args' ws b _ z (Nat.le_refl _) hqs
        hnd.2.1 ?_ ?_ he ha' hw hwn .nil (by simp) (by simp) hb ?_ hz
      · intro q hq hin
        have := (List.of_mem_zip (show (q.1, q.2) ∈ ps.zip vs by simpa using hq)).1
        exact hnd.2.2 _ this _ hin rfl
      · intro q hq
        exact hv q.2 (List.of_mem_zip (show (q.1, q.2) ∈ ps.zip vs by simpa using hq)).2
      · intro k; rfl
  · refine (C29_application_partial e s K n fn body (ps ++ qs) [] (args ++ args') (vs ++ ws) [] [] _ loc'' r hf (by simp) (by simp [hqs])
      hnd haa ?_ ?_ .nil (by simp) (by simp) (parameters_append hl hva hb) hr).1
    · intro v h; rcases List.mem_append.1 h with h | h
      · exact hv v h
      · exact hw v h
    · intro v h; rcases List.mem_append.1 h with h | h
      · exact hvn v h
      · exact hwn v h

/-- With too few arguments a function is left, whose parameters are the missing ones. This includes `...`, which wants
    one argument at least. -/
theorem C29_too_few_partial (e : EEnv) (s : ESt) (K : Str → Prop) (n : Nat) (fn body : Node) (ps qs : List Str)
    (args vs ws : List Node) (b : List (Str × Node)) (loc : Option Loc) (v : Node)
    (hf : Evaluates e fn s (.lclosure body ((ps ++ qs).map (fun p => (p, Node.bound))) [] []) s)
    (hqs : qs ≠ []) (hnd : (ps ++ qs).Nodup) (hva : vaArgs ∉ ps)
    (ha : Args e args s vs s) (hv : ∀ v ∈ vs, Data v) (hvn : ∀ v ∈ vs, v ≠ .none) (hl : vs.length = ps.length)
    (hb : parameters [] [] qs ws = some b)
    (hr : Reads e s K (Scopes.lookup ((ps.zip vs ++ b) :: s.env)) n body (some v)) :
    ∃ z, Evaluates e (.apply fn args [] loc) s (.lclosure z (qs.map (fun p => (p, Node.bound)) ++ ps.zip vs) [] []) s := by
  have hb' : ∀ k, (Frame.get b k).isSome = true ↔ k ∈ qs := parameters_get hb
  have hf' : ev e fn s = .ok (.lclosure body (pendingFrame (ps ++ qs) []) [] [], s) := by
    rw [evaluates_iff.1 hf]; simp [pendingFrame]
  rcases rounds_few (loc := loc) (g := ps.zip vs ++ b) hqs ps [] args vs b fn body hl hnd
    hva (by simp) hf' ha hv hvn hb' (by intro k; rfl) hr with ⟨_, hr'⟩ | ⟨z, he, _⟩
  · cases hr'
  · exact ⟨z, evaluates_iff.2 (by rw [he]; simp [pendingFrame])⟩

/-- A named argument that is no parameter is an error. -/
theorem C29_unknown_name (e : EEnv) (s : ESt) (fn body : Node) (f : Frame) (late) (dflt : Frame) (args vs : List Node)
    (a : Src) (x : Node) (named : List (Src × Node)) (loc : Option Loc) (s1 s2 : ESt)
    (hf : Evaluates e fn s (.lclosure body f late dflt) s1) (ha : Args e args s1 vs s2) (h : a.txt ∉ f.map (·.1)) :
    Raises e (.apply fn args ((a, x) :: named) loc) s := by
  rw [raises_iff, ev_apply hf ha]
  change applyClosure (ev e) (.lclosure body f late dflt) f late dflt vs ((a, x) :: named) loc s2 = _
  unfold applyClosure
  have : Frame.has f a.txt = false := by
    unfold Frame.has
    rw [get_none_of]
    · rfl
    · exact fun q hq hqa => h (hqa ▸ List.mem_map_of_mem hq)
  simp [this, em_err]

/-! ## Where the rule fails -/

/-- `$isatom` of a parameter: the body is evaluated before the parameter has its value, and a name without a value
    counts as an atom. -/
theorem C29_fails_for_isatom (e : EEnv) :
    let e := { e with builtin := fun _ _ => none }
    let body : Node := .apply (.var false [] { txt := lit "isatom" }) [.var false [] { txt := lit "x" }] [] none
    Evaluates e (.apply (.lambda [([], { txt := lit "x" }, none)] body) [.int 5] [] none) {} (.int 1) {} ∧
    Evaluates e body (push {} [(lit "x", .int 5)]) (.int 0) (push {} [(lit "x", .int 5)]) :=
  ⟨⟨6, rfl⟩, ⟨4, rfl⟩⟩

/-- Both legs of a conditional are evaluated while its condition is not known: here the leg that is not chosen fails. -/
theorem C29_fails_for_a_failing_leg (e : EEnv) :
    let body : Node := .cond (.var false [] { txt := lit "x" }) (.int 7) (.apply (.atom { txt := lit "a" }) [.int 1] [] none)
    Raises e (.apply (.lambda [([], { txt := lit "y" }, none), ([], { txt := lit "x" }, none)] body) [.int 2, .int 1] [] none) {} ∧
    Evaluates e body (push {} [(lit "y", .int 2), (lit "x", .int 1)]) (.int 7) (push {} [(lit "y", .int 2), (lit "x", .int 1)]) :=
  ⟨⟨8, rfl⟩, ⟨4, rfl⟩⟩

/-- Effects of an argument come after the names in the body were looked up: the body reads `v` as it was before. -/
theorem C29_fails_for_effects (e : EEnv) :
    let s : ESt := { env := [[(lit "v", .list [.int 1, .int 2])]] }
    let s' : ESt := { env := [[(lit "v", .list [.int 2])]] }
    let v : Src := { txt := lit "v" }
    let body : Node := .list [.var false [] { txt := lit "x" }, .var false [] v]
    Evaluates e (.apply (.lambda [([], { txt := lit "x" }, none)] body) [.emit false [] v .none] [] none) s
      (.list [.int 1, .list [.int 1, .int 2]]) s' ∧
    Evaluates e (.emit false [] v .none) s (.int 1) s' ∧
    Evaluates e body (push s' [(lit "x", .int 1)]) (.list [.int 1, .list [.int 2]]) (push s' [(lit "x", .int 1)]) :=
  ⟨⟨6, rfl⟩, ⟨4, rfl⟩, ⟨4, rfl⟩⟩

namespace BetaExample

/-- Stored, named in any order and in steps: the closure of `\\x y.body`. -/
def closure : Node := .lclosure body [(['x'], .bound), (['y'], .bound)] [] []

theorem closure_value (e : EEnv) (s : ESt) (h : s.env = [[(['f'], closure)]]) : Evaluates e (.var false [] { txt := ['f'] }) s closure s := by
  refine ⟨1, ?_⟩
  change evalVar e false [] { txt := ['f'] } s = _
  unfold evalVar
  rw [h]
  rfl

example (e : EEnv) (s : ESt) (h : s.env = [[(['f'], closure)]]) :
    let r := some (.list [.int 1, .int 3, textValue e s (.str []) [.plain { txt := ['a'] } .none false, .trim (.int 3) []]])
    Gives e (.apply (.var false [] { txt := ['f'] }) [] [(y, .int 3), (x, .int 1)] none) s r ∧
    Gives e (.apply (.var false [] { txt := ['f'] }) [] [(x, .int 1), (y, .int 3)] none) s r :=
  C29_named_in_any_order_partial e s (fun _ => True) 4 _ body [['x'], ['y']] [] [] [] _ _ [(['y'], .int 3), (['x'], .int 1)]
    [(['x'], .int 1), (['y'], .int 3)] _ none none _ (closure_value e s h) (by simp) (by simp) (by decide) (.nil s) (by simp) (by simp)
    (.cons (evaluates_iff.2 (ev_value e (.int 3) s)) (.int 3) (.cons (evaluates_iff.2 (ev_value e (.int 1) s)) (.int 1) .nil))
    (.cons (evaluates_iff.2 (ev_value e (.int 1) s)) (.int 1) (.cons (evaluates_iff.2 (ev_value e (.int 3) s)) (.int 3) .nil))
    (.swap _ _ _) (by decide) (by simp) rfl (reads e s _ trivial trivial 1 3 (by decide) rfl rfl)

example (e : EEnv) (s : ESt) (h : s.env = [[(['f'], closure)]]) :
    let r := some (.list [.int 1, .int 3, textValue e s (.str []) [.plain { txt := ['a'] } .none false, .trim (.int 3) []]])
    Gives e (.apply (.apply (.var false [] { txt := ['f'] }) [.int 1] [] none) [.int 3] [] none) s r ∧
    Gives e (.apply (.var false [] { txt := ['f'] }) [.int 1, .int 3] [] none) s r :=
  C29_in_steps_partial e s (fun _ => True) 4 _ body [['x']] [['y']] [.int 1] [.int 3] [.int 1] [.int 3] [(['y'], .int 3)] none none none _ (closure_value e s h)
    (by simp) (by decide) (by decide) (evalList_values (by simp; exact .int 1) (by simp) s) (by simp; exact .int 1) (by simp) rfl
    (evalList_values (by simp; exact .int 3) (by simp) s) (by simp; exact .int 3) (by simp) rfl
    (evalList_values (by simp; exact ⟨.int 1, .int 3⟩) (by simp) s) (reads e s _ trivial trivial 1 3 (by decide) rfl rfl)

example (e : EEnv) (s : ESt) (h : s.env = [[(['f'], closure)]]) :
    Raises e (.apply (.var false [] { txt := ['f'] }) [] [({ txt := ['z'] }, .int 1)] none) s :=
  C29_unknown_name e s _ body _ _ _ [] [] _ _ [] none s s (closure_value e s h) (.nil s) (by decide)

example (e : EEnv) (s : ESt) (h : s.env = [[(['f'], closure)]]) :
    ∃ z, Evaluates e (.apply (.var false [] { txt := ['f'] }) [.int 1] [] none) s (.lclosure z [(['y'], .bound), (['x'], .int 1)] [] []) s :=
  C29_too_few_partial e s (fun _ => True) 4 _ body [['x']] [['y']] [.int 1] [.int 1] [.int 3] [(['y'], .int 3)] none _ (closure_value e s h)
    (by simp) (by decide) (by decide) (evalList_values (by simp; exact .int 1) (by simp) s) (by simp; exact .int 1) (by simp) rfl
    rfl (reads e s _ trivial trivial 1 3 (by decide) rfl rfl)

/-- A function defined in the outermost scope by `($set f \\x y=2.body)` and applied where `v` is defined too. -/
example (e : EEnv) (s : ESt) (c : Node) (h : s.env = [[(['v'], .int 9)], [(['f'], c)]])
    (hc : Evaluates e fn { s with env := [[(['f'], .bound)]] } c { s with env := [[(['f'], .bound)]] }) (hc' : c ≠ .bound) :
    let r := some (.list [.int 1, .int 2, textValue e s (.str []) [.plain { txt := ['a'] } .none false, .trim (.int 2) []]])
    Gives e (.apply (.var false [] { txt := ['f'] }) [.int 1] [] none) s r := by
  have hb : c.isBound = false := by cases c <;> first | rfl | exact absurd rfl hc'
  have hf : Evaluates e (.var false [] { txt := ['f'] }) s c s := by
    refine ⟨1, ?_⟩
    change evalVar e false [] { txt := ['f'] } s = _
    unfold evalVar
    rw [h]
    simp [Scopes.lookup, Frame.get, hb]
  refine (C29_stored_function_partial e s [[(['f'], .bound)]] (fun k => k = ['x'] ∨ k = ['y']) 4 _ _ body c _ _ [.int 1] [.int 1] [] []
    [(['x'], .int 1), (['y'], .int 2)] none _
    (params e _) (by simp) (by decide) hc ?_ hf
    (evalList_values (by simp; exact .int 1) (by simp) s) (by simp; exact .int 1) (by simp) .nil (by simp) (by simp) rfl ?_).1
  · intro k hk hn
    rcases hk with rfl | rfl <;> exact absurd hn (by simp)
  · exact reads e s _ (.inl rfl) (.inr rfl) 1 2 (by decide) rfl rfl

end BetaExample

end Yupp
