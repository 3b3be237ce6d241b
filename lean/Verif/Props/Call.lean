import Verif.Spec.Call
import Verif.Lemmas.Builtin
import Verif.Props.Builtin
import Verif.Props.Feature
/-!
# C68 — Calls of built-in functions: on known arguments, on arguments not known yet, on functions
# C69 — `$reduce` and `$repr`
-/

namespace Yupp

open Spec

variable {e : EEnv} {l loc : Option Loc} {f : Str} {args vs : List Node} {s s1 : ESt}

mutual
theorem known_iff : ∀ v : Node, isTerm v = true ↔ Known v
  | .none => ⟨fun _ => .none, fun _ => rfl⟩
  | .trim a i => by
    rw [show isTerm (.trim a i) = isTerm a from rfl, known_iff a]
    exact ⟨.trim a i, fun h => by cases h; assumption⟩
  | .list xs => by
    rw [show isTerm (.list xs) = areTerms xs from rfl, knowns_iff xs]
    exact ⟨.list xs, fun h => by cases h; assumption⟩
  | .t xs i => by
    rw [show isTerm (.t xs i) = areTerms xs from rfl, knowns_iff xs]
    exact ⟨.t xs i, fun h => by cases h; assumption⟩
  | .lazy a => ⟨fun _ => .lazy a, fun _ => rfl⟩
  | .atom s => ⟨fun _ => .atom s, fun _ => rfl⟩
  | .remark s => ⟨fun _ => .remark s, fun _ => rfl⟩
  | .str s => ⟨fun _ => .str s, fun _ => rfl⟩
  | .plain s i t => ⟨fun _ => .plain s i t, fun _ => rfl⟩
  | .pstr s => ⟨fun _ => .pstr s, fun _ => rfl⟩
  | .result r => ⟨fun _ => .result r, fun _ => rfl⟩
  | .int n => ⟨fun _ => .int n, fun _ => rfl⟩
  | .bool b => ⟨fun _ => .bool b, fun _ => rfl⟩
  | .float x => ⟨fun _ => .float x, fun _ => rfl⟩
  | .text .. => ⟨nofun, nofun⟩
  | .var .. => ⟨nofun, nofun⟩
  | .apply .. => ⟨nofun, nofun⟩
  | .set .. => ⟨nofun, nofun⟩
  | .letn .. => ⟨nofun, nofun⟩
  | .«macro» .. => ⟨nofun, nofun⟩
  | .emit .. => ⟨nofun, nofun⟩
  | .lambda .. => ⟨nofun, nofun⟩
  | .lambdaVar .. => ⟨nofun, nofun⟩
  | .cond .. => ⟨nofun, nofun⟩
  | .«infix» .. => ⟨nofun, nofun⟩
  | .eval .. => ⟨nofun, nofun⟩
  | .embed .. => ⟨nofun, nofun⟩
  | .comment => ⟨nofun, nofun⟩
  | .importBegin => ⟨nofun, nofun⟩
  | .importEnd => ⟨nofun, nofun⟩
  | .bound => ⟨nofun, nofun⟩
  | .lclosure .. => ⟨nofun, nofun⟩
  | .mclosure .. => ⟨nofun, nofun⟩
  | .infixClosure .. => ⟨nofun, nofun⟩
  | .condClosure .. => ⟨nofun, nofun⟩
  | .setClosure .. => ⟨nofun, nofun⟩
  | .builtin .. => ⟨nofun, nofun⟩
  | .skip => ⟨nofun, nofun⟩
  | .env .. => ⟨nofun, nofun⟩
  | .pyobj .. => ⟨nofun, nofun⟩
theorem knowns_iff : ∀ vs : List Node, areTerms vs = true ↔ ∀ v ∈ vs, Known v
  | [] => by simp [areTerms]
  | v :: vs => by
    unfold areTerms
    rw [Bool.and_eq_true, known_iff v, knowns_iff vs, List.forall_mem_cons]
end

mutual
theorem holds_iff : ∀ v : Node, detectDeadlock v = true ↔ HoldsFunction v
  | .builtin a b => ⟨fun _ => .fn a b, fun _ => rfl⟩
  | .trim a i => by
    rw [show detectDeadlock (.trim a i) = detectDeadlock a from rfl, holds_iff a]
    exact ⟨.trim a i, fun h => by cases h; assumption⟩
  | .list xs => by
    rw [show detectDeadlock (.list xs) = detectDeadlocks xs from rfl, hold_iff xs]
    exact ⟨fun ⟨x, h, h'⟩ => .list xs x h h', fun h => by cases h with | list _ x h h' => exact ⟨x, h, h'⟩⟩
  | .t xs i => by
    rw [show detectDeadlock (.t xs i) = detectDeadlocks xs from rfl, hold_iff xs]
    exact ⟨fun ⟨x, h, h'⟩ => .t xs i x h h', fun h => by cases h with | t _ _ x h h' => exact ⟨x, h, h'⟩⟩
  | .text .. => ⟨nofun, nofun⟩
  | .var .. => ⟨nofun, nofun⟩
  | .apply .. => ⟨nofun, nofun⟩
  | .set .. => ⟨nofun, nofun⟩
  | .letn .. => ⟨nofun, nofun⟩
  | .«macro» .. => ⟨nofun, nofun⟩
  | .emit .. => ⟨nofun, nofun⟩
  | .lambda .. => ⟨nofun, nofun⟩
  | .lambdaVar .. => ⟨nofun, nofun⟩
  | .cond .. => ⟨nofun, nofun⟩
  | .«infix» .. => ⟨nofun, nofun⟩
  | .eval .. => ⟨nofun, nofun⟩
  | .embed .. => ⟨nofun, nofun⟩
  | .comment => ⟨nofun, nofun⟩
  | .importBegin => ⟨nofun, nofun⟩
  | .importEnd => ⟨nofun, nofun⟩
  | .bound => ⟨nofun, nofun⟩
  | .lclosure .. => ⟨nofun, nofun⟩
  | .mclosure .. => ⟨nofun, nofun⟩
  | .infixClosure .. => ⟨nofun, nofun⟩
  | .condClosure .. => ⟨nofun, nofun⟩
  | .setClosure .. => ⟨nofun, nofun⟩
  | .skip => ⟨nofun, nofun⟩
  | .env .. => ⟨nofun, nofun⟩
  | .pyobj .. => ⟨nofun, nofun⟩
  | .none => ⟨nofun, nofun⟩
  | .atom .. => ⟨nofun, nofun⟩
  | .remark .. => ⟨nofun, nofun⟩
  | .str .. => ⟨nofun, nofun⟩
  | .plain .. => ⟨nofun, nofun⟩
  | .pstr .. => ⟨nofun, nofun⟩
  | .result .. => ⟨nofun, nofun⟩
  | .int .. => ⟨nofun, nofun⟩
  | .bool .. => ⟨nofun, nofun⟩
  | .float .. => ⟨nofun, nofun⟩
  | .lazy .. => ⟨nofun, nofun⟩
theorem hold_iff : ∀ vs : List Node, detectDeadlocks vs = true ↔ ∃ v ∈ vs, HoldsFunction v
  | [] => by simp [detectDeadlocks]
  | v :: vs => by
    unfold detectDeadlocks
    rw [Bool.or_eq_true, holds_iff v, hold_iff vs]
    simp
end

theorem returned_callResult (v : Node) : Returned v (callResult v) := by
  cases v with
  | bool b => cases b <;> constructor
  | atom a => exact .atom
  | remark a => exact .text (.remark a)
  | str a => exact .text (.str a)
  | plain a i t => exact .text (.plain a i t)
  | pstr a => exact .text (.pstr a)
  | result r => exact .text (.result r)
  | _ => exact .other (by intro b; nofun) (by intro t h; cases h) (by intro a; nofun)

theorem returned_det {v a b : Node} (h : Returned v a) (h' : Returned v b) : a = b := by
  have : ∀ {c}, Returned v c → c = callResult v := by
    intro c hc
    cases hc with
    | yes => rfl
    | no => rfl
    | text ht => cases ht <;> rfl
    | atom => rfl
    | other h1 h2 h3 =>
      cases v <;> first | rfl | exact absurd rfl (h1 _) | exact absurd rfl (h3 _) | exact absurd (by constructor) (h2 _)
  rw [this h, this h']

/-- A call of a name from the table. -/
theorem ev_table {v : BVal} (hf : InTable e s f v) (ha : Args e args s vs s1) (named : List (Src × Node)) :
    ev e (.apply (.var false [] ⟨f, l⟩) args named loc) s = applyBuiltin e ⟨f, l⟩ false vs named loc s1 := by
  have h1 : Evaluates e (.var false [] ⟨f, l⟩) s (.builtin ⟨f, l⟩ false) s := by
    rw [evaluates_iff, ev_at]
    change evalVar e false [] ⟨f, l⟩ s = _
    unfold evalVar
    simp only []
    rw [show Scopes.lookup s.env f = none from hf.scope, hf.table]
    rfl
  rw [ev_apply h1 ha]
  rfl

theorem ev_table_fn {v : BVal} (hf : InTable e s f v) (ha : Args e args s vs s1) (h1 : e.builtin s1.p.scripts f = some .fn) :
    ev e (fnCall f l loc args) s = applyFunction e ⟨f, l⟩ false vs loc s1 := by
  unfold fnCall
  rw [ev_table hf ha]
  unfold applyBuiltin
  simp only [List.isEmpty_nil, Bool.not_true, Bool.false_eq_true, if_false]
  rw [em_bind_ok (show EM.get s1 = .ok (s1, s1) from rfl), h1]

/-- **C68**. All arguments are known: the call gives what the Python function returns, a truth value as a number, a text as a
    plain one; nothing but the memory of `unique` changes. -/
theorem C68_known (hf : InTable e s f .fn) (ha : Args e args s vs s1) (h1 : e.builtin s1.p.scripts f = some .fn)
    (hk : ∀ v ∈ vs, Known v) {v w : Node} {seen : List Node} (hc : e.call s1.py f vs s1.seen = some (v, seen))
    (hr : Returned v w) : Evaluates e (fnCall f l loc args) s w (remember s1 seen) := by
  rw [evaluates_iff, ev_table_fn hf ha h1]
  unfold applyFunction
  rw [if_pos ((knowns_iff vs).2 hk), hc, returned_det hr (returned_callResult v)]
  rfl

/-- **C68**. The Python function raises: so does the call. -/
theorem C68_raises (hf : InTable e s f .fn) (ha : Args e args s vs s1) (h1 : e.builtin s1.p.scripts f = some .fn)
    (hk : ∀ v ∈ vs, Known v) (hc : e.call s1.py f vs s1.seen = none) : Raises e (fnCall f l loc args) s := by
  rw [raises_iff, ev_table_fn hf ha h1]
  unfold applyFunction
  rw [if_pos ((knowns_iff vs).2 hk), hc]

/-- **C68**. Some argument is not known yet: the call stays, with its arguments evaluated. -/
theorem C68_waits (hf : InTable e s f .fn) (ha : Args e args s vs s1) (h1 : e.builtin s1.p.scripts f = some .fn)
    (hk : ∃ v ∈ vs, ¬ Known v) (hn : ∀ v ∈ vs, ¬ HoldsFunction v) :
    Evaluates e (fnCall f l loc args) s (.apply (.builtin ⟨f, l⟩ false) vs [] loc) s1 := by
  rw [evaluates_iff, ev_table_fn hf ha h1]
  unfold applyFunction
  rw [if_neg, if_neg]
  · rw [hold_iff]; exact fun ⟨v, hv, h⟩ => hn v hv h
  · rw [knowns_iff]; obtain ⟨v, hv, h⟩ := hk; exact fun hk => h (hk v hv)

/-- **C68**. An argument is a built-in function, or a list that holds one: the call fails. -/
theorem C68_function_fails (hf : InTable e s f .fn) (ha : Args e args s vs s1) (h1 : e.builtin s1.p.scripts f = some .fn)
    {v : Node} (hv : v ∈ vs) (hh : HoldsFunction v) : Raises e (fnCall f l loc args) s := by
  rw [raises_iff, ev_table_fn hf ha h1]
  have nk : ∀ {v : Node}, HoldsFunction v → ¬ Known v := by
    intro v h
    induction h with
    | fn => nofun
    | trim a i _ ih => intro h; cases h with | trim _ _ h => exact ih h
    | list xs x hx _ ih => intro h; cases h with | list _ h => exact ih (h x hx)
    | t xs i x hx _ ih => intro h; cases h with | t _ _ h => exact ih (h x hx)
  unfold applyFunction
  rw [if_neg, if_pos]
  · rw [hold_iff]; exact ⟨v, hv, hh⟩
  · rw [knowns_iff]; exact fun hk => nk hh (hk v hv)

/-- **C68**. A name of the table that is no function: called without arguments it gives its value (a text as a plain one), with
    arguments the call fails. -/
theorem C68_constant {c : Node} (hf : InTable e s f (.const c)) (ha : Args e args s [] s1)
    (h1 : e.builtin s1.p.scripts f = some (.const c)) {w : Node} (hr : Returned c w) (hb : ∀ b, c ≠ .bool b) :
    Evaluates e (fnCall f l loc args) s w s1 := by
  unfold fnCall
  rw [evaluates_iff, ev_table hf ha]
  unfold applyBuiltin
  simp only [List.isEmpty_nil, Bool.not_true, Bool.false_eq_true, if_false]
  rw [em_bind_ok (show EM.get s1 = .ok (s1, s1) from rfl), h1]
  rw [returned_det hr (returned_callResult c)]
  show applyConst c [] s1 = _
  cases c <;> first | rfl | exact absurd rfl (hb _)

theorem C68_constant_no_arguments {c : Node} (hf : InTable e s f (.const c)) (ha : Args e args s vs s1)
    (h1 : e.builtin s1.p.scripts f = some (.const c)) (hv : vs ≠ []) : Raises e (fnCall f l loc args) s := by
  unfold fnCall
  rw [raises_iff, ev_table hf ha]
  unfold applyBuiltin
  simp only [List.isEmpty_nil, Bool.not_true, Bool.false_eq_true, if_false]
  rw [em_bind_ok (show EM.get s1 = .ok (s1, s1) from rfl), h1]
  cases vs with
  | nil => exact absurd rfl hv
  | cons => rfl

/-- **C68**. Named arguments: the call fails. -/
theorem C68_named_fails {v : BVal} (hf : InTable e s f v) (ha : Args e args s vs s1) {named : List (Src × Node)} (hn : named ≠ []) :
    Raises e (.apply (.var false [] ⟨f, l⟩) args named loc) s := by
  rw [raises_iff, ev_table hf ha]
  cases named with
  | nil => exact absurd rfl hn
  | cons => rfl

/-! ## C69 — `$reduce` -/

variable {x : BExt} {a : Str}

theorem foldCall_iff (f : Str) (acc : Node) (xs : List Node) (v : Node) :
    foldCall (fun args => (builtinCall x f args []).map (·.1)) acc xs = some v ↔ FoldsTo (Calls x f) acc xs v := by
  induction xs generalizing acc with
  | nil => exact ⟨fun h => by cases h; exact .done _, fun h => by cases h; rfl⟩
  | cons y ys ih =>
    unfold foldCall
    constructor
    · intro h
      cases hb : builtinCall x f [acc, y] [] with
      | none => rw [hb] at h; cases h
      | some p =>
        rw [hb] at h
        exact .step ⟨p.2, hb⟩ ((ih p.1).1 h)
    · intro h
      cases h with
      | step h1 h2 =>
        obtain ⟨seen, h1⟩ := h1
        rw [h1]
        exact (ih _).2 h2

theorem ev_reduce (hf : Reserved e s (lit "reduce")) {g : Node} (ha : Args e args s (g :: vs) s1) (hb : vs ≠ [] ∨ g.isBuiltin = true) :
    ev e (fnCall (lit "reduce") l loc args) s = (if areTerms vs then EM.ofOption (e.reduce s1.py g vs)
      else if detectDeadlocks (g :: vs) then EM.err else pure (.apply (.builtin ⟨lit "reduce", l⟩ true) (g :: vs) [] loc)) s1 := by
  unfold fnCall
  rw [ev_special (a := ⟨lit "reduce", l⟩) hf (by show isSpecial (lit "reduce") = true; decide) ha]
  unfold applySpecial
  rw [if_neg (by show ¬ lit "reduce" = lit "lazy"; decide), if_neg (by show ¬ lit "reduce" = lit "repr"; decide), if_pos rfl]
  have : (vs.isEmpty && !g.isBuiltin) = false := by
    rcases hb with h | h
    · cases vs with
      | nil => exact absurd rfl h
      | cons => rfl
    · rw [h]; simp
  simp only [this, Bool.false_eq_true, if_false]
  by_cases ht : areTerms vs = true
  · simp only [ht, if_true]
    rw [em_bind_ok (show EM.get s1 = .ok (s1, s1) from rfl)]
  · simp only [ht, Bool.false_eq_true, if_false]

theorem known_of_mem {xs : List Node} (h : ∀ v ∈ xs, Known v) : areTerms [Node.list xs] = true := by
  rw [knowns_iff]
  intro v hv
  rw [List.mem_singleton] at hv
  subst hv
  exact .list _ h

/-- **C69**. `($reduce f (x y z …))` combines the items from the left: `f(f(f(x, y), z), …)`. The value is the one the Python
    function returns. -/
theorem C69_left (hf : Reserved e s (lit "reduce")) (hr : Reduces e x f) {y v : Node} {ys : List Node}
    (ha : Args e args s [.builtin ⟨f, l⟩ false, .list (y :: ys)] s1) (hk : ∀ v ∈ y :: ys, Known v) :
    Evaluates e (fnCall (lit "reduce") none loc args) s v s1 ↔ FoldsTo (Calls x f) y ys v := by
  rw [evaluates_iff, ev_reduce hf ha (.inl (by simp)), if_pos (known_of_mem hk), hr.reduce, ← foldCall_iff]
  show EM.ofOption (foldCall _ y ys) s1 = _ ↔ _
  cases foldCall (fun args => (builtinCall x f args []).map (·.1)) y ys with
  | none => exact ⟨nofun, nofun⟩
  | some w => exact ⟨fun h => by cases h; rfl, fun h => by cases h; rfl⟩

/-- **C69**. With a third argument: from that value on. -/
theorem C69_left_from (hf : Reserved e s (lit "reduce")) (hr : Reduces e x f) {y v : Node} {ys : List Node}
    (ha : Args e args s [.builtin ⟨f, l⟩ false, .list ys, y] s1) (hk : ∀ v ∈ y :: ys, Known v) :
    Evaluates e (fnCall (lit "reduce") none loc args) s v s1 ↔ FoldsTo (Calls x f) y ys v := by
  have ht : areTerms [Node.list ys, y] = true := by
    rw [knowns_iff]
    intro v hv
    simp only [List.mem_cons, List.not_mem_nil, or_false] at hv
    rcases hv with rfl | rfl
    · exact .list _ fun v h => hk v (by simp [h])
    · exact hk _ (by simp)
  rw [evaluates_iff, ev_reduce hf ha (.inl (by simp)), if_pos ht, hr.reduce, ← foldCall_iff]
  show EM.ofOption (foldCall _ y ys) s1 = _ ↔ _
  cases foldCall (fun args => (builtinCall x f args []).map (·.1)) y ys with
  | none => exact ⟨nofun, nofun⟩
  | some w => exact ⟨fun h => by cases h; rfl, fun h => by cases h; rfl⟩

/-- **C69**. Numbers are added up, however many there are. -/
theorem C69_sum (hf : Reserved e s (lit "reduce")) (hr : Reduces e x (lit "add")) (n : Int) (ns : List Int)
    (ha : Args e args s [.builtin ⟨lit "add", l⟩ false, .list ((n :: ns).map .int)] s1) :
    Evaluates e (fnCall (lit "reduce") none loc args) s (.int (total (n :: ns))) s1 := by
  refine (C69_left (y := .int n) (ys := ns.map .int) hf hr ha ?_).2 ?_
  · intro v hv
    rw [← List.map_cons (f := Node.int), List.mem_map] at hv
    obtain ⟨m, _, rfl⟩ := hv
    exact .int m
  · show FoldsTo _ (.int n) (ns.map .int) (.int (n + total ns))
    clear ha
    induction ns generalizing n with
    | nil => rw [show n + total [] = n from Int.add_zero n]; exact .done _
    | cons m ms ih =>
      refine .step (b := .int (n + m)) ⟨[], ?_⟩ ?_
      · simp [builtinCall, lit, bWhole2, Node.whole?, seqAdd, Node.text?, Node.asList]
      · rw [show n + total (m :: ms) = (n + m) + total ms from (Int.add_assoc n m _).symm]
        exact ih (n + m)

/-- **C69**. An empty list without a third argument: the call fails. -/
theorem C69_empty_fails (hf : Reserved e s (lit "reduce")) (hr : Reduces e x f)
    (ha : Args e args s [.builtin ⟨f, l⟩ false, .list []] s1) : Raises e (fnCall (lit "reduce") none loc args) s := by
  rw [raises_iff, ev_reduce hf ha (.inl (by simp)), if_pos (known_of_mem (by simp)), hr.reduce]
  rfl

/-- **C69**, where it differs from other calls: a truth value stays one, so it is written `True`; `($lt 1 2)` gives 1. -/
theorem C69_truth_values_stay (hf : Reserved e s (lit "reduce")) (hr : Reduces e x (lit "lt")) (hs : Standard e x (lit "lt"))
    (hu : Unbound (lit "lt") s) :
    Evaluates e (fnCall (lit "reduce") none loc [.var false [] ⟨lit "lt", none⟩, .list [.int 1, .int 2]]) s (.bool true) s ∧
    Evaluates e (fnCall (lit "lt") none loc [.int 1, .int 2]) s (.int 1) s := by
  have hv : Evaluates e (.var false [] ⟨lit "lt", none⟩) s (.builtin ⟨lit "lt", none⟩ false) s := by
    rw [evaluates_iff, ev_at]
    change evalVar e false [] ⟨lit "lt", none⟩ s = _
    unfold evalVar
    simp only []
    rw [show Scopes.lookup s.env (lit "lt") = none from hu, hs.table]
    rfl
  constructor
  · refine (C69_left (l := none) hf hr (y := .int 1) (ys := [.int 2]) ?_ ?_).2 ?_
    · exact .one hv (by simp) (by simp) (.one ⟨3, rfl⟩ (by simp) (by simp) (.nil _))
    · intro v h
      simp only [List.mem_cons, List.not_mem_nil, or_false] at h
      rcases h with rfl | rfl <;> constructor
    · exact .step ⟨[], rfl⟩ (.done _)
  · have := ev_call (l := none) (loc := loc) (v := .bool true) (seen := s.seen) hs hu (args := [.int 1, .int 2]) (vs := [.int 1, .int 2]) (s' := s)
      (.one ⟨2, rfl⟩ (by simp) (by simp) (.one ⟨2, rfl⟩ (by simp) (by simp) (.nil _))) rfl rfl
    exact this

/-- **C69**. An argument is not known yet: the call does not wait, it fails. -/
theorem C69_never_waits (hf : Reserved e s (lit "reduce")) {b : Bool}
    (ha : Args e args s (.builtin ⟨f, l⟩ b :: vs) s1) (hk : ∃ v ∈ vs, ¬ Known v) : Raises e (fnCall (lit "reduce") none loc args) s := by
  rw [raises_iff, ev_reduce hf ha (.inr rfl), if_neg, if_pos]
  · rfl
  · rfl
  · rw [knowns_iff]
    obtain ⟨v, hv, h⟩ := hk
    exact fun hk => h (hk v hv)

/-! ## Examples -/

namespace CallExample

/-- Built-in functions and a constant `DEBUG` from the configuration. -/
def tbl (x : BExt) (pe : PEnv) : EEnv :=
  { pe := pe
    builtin := fun _ f => if f = lit "DEBUG" then some (.const (.pstr (lit "on"))) else if f = lit "reduce" then none else some .fn
    call := fun _ f args seen => builtinCall x f args seen
    reduce := fun _ f xs => match f with
      | .builtin a false => pyReduce (fun args => (builtinCall x a.txt args []).map (·.1)) xs
      | _ => none }

/-- `x` is a parameter without a value. -/
def open1 : ESt := { env := [[(lit "x", .bound)]] }

theorem add_table (x : BExt) (pe : PEnv) : InTable (tbl x pe) open1 (lit "add") .fn := ⟨rfl, rfl⟩
theorem const_table (x : BExt) (pe : PEnv) : InTable (tbl x pe) open1 (lit "DEBUG") (.const (.pstr (lit "on"))) := ⟨rfl, rfl⟩
theorem reduce_reserved (x : BExt) (pe : PEnv) : Reserved (tbl x pe) open1 (lit "reduce") := ⟨rfl, rfl⟩
theorem reduce_add (x : BExt) (pe : PEnv) (f : Str) : Reduces (tbl x pe) x f := ⟨fun _ _ _ => rfl⟩

/-- `($add 2 3)` -/
example (x : BExt) (pe : PEnv) : Evaluates (tbl x pe) (fnCall (lit "add") none none [.int 2, .int 3]) open1 (.int 5) (remember open1 []) :=
  C68_known (vs := [.int 2, .int 3]) (s1 := open1) (add_table x pe)
    (.one ⟨2, rfl⟩ (by simp) (by simp) (.one ⟨2, rfl⟩ (by simp) (by simp) (.nil _))) rfl
    (by intro v h; simp only [List.mem_cons, List.not_mem_nil, or_false] at h; rcases h with rfl | rfl <;> constructor)
    (v := .int 5) rfl (.other (by simp) (by intro t h; cases h) (by simp))

/-- `($add 2 x)` waits for `x`. -/
example (x : BExt) (pe : PEnv) : Evaluates (tbl x pe) (fnCall (lit "add") none none [.int 2, .var false [] ⟨lit "x", none⟩]) open1
    (.apply (.builtin ⟨lit "add", none⟩ false) [.int 2, .var false [] ⟨lit "x", none⟩] [] none) open1 :=
  C68_waits (vs := [.int 2, .var false [] ⟨lit "x", none⟩]) (add_table x pe)
    (.one ⟨2, rfl⟩ (by simp) (by simp) (.one ⟨2, rfl⟩ (by simp) (by simp) (.nil _))) rfl
    ⟨.var false [] ⟨lit "x", none⟩, by simp, nofun⟩
    (by intro v h; simp only [List.mem_cons, List.not_mem_nil, or_false] at h; rcases h with rfl | rfl <;> nofun)

/-- `($add 2 (add))` fails. -/
example (x : BExt) (pe : PEnv) : Raises (tbl x pe) (fnCall (lit "add") none none [.int 2, .list [.var false [] ⟨lit "add", none⟩]]) open1 :=
  C68_function_fails (vs := [.int 2, .list [.builtin ⟨lit "add", none⟩ false]]) (s1 := open1) (add_table x pe)
    (.one ⟨2, rfl⟩ (by simp) (by simp) (.one ⟨3, rfl⟩ (by simp) (by simp) (.nil _))) rfl
    (v := .list [.builtin ⟨lit "add", none⟩ false]) (by simp) (.list _ _ (List.mem_singleton.2 rfl) (.fn _ _))

/-- `($DEBUG)` -/
example (x : BExt) (pe : PEnv) : Evaluates (tbl x pe) (fnCall (lit "DEBUG") none none []) open1 (.pstr (lit "on")) open1 :=
  C68_constant (const_table x pe) (.nil _) rfl (.text (.pstr _)) (by simp)

/-- `($reduce add (1 2 3 4))` -/
example (x : BExt) (pe : PEnv) : Evaluates (tbl x pe) (fnCall (lit "reduce") none none
    [.var false [] ⟨lit "add", none⟩, .list [.int 1, .int 2, .int 3, .int 4]]) open1 (.int 10) open1 :=
  C69_sum (l := none) (reduce_reserved x pe) (reduce_add x pe _) 1 [2, 3, 4]
    (.one ⟨2, rfl⟩ (by simp) (by simp) (.one ⟨3, rfl⟩ (by simp) (by simp) (.nil _)))

end CallExample

end Yupp
