import Verif.Lemmas.Builtin
import Verif.Lemmas.Escape
/-!
# C45–C47, C53 — Built-in functions

`args` are any expressions; `Args e args s vs s'` says what they evaluate to.
-/

namespace Yupp

open Spec

variable {e : EEnv} {x : BExt} {l loc : Option Loc} {args : List Node} {s s' : ESt}

theorem same_state (s : ESt) : { s with seen := s.seen } = s := rfl

/-- A surrounding in which the modelled built-ins are there, for the examples. -/
def stdEnv (x : BExt) (pe : PEnv) : EEnv :=
  { pe := pe, builtin := fun _ _ => some .fn, call := fun _ f args seen => builtinCall x f args seen }

theorem stdEnv_standard (x : BExt) (pe : PEnv) (f : Str) : Standard (stdEnv x pe) x f := ⟨fun _ => rfl, fun _ _ _ => rfl⟩

/-- **C53**. What counts as a text. -/
theorem C53_texts (a : Node) (t : Str) : a.text? = some t ↔ HasText a t := by
  constructor
  · intro h
    cases a <;> simp only [Node.text?, Option.some.injEq, reduceCtorEq] at h <;> subst h <;> constructor
  · intro h; cases h <;> rfl

/-- **C53**. What counts as a whole number. -/
theorem C53_numbers (a : Node) (n : Int) : a.whole? = some n ↔ HasNumber a n := by
  constructor
  · intro h
    cases a with
    | int m => simp only [Node.whole?, Option.some.injEq] at h; subst h; exact .int m
    | bool b => cases b <;> simp only [Node.whole?, Option.some.injEq] at h <;> subst h <;> constructor
    | _ => simp [Node.whole?] at h
  · intro h; cases h <;> rfl

/-! ## C45 — `$unique` -/

/-- **C45**, false in general: the same call gives nothing the second time. -/
theorem C45_second_call_is_empty (hs : Standard e x (lit "unique")) (hu : Unbound (lit "unique") s) (h0 : s.seen = []) :
    ∃ (c : Node) (s1 : ESt), Evaluates e c s (.list [.pstr ['a'], .pstr ['b']]) s1 ∧ Evaluates e c s1 (.list []) s1 ∧
      s1.env = s.env := by
  have ha : ∀ s, Args e [.list [.pstr ['a'], .pstr ['b'], .pstr ['a']]] s [.list [.pstr ['a'], .pstr ['b'], .pstr ['a']]] s :=
    fun s => .one ⟨3, rfl⟩ (by simp) (by simp) (.nil s)
  have ht : areTerms [Node.list [.pstr ['a'], .pstr ['b'], .pstr ['a']]] = true := rfl
  have h1 : builtinCall x (lit "unique") [.list [.pstr ['a'], .pstr ['b'], .pstr ['a']]] s.seen =
      some (.list [.pstr ['a'], .pstr ['b']], [.pstr ['b'], .pstr ['a']]) := by rw [h0]; rfl
  have h2 : builtinCall x (lit "unique") [.list [.pstr ['a'], .pstr ['b'], .pstr ['a']]] [.pstr ['b'], .pstr ['a']] =
      some (.list [], [.pstr ['b'], .pstr ['a']]) := rfl
  have hu' : Unbound (lit "unique") { s with seen := [.pstr ['b'], .pstr ['a']] } := hu
  exact ⟨fnCall (lit "unique") none none [.list [.pstr ['a'], .pstr ['b'], .pstr ['a']]], _,
    ev_call hs hu (ha s) ht h1, ev_call hs hu' (ha _) ht h2, rfl⟩

example (x : BExt) (pe : PEnv) : Standard (stdEnv x pe) x (lit "unique") ∧ Unbound (lit "unique") {} := ⟨stdEnv_standard .., rfl⟩

/-- **C45**. A call on texts and whole numbers: the items that are equal to nothing an earlier call was given
    and to no earlier item, in order. -/
theorem C45_one_call (hs : Standard e x (lit "unique")) (hu : Unbound (lit "unique") s) (xs : List Node)
    (ha : Args e args s [.list xs] s') (hx : ∀ a ∈ xs, Scalar a) (ho : ∀ a ∈ s'.seen, Scalar a) :
    ∃ ys seen, Evaluates e (fnCall (lit "unique") l loc args) s (.list ys) { s' with seen := seen } ∧
      FirstsOf s'.seen xs ys ∧ (∀ a ∈ seen, Scalar a) ∧
      (∀ c, (∃ a ∈ seen, Same a c) ↔ (∃ a ∈ s'.seen, Same a c) ∨ ∃ a ∈ xs, Same a c) := by
  obtain ⟨ys, old, h1, h2, h3, h4⟩ := uniqueGo_spec x xs s'.seen hx ho
  have hc : builtinCall x (lit "unique") [.list xs] s'.seen = some (.list ys, old) := by
    simp [builtinCall, lit, Node.iter, h1]
  refine ⟨ys, old, ev_call hs hu ha ?_ hc, h2, h3, h4⟩
  exact values_terms (fun v hv => by
    rw [List.mem_singleton] at hv
    subst hv
    exact .list _ (fun a h => (hx a h).value) (fun a h => (hx a h).not_none))

/-- **C45**. A text is taken as the list of its characters. -/
theorem C45_text (hs : Standard e x (lit "unique")) (hu : Unbound (lit "unique") s) {a : Node} {t : Str}
    (ha : Args e args s [a] s') (ht : HasText a t) (ho : ∀ a ∈ s'.seen, Scalar a) :
    ∃ ys seen, Evaluates e (fnCall (lit "unique") l loc args) s (.list ys) { s' with seen := seen } ∧
      FirstsOf s'.seen (t.map fun c => .pstr [c]) ys ∧ (∀ a ∈ seen, Scalar a) ∧
      (∀ c, (∃ a ∈ seen, Same a c) ↔ (∃ a ∈ s'.seen, Same a c) ∨ ∃ a ∈ t.map (fun c => Node.pstr [c]), Same a c) := by
  obtain ⟨ys, old, h1, h2, h3, h4⟩ := uniqueGo_spec x (t.map fun c => .pstr [c]) s'.seen
    (by intro a ha; simp only [List.mem_map] at ha; obtain ⟨c, _, rfl⟩ := ha; exact .inl ⟨[c], rfl⟩) ho
  have hc : builtinCall x (lit "unique") [a] s'.seen = some (.list ys, old) := by
    have : a.iter = some (t.map fun c => .pstr [c]) := by cases ht <;> rfl
    simp [builtinCall, lit, this, h1]
  refine ⟨ys, old, ev_call hs hu ha ?_ hc, h2, h3, h4⟩
  cases ht <;> rfl

/-- **C45**. A list of lists: the call fails. -/
theorem C45_lists_fail (hs : Standard e x (lit "unique")) (hu : Unbound (lit "unique") s) {xs : List Node} {ys : List Node}
    (ha : Args e args s [.list xs] s') (ht : areTerms xs = true) (hy : .list ys ∈ xs) :
    Raises e (fnCall (lit "unique") l loc args) s := by
  have key : ∀ (xs : List Node) seen, Node.list ys ∈ xs → uniqueGo x xs seen = none := by
    intro xs
    induction xs with
    | nil => intro _ h; cases h
    | cons a xs ih =>
      intro seen h
      unfold uniqueGo
      split
      · rfl
      · rename_i hh
        rcases List.mem_cons.1 h with rfl | h
        · simp [hashable, Node.isStr] at hh
        · split
          · exact ih _ h
          · rw [ih _ h]; rfl
  refine ev_call_err hs hu ha (by simp [areTerms, isTerm, ht]) ?_
  simp [builtinCall, lit, Node.iter, key xs _ hy]

/-- **C45**, the first call of a process: the distinct items in the order in which they first occur. -/
theorem C45_first_call (hs : Standard e x (lit "unique")) (hu : Unbound (lit "unique") s) (xs : List Node)
    (ha : Args e args s [.list xs] s') (hx : ∀ a ∈ xs, Scalar a) (h0 : s'.seen = []) :
    ∃ ys seen, Evaluates e (fnCall (lit "unique") l loc args) s (.list ys) { s' with seen := seen } ∧ FirstsOf [] xs ys := by
  obtain ⟨ys, seen, h1, h2, _⟩ := C45_one_call (l := l) (loc := loc) hs hu xs ha hx (by simp [h0])
  exact ⟨ys, seen, h1, h0 ▸ h2⟩

theorem list_arg (xs : List Node) (hx : ∀ a ∈ xs, Scalar a) (s : ESt) : Args e [.list xs] s [.list xs] s :=
  .one (evaluates_iff.2 (ev_value e (.list xs (fun a h => (hx a h).value) (fun a h => (hx a h).not_none)) s))
    (by simp) (by simp) (.nil s)

/-- **C45**, any sequence of calls: every call gives the first occurrences among the items that no list passed
    to an earlier call holds. So the result of a call depends on the history. -/
theorem C45_every_history (hs : Standard e x (lit "unique")) (calls : List (List Node × List Node))
    (hu : Unbound (lit "unique") s) (hx : ∀ c ∈ calls, ∀ a ∈ c.1, Scalar a) (ho : ∀ a ∈ s.seen, Scalar a)
    (hc : UniqueCalls e l loc calls s s') :
    ∀ (before : List (List Node × List Node)) xs ys after, calls = before ++ (xs, ys) :: after →
      FirstsOf (s.seen ++ before.flatMap (·.1)) xs ys := by
  have cong : ∀ {o o' xs ys}, (∀ c, (∃ a ∈ o, Same a c) ↔ ∃ a ∈ o', Same a c) → FirstsOf o xs ys → FirstsOf o' xs ys := by
    rintro o o' xs ys h ⟨keep, hk, hys⟩
    refine ⟨keep, fun i c hc => ?_, hys⟩
    rw [hk i c hc]
    have := h c
    constructor
    · rintro ⟨h1, h2⟩; exact ⟨fun y hy hs => by
        obtain ⟨z, hz, hz'⟩ := this.2 ⟨y, hy, hs⟩; exact h1 z hz hz', h2⟩
    · rintro ⟨h1, h2⟩; exact ⟨fun y hy hs => by
        obtain ⟨z, hz, hz'⟩ := this.1 ⟨y, hy, hs⟩; exact h1 z hz hz', h2⟩
  induction hc with
  | nil => intro before xs ys after h; simp at h
  | @cons xs ys cs s s1 s2 h1 _ ih =>
    obtain ⟨ys', seen, h2, h3, h4, h5⟩ := C45_one_call (l := l) (loc := loc) hs hu xs
      (list_arg xs (hx (xs, ys) (by simp)) s) (hx (xs, ys) (by simp)) ho
    obtain ⟨h6, h7⟩ := evaluates_det h1 h2
    cases h6
    subst h7
    intro before xs' ys'' after h
    cases before with
    | nil =>
      simp only [List.nil_append, List.cons.injEq, Prod.mk.injEq] at h
      obtain ⟨⟨rfl, rfl⟩, _⟩ := h
      simpa using h3
    | cons b before =>
      simp only [List.cons_append, List.cons.injEq] at h
      obtain ⟨rfl, rfl⟩ := h
      refine cong ?_ (ih hu (fun c hc => hx c (by simp [hc])) h4 before xs' ys'' after rfl)
      intro c
      simp only [List.flatMap_cons, List.mem_append]
      constructor
      · rintro ⟨a, ha | ha, hs⟩
        · rcases (h5 c).1 ⟨a, ha, hs⟩ with ⟨a, ha, hs⟩ | ⟨a, ha, hs⟩
          · exact ⟨a, .inl ha, hs⟩
          · exact ⟨a, .inr (.inl ha), hs⟩
        · exact ⟨a, .inr (.inr ha), hs⟩
      · rintro ⟨a, ha | ha | ha, hs⟩
        · obtain ⟨b, hb, hs⟩ := (h5 c).2 (.inl ⟨a, ha, hs⟩)
          exact ⟨b, .inl hb, hs⟩
        · obtain ⟨b, hb, hs⟩ := (h5 c).2 (.inr ⟨a, ha, hs⟩)
          exact ⟨b, .inl hb, hs⟩
        · exact ⟨a, .inr ha, hs⟩

example : FirstsOf [.int 1] [.pstr ['a'], .int 1, .atom { txt := ['a'] }, .int 2] [.pstr ['a'], .int 2] := by
  obtain ⟨ys, old, h1, h2, _⟩ := uniqueGo_spec {} [.pstr ['a'], .int 1, .atom { txt := ['a'] }, .int 2] [.int 1]
    (by simp [Scalar, Node.text?, Node.whole?]) (by simp [Scalar, Node.text?, Node.whole?])
  have h : uniqueGo {} [.pstr ['a'], .int 1, .atom { txt := ['a'] }, .int 2] [.int 1] =
    some ([.pstr ['a'], .int 2], [.int 2, .pstr ['a'], .int 1]) := rfl
  rw [h] at h1
  cases h1
  exact h2

/-! ## C46 — `$q`, `$qs`, `$unq` -/

theorem call_q (x : BExt) (v : Node) (seen : List Node) :
    builtinCall x (lit "q") [v] seen = some (.pstr (bQuote x '"' v), seen) ∧
    builtinCall x (lit "qs") [v] seen = some (.pstr (bQuote x '\'' v), seen) ∧
    builtinCall x (lit "unq") [v] seen = some (.pstr (bUnq x v), seen) := by
  simp [builtinCall, lit]

/-- Both quoting functions and their quotes. -/
def Quoting (f : Str) (q : Char) : Prop := (f = lit "q" ∧ q = '"') ∨ (f = lit "qs" ∧ q = '\'')

theorem bUnq_quoted (x : BExt) {q : Char} (hq : q = '"' ∨ q = '\'') (v : Node) :
    bUnq x (.pstr (bQuote x q v)) = (literalEval x.literal (q :: escEncode (x.str v) ++ [q])).getD (q :: escEncode (x.str v) ++ [q]) := by
  unfold bUnq
  simp only [Node.text?, bQuote]
  rw [if_pos (by rcases hq with rfl | rfl <;> simp)]

theorem text_str {v : Node} {t : Str} (h : v.text? = some t) (x : BExt) : x.str v = t := by
  cases v <;> simp_all [Node.text?, BExt.str, strOf]

theorem text_term {v : Node} {t : Str} (h : v.text? = some t) : areTerms [v] = true := by
  cases v <;> first | rfl | simp [Node.text?] at h

/-- The evaluation of `($unq ($f arg))`. -/
theorem ev_unq_quote {f : Str} {q : Char} (hf : Quoting f q) (hs : Standard e x f) (hs' : Standard e x (lit "unq"))
    (hu : Unbound f s) (hu' : Unbound (lit "unq") s) {v : Node} {t : Str} (ha : Args e args s [v] s') (ht : v.text? = some t) :
    Evaluates e (fnCall (lit "unq") l loc [fnCall f l loc args]) s
      (.pstr ((literalEval x.literal (q :: escEncode t ++ [q])).getD (q :: escEncode t ++ [q]))) s' := by
  have hq : q = '"' ∨ q = '\'' := by rcases hf with ⟨_, rfl⟩ | ⟨_, rfl⟩ <;> simp
  have h1 : Evaluates e (fnCall f l loc args) s (.pstr (bQuote x q v)) s' := by
    rcases hf with ⟨rfl, rfl⟩ | ⟨rfl, rfl⟩
    · exact ev_call hs hu ha (text_term ht) (call_q x v s'.seen).1
    · exact ev_call hs hu ha (text_term ht) (call_q x v s'.seen).2.1
  have h2 := ev_call (l := l) (loc := loc) hs' hu' (.one h1 (by simp) (by simp) (.nil s')) rfl
    (call_q x (.pstr (bQuote x q v)) s'.seen).2.2
  rw [bUnq_quoted x hq v, text_str ht] at h2
  exact h2

/-- **C46**. For every text without the quote: quoting it and removing the quotes gives it back, whatever
    control characters, backslashes and other characters are in it. -/
theorem C46_unquote_quote {f : Str} {q : Char} (hf : Quoting f q) (hs : Standard e x f) (hs' : Standard e x (lit "unq"))
    (hu : Unbound f s) (hu' : Unbound (lit "unq") s) {v : Node} {t : Str} (ha : Args e args s [v] s') (ht : v.text? = some t)
    (hq : q ∉ t) : Evaluates e (fnCall (lit "unq") l loc [fnCall f l loc args]) s (.pstr t) s' := by
  have h := ev_unq_quote (l := l) (loc := loc) hf hs hs' hu hu' ha ht
  rw [literal_quoted (by rcases hf with ⟨_, rfl⟩ | ⟨_, rfl⟩ <;> simp) x.literal t hq] at h
  exact h

/-- **C46**. The quote is not escaped: if it is in the text, what is quoted is not one literal, and if Python
    refuses it then the quotes stay. -/
theorem C46_quote_inside {f : Str} {q : Char} (hf : Quoting f q) (hs : Standard e x f) (hs' : Standard e x (lit "unq"))
    (hu : Unbound f s) (hu' : Unbound (lit "unq") s) {v : Node} {t : Str} (ha : Args e args s [v] s') (ht : v.text? = some t)
    (hq : q ∈ t) (hp : x.literal (q :: escEncode t ++ [q]) = none) :
    Evaluates e (fnCall (lit "unq") l loc [fnCall f l loc args]) s (.pstr (q :: escEncode t ++ [q])) s' ∧
    ¬ Evaluates e (fnCall (lit "unq") l loc [fnCall f l loc args]) s (.pstr t) s' := by
  have h := ev_unq_quote (l := l) (loc := loc) hf hs hs' hu hu' ha ht
  rw [literal_quote_inside (by rcases hf with ⟨_, rfl⟩ | ⟨_, rfl⟩ <;> simp) x.literal t hq, hp] at h
  refine ⟨h, fun h' => ?_⟩
  have := (evaluates_det h h').1
  simp only [Option.getD_none, Node.pstr.injEq] at this
  have hl := congrArg List.length this
  have key : ∀ s : Str, s.length ≤ (escEncode s).length := by
    intro s
    induction s with
    | nil => simp
    | cons c s ih =>
      have := escChar_pos c
      simp only [escEncode, List.flatMap_cons, List.length_append, List.length_cons] at ih ⊢
      omega
  have := key t
  simp at hl
  omega

/-! Every text, with any characters, is such an argument. -/
example (e : EEnv) (s : ESt) : Args e [.str { txt := lit "a\\n\té☃" }] s [.str { txt := lit "a\\n\té☃" }] s :=
  .one ⟨1, rfl⟩ (by simp) (by simp) (.nil s)

/-! ## C53 — `$unq` of a text without quotes -/

/-- **C53**. ASCII text without a backslash that does not begin with a quote is not changed by `$unq`. -/
theorem C53_ascii_kept (hs : Standard e x (lit "unq")) (hu : Unbound (lit "unq") s) {v : Node} {t : Str}
    (ha : Args e args s [v] s') (ht : v.text? = some t) (h1 : t.head? ≠ some '"') (h2 : t.head? ≠ some '\'')
    (hb : '\\' ∉ t) (hn : ∀ c ∈ t, c.toNat < 0x80) :
    Evaluates e (fnCall (lit "unq") l loc args) s (.pstr t) s' := by
  have h := ev_call (l := l) (loc := loc) hs hu ha (text_term ht) (call_q x v s'.seen).2.2
  have : bUnq x v = t := by
    unfold bUnq
    rw [ht]
    simp only []
    rw [if_neg (by simp [h1, h2])]
    unfold unicodeEscapeDecode
    rw [utf8_ascii t hn, escDecode_plain t hb]
    rfl
  rw [this] at h
  exact h

/-- **C53**, false beyond ASCII: every other text without a backslash that does not begin with a quote is
    changed. -/
theorem C53_other_texts_are_changed (hs : Standard e x (lit "unq")) (hu : Unbound (lit "unq") s) {v : Node} {t : Str}
    (ha : Args e args s [v] s') (ht : v.text? = some t) (h1 : t.head? ≠ some '"') (h2 : t.head? ≠ some '\'')
    (hb : '\\' ∉ t) (hn : ∃ c ∈ t, 0x80 ≤ c.toNat) :
    ∃ u, Evaluates e (fnCall (lit "unq") l loc args) s (.pstr u) s' ∧ u ≠ t ∧ t.length < u.length := by
  have h := ev_call (l := l) (loc := loc) hs hu ha (text_term ht) (call_q x v s'.seen).2.2
  have : bUnq x v = t.flatMap utf8Char := by
    unfold bUnq
    rw [ht]
    simp only []
    rw [if_neg (by simp [h1, h2])]
    unfold unicodeEscapeDecode
    rw [escDecode_plain _ (utf8_no_backslash t hb)]
    rfl
  rw [this] at h
  have hl := utf8_grows t hn
  exact ⟨_, h, fun he => by rw [he] at hl; omega, hl⟩

example : bUnq {} (.str { txt := lit "é" }) = lit "Ã©" := by decide

/-! ## C47 — lists -/

theorem list_terms {xs : List Node} (h : Value (.list xs)) : areTerms [.list xs] = true :=
  values_terms (fun v hv => by rw [List.mem_singleton] at hv; subst hv; exact h)

theorem list_terms2 {xs : List Node} {w : Node} (h : Value (.list xs)) (hw : Value w) : areTerms [.list xs, w] = true :=
  values_terms (fun v hv => by
    simp only [List.mem_cons, List.not_mem_nil, or_false] at hv
    rcases hv with rfl | rfl
    · exact h
    · exact hw)

theorem lowest_congr {p q : Node → Prop} {xs : List Node} {i : Int} (hpq : ∀ y ∈ xs, p y ↔ q y) (h : Lowest p xs i) : Lowest q xs i := by
  rcases h with ⟨k, y, h1, h2, h3, h4⟩ | ⟨h1, h2⟩
  · exact .inl ⟨k, y, h1, h2, (hpq y (List.mem_of_getElem? h2)).1 h3,
      fun j z hj hz hq => h4 j z hj hz ((hpq z (List.mem_of_getElem? hz)).2 hq)⟩
  · exact .inr ⟨h1, fun y hy hq => h2 y hy ((hpq y hy).2 hq)⟩

theorem highest_congr {p q : Node → Prop} {xs : List Node} {i : Int} (hpq : ∀ y ∈ xs, p y ↔ q y) (h : Highest p xs i) : Highest q xs i := by
  rcases h with ⟨k, y, h1, h2, h3, h4⟩ | ⟨h1, h2⟩
  · exact .inl ⟨k, y, h1, h2, (hpq y (List.mem_of_getElem? h2)).1 h3,
      fun j z hj hz hq => h4 j z hj hz ((hpq z (List.mem_of_getElem? hz)).2 hq)⟩
  · exact .inr ⟨h1, fun y hy hq => h2 y hy ((hpq y hy).2 hq)⟩

/-- **C47**. `$index` in a list of texts, whole numbers and lists of them: the lowest position, or -1. -/
theorem C47_index (hs : Standard e x (lit "index")) (hu : Unbound (lit "index") s) (xs : List Node) (w : Node)
    (ha : Args e args s [.list xs, w] s') (hx : Value (.list xs)) (hw : Value w) (hd : ∀ a ∈ xs, Datum a) (hdw : Datum w) :
    ∃ i, Evaluates e (fnCall (lit "index") l loc args) s (.int i) s' ∧ Lowest (fun y => Same y w) xs i := by
  refine ⟨_, ev_call hs hu ha (list_terms2 hx hw) (by simp [builtinCall, lit, bIndex, Node.asList]; exact ⟨rfl, rfl⟩), ?_⟩
  exact lowest_congr (h := indexOf_lowest _ xs) fun y hy => pyEq_iff x (hd y hy) hdw

/-- **C47**. `$rindex` in a list: the highest position, or -1. -/
theorem C47_rindex (hs : Standard e x (lit "rindex")) (hu : Unbound (lit "rindex") s) (xs : List Node) (w : Node)
    (ha : Args e args s [.list xs, w] s') (hx : Value (.list xs)) (hw : Value w) (hd : ∀ a ∈ xs, Datum a) (hdw : Datum w) :
    ∃ i, Evaluates e (fnCall (lit "rindex") l loc args) s (.int i) s' ∧ Highest (fun y => Same y w) xs i := by
  refine ⟨_, ev_call hs hu ha (list_terms2 hx hw) (by simp [builtinCall, lit, bRindex, Node.asList]; exact ⟨rfl, rfl⟩), ?_⟩
  exact highest_congr (h := rindexOf_highest _ xs) fun y hy => pyEq_iff x (hd y hy) hdw

/-- **C47**. `$index` of a text in a text: the lowest position at which it occurs, or -1. -/
theorem C47_index_text (hs : Standard e x (lit "index")) (hu : Unbound (lit "index") s) {a v : Node} {t u : Str}
    (ha : Args e args s [a, v] s') (ht : a.text? = some t) (hv : v.text? = some u) :
    ∃ i : Int, Evaluates e (fnCall (lit "index") l loc args) s (.int i) s' ∧
      ((∃ k : Nat, i = k ∧ OccursAt u t k ∧ ∀ j, j < k → ¬ OccursAt u t j) ∨ (i = -1 ∧ ∀ k, ¬ OccursAt u t k)) := by
  have hterm : areTerms [a, v] = true := by
    have h1 := text_term ht
    have h2 := text_term hv
    simp only [areTerms, Bool.and_true] at h1 h2 ⊢
    rw [h1, h2]; rfl
  refine ⟨_, ev_call hs hu ha hterm (by simp [builtinCall, lit, bIndex, text_list ht, ht, hv]; exact ⟨rfl, rfl⟩), ?_⟩
  cases hf : findIdx u t with
  | none => exact .inr ⟨rfl, findIdx_none_occurs u t hf⟩
  | some k => exact .inl ⟨k, rfl, (findIdx_occurs u t k hf).1, (findIdx_occurs u t k hf).2⟩

/-- **C47**. For texts `$rindex` is wrong: it raises although the text occurs, or gives a position at which it
    does not occur. -/
theorem C47_rindex_text_wrong (hs : Standard e x (lit "rindex")) (hu : Unbound (lit "rindex") s) :
    (OccursAt (lit "ab") (lit "ab") 0 ∧ Raises e (fnCall (lit "rindex") l loc [.str { txt := lit "ab" }, .str { txt := lit "ab" }]) s) ∧
    (OccursAt (lit "aa") (lit "aab") 0 ∧ ¬ OccursAt (lit "aa") (lit "aab") 1 ∧
      Evaluates e (fnCall (lit "rindex") l loc [.str { txt := lit "aab" }, .str { txt := lit "aa" }]) s (.int 1) s) := by
  have ha : ∀ a b : Src, Args e [.str a, .str b] s [.str a, .str b] s := fun a b =>
    .one ⟨1, rfl⟩ (by simp) (by simp) (.one ⟨1, rfl⟩ (by simp) (by simp) (.nil s))
  refine ⟨⟨⟨[], [], by decide, rfl⟩, ev_call_err hs hu (ha _ _) rfl ?_⟩, ⟨[], lit "b", by decide, rfl⟩, ?_,
    ev_call hs hu (ha _ _) rfl (v := .int 1) (seen := s.seen) ?_⟩
  · have : bRindex x (.str { txt := lit "ab" }) (.str { txt := lit "ab" }) = none := by
      have h : contains (lit "ab") (lit "ab") = true := by decide
      have h' : findIdx (lit "ab") (lit "ab").reverse = none := by decide
      simp only [bRindex, Node.asList, Node.text?, Option.bind_some, h, if_true, h', Option.map_none]
    simp [builtinCall, lit]
    exact this
  · rintro ⟨a, b, h, hl⟩
    match a, hl with
    | [c], _ =>
      have : lit "aab" = ['a', 'a', 'b'] := by decide
      have h2 : lit "aa" = ['a', 'a'] := by decide
      rw [this, h2] at h
      simp at h
  · have : bRindex x (.str { txt := lit "aab" }) (.str { txt := lit "aa" }) = some (.int 1) := by
      have h : contains (lit "aab") (lit "aa") = true := by decide
      have h' : findIdx (lit "aa") (lit "aab").reverse = some 1 := by decide
      have h2 : (lit "aab").length = 3 := by decide
      simp only [bRindex, Node.asList, Node.text?, Option.bind_some, h, if_true, h', Option.map_some, h2]
      rfl
    simp [builtinCall, lit]
    exact this

/-- **C47**. `$car` and `$cdr` of a list: its first item alone, and the others. -/
theorem C47_car_cdr (h1 : Standard e x (lit "car")) (h2 : Standard e x (lit "cdr")) (hu1 : Unbound (lit "car") s)
    (hu2 : Unbound (lit "cdr") s) (xs : List Node) (ha : Args e args s [.list xs] s') (hx : Value (.list xs)) :
    ∃ as bs, Evaluates e (fnCall (lit "car") l loc args) s (.list as) s' ∧
      Evaluates e (fnCall (lit "cdr") l loc args) s (.list bs) s' ∧ as ++ bs = xs ∧ as.length = min 1 xs.length := by
  refine ⟨xs.take 1, xs.drop 1, ev_call h1 hu1 ha (list_terms hx) (by simp [builtinCall, lit, bSlice, Node.asList]; exact ⟨rfl, rfl⟩),
    ev_call h2 hu2 ha (list_terms hx) (v := .list (xs.drop 1)) (seen := s'.seen) (by simp [builtinCall, lit, bSlice, Node.asList]), List.take_append_drop 1 xs, by simp⟩

/-- **C47**. The same for texts. -/
theorem C47_car_cdr_text (h1 : Standard e x (lit "car")) (h2 : Standard e x (lit "cdr")) (hu1 : Unbound (lit "car") s)
    (hu2 : Unbound (lit "cdr") s) {v : Node} {t : Str} (ha : Args e args s [v] s') (ht : v.text? = some t) :
    ∃ a b, Evaluates e (fnCall (lit "car") l loc args) s (.pstr a) s' ∧
      Evaluates e (fnCall (lit "cdr") l loc args) s (.pstr b) s' ∧ a ++ b = t ∧ a.length = min 1 t.length := by
  refine ⟨t.take 1, t.drop 1, ev_call h1 hu1 ha (text_term ht) (by simp [builtinCall, lit, bSlice, text_list ht, ht]; exact ⟨rfl, rfl⟩),
    ev_call h2 hu2 ha (text_term ht) (v := .pstr (t.drop 1)) (seen := s'.seen) (by simp [builtinCall, lit, bSlice, text_list ht, ht]), List.take_append_drop 1 t, by simp⟩

/-- **C47**. `$reversed` of a list has the items from last to first. -/
theorem C47_reversed (hs : Standard e x (lit "reversed")) (hu : Unbound (lit "reversed") s)
    (xs : List Node) (ha : Args e args s [.list xs] s') (hx : Value (.list xs)) :
    Evaluates e (fnCall (lit "reversed") l loc args) s (.list xs.reverse) s' :=
  ev_call hs hu ha (list_terms hx) (v := .list xs.reverse) (seen := s'.seen) (by simp [builtinCall, lit, bSlice, Node.asList])

theorem value_reverse {xs : List Node} (h : Value (.list xs)) : Value (.list xs.reverse) := by
  cases h with
  | list _ h1 h2 => exact .list _ (fun a ha => h1 a (by simpa using ha)) (fun a ha => h2 a (by simpa using ha))

/-- **C47**. Reversing twice gives the list. -/
theorem C47_reversed_twice (hs : Standard e x (lit "reversed")) (hu : Unbound (lit "reversed") s)
    (xs : List Node) (ha : Args e args s [.list xs] s') (hx : Value (.list xs)) :
    Evaluates e (fnCall (lit "reversed") l loc [fnCall (lit "reversed") l loc args]) s (.list xs) s' := by
  have h1 := C47_reversed (l := l) (loc := loc) hs hu xs ha hx
  have h2 := C47_reversed (l := l) (loc := loc) hs hu xs.reverse (.one h1 (by simp) (by simp) (.nil s')) (value_reverse hx)
  rwa [List.reverse_reverse] at h2

theorem ints_terms : ∀ (ns : List Int), areTerms (ns.map Node.int) = true
  | [] => rfl
  | n :: ns => by simp [areTerms, isTerm, ints_terms ns]

/-- **C47**. `$range start stop step`: `start`, `start + step`, … as long as `stop` is not reached. -/
theorem C47_range (hs : Standard e x (lit "range")) (hu : Unbound (lit "range") s) (start stop step : Int)
    (h0 : step ≠ 0) (ha : Args e args s [.int start, .int stop, .int step] s') :
    ∃ n : Nat, Evaluates e (fnCall (lit "range") l loc args) s
        (.list ((List.range n).map fun k : Nat => .int (start + step * k))) s' ∧
      ∀ k : Nat, k < n ↔ (0 < step ∧ start + step * k < stop) ∨ (step < 0 ∧ stop < start + step * k) := by
  refine ⟨rangeLen start stop step, ?_, fun k => ?_⟩
  · have := ev_call (l := l) (loc := loc) hs hu ha rfl (v := .list (rangeFrom start step (rangeLen start stop step))) (seen := s'.seen)
      (by simp [builtinCall, lit, bRange, Node.whole?, h0])
    rw [rangeFrom_eq] at this
    exact this
  · rcases Int.lt_or_gt_of_ne h0 with h | h
    · rw [rangeLen_down _ _ _ h]; omega
    · rw [rangeLen_up _ _ _ h]; omega

/-- **C47**. A step of 0: the call fails. -/
theorem C47_range_zero (hs : Standard e x (lit "range")) (hu : Unbound (lit "range") s) (start stop : Int)
    (ha : Args e args s [.int start, .int stop, .int 0] s') : Raises e (fnCall (lit "range") l loc args) s :=
  ev_call_err hs hu ha rfl (by simp [builtinCall, lit, bRange, Node.whole?])

/-- **C47**. One argument: `0`, `1`, … below it; two arguments: from the first to below the second. -/
theorem C47_range_short (hs : Standard e x (lit "range")) (hu : Unbound (lit "range") s) (start stop : Int) (args' : List Node) (s'' : ESt)
    (ha : Args e args s [.int stop] s') (ha' : Args e args' s [.int start, .int stop] s'') :
    Evaluates e (fnCall (lit "range") l loc args) s (.list ((List.range stop.toNat).map fun k : Nat => .int k)) s' ∧
    Evaluates e (fnCall (lit "range") l loc args') s
      (.list ((List.range (stop - start).toNat).map fun k : Nat => .int (start + k))) s'' := by
  have hlen : ∀ a b : Int, rangeLen a b 1 = (b - a).toNat := by intro a b; simp [rangeLen]
  have h1 := ev_call (l := l) (loc := loc) hs hu ha rfl (v := .list (rangeFrom 0 1 (rangeLen 0 stop 1))) (seen := s'.seen)
    (by simp [builtinCall, lit, bRange, Node.whole?])
  have h2 := ev_call (l := l) (loc := loc) hs hu ha' rfl (v := .list (rangeFrom start 1 (rangeLen start stop 1))) (seen := s''.seen)
    (by simp [builtinCall, lit, bRange, Node.whole?])
  rw [rangeFrom_eq, hlen] at h1 h2
  simp only [Int.one_mul, Int.zero_add, Int.sub_zero] at h1 h2
  exact ⟨h1, h2⟩

example : Lowest (fun y => Same y (.pstr ['b'])) [.pstr ['a'], .atom { txt := ['b'] }, .list [.pstr ['b']], .pstr ['b']] 1 :=
  .inl ⟨1, _, rfl, rfl, .text rfl rfl, by
    intro j z hj hz
    have : j = 0 := by omega
    subst this
    simp at hz
    subst hz
    intro h
    cases h with
    | text h1 h2 => simp [Node.text?] at h1 h2; rw [← h2] at h1; simp at h1
    | number h1 h2 => simp [Node.whole?] at h1⟩

end Yupp
