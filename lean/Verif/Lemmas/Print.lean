import Verif.Spec.Print
import Verif.Lemmas.SyntaxCode
/-!
# What is printed follows the grammar
-/

namespace Yupp

variable {m : Mode}

/-! ## Numbers, names, texts -/

theorem digit_of_lt {n : Nat} (h : n < 10) : Digit n.digitChar n := by
  have : ∀ n : Fin 10, Digit n.val.digitChar n.val := by
    intro n
    have k : '0' ≤ n.val.digitChar ∧ n.val.digitChar ≤ '9' ∧ n.val.digitChar.toNat - '0'.toNat = n.val := by
      revert n; decide
    have := Digit.dec k.1 k.2.1
    rwa [k.2.2] at this
  exact this ⟨n, h⟩

theorem denotes_decimal (n : Nat) : Denotes 10 (decimal n) n := by
  induction n using decimal.induct with
  | case1 n h =>
    unfold decimal
    rw [if_pos h]
    have := Denotes.snoc (b := 10) .nil (digit_of_lt h) h
    simpa using this
  | case2 n h ih =>
    unfold decimal
    rw [if_neg h]
    have := Denotes.snoc ih (digit_of_lt (Nat.mod_lt n (by decide))) (Nat.mod_lt n (by decide))
    rwa [show n / 10 * 10 + n % 10 = n by omega] at this

theorem decimal_head {n : Nat} (h : n ≠ 0) : ∃ c t, decimal n = c :: t ∧ '1' ≤ c ∧ c ≤ '9' := by
  induction n using decimal.induct with
  | case1 n hn =>
    unfold decimal
    rw [if_pos hn]
    have : ∀ n : Fin 10, n.val ≠ 0 → '1' ≤ n.val.digitChar ∧ n.val.digitChar ≤ '9' := by decide
    exact ⟨_, [], rfl, this ⟨n, hn⟩ h⟩
  | case2 n hn ih =>
    obtain ⟨c, t, h1, h2⟩ := ih (by omega)
    unfold decimal
    rw [if_neg hn, h1]
    exact ⟨c, _, rfl, h2⟩

theorem literal_decimal (n : Nat) : Literal (decimal n) n := by
  by_cases h : n = 0
  · subst h
    refine .zero ?_ ?_ <;> (unfold decimal; decide)
  · obtain ⟨c, t, h1, h2, h3⟩ := decimal_head h
    have := denotes_decimal n
    rw [h1] at this ⊢
    exact .dec h2 h3 this

theorem printInt_reads (n : Int) {r : Str} (hr : Ended r) : Reads m (.former (.int n)) (printInt n ++ r) r := by
  cases n with
  | ofNat n => exact Reads.int (g := []) (f := []) .none (literal_decimal n) (.inl rfl) hr
  | negSucc n => exact Reads.int (g := ['-']) (f := []) (v := -((n + 1 : Nat) : Int)) .minus (literal_decimal (n + 1)) (.inl rfl) hr

theorem printName_written {late : Bool} {rs : List Str} {a : Str} (h : NameOk late rs a) :
    WrittenName late rs a (printName late rs a) := by
  obtain ⟨h1, h2, h3⟩ := h
  cases late with
  | true =>
    cases h3 rfl
    exact .late h1
  | false =>
    clear h3
    induction rs with
    | nil => exact .plain h1
    | cons r rs ih =>
      have := WrittenName.region (h2 r List.mem_cons_self) (ih (fun x hx => h2 x (List.mem_cons_of_mem _ hx)))
      simpa [printName] using this

/-- With `d` open parentheses. -/
def Deep : Nat → Str → Prop
  | 0, s => Balanced s
  | d + 1, s => ∃ a b, s = a ++ ')' :: b ∧ Balanced a ∧ Deep d b

theorem deep_of_closes : ∀ (s : Str) (d : Nat), closes d s = true → Deep d s := by
  intro s
  induction s with
  | nil =>
    intro d h
    unfold closes at h
    cases d with
    | zero => exact .nil
    | succ d => simp at h
  | cons c s ih =>
    intro d h
    unfold closes at h
    by_cases h1 : c = '('
    · subst h1
      obtain ⟨a, b, rfl, ha, hb⟩ := ih (d + 1) (by simpa using h)
      cases d with
      | zero => exact .paren ha hb
      | succ d =>
        obtain ⟨a', b', rfl, ha', hb'⟩ := hb
        exact ⟨'(' :: (a ++ ')' :: a'), b', by simp, .paren ha ha', hb'⟩
    · rw [if_neg h1] at h
      by_cases h2 : c = ')'
      · subst h2
        cases d with
        | zero => simp at h
        | succ d => exact ⟨[], s, rfl, .nil, ih d (by simpa using h)⟩
      · rw [if_neg h2] at h
        have := ih d h
        cases d with
        | zero => exact .char h1 h2 this
        | succ d =>
          obtain ⟨a, b, rfl, ha, hb⟩ := this
          exact ⟨c :: a, b, rfl, .char h1 h2 ha, hb⟩

theorem closes_balanced {a : Str} (h : Balanced a) : ∀ (d : Nat) (t : Str), closes d (a ++ t) = closes d t := by
  induction h with
  | nil => intro d t; rfl
  | char h1 h2 _ ih =>
    intro d t
    rw [List.cons_append, closes.eq_def]
    simp only [h1, h2, if_false, ih]
  | @paren a b _ _ iha ihb =>
    intro d t
    have h1 : ('(' :: (a ++ ')' :: b)) ++ t = '(' :: (a ++ ')' :: (b ++ t)) := by simp
    rw [h1, closes.eq_def]
    simp only [if_true, iha]
    rw [closes.eq_def]
    simp only [if_neg (show ¬ (')' = '(') by decide), if_true, ihb]

theorem printText_reads {s r : Str} (h : TextOk s) (hr : Ended r) :
    Reads m (.former (.str s)) (printText s ++ r) r := by
  unfold printText
  split
  · rename_i hc
    simp only [Bool.and_eq_true, List.all_eq_true, decide_eq_true_eq] at hc
    have := Reads.quote (m := m) (r := r) (deep_of_closes s 0 hc.1) hc.2
    simpa using this
  · rename_i hc
    rcases h with ⟨hb, ha⟩ | ⟨q, t, hq, rfl, ht⟩
    · exfalso
      refine hc ?_
      simp only [Bool.and_eq_true, List.all_eq_true, decide_eq_true_eq]
      refine ⟨?_, ha⟩
      have := closes_balanced hb 0 []
      rw [List.append_nil] at this
      rw [this]
      rfl
    · have := Reads.literal (m := m) hq ht hr
      simpa using this

/-! ## Targets -/

theorem names_print : ∀ (as : List Str), (∀ a ∈ as, IsName a) → as ≠ [] →
    ∃ t, as.flatMap (' ' :: ·) = ' ' :: t ∧ Names as t := by
  intro as
  induction as with
  | nil => intro _ h; exact absurd rfl h
  | cons a as ih =>
    intro h _
    cases as with
    | nil => exact ⟨a, by simp, by simpa using Names.cons (h a List.mem_cons_self) isGap_nil .nil (.inl rfl)⟩
    | cons b as =>
      obtain ⟨t, h1, h2⟩ := ih (fun x hx => h x (List.mem_cons_of_mem _ hx)) (by simp)
      refine ⟨a ++ ([' '] ++ t), ?_, Names.cons (h a List.mem_cons_self) (by intro x hx; simp at hx; exact .inl hx) h2
        (.inr (by simp))⟩
      rw [List.flatMap_cons, h1]
      simp

theorem isGap_space : IsGap [' '] := by intro x hx; simp at hx; exact .inl hx

theorem target_written {t : Target} (h : t.Ok) : WrittenTarget t t.print := by
  cases t with
  | one a => exact .one h
  | many as =>
    obtain ⟨t, h1, h2⟩ := names_print as h.2 h.1
    have := WrittenTarget.many isGap_space h2 h.1
    change WrittenTarget (.many as) ('(' :: (as.flatMap (' ' :: ·) ++ [')']))
    rw [h1]
    simpa using this

/-! ## Expressions -/

/-- What may follow an expression: nothing that would continue it. -/
def Stops (s : Str) : Prop := NoGap s ∧ s.head? ≠ some '?' ∧ s.head? ≠ some '|'

theorem ends_char {c : Char} (h1 : ¬ NameChar c) (h2 : c ≠ '.') (h3 : c ≠ ':' ∧ c ≠ '"' ∧ c ≠ '\'') (t : Str) :
    Ended (c :: t) := by
  refine ⟨⟨noName_cons h1 t, fun d e u h hd => ?_⟩, fun d hd => ?_⟩
  · cases h; exact absurd hd h2
  · cases hd; exact h3

theorem ends_space (t : Str) : Ended (' ' :: t) := ends_char (by decide) (by decide) (by decide) t
theorem ends_paren (t : Str) : Ended (')' :: t) := ends_char (by decide) (by decide) (by decide) t

theorem ends_dot {t : Str} {c : Char} (h : t.head? = some c) (hc : ¬ ('0' ≤ c ∧ c ≤ '9')) : Ended ('.' :: t) := by
  refine ⟨⟨noName_cons (by decide) t, fun d e u hd _ => ?_⟩, fun d hd => ?_⟩
  · cases hd
    simp only [List.head?_cons, Option.some.injEq] at h
    subst h
    exact hc
  · cases hd; decide

theorem stops_paren (t : Str) : Stops (')' :: t) := ⟨noGap_cons (by decide) t, by simp, by simp⟩
theorem stops_dot (t : Str) : Stops ('.' :: t) := ⟨noGap_cons (by decide) t, by simp, by simp⟩
theorem Begins.stops {s : Str} (h : Begins s) : Stops s := ⟨h.noGap, h.ne _ (by decide), h.ne _ (by decide)⟩

theorem late_reads {ps : ExprParams} {s r : Str} : ∀ (l l0 : List Str), (∀ x ∈ l, IsName x) →
    Reads m (.params (l0 ++ l) ps) s r →
    Reads m (.params l0 ps) (l.flatMap (fun x => '\\' :: (x ++ ['.', '.'])) ++ s) r := by
  intro l
  induction l with
  | nil => intro l0 _ h; simpa using h
  | cons x l ih =>
    intro l0 hl h
    have := ih (l0 ++ [x]) (fun y hy => hl y (List.mem_cons_of_mem _ hy)) (by simpa using h)
    have := Reads.late (g := []) (hl x List.mem_cons_self) isGap_nil this
    simpa using this

theorem body_head {x : Expr} {s r : Str} (h : Reads m (.body x) s r) : ∃ c, s.head? = some c ∧ BodyChar c := by
  obtain ⟨c, t, rfl, hc⟩ := h.begins
  exact ⟨c, rfl, hc⟩

theorem bodyChar_ne {c d : Char} (h : BodyChar c) (hd : ¬ BodyChar d) : some c ≠ some d := by
  intro k
  exact hd (Option.some.inj k ▸ h)

/-- Where printed parameters begin. -/
theorem params_head (ps : ExprParams) (r : Str) (hr : ∃ c, r.head? = some c ∧ BodyChar c) :
    (ps.print ++ r).head? = some '\\' ∨ ∃ c, (ps.print ++ r).head? = some c ∧ BodyChar c := by
  cases ps with
  | nil => exact .inr (by simpa [ExprParams.print] using hr)
  | par l a ps => cases l <;> exact .inl (by simp [ExprParams.print])
  | dflt l a x ps => cases l <;> exact .inl (by simp [ExprParams.print])
  | dots ps => exact .inl (by simp [ExprParams.print])

theorem head_stop {s : Str} (h : s.head? = some '\\' ∨ ∃ c, s.head? = some c ∧ BodyChar c) :
    NoGap s ∧ s.head? ≠ some '.' ∧ ∃ c, s.head? = some c ∧ ¬ ('0' ≤ c ∧ c ≤ '9') := by
  rcases h with h | ⟨c, h, hc⟩
  · exact ⟨head_noGap h (by decide), by rw [h]; simp, _, h, by decide⟩
  · refine ⟨head_noGap h ?_, by rw [h]; exact bodyChar_ne hc (by unfold BodyChar; decide), _, h, ?_⟩ <;>
      (rcases hc with rfl | rfl | rfl | rfl | rfl <;> decide)

/-- The first parameter decides whether a text begins like a named argument. -/
theorem notNamed_of_head {s : Str} (h : s.head? ≠ some '\\') : NotNamed s := by
  intro a g r hs
  rw [hs] at h
  exact absurd rfl h

theorem notNamed_dot {s t : Str} {c : Char} (h1 : s = '\\' :: c :: t) (hc : ¬ NameStart c) : NotNamed s := by
  intro a g r hs ha
  rw [h1] at hs
  obtain ⟨d, w, rfl, hd, -⟩ := ha
  simp only [List.cons_append, List.cons.injEq, true_and] at hs
  exact absurd (hs.1 ▸ hd) hc

/-- The longest name is determined by the text. -/
theorem name_unique {a b s t : Str} (ha : IsName a) (hb : IsName b) (hs : NoName s) (ht : NoName t)
    (h : a ++ s = b ++ t) : a = b ∧ s = t := by
  have h1 := atomLen_append ha hs
  have h2 := atomLen_append hb ht
  rw [h, h2] at h1
  have := List.append_inj h h1.symm
  exact this

theorem notNamed_param {s t a : Str} (h1 : s = '\\' :: (a ++ '.' :: t)) (ha : IsName a) : NotNamed s := by
  intro b g r hs hb hg hn hr
  rw [h1] at hs
  simp only [List.cons.injEq, true_and] at hs
  obtain ⟨-, h2⟩ := name_unique ha hb (noName_cons (by decide) t) hn hs
  cases g with
  | nil => simp only [List.nil_append] at h2; rw [← h2]; rfl
  | cons c g =>
    simp only [List.cons_append, List.cons.injEq] at h2
    have := hg c List.mem_cons_self
    rw [← h2.1] at this
    exact absurd this (by decide)

theorem isName_head {a : Str} (h : IsName a) : a.head? ≠ some '\\' := by
  obtain ⟨c, t, rfl, hc, -⟩ := h
  simp only [List.head?_cons]
  intro h
  exact absurd (show NameChar '\\' from .inl (Option.some.inj h ▸ hc)) (by decide)

/-- Reading what is printed, for the three uses of an expression. -/
structure ReadsAs (m : Mode) (x : Expr) : Prop where
  body : x.isBody = true → ∀ r, Reads m (.body x) (x.print ++ r) r
  former : x.isCond = false → ∀ r, Ended r → Reads m (.former x) (x.print ++ r) r
  form : ∀ g r, IsGap g → Stops r → Ended (g ++ r) → Reads m (.form x) (x.print ++ (g ++ r)) r
  named : x.startsNamed = false → ∀ r, Ended r → NotNamed (x.print ++ r)

theorem ReadsAs.begins {x : Expr} (h : ReadsAs m x) {g r : Str} (hg : IsGap g) (hr : Stops r) (he : Ended (g ++ r)) :
    Begins (x.print ++ (g ++ r)) := (h.form g r hg hr he).begins

theorem ReadsAs.of_former {x : Expr} (h0 : x.isBody = true → ∀ r, Reads m (.body x) (x.print ++ r) r)
    (h1 : ∀ r, Ended r → Reads m (.former x) (x.print ++ r) r)
    (h2 : x.startsNamed = false → ∀ r, Ended r → NotNamed (x.print ++ r)) : ReadsAs m x :=
  ⟨h0, fun _ => h1, fun g r hg hr he => .one (h1 _ he) hg hr.1 hr.2.1, h2⟩

theorem ReadsAs.of_body {x : Expr} (h : ∀ r, Reads m (.body x) (x.print ++ r) r) : ReadsAs m x :=
  .of_former (fun _ => h) (fun r _ => .former (h r)) (fun _ r _ => notNamed_of_head (by
    obtain ⟨c, k1, k2⟩ := body_head (h r)
    rw [k1]; exact bodyChar_ne k2 (by unfold BodyChar; decide)))

/-- What follows a printed argument. -/
theorem args_follow (t : Str) (P : Str → Prop)
    (h : ∃ s, (t = s ∧ s.head? = some ')' ∨ t = ' ' :: s) ∧ Stops s ∧ P s) :
    ∃ g s, t = g ++ s ∧ IsGap g ∧ Stops s ∧ Ended (g ++ s) ∧ P s := by
  obtain ⟨s, h1, h2, h3⟩ := h
  rcases h1 with ⟨h1, h4⟩ | h1
  · refine ⟨[], s, h1, isGap_nil, h2, ?_, h3⟩
    cases s with
    | nil => cases h4
    | cons c s =>
      simp only [List.head?_cons, Option.some.injEq] at h4
      subst h4
      exact ends_paren s
  · exact ⟨[' '], s, h1, isGap_space, h2, ends_space s, h3⟩

theorem WrittenName.head {late : Bool} {rs : List Str} {a t r : Str} (h : WrittenName late rs a t) :
    (t ++ r).head? ≠ some '\\' := by
  have key : ∀ {b u : Str}, IsName b → (b ++ u).head? ≠ some '\\' := by
    intro b u hb
    obtain ⟨c, w, rfl, hc, -⟩ := hb
    simp only [List.cons_append, List.head?_cons]
    intro h
    exact absurd (show NameChar '\\' from .inl (Option.some.inj h ▸ hc)) (by decide)
  cases h with
  | plain ha => exact key ha
  | region ha _ => rw [List.append_assoc]; exact key ha
  | late _ => simp

/-- Only functions begin with a backslash. -/
theorem former_head {x : Expr} {s r : Str} (h : Reads m (.former x) s r) (h1 : ∀ ps y, x ≠ .fn ps y)
    (h2 : ∀ l rs a y, x ≠ .fnOf l rs a y) : s.head? ≠ some '\\' := by
  cases h with
  | name hw _ => exact hw.head
  | int hg hb _ _ =>
    obtain ⟨⟨c, t, hct, hc⟩, -⟩ := literal_ends hb
    subst hct
    cases hg with
    | none =>
      simp only [List.nil_append, List.cons_append, List.head?_cons]
      intro h
      cases Option.some.inj h
      exact absurd (nameChar_of_digVal (c := '\\') (by omega)) (by decide)
    | plus => simp
    | minus => simp
  | literal hq _ _ => rcases hq with rfl | rfl <;> simp
  | quote _ _ => simp
  | quote' _ _ => simp
  | fn _ _ _ => exact absurd rfl (h1 _ _)
  | fnOf _ _ _ _ _ => exact absurd rfl (h2 _ _ _ _)
  | former h =>
    obtain ⟨c, k1, k2⟩ := body_head h
    rw [k1]; exact bodyChar_ne k2 (by unfold BodyChar; decide)

theorem ReadsAs.of_atom {x : Expr} (h : ∀ r, Ended r → Reads m (.former x) (x.print ++ r) r) (h0 : x.isBody = false)
    (h1 : ∀ ps y, x ≠ .fn ps y) (h2 : ∀ l rs a y, x ≠ .fnOf l rs a y) : ReadsAs m x :=
  .of_former (fun h => by rw [h0] at h; cases h) h (fun _ r hr => notNamed_of_head (former_head (h r hr) h1 h2))

/-! ## Texts -/

/-- How a printed text ends. -/
def endOf (top : Bool) : TextEnd := if top then .file else .paren

/-- What follows a printed text. -/
def tailOf (top : Bool) (r : Str) : Str := if top then [] else ')' :: r

theorem endOf_ends {top : Bool} {sq d : Nat} {c : Char} {s r : Str} (h : EndsAt (endOf top) sq d (c :: s) r) :
    top = false ∧ c = ')' ∧ d = 0 := by
  cases top with
  | true => cases h
  | false => cases h with
    | paren => exact ⟨rfl, rfl, rfl⟩

/-- No plain text follows. -/
def Parens (s : Str) : Prop := ∀ c, s.head? = some c → c = '(' ∨ c = ')'

theorem prefix_two {a b c : Char} {w s : Str} (h : [a, b] <+: c :: (w ++ s)) (hs : s.head? ≠ some b) : [a, b] <+: c :: w := by
  cases w with
  | nil =>
    obtain ⟨t, ht⟩ := h
    cases s with
    | nil => simp at ht
    | cons d s =>
      simp only [List.cons_append, List.nil_append, List.cons.injEq] at ht
      exact absurd (by rw [← ht.2.1]; rfl) hs
  | cons d w =>
    obtain ⟨t, ht⟩ := h
    simp only [List.cons_append, List.nil_append, List.cons.injEq] at ht
    exact ⟨w, by rw [← ht.1, ht.2.1]; rfl⟩

theorem literal_quote {s : Str} (h : StartsLiteral m s) : ∃ p q t, LiteralPrefix p ∧ QuoteMark q ∧ s = p ++ q :: t := by
  cases h with
  | c _ hq _ => exact ⟨[], _, _, .inl rfl, hq, rfl⟩
  | py _ hp hq _ => exact ⟨_, _, _, hp, hq, rfl⟩
  | long _ hp hq => exact ⟨_, _, _, hp, hq, rfl⟩
  | lines _ hp hq _ => exact ⟨_, _, _, hp, hq, rfl⟩

theorem quote_not_paren {c : Char} (h : c = '(' ∨ c = ')') : ¬ QuoteMark c := by
  rcases h with rfl | rfl <;> (unfold QuoteMark; decide)

/-- The characters of a literal prefix. -/
def PrefixChar (c : Char) : Prop := c = 'u' ∨ c = 'U' ∨ c = 'r' ∨ c = 'R'

theorem prefix_chars {p : Str} (h : LiteralPrefix p) : ∀ c ∈ p, PrefixChar c := by
  unfold PrefixChar
  intro c hc
  rcases h with rfl | ⟨u, hu, rfl⟩ | ⟨u, hu, rfl⟩ | ⟨u, v, hu, hv, rfl⟩
  · cases hc
  · simp only [List.mem_singleton] at hc; subst hc; rcases hu with h | h <;> simp [h]
  · simp only [List.mem_singleton] at hc; subst hc; rcases hu with h | h <;> simp [h]
  · simp only [List.mem_cons, List.not_mem_nil, or_false] at hc
    rcases hc with rfl | rfl
    · rcases hu with h | h <;> simp [h]
    · rcases hv with h | h <;> simp [h]

theorem no_literal : ∀ {w s p t : Str} {q : Char}, (∀ c ∈ w, ¬ QuoteMark c) → Parens s → (∀ c ∈ p, PrefixChar c) →
    QuoteMark q → w ++ s ≠ p ++ q :: t := by
  intro w
  induction w with
  | nil =>
    intro s p t q _ hs hp hq h
    rw [List.nil_append] at h
    subst h
    cases p with
    | nil => exact quote_not_paren (hs q rfl) hq
    | cons c p =>
      have := hp c List.mem_cons_self
      rcases hs c rfl with rfl | rfl <;> (revert this; unfold PrefixChar; decide)
  | cons c w ih =>
    intro s p t q hw hs hp hq h
    cases p with
    | nil =>
      simp only [List.cons_append, List.nil_append, List.cons.injEq] at h
      exact hw c List.mem_cons_self (h.1 ▸ hq)
    | cons d p =>
      simp only [List.cons_append, List.cons.injEq] at h
      exact ih (fun c hc => hw c (List.mem_cons_of_mem _ hc)) hs (fun c hc => hp c (List.mem_cons_of_mem _ hc)) hq h.2

theorem parens_ne {s : Str} (h : Parens s) {d : Char} (h1 : d ≠ '(') (h2 : d ≠ ')') : s.head? ≠ some d := by
  intro hd
  rcases h d hd with rfl | rfl
  · exact h1 rfl
  · exact h2 rfl

theorem plain_at {top : Bool} {sq d : Nat} {c : Char} {w s : Str} (hw : PlainOk m (c :: w)) (hs : Parens s)
    (hd : ¬ (c = ')' ∧ d = 0 ∧ top = false)) : PlainAt m (endOf top) sq d c (w ++ s) := by
  obtain ⟨-, h2, h3⟩ := hw
  obtain ⟨k1, k2, k3⟩ := h3 [] (c :: w) rfl
  refine ⟨(h2 c List.mem_cons_self).1, fun r h => ?_, fun h => k1 (prefix_two h (parens_ne hs (by decide) (by decide))),
    fun h => k2 (prefix_two h (parens_ne hs (by decide) (by decide))), fun h => ?_, fun h => ?_⟩
  · obtain ⟨a1, a2, a3⟩ := endOf_ends h
    exact hd ⟨a2, a3, a1⟩
  · obtain ⟨p, q, t, hp, hq, he⟩ := literal_quote h
    exact no_literal (w := c :: w) (fun c hc => (h2 c hc).2) hs (prefix_chars hp) hq he
  · refine k3 ?_
    cases hm : m.remarks with
    | none => rw [hm] at h; exact h
    | c =>
      rw [hm] at h
      exact h.imp (fun h => prefix_two h (parens_ne hs (by decide) (by decide)))
        (fun h => prefix_two h (parens_ne hs (by decide) (by decide)))
    | python =>
      rw [hm] at h
      obtain ⟨t, ht⟩ := h
      simp only [List.cons_append, List.nil_append, List.cons.injEq] at ht
      exact ⟨w, by rw [← ht.1]; rfl⟩

theorem PlainOk.tail {c d : Char} {w : Str} (h : PlainOk m (c :: d :: w)) : PlainOk m (d :: w) :=
  ⟨by simp, fun x hx => h.2.1 x (List.mem_cons_of_mem _ hx), fun a b hab => h.2.2 (c :: a) b (by rw [hab]; rfl)⟩

theorem walk_cons {top : Bool} {d d' : Nat} {c : Char} {w : Str} (h : walk top d (c :: w) = some d') :
    ¬ (c = ')' ∧ d = 0 ∧ top = false) ∧ walk top (opened '(' ')' d c) w = some d' := by
  unfold walk at h
  split at h
  · cases h
  · rename_i hn; exact ⟨hn, h⟩

theorem run_reads {top : Bool} {xs : ExprText} {s r : Str} (hx : xs.startsPlain = false) (hs : Parens s) :
    ∀ (w v : Str) (sq d d' : Nat), (w ≠ [] → PlainOk m w) → walk top d w = some d' →
      (∀ sq, Reads m (.text (endOf top) sq d' xs) s r) →
      Reads m (.run (endOf top) sq d v (.chars (v ++ w) xs)) (w ++ s) r := by
  intro w
  induction w with
  | nil =>
    intro v sq d d' _ hd h
    cases (show d = d' from Option.some.inj hd)
    rw [List.append_nil]
    exact .runEnd hx (h sq)
  | cons c w ih =>
    intro v sq d d' hw hd h
    obtain ⟨h1, h2⟩ := walk_cons hd
    refine .runChar (plain_at (hw (by simp)) hs h1) ?_
    have := ih (v ++ [c]) (opened '[' ']' sq c) (opened '(' ')' d c) d' (fun hne => ?_) h2 h
    · simpa using this
    · cases w with
      | nil => exact absurd rfl hne
      | cons e w => exact (hw (by simp)).tail

theorem chars_reads {top : Bool} {w s r : Str} {xs : ExprText} {sq d d' : Nat} (hw : PlainOk m w) (hx : xs.startsPlain = false)
    (hs : Parens s) (hd : walk top d w = some d') (h : ∀ sq, Reads m (.text (endOf top) sq d' xs) s r) :
    Reads m (.text (endOf top) sq d (.chars w xs)) (w ++ s) r := by
  cases w with
  | nil => exact absurd rfl hw.1
  | cons c w =>
    obtain ⟨h1, h2⟩ := walk_cons hd
    refine .textChar (plain_at hw hs h1) ?_
    refine run_reads hx hs w [c] _ _ d' (fun hne => ?_) h2 h
    cases w with
    | nil => exact absurd rfl hne
    | cons e w => exact hw.tail

/-- What is not plain text begins with a parenthesis. -/
theorem expr_parens {x : Expr} (h : x.isText = true) : ∃ t, x.print = '(' :: '$' :: t := by
  cases x <;> first | (unfold Expr.print; exact ⟨_, rfl⟩) | (cases h; done)

theorem text_parens {top : Bool} {d : Nat} {xs : ExprText} (h : xs.Ok m top d) (hx : xs.startsPlain = false) (r : Str) :
    Parens (xs.print ++ tailOf top r) := by
  intro c hc
  cases xs with
  | nil =>
    unfold ExprText.print at hc
    cases top with
    | true => cases hc
    | false => simp [tailOf] at hc; exact .inr hc.symm
  | chars w xs => cases hx
  | expr x xs =>
    unfold ExprText.Ok at h
    obtain ⟨t, ht⟩ := expr_parens h.2.1
    unfold ExprText.print at hc
    rw [ht] at hc
    simp at hc; exact .inl hc.symm
  | set t x xs => unfold ExprText.print at hc; simp at hc; exact .inl hc.symm
  | «macro» a ps b xs => unfold ExprText.print at hc; simp at hc; exact .inl hc.symm
  | comment xs => unfold ExprText.print at hc; simp at hc; exact .inl hc.symm
  | str s xs => unfold ExprText.print at hc; simp at hc; exact .inl hc.symm
  | remark s xs => unfold ExprText.Ok at h; exact h.elim

theorem expr_noDirective {x : Expr} (h : x.isText = true) (r : Str) : NoDirective (x.print ++ r) := by
  cases x <;> first | (unfold Expr.print NoDirective; simp [pre_cons]; done) | (cases h; done)

theorem names_any : ∀ (as : List Str), (∀ a ∈ as, IsName a) → ∃ g t, as.flatMap (' ' :: ·) = g ++ t ∧ IsGap g ∧ Names as t := by
  intro as h
  cases as with
  | nil => exact ⟨[], [], rfl, isGap_nil, .nil⟩
  | cons a as =>
    obtain ⟨t, h1, h2⟩ := names_print (a :: as) h (by simp)
    exact ⟨[' '], t, h1, isGap_space, h2⟩

mutual
theorem expr_reads : ∀ x : Expr, x.Ok m → ReadsAs m x
  | .name late rs a, h => .of_atom (fun r hr => .name (printName_written (by unfold Expr.Ok at h; exact h)) hr) rfl
      (fun _ _ h => by cases h) (fun _ _ _ _ h => by cases h)
  | .int n, _ => .of_atom (fun r hr => by unfold Expr.print; exact printInt_reads n hr) rfl
      (fun _ _ h => by cases h) (fun _ _ _ _ h => by cases h)
  | .str s, h => .of_atom (fun r hr => by unfold Expr.print; exact printText_reads (by unfold Expr.Ok at h; exact h) hr) rfl
      (fun _ _ h => by cases h) (fun _ _ _ _ h => by cases h)
  | .list xs, h => by
    unfold Expr.Ok at h
    refine .of_body (fun r => ?_)
    obtain ⟨g, s, h1, h2, h3, h4, h5⟩ := items_reads xs h r
    unfold Expr.print
    rw [show ['('] ++ (xs.print ++ [')']) ++ r = '(' :: (g ++ s) by rw [← h1]; simp]
    exact .list h2 h5
  | .app f xs ms, h => by
    unfold Expr.Ok at h
    refine .of_body (fun r => ?_)
    obtain ⟨g, s, h1, h2, h3, h4, h5⟩ := args_reads f.fname xs h.2.1 ms (named_reads f.fname ms h.2.2) r
    unfold Expr.print
    rw [show ['(', '$', ' '] ++ (f.print ++ (xs.print ++ (ms.print ++ [')']))) ++ r =
      '(' :: '$' :: ([' '] ++ (f.print ++ (g ++ s))) by rw [← h1]; simp]
    exact .app isGap_space (.inl (by simp)) ((expr_reads f h.1).form g s h2 h3 h4) h5
  | .eval f xs ms, h => by
    unfold Expr.Ok at h
    refine .of_body (fun r => ?_)
    obtain ⟨g, s, h1, h2, h3, h4, h5⟩ := args_reads f.fname xs h.2.1 ms (named_reads f.fname ms h.2.2) r
    unfold Expr.print
    rw [show ['(', '$', '$', ' '] ++ (f.print ++ (xs.print ++ (ms.print ++ [')']))) ++ r =
      '(' :: '$' :: '$' :: ([' '] ++ (f.print ++ (g ++ s))) by rw [← h1]; simp]
    exact .eval isGap_space ((expr_reads f h.1).form g s h2 h3 h4) h5
  | .fn ps x, h => by
    unfold Expr.Ok at h
    obtain ⟨h1, h2, h3, h4⟩ := h
    have hx := (expr_reads x h3).body h4
    have hb : ∀ r, ∃ c, (x.print ++ r).head? = some c ∧ BodyChar c := fun r => body_head (hx r)
    have hp : ∀ r, (ps.print ++ (x.print ++ r)).head? = some '\\' := by
      intro r
      cases ps with
      | nil => exact absurd rfl (fun h => h2 h)
      | par l a ps => cases l <;> simp [ExprParams.print]
      | dflt l a x ps => cases l <;> simp [ExprParams.print]
      | dots ps => simp [ExprParams.print]
    refine .of_former (fun h => by cases h) (fun r hr => ?_) (fun h r hr => ?_)
    · unfold Expr.print
      rw [List.append_assoc]
      exact .fn (params_reads ps h1 _ (hb r)) (hx r) (hp r)
    · unfold Expr.print
      rw [List.append_assoc]
      cases ps with
      | nil => exact absurd rfl (fun h => h2 h)
      | par l a ps =>
        unfold ExprParams.Ok at h1
        cases l with
        | nil => exact notNamed_param (a := a) (t := ps.print ++ (x.print ++ r)) (by simp [ExprParams.print]) h1.2.1
        | cons b l =>
          refine notNamed_param (a := b) (t := '.' :: (l.flatMap (fun l => '\\' :: (l ++ ['.', '.'])) ++
            (['\\'] ++ (a ++ (['.'] ++ ps.print))) ++ (x.print ++ r))) ?_ (h1.1 b List.mem_cons_self)
          simp [ExprParams.print]
      | dflt l a y ps =>
        unfold ExprParams.Ok at h1
        cases l with
        | nil => cases h
        | cons b l =>
          refine notNamed_param (a := b) (t := '.' :: (l.flatMap (fun l => '\\' :: (l ++ ['.', '.'])) ++
            (['\\'] ++ (a ++ ([':'] ++ (y.print ++ (['.'] ++ ps.print))))) ++ (x.print ++ r))) ?_
            (h1.1 b List.mem_cons_self)
          simp [ExprParams.print]
      | dots ps =>
        exact notNamed_dot (c := '.') (t := '.' :: '.' :: (ps.print ++ (x.print ++ r))) (by simp [ExprParams.print])
          (by unfold NameStart; decide)
  | .fnOf late rs a x, h => by
    unfold Expr.Ok at h
    obtain ⟨h1, h2, h3⟩ := h
    have hw := printName_written h1
    have hx := (expr_reads x h2).body h3
    refine .of_former (fun h => by cases h) (fun r hr => ?_) (fun h r hr => ?_)
    · have := Reads.fnOf hw isGap_nil isGap_nil isGap_nil (hx r)
      unfold Expr.print
      simpa using this
    · exact notNamed_dot (c := '(') (t := printName late rs a ++ ([')', '.'] ++ x.print) ++ r)
        (by simp [Expr.print]) (by unfold NameStart; decide)
  | .cond c x y, h => by
    unfold Expr.Ok at h
    obtain ⟨h1, h2, h3, h4, h5⟩ := h
    have ic := (expr_reads c h1).former h2
    have ix := expr_reads x h3
    have iy := expr_reads y h5
    refine ⟨(fun h => by cases h), (fun h => by cases h), fun g r hg hr he => ?_, fun h r hr => ?_⟩
    · unfold Expr.print
      have := Reads.cond (g1 := [' ']) (g2 := [' ']) (g3 := [' ']) (g4 := [' ']) (ix.former h4 _ (ends_space _))
        (ic _ (ends_space _)) (iy.form g r hg hr he) isGap_space isGap_space isGap_space isGap_space
      simpa using this
    · unfold Expr.print
      have := ix.named h (' ' :: ('?' :: ' ' :: (c.print ++ ([' ', '|', ' '] ++ y.print)) ++ r)) (ends_space _)
      simpa using this
  | .when c x, h => by
    unfold Expr.Ok at h
    obtain ⟨h1, h2, h3, h4⟩ := h
    have ic := (expr_reads c h1).former h2
    have ix := expr_reads x h3
    refine ⟨(fun h => by cases h), (fun h => by cases h), fun g r hg hr he => ?_, fun h r hr => ?_⟩
    · unfold Expr.print
      have := Reads.when (g1 := [' ']) (g2 := [' ']) (ix.former h4 _ (ends_space _)) (ic _ he) isGap_space isGap_space hg
        hr.1 hr.2.2
      simpa using this
    · unfold Expr.print
      have := ix.named h (' ' :: ('?' :: ' ' :: c.print ++ r)) (ends_space _)
      simpa using this
  | .letIn t x y, h => by
    unfold Expr.Ok at h
    obtain ⟨h1, h2, h3⟩ := h
    have ix := expr_reads x h2
    have iy := expr_reads y h3
    refine .of_body (fun r => ?_)
    have hy := iy.form [] (')' :: r) isGap_nil (stops_paren r) (ends_paren r)
    have hy' := iy.begins isGap_nil (stops_paren r) (ends_paren r)
    have hx := ix.form [' '] _ isGap_space hy'.stops (ends_space _)
    have := Reads.letIn (g1 := [' ']) (g2 := [' ']) isGap_space (target_written h1) isGap_space hx hy .plain
      (.inl (noName_cons (by decide) _))
    unfold Expr.print
    simpa using this
  | .emit late rs a, h => by
    unfold Expr.Ok at h
    refine .of_body (fun r => ?_)
    have := Reads.emit (m := m) (r := r) (g1 := [' ']) (g2 := []) isGap_space (printName_written h) isGap_nil
    unfold Expr.print
    simpa using this
  | .emitWith late rs a f, h => by
    unfold Expr.Ok at h
    refine .of_body (fun r => ?_)
    have hf := (expr_reads f h.2).form [] (')' :: r) isGap_nil (stops_paren r) (ends_paren r)
    have := Reads.emitWith (g1 := [' ']) (g2 := [' ']) isGap_space (printName_written h.1) isGap_space (ends_space _) hf .plain
    unfold Expr.print
    simpa using this

  | .code xs, h => by
    unfold Expr.Ok at h
    refine .of_body (fun r => ?_)
    have := text_reads xs false 0 0 h r (fun h => by cases h)
    unfold Expr.print
    have := Reads.code this
    simpa [tailOf] using this
  | .python xs, h => by
    unfold Expr.Ok at h
    refine .of_body (fun r => ?_)
    have := text_reads xs false 0 0 h r (fun h => by cases h)
    unfold Expr.print
    have := Reads.python this
    simpa [tailOf] using this

theorem items_reads : ∀ (xs : ExprArgs), xs.ItemsOk m → ∀ r, ∃ g s, xs.print ++ ')' :: r = g ++ s ∧ IsGap g ∧ Stops s ∧
    Ended (g ++ s) ∧ Reads m (.items xs) s r
  | .nil, _, r => args_follow _ _ ⟨')' :: r, .inl ⟨rfl, rfl⟩, stops_paren r, .itemsEnd⟩
  | .pos x xs, h, r => by
    unfold ExprArgs.ItemsOk at h
    obtain ⟨g, s, h1, h2, h3, h4, h5⟩ := items_reads xs h.2 r
    have ix := expr_reads x h.1
    refine args_follow _ _ ⟨x.print ++ (g ++ s), .inr ?_, (ix.begins h2 h3 h4).stops, .item (ix.form g s h2 h3 h4) h5⟩
    unfold ExprArgs.print
    rw [← h1]; simp
  | .embed x xs, h, r => by
    unfold ExprArgs.ItemsOk at h
    obtain ⟨g, s, h1, h2, h3, h4, h5⟩ := items_reads xs h.2 r
    have ix := expr_reads x h.1
    refine args_follow _ _ ⟨'*' :: (x.print ++ (g ++ s)), .inr ?_, ⟨noGap_cons (by decide) _, by simp, by simp⟩,
      .itemEmbed (g := []) isGap_nil (ix.form g s h2 h3 h4) h5⟩
    unfold ExprArgs.print
    rw [← h1]; simp

theorem args_reads : ∀ (fn : Option Str) (xs : ExprArgs), xs.Ok m → ∀ (ms : ExprNamed),
    (∀ r, ∃ g s, ms.print ++ ')' :: r = g ++ s ∧ IsGap g ∧ Stops s ∧ Ended (g ++ s) ∧ Reads m (.args fn .nil ms) s r) →
    ∀ r, ∃ g s, xs.print ++ (ms.print ++ ')' :: r) = g ++ s ∧ IsGap g ∧ Stops s ∧ Ended (g ++ s) ∧
      Reads m (.args fn xs ms) s r
  | fn, .nil, _, ms, hm, r => by
    unfold ExprArgs.print
    exact hm r
  | fn, .pos x xs, h, ms, hm, r => by
    unfold ExprArgs.Ok at h
    obtain ⟨g, s, h1, h2, h3, h4, h5⟩ := args_reads fn xs h.2.2 ms hm r
    have ix := expr_reads x h.1
    refine args_follow _ _ ⟨x.print ++ (g ++ s), .inr ?_, (ix.begins h2 h3 h4).stops,
      .arg (ix.named h.2.1 _ h4) (ix.form g s h2 h3 h4) h5⟩
    unfold ExprArgs.print
    rw [← h1]; simp
  | fn, .embed x xs, h, ms, hm, r => by
    unfold ExprArgs.Ok at h
    obtain ⟨g, s, h1, h2, h3, h4, h5⟩ := args_reads fn xs h.2 ms hm r
    have ix := expr_reads x h.1
    refine args_follow _ _ ⟨'*' :: (x.print ++ (g ++ s)), .inr ?_, ⟨noGap_cons (by decide) _, by simp, by simp⟩,
      .argEmbed (g := []) isGap_nil (ix.form g s h2 h3 h4) h5⟩
    unfold ExprArgs.print
    rw [← h1]; simp

theorem named_reads : ∀ (fn : Option Str) (ms : ExprNamed), ms.Ok m fn → ∀ r, ∃ g s, ms.print ++ ')' :: r = g ++ s ∧ IsGap g ∧
    Stops s ∧ Ended (g ++ s) ∧ Reads m (.args fn .nil ms) s r
  | fn, .nil, _, r => args_follow _ _ ⟨')' :: r, .inl ⟨rfl, rfl⟩, stops_paren r, .argsEnd⟩
  | fn, .cons a x xs, h, r => by
    unfold ExprNamed.Ok at h
    obtain ⟨ha, hf, hx, hxs⟩ := h
    obtain ⟨g, s, h1, h2, h3, h4, h5⟩ := named_reads fn xs hxs r
    have ix := expr_reads x hx
    refine args_follow _ _ ⟨'\\' :: (a ++ ([' '] ++ (x.print ++ (g ++ s)))), .inr ?_,
      ⟨noGap_cons (by decide) _, by simp, by simp⟩,
      .argNamed ha hf isGap_space (noName_cons (by decide) _) (ix.form g s h2 h3 h4) h5⟩
    unfold ExprNamed.print
    rw [← h1]; simp

theorem params_reads : ∀ (ps : ExprParams), ps.Ok m → ∀ r, (∃ c, r.head? = some c ∧ BodyChar c) →
    Reads m (.params [] ps) (ps.print ++ r) r
  | .nil, _, r, hr => .paramsEnd (by
      obtain ⟨c, k1, k2⟩ := hr
      unfold ExprParams.print; rw [List.nil_append, k1]; exact bodyChar_ne k2 (by unfold BodyChar; decide))
  | .par l a ps, h, r, hr => by
    unfold ExprParams.Ok at h
    have ip := params_reads ps h.2.2 r hr
    obtain ⟨k1, k2, -⟩ := head_stop (params_head ps r hr)
    have := late_reads l [] h.1 (.par (l := [] ++ l) (g := []) h.2.1 isGap_nil k1 k2 ip)
    unfold ExprParams.print
    simpa using this
  | .dflt l a x ps, h, r, hr => by
    unfold ExprParams.Ok at h
    have ip := params_reads ps h.2.2.2 r hr
    obtain ⟨k1, k2, c, k3, k4⟩ := head_stop (params_head ps r hr)
    have ix := (expr_reads x h.2.2.1).form [] ('.' :: (ps.print ++ r)) isGap_nil (stops_dot _) (ends_dot k3 k4)
    have := late_reads l [] h.1 (.dflt (l := [] ++ l) (g := []) h.2.1 isGap_nil k1 k2 ix ip)
    unfold ExprParams.print
    simpa using this
  | .dots ps, h, r, hr => by
    unfold ExprParams.Ok at h
    have ip := params_reads ps h r hr
    obtain ⟨k1, -⟩ := head_stop (params_head ps r hr)
    have := Reads.dots (g := []) isGap_nil k1 ip
    unfold ExprParams.print
    simpa using this

theorem text_reads : ∀ (xs : ExprText) (top : Bool) (sq d : Nat), xs.Ok m top d → ∀ r, (top = true → r = []) →
    Reads m (.text (endOf top) sq d xs) (xs.print ++ tailOf top r) r
  | .nil, top, sq, d, h, r, hr => by
    unfold ExprText.Ok at h
    unfold ExprText.print
    refine .textEnd ?_
    cases top with
    | true => cases hr rfl; exact .file
    | false =>
      rcases h with h | h
      · cases h
      · subst h; exact .paren
  | .chars w xs, top, sq, d, h, r, hr => by
    unfold ExprText.Ok at h
    obtain ⟨h1, h2, d', h3, h4⟩ := h
    unfold ExprText.print
    rw [List.append_assoc]
    exact chars_reads h1 h2 (text_parens h4 h2 r) h3 (fun sq => text_reads xs top sq d' h4 r hr)
  | .expr x xs, top, sq, d, h, r, hr => by
    unfold ExprText.Ok at h
    obtain ⟨h1, h2, h3⟩ := h
    have hb : x.isBody = true := by cases x <;> first | rfl | (cases h2; done)
    have ix := (expr_reads x h1).body hb (xs.print ++ tailOf top r)
    unfold ExprText.print
    rw [List.append_assoc]
    refine .textExpr ix ?_ (expr_noDirective h2 _) (text_reads xs top sq d h3 r hr)
    obtain ⟨t, ht⟩ := expr_parens h2
    rw [ht]
    exact ⟨_, rfl⟩
  | .set t x xs, top, sq, d, h, r, hr => by
    unfold ExprText.Ok at h
    obtain ⟨h1, h2, h3⟩ := h
    have hx := (expr_reads x h2).form [] (')' :: (xs.print ++ tailOf top r)) isGap_nil (stops_paren _) (ends_paren _)
    have := Reads.textSet (g1 := [' ']) (g2 := [' ']) isGap_space (target_written h1) isGap_space hx .plain
      (.inl (noName_cons (by decide) _)) (text_reads xs top sq d h3 r hr)
    unfold ExprText.print
    simpa using this
  | .macro a ps b xs, top, sq, d, h, r, hr => by
    unfold ExprText.Ok at h
    obtain ⟨h1, h2, h3, h4, h5⟩ := h
    obtain ⟨g, t, k1, k2, k3⟩ := names_any ps h2
    have := Reads.textMacro (g1 := [' ']) (g2 := []) isGap_space h1 isGap_nil k2 k3 h3 h4 (text_reads xs top sq d h5 r hr)
    unfold ExprText.print
    rw [k1]
    simpa using this
  | .comment xs, top, sq, d, h, r, hr => by
    unfold ExprText.Ok at h
    have := Reads.textComment (b := []) .nil (fun _ h => by cases h) (text_reads xs top sq d h r hr)
    unfold ExprText.print
    simpa using this
  | .str s xs, top, sq, d, h, r, hr => by
    unfold ExprText.Ok at h
    have := Reads.textQuote h.1 h.2.1 (text_reads xs top sq d h.2.2 r hr)
    unfold ExprText.print
    simpa using this
  | .remark _ _, _, _, _, h, _, _ => by unfold ExprText.Ok at h; exact h.elim
end

end Yupp
