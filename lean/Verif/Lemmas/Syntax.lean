import Verif.Spec.Syntax
import Verif.Props.Quote
import Verif.Props.Number
/-!
# Reading written expressions

The parser follows the grammar of `Spec/Syntax`.
-/

namespace Yupp

/-! ## Computations that succeed for every sufficient nesting -/

/-- The rule returns `a` and leaves the tables alone, for every sufficient nesting. -/
def Gives (e : PEnv) (f : Parsers → PM α) (a : α) : Prop :=
  ∃ N, ∀ n, N ≤ n → ∀ st, f (P e n) st = .ok (a, st)

variable {e : PEnv}

theorem Gives.pure (a : α) : Gives e (fun _ => (Pure.pure a : PM α)) a := ⟨0, fun _ _ _ => rfl⟩

theorem Gives.bind {f : Parsers → PM α} {g : Parsers → α → PM β} {a : α} {b : β} (hf : Gives e f a)
    (hg : Gives e (fun p => g p a) b) : Gives e (fun p => f p >>= g p) b := by
  obtain ⟨M, hM⟩ := hf
  obtain ⟨N, hN⟩ := hg
  refine ⟨max M N, fun n hn st => ?_⟩
  exact (bind_ok (hM n (by omega) st)).trans (hN n (by omega) st)

theorem Gives.of_eq {f g : Parsers → PM α} {a : α} (hg : Gives e g a) (h : ∀ p, f p = g p) : Gives e f a := by
  obtain ⟨N, hN⟩ := hg
  exact ⟨N, fun n hn st => by rw [h]; exact hN n hn st⟩

theorem Gives.const {m : PM α} {a : α} (h : ∀ st, m st = .ok (a, st)) : Gives e (fun _ => m) a :=
  ⟨0, fun _ _ st => h st⟩

theorem Gives.step {f : Parsers → PM α} {g : Parsers → PM α} {a : α} (hg : Gives e g a)
    (h : ∀ p, f (p.step e) = g p) : Gives e f a := by
  obtain ⟨N, hN⟩ := hg
  refine ⟨N + 1, fun n hn st => ?_⟩
  cases n with
  | zero => omega
  | succ n =>
    change f ((P e n).step e) st = _
    rw [h]
    exact hN n (by omega) st

theorem Gives.form {s : Src} {a : Src × Option Node} (h : Gives e (fun p => psForm e p s) a) :
    Gives e (fun p => p.form s) a := h.step (fun _ => rfl)

theorem Gives.items {s : Src} {l : List Node} {a : Src × List Node} (h : Gives e (fun p => psItems p s l) a) :
    Gives e (fun p => p.items s l) a := h.step (fun _ => rfl)

theorem Gives.args {fn : Option Src} {s : Src} {l : List Node} {m : List (Src × Node)}
    {a : Src × List Node × List (Src × Node)} (h : Gives e (fun p => psArgs p fn s l m) a) :
    Gives e (fun p => p.args fn s l m) a := h.step (fun _ => rfl)

theorem Gives.bounds {s : Src} {b : List Bound} {l : List Src} {a : Src × List Bound}
    (h : Gives e (fun p => psBounds p s b l) a) : Gives e (fun p => p.bounds s b l) a := h.step (fun _ => rfl)

theorem Gives.orElse {r : Parsers → PM (Src × Option α)} {next : Parsers → Src → PM (Src × Option α)}
    {s : Src} {x : α} (h : Gives e r (s, some x)) :
    Gives e (fun p => Yupp.orElse (r p) (next p)) (s, some x) := by
  unfold Yupp.orElse
  exact h.bind (.pure _)

/-! ## Text -/

theorem at_eq (s : Src) (c : Char) : s.at c = (s.txt.head? == some c) := by
  unfold Src.at Src.starts
  cases s.txt with
  | nil => rfl
  | cons d t =>
    simp only [List.isPrefixOf_cons_cons, List.isPrefixOf_nil_left, Bool.and_true, List.head?_cons]
    rw [Bool.eq_iff_iff]
    simp only [beq_iff_eq, Option.some.injEq]
    exact eq_comm

theorem at_true {s : Src} {c : Char} {t : Str} (h : s.txt = c :: t) : s.at c = true := by
  rw [at_eq, h]; simp

theorem at_false {s : Src} {c : Char} (h : s.txt.head? ≠ some c) : s.at c = false := by
  rw [at_eq]; simp [h]

theorem gap_of {s : Src} {g r : Str} (hs : s.txt = g ++ r) (hg : IsGap g) (hr : NoGap r) : (psGap s).txt = r := by
  rw [psGap_append hs hg hr]; exact Src.drop_pre s _ _ hs

theorem isGap_nil : IsGap [] := fun _ h => by cases h

theorem gap_same {s : Src} (hr : NoGap s.txt) : psGap s = s := by
  rw [psGap_append (g := []) rfl isGap_nil hr]; exact s.drop_zero

theorem starts_pre {s : Src} {k t : Str} (h : s.txt = k ++ t) : s.starts k = true := by
  unfold Src.starts
  rw [List.isPrefixOf_iff_prefix, h]
  exact List.prefix_append _ _

theorem starts_not {s : Src} {k : Str} (h : ¬ k <+: s.txt) : s.starts k = false := by
  unfold Src.starts
  cases hk : k.isPrefixOf s.txt with
  | false => rfl
  | true => exact absurd (List.isPrefixOf_iff_prefix.mp hk) h

theorem pre_cons {c d : Char} {k t : Str} : (c :: k) <+: (d :: t) ↔ c = d ∧ k <+: t := by
  rw [List.cons_prefix_cons]

theorem starts_head {s : Src} {c : Char} {k : Str} (h : s.txt.head? ≠ some c) : s.starts (c :: k) = false := by
  refine starts_not ?_
  intro hp
  cases ht : s.txt with
  | nil => rw [ht] at hp; exact absurd (List.prefix_nil.mp hp) (by simp)
  | cons d t =>
    rw [ht] at hp h
    exact h (by rw [(pre_cons.mp hp).1]; rfl)

theorem starts_second {s : Src} {c d : Char} {k t : Str} (hs : s.txt = c :: t) (h : t.head? ≠ some d) :
    s.starts (c :: d :: k) = false := by
  refine starts_not ?_
  intro hp
  rw [hs] at hp
  have hp := (pre_cons.mp hp).2
  cases t with
  | nil => exact absurd (List.prefix_nil.mp hp) (by simp)
  | cons d' t => exact h (by rw [(pre_cons.mp hp).1]; rfl)

/-- Characters an expression may begin with. -/
def StartChar (c : Char) : Prop := NameChar c ∨ c = '+' ∨ c = '&' ∨ c = '"' ∨ c = '\'' ∨ c = '\\' ∨ c = '(' ∨
  c = '[' ∨ c = ']' ∨ c = ',' ∨ c = '{'

/-- Characters a body may begin with. -/
def BodyChar (c : Char) : Prop := c = '(' ∨ c = '[' ∨ c = ']' ∨ c = ',' ∨ c = '{'

theorem BodyChar.start {c : Char} (h : BodyChar c) : StartChar c := by
  rcases h with rfl | rfl | rfl | rfl | rfl <;> simp [StartChar]

instance (c : Char) : Decidable (StartChar c) := by
  unfold StartChar NameChar NameStart; infer_instance

/-- The text begins with such a character. -/
def Begins (s : Str) : Prop := ∃ c t, s = c :: t ∧ StartChar c

theorem Begins.ne {s : Str} (h : Begins s) (d : Char) (hd : ¬ StartChar d) : s.head? ≠ some d := by
  obtain ⟨c, t, rfl, hc⟩ := h
  intro h
  simp only [List.head?_cons, Option.some.injEq] at h
  exact hd (h ▸ hc)

theorem Begins.noGap {s : Str} (h : Begins s) : NoGap s := by
  intro c hc hg
  exact h.ne c (by rcases hg with rfl | rfl | rfl | rfl <;> decide) hc

theorem noGap_cons {c : Char} (h : ¬ GapChar c) (t : Str) : NoGap (c :: t) := by
  intro d hd; simp only [List.head?_cons, Option.some.injEq] at hd; exact hd ▸ h

theorem noName_cons {c : Char} (h : ¬ NameChar c) (t : Str) : NoName (c :: t) := by
  intro d hd; simp only [List.head?_cons, Option.some.injEq] at hd; exact hd ▸ h

instance (c : Char) : Decidable (GapChar c) := by unfold GapChar; infer_instance
instance (c : Char) : Decidable (NameChar c) := by unfold NameChar NameStart; infer_instance

theorem WrittenName.begins {late : Bool} {rs : List Str} {a t r : Str} (h : WrittenName late rs a t) :
    Begins (t ++ r) := by
  cases h with
  | plain ha => obtain ⟨c, u, rfl, hc, -⟩ := ha; exact ⟨c, _, rfl, .inl (.inl hc)⟩
  | region ha _ => obtain ⟨c, u, rfl, hc, -⟩ := ha; exact ⟨c, _, rfl, .inl (.inl hc)⟩
  | late _ => exact ⟨'&', _, rfl, by decide⟩

theorem Signed.begins {g b r : Str} {m : Nat} {v : Int} (h : Signed g m v) (hb : Literal b m) :
    Begins (g ++ (b ++ r)) := by
  obtain ⟨⟨c, t, hct, hc⟩, -⟩ := literal_ends hb
  cases h with
  | none => subst hct; exact ⟨c, _, rfl, .inl (nameChar_of_digVal (by omega))⟩
  | plus => exact ⟨'+', _, rfl, by decide⟩
  | minus => exact ⟨'-', _, rfl, by decide⟩

/-- Where written things begin. -/
def BeginsFor : Cat → Str → Prop
  | .form _, s => Begins s
  | .former _, s => Begins s
  | .body _, s => ∃ c t, s = c :: t ∧ BodyChar c
  | .items _, s => Begins s ∨ s.head? = some ')' ∨ s.head? = some '*'
  | .args _ _ _, s => Begins s ∨ s.head? = some ')' ∨ s.head? = some '*'
  | .params _ _, s => s.head? = some '\\' ∨ True
  | .text .., _ => True
  | .run .., _ => True

theorem begins_head {s : Str} {c : Char} (h : s.head? = some c) (hc : StartChar c) : Begins s := by
  cases s with
  | nil => cases h
  | cons d t => simp only [List.head?_cons, Option.some.injEq] at h; exact ⟨d, t, rfl, h ▸ hc⟩

theorem Reads.begins {mo : Mode} {k : Cat} {s r : Str} (h : Reads mo k s r) : BeginsFor k s := by
  induction h with
  | one _ _ _ _ ih => exact ih
  | cond _ _ _ _ _ _ _ ih _ _ => exact ih
  | when _ _ _ _ _ _ _ ih _ => exact ih
  | name h _ => exact h.begins
  | int hg hb _ _ => exact hg.begins hb
  | literal hq _ _ => rcases hq with rfl | rfl <;> exact ⟨_, _, rfl, by decide⟩
  | quote _ _ => exact ⟨_, _, rfl, by decide⟩
  | quote' _ _ => exact ⟨_, _, rfl, by decide⟩
  | fn _ _ h _ _ => exact begins_head h (by decide)
  | fnOf _ _ _ _ _ _ => exact ⟨_, _, rfl, by decide⟩
  | former _ ih => obtain ⟨c, t, rfl, hc⟩ := ih; exact ⟨c, t, rfl, hc.start⟩
  | list _ _ _ => exact ⟨_, _, rfl, .inl rfl⟩
  | app _ _ _ _ _ _ => exact ⟨_, _, rfl, .inl rfl⟩
  | eval _ _ _ _ _ => exact ⟨_, _, rfl, .inl rfl⟩
  | letIn _ _ _ _ _ _ _ _ _ => exact ⟨_, _, rfl, .inl rfl⟩
  | emit _ _ _ => exact ⟨_, _, rfl, .inl rfl⟩
  | emitWith _ _ _ _ _ _ _ => exact ⟨_, _, rfl, .inl rfl⟩
  | itemsEnd => exact .inr (.inl rfl)
  | item _ _ ih _ => exact .inl ih
  | itemEmbed _ _ _ _ _ => exact .inr (.inr rfl)
  | argsEnd => exact .inr (.inl rfl)
  | argsTag _ _ => exact .inl ⟨_, _, rfl, by decide⟩
  | arg _ _ _ ih _ => exact .inl ih
  | argEmbed _ _ _ _ _ => exact .inr (.inr rfl)
  | argNamed _ _ _ _ _ _ _ _ => exact .inl ⟨_, _, rfl, by decide⟩
  | paramsEnd _ => exact .inr trivial
  | late _ _ _ _ => exact .inl rfl
  | par _ _ _ _ _ _ => exact .inl rfl
  | dflt _ _ _ _ _ _ _ _ => exact .inl rfl
  | dots _ _ _ _ => exact .inl rfl
  | square _ _ => exact ⟨_, _, rfl, .inr (.inl rfl)⟩
  | code _ _ => exact ⟨_, _, rfl, .inl rfl⟩
  | comma _ _ => exact ⟨_, _, rfl, .inr (.inr (.inr (.inl rfl)))⟩
  | lines _ _ _ _ => exact ⟨_, _, rfl, .inr (.inr (.inl rfl))⟩
  | bracket _ _ _ => exact ⟨_, _, rfl, .inr (.inr (.inl rfl))⟩
  | brace _ _ => exact ⟨_, _, rfl, .inr (.inr (.inr (.inr rfl)))⟩
  | python _ _ => exact ⟨_, _, rfl, .inl rfl⟩
  | _ => exact trivial

/-! ## Alternatives that do not match -/

theorem cStrLen_none {t : Str} (h1 : t.head? ≠ some '"') (h2 : t.head? ≠ some '\'') : cStrLen t = none := by
  rw [cStrLen.eq_def]
  split
  · exact absurd rfl h1
  · exact absurd rfl h2
  · rfl

theorem psQuoted_none {s : Src} (h1 : s.starts kBquote = false) (h2 : s.starts kQuote = false) :
    psQuoted s = noMatch s := by
  unfold psQuoted
  simp only [h1, h2, Bool.false_eq_true, if_false, if_true]

/-- A quote needs a quotation mark or a parenthesis. -/
theorem psQuote_none {s : Src} (h1 : cStrLen s.txt = none) (h2 : pyStrLen s.txt = .no)
    (h3 : s.starts kBquote = false) (h4 : s.starts kQuote = false) : psQuote e s = noMatch s := by
  unfold psQuote
  simp only [h1, h2, psQuoted_none h3 h4, ite_self]

theorem psNumber_none {s : Src} (h : ∀ c, s.txt.head? = some c → isDig c = false ∧ c ≠ '+' ∧ c ≠ '-' ∧ c ≠ '.' ∧
    isBlank c = false) : psNumber e s = noMatch s := by
  have h1 : floatLen s.txt = 0 ∧ intLen s.txt = 0 := by
    cases ht : s.txt with
    | nil => exact ⟨rfl, rfl⟩
    | cons c t =>
      obtain ⟨ha, hb, hc, hd, he⟩ := h c (by rw [ht]; rfl)
      have hs : signLen (c :: t) = 0 := by simp [signLen, hb, hc]
      have h0 : spanLen isBlank (c :: t) = 0 := by simp [spanLen, he]
      have hsp : (c == ' ') = false := by
        cases hx : (c == ' ') with
        | false => rfl
        | true => rw [beq_iff_eq] at hx; subst hx; exact absurd he (by decide)
      have h00 : spanLen (· == ' ') (c :: t) = 0 := by simp only [spanLen, List.takeWhile_cons, hsp]; rfl
      have h1 : spanLen isDig (c :: t) = 0 := by simp [spanLen, ha]
      constructor
      · unfold floatLen
        simp only [hs, h00, Nat.add_zero, List.drop_zero, h1]
        split
        · rename_i h; simp only [List.cons.injEq] at h; exact absurd h.1 hd
        · rfl
      · unfold intLen
        have hib : (intBody (c :: t)).1 = 0 := by
          have hz : c ≠ '0' := by rintro rfl; exact absurd ha (by decide)
          rw [intBody.eq_def]
          split
          · rename_i h; simp only [List.cons.injEq] at h; exact absurd h.1 hz
          · rename_i h
            simp only [List.cons.injEq] at h
            obtain ⟨rfl, rfl⟩ := h
            rw [if_neg]
            rintro ⟨x, y⟩
            have : isDig c = true := by
              unfold isDig
              rw [toNat_le] at x y
              simp only [Bool.and_eq_true, decide_eq_true_eq, toNat_le]
              have h1 : '1'.toNat = 49 := rfl
              have h0 : '0'.toNat = 48 := rfl
              exact ⟨by omega, y⟩
            rw [ha] at this; cases this
          · rfl
        simp only [hs, h0, Nat.add_zero, List.drop_zero, hib, if_true]
  unfold psNumber
  simp only [h1.1, h1.2, ne_eq, not_true_eq_false, if_false]

theorem psVar_none {s : Src} (h1 : s.txt.head? ≠ some '&') (h2 : ∀ c, s.txt.head? = some c → ¬ NameStart c) :
    psVar s = noMatch s := by
  unfold psVar
  rw [at_false h1, psAtom_none_of h2]
  rfl

theorem psLambda_none {p : Parsers} {s : Src} (h : s.txt.head? ≠ some '\\') : psLambda p s = noMatch s := by
  unfold psLambda
  rw [at_false h]
  rfl

/-- What begins with a parenthesis and is no quote is a body. -/
theorem psFormer_paren {s : Src} {t : Str} (hs : s.txt = '(' :: t) (h1 : t.head? ≠ some '`')
    (h2 : s.starts kQuote = false) (p : Parsers) : psFormer e p s = psLForm p s := by
  have hq : psQuote e s = noMatch s := by
    refine psQuote_none (cStrLen_none (by rw [hs]; simp) (by rw [hs]; simp)) ?_ (starts_second hs h1) h2
    rw [hs]; rfl
  have hn : psNumber e s = noMatch s := psNumber_none (fun c hc => by
    rw [hs] at hc; simp only [List.head?_cons, Option.some.injEq] at hc; subst hc; decide)
  have hv : psVar s = noMatch s := psVar_none (by rw [hs]; simp) (fun c hc => by
    rw [hs] at hc; simp only [List.head?_cons, Option.some.injEq] at hc; subst hc; unfold NameStart; decide)
  unfold psFormer psValue
  rw [hq, noMatch_orElse, hn, noMatch_orElse, hv]
  change orElse (psLambda p s) (fun s => psLForm p s) = _
  rw [psLambda_none (by rw [hs]; simp), noMatch_orElse]

theorem psLForm_paren {s : Src} {t : Str} (hs : s.txt = '(' :: t) (h1 : s.starts kCode = false)
    (h2 : s.starts kInfix = false) (p : Parsers) :
    psLForm p s = orElse (psLet p s) fun s => orElse (psApplication p s) fun s => psList p s := by
  have hc : psCode p s = noMatch s := by
    unfold psCode
    rw [at_false (by rw [hs]; simp), at_false (by rw [hs]; simp), h1,
      show s.starts kComma = false from starts_head (by rw [hs]; simp)]
    rfl
  have hi : psInfix p s = noMatch s := by
    unfold psInfix
    rw [at_false (by rw [hs]; simp), h2]
    rfl
  unfold psLForm
  rw [hc, noMatch_orElse, hi, noMatch_orElse]

/-! ## Names and literals -/

theorem pyStrLen_no {t : Str} (h : ∀ c u, t.drop (pyPrefix t) = c :: u → c ≠ '\'' ∧ c ≠ '"') :
    pyStrLen t = .no := by
  unfold pyStrLen
  dsimp only
  split
  · rfl
  · rename_i q u hq
    obtain ⟨h1, h2⟩ := h q u hq
    rw [if_neg]
    rintro (h | h)
    · exact h1 h
    · exact h2 h

theorem nameChar_not_quote {c : Char} (h : NameChar c) : c ≠ '\'' ∧ c ≠ '"' := by
  constructor <;> (rintro rfl; exact absurd h (by decide))

theorem pyPrefix_name {a r : Str} (ha : IsName a) (hr : NoName r) : pyPrefix (a ++ r) ≤ a.length := by
  obtain ⟨c, w, rfl, hc, hw⟩ := ha
  cases w with
  | nil =>
    simp only [List.cons_append, List.nil_append, List.length_cons, List.length_nil]
    cases r with
    | nil => unfold pyPrefix; grind
    | cons d r =>
      have hd := hr d rfl
      have h1 : d ≠ 'r' := by rintro rfl; exact hd (by decide)
      have h2 : d ≠ 'R' := by rintro rfl; exact hd (by decide)
      unfold pyPrefix
      simp only [h1, h2, or_self, if_false]
      grind
  | cons d w =>
    simp only [List.length_cons]
    have : pyPrefix (c :: d :: w ++ r) ≤ 2 := by unfold pyPrefix; grind
    omega

theorem pyStrLen_name {a r : Str} (ha : IsName a) (hr : NoName r)
    (hq : ∀ c, r.head? = some c → c ≠ '\'' ∧ c ≠ '"') : pyStrLen (a ++ r) = .no := by
  refine pyStrLen_no (fun c u h => ?_)
  have hle := pyPrefix_name ha hr
  rw [List.drop_append_of_le_length hle] at h
  cases hd : a.drop (pyPrefix (a ++ r)) with
  | nil => rw [hd] at h; exact hq c (by rw [show r = c :: u from h]; rfl)
  | cons d v =>
    rw [hd] at h
    simp only [List.cons_append, List.cons.injEq] at h
    obtain ⟨rfl, -⟩ := h
    have hm : d ∈ a := List.mem_of_mem_drop (by rw [hd]; exact List.mem_cons_self)
    obtain ⟨c, w, rfl, hc, hw⟩ := ha
    rcases List.mem_cons.mp hm with rfl | hm
    · exact nameChar_not_quote (.inl hc)
    · exact nameChar_not_quote (hw _ hm)

theorem nameStart_facts {c : Char} (h : NameStart c) : isDig c = false ∧ c ≠ '+' ∧ c ≠ '-' ∧ c ≠ '.' ∧
    isBlank c = false ∧ c ≠ '"' ∧ c ≠ '\'' ∧ c ≠ '(' ∧ c ≠ '&' := by
  have hne : ∀ d, ¬ NameStart d → c ≠ d := by rintro d hd rfl; exact hd h
  refine ⟨?_, hne _ ?_, hne _ ?_, hne _ ?_, ?_, hne _ ?_, hne _ ?_, hne _ ?_, hne _ ?_⟩
  · unfold NameStart at h
    unfold isDig
    simp only [toNat_le] at h
    have h0 : '0'.toNat = 48 := rfl
    have h9 : '9'.toNat = 57 := rfl
    have ha : 'a'.toNat = 97 := rfl
    have hA : 'A'.toNat = 65 := rfl
    rw [Bool.and_eq_false_iff]
    right
    simp only [decide_eq_false_iff_not, toNat_le]
    rcases h with h | h | rfl
    · omega
    · omega
    · decide
  · unfold NameStart; decide
  · unfold NameStart; decide
  · unfold NameStart; decide
  · cases hb : isBlank c with
    | false => rfl
    | true =>
      exfalso
      unfold isBlank at hb
      simp only [Bool.or_eq_true, beq_iff_eq] at hb
      rcases hb with rfl | rfl <;> (revert h; unfold NameStart; decide)
  · unfold NameStart; decide
  · unfold NameStart; decide
  · unfold NameStart; decide
  · unfold NameStart; decide

/-- A text that begins with a name has no value in front. -/
theorem psValue_name {s : Src} {a r : Str} (hs : s.txt = a ++ r) (ha : IsName a) (hr : NoName r)
    (hq : ∀ c, r.head? = some c → c ≠ '\'' ∧ c ≠ '"') : psValue e s = noMatch s := by
  have hpy : pyStrLen s.txt = .no := by rw [hs]; exact pyStrLen_name ha hr hq
  obtain ⟨c, w, rfl, hc, -⟩ := ha
  obtain ⟨f1, f2, f3, f4, f5, f6, f7, f8, f9⟩ := nameStart_facts hc
  have hh : s.txt.head? = some c := by rw [hs]; rfl
  have hne : ∀ d, c ≠ d → s.txt.head? ≠ some d := by
    intro d hd h; rw [hh] at h; exact hd (Option.some.inj h)
  unfold psValue
  rw [psQuote_none (cStrLen_none (hne _ f6) (hne _ f7)) hpy
    (starts_head (hne _ f8)) (starts_head (hne _ f8)), noMatch_orElse]
  exact psNumber_none (fun d hd => by
    rw [hh] at hd; cases Option.some.inj hd; exact ⟨f1, f2, f3, f4, f5⟩)

theorem Ended.noName {r : Str} (h : Ended r) : NoName r := h.1.1

theorem WrittenName.length {late : Bool} {rs : List Str} {a t : Str} (h : WrittenName late rs a t) :
    rs.length + 1 ≤ t.length := by
  induction h with
  | plain ha => obtain ⟨c, w, rfl, -, -⟩ := ha; simp
  | region ha _ ih => simp only [List.length_cons, List.length_append]; omega
  | late ha => simp

theorem noName_colon (t : Str) : NoName (':' :: t) := noName_cons (by decide) t

theorem regions_written {late : Bool} {rs : List Str} {a t : Str} (h : WrittenName late rs a t) (hl : late = false)
    {r : Str} (hr : Ended r) : ∀ (n : Nat) (src : Src) (reg : List Src) (b : Src),
    src.txt = ':' :: ':' :: (t ++ r) → rs.length + 1 < n →
    ∃ src' rs' a', src'.txt = r ∧ rs'.map Src.txt = rs ∧ a'.txt = a ∧
      regions n src reg b = pure (src', reg ++ b :: rs', a') := by
  induction h with
  | @plain a ha =>
    intro n src reg b hs hn
    match n with
    | n + 2 =>
      have hs2 : (src.drop 2).txt = a ++ r := by rw [Src.drop_txt, hs]; rfl
      refine ⟨(src.drop 2).drop a.length, [], (src.drop 2).take a.length, Src.drop_pre _ _ _ hs2, rfl,
        Src.take_pre _ _ _ hs2, ?_⟩
      rw [regions, if_pos (starts_pre (t := a ++ r) hs), psAtom_append hs2 ha hr.noName]
      dsimp only
      rw [regions, if_neg]
      rw [starts_head]
      · simp
      · rw [Src.drop_pre _ _ _ hs2]
        intro hc
        exact (hr.2 _ hc).1 rfl
    | 0 => simp at hn
    | 1 => simp at hn
  | @region r0 a t rs ha h ih =>
    intro n src reg b hs hn
    match n with
    | n + 1 =>
      have hs2 : (src.drop 2).txt = r0 ++ (':' :: ':' :: (t ++ r)) := by rw [Src.drop_txt, hs]; simp
      obtain ⟨src', rs', a', h1, h2, h3, h4⟩ := ih hl n ((src.drop 2).drop r0.length) (reg ++ [b])
        ((src.drop 2).take r0.length) (Src.drop_pre _ _ _ hs2) (by simp only [List.length_cons] at hn; omega)
      refine ⟨src', (src.drop 2).take r0.length :: rs', a', h1, ?_, h3, ?_⟩
      · simp only [List.map_cons, h2, Src.take_pre _ _ _ hs2]
      · rw [regions, if_pos (starts_pre (k := [':', ':']) hs), psAtom_append hs2 ha (noName_colon _)]
        dsimp only
        rw [h4, List.append_assoc]
        rfl
    | 0 => simp at hn
  | late _ => cases hl

/-- A written name is read. -/
theorem psVar_written {late : Bool} {rs : List Str} {a t r : Str} (h : WrittenName late rs a t) (hr : Ended r)
    {src : Src} (hs : src.txt = t ++ r) : ∃ src' rs' a', src'.txt = r ∧ rs'.map Src.txt = rs ∧ a'.txt = a ∧
      ∀ st, psVar src st = .ok ((src', some (late, rs', a')), st) := by
  cases h with
  | plain ha =>
    refine ⟨src.drop a.length, [], src.take a.length, Src.drop_pre _ _ _ hs, rfl, Src.take_pre _ _ _ hs, fun st => ?_⟩
    have hh : src.at '&' = false := by
      obtain ⟨c, w, rfl, hc, -⟩ := ha
      refine at_false ?_
      rw [hs]
      intro h
      simp only [List.cons_append, List.head?_cons, Option.some.injEq] at h
      exact (nameStart_facts hc).2.2.2.2.2.2.2.2 h
    unfold psVar
    rw [hh, psAtom_append hs ha hr.noName]
    simp only [Bool.false_eq_true, if_false]
    rw [regions, if_neg]
    · rfl
    · rw [starts_head]
      · simp
      · rw [Src.drop_pre _ _ _ hs]
        intro hc
        exact (hr.2 _ hc).1 rfl
  | @region r0 _ t rs ha h =>
    have hs' : src.txt = r0 ++ (':' :: ':' :: (t ++ r)) := by rw [hs]; simp
    obtain ⟨src', rs', a', h1, h2, h3, h4⟩ := regions_written h rfl hr ((src.drop r0.length).txt.length + 1)
      (src.drop r0.length) [] (src.take r0.length) (Src.drop_pre _ _ _ hs') (by
        rw [Src.drop_pre _ _ _ hs']
        have := h.length
        simp only [List.length_cons, List.length_append]
        omega)
    refine ⟨src', src.take r0.length :: rs', a', h1, ?_, h3, fun st => ?_⟩
    · simp only [List.map_cons, h2, Src.take_pre _ _ _ hs']
    · have hh : src.at '&' = false := by
        obtain ⟨c, w, rfl, hc, -⟩ := ha
        refine at_false ?_
        rw [hs]
        intro h
        simp only [List.cons_append, List.head?_cons, Option.some.injEq] at h
        exact (nameStart_facts hc).2.2.2.2.2.2.2.2 h
      unfold psVar
      rw [hh, psAtom_append hs' ha (noName_colon _)]
      simp only [Bool.false_eq_true, if_false]
      rw [h4]
      rfl
  | late ha =>
    have hs1 : (src.drop 1).txt = a ++ r := by rw [Src.drop_txt, hs]; rfl
    refine ⟨(src.drop 1).drop a.length, [], (src.drop 1).take a.length, Src.drop_pre _ _ _ hs1, rfl,
      Src.take_pre _ _ _ hs1, fun st => ?_⟩
    unfold psVar
    rw [at_true hs, if_pos rfl, psAtom_append hs1 ha hr.noName]
    rfl

theorem psValue_written {late : Bool} {rs : List Str} {a t r : Str} (h : WrittenName late rs a t) (hr : Ended r)
    {src : Src} (hs : src.txt = t ++ r) : psValue e src = noMatch src := by
  cases h with
  | plain ha => exact psValue_name hs ha hr.noName (fun c hc => ⟨(hr.2 c hc).2.2, (hr.2 c hc).2.1⟩)
  | @region r0 _ t rs ha h =>
    refine psValue_name (a := r0) (r := ':' :: ':' :: (t ++ r)) (by rw [hs]; simp) ha (noName_colon _) (fun c hc => ?_)
    simp only [List.head?_cons, Option.some.injEq] at hc
    subst hc
    decide
  | late ha =>
    have hh : src.txt.head? = some '&' := by rw [hs]; rfl
    unfold psValue
    rw [psQuote_none (cStrLen_none (by rw [hh]; decide) (by rw [hh]; decide)) (by rw [hs]; rfl)
      (starts_head (by rw [hh]; decide)) (starts_head (by rw [hh]; decide)), noMatch_orElse]
    exact psNumber_none (fun d hd => by rw [hh] at hd; cases Option.some.inj hd; decide)

/-- The ends of a text in the model. -/
def stopOf : TextEnd → Stop
  | .file => .eof
  | .lines => .eolBracket
  | .bracket => .bracket
  | .square => .square
  | .paren => .code
  | .comma => .comma
  | .brace => .brace

/-- The mode of a translation. -/
def modeOf (e : PEnv) : Mode :=
  ⟨e.outputPython, match e.skip with
    | .none => .none
    | .c => .c
    | .python => .python⟩

/-- What the reading of a written thing amounts to. -/
def Means (e : PEnv) : Cat → Str → Str → Prop
  | .form x, s, r => ∀ src : Src, src.txt = s → ∃ src' n, src'.txt = r ∧ Tree x n ∧
      Gives e (fun p => psForm e p src) (src', some n)
  | .former x, s, r => ∀ src : Src, src.txt = s → ∃ src' n, src'.txt = r ∧ Tree x n ∧
      Gives e (fun p => psFormer e p src) (src', some n)
  | .body x, s, r => ∀ src : Src, src.txt = s → ∃ src' n, src'.txt = r ∧ Tree x n ∧
      Gives e (fun p => psFormer e p src) (src', some n) ∧ Gives e (fun p => psLForm p src) (src', some n) ∧
      (['(', '$'] <+: s → NoDirective s → Gives e (fun p => psTextLeg e p src) (src', some [n]))
  | .items xs, s, r => ∀ (src : Src) (acc : List Node), src.txt = s → ∃ src' ns, src'.txt = r ∧
      ArgTrees xs ns ∧ Gives e (fun p => psItems p src acc) (src', acc ++ ns)
  | .args fn xs ys, s, r => ∀ (src : Src) (f : Option Src) (as : List Node) (ms : List (Src × Node)), src.txt = s →
      f.map (·.txt) = fn → ∃ src' ns ms', (psGap src').txt = ')' :: r ∧ ArgTrees xs ns ∧ NamedTrees ys ms' ∧
      Gives e (fun p => psArgs p f src as ms) (src', as ++ ns, ms ++ ms')
  | .params l ps, s, r => ∀ (src : Src) (bs : List Bound) (ls : List Src), src.txt = s → ls.map (·.txt) = l →
      ∃ src' bs', src'.txt = r ∧ ParamTrees ps bs' ∧ Gives e (fun p => psBounds p src bs ls) (src', bs ++ bs')
  | .text k sq pth xs, s, r => ∀ t : TextSt, t.sou.txt = s → t.sq = sq → t.pth = pth →
      (xs.startsPlain = true → t.gen = none) → ∃ src' ns, src'.txt = r ∧ TextTrees t.ast.isEmpty xs ns ∧
      Gives e (fun p => psText e p (stopOf k) t) (src', t.ast ++ ns)
  | .run k sq pth w xs, s, r => ∀ (t : TextSt) (g : Gen) (pre : List Node), t.sou.txt = s → t.sq = sq → t.pth = pth →
      t.gen = some g → t.ast = pre ++ [.plain (g.start.take g.i) g.indent false] → (g.start.take g.i).txt = w →
      t.sou = g.start.drop g.i → Indented pre.isEmpty w g.indent → ∃ src' ns, src'.txt = r ∧
      TextTrees pre.isEmpty xs ns ∧ Gives e (fun p => psText e p (stopOf k) t) (src', pre ++ ns)

theorem means_name {late : Bool} {rs : List Str} {a t r : Str} (h : WrittenName late rs a t) (hr : Ended r) :
    Means e (.former (.name late rs a)) (t ++ r) r := by
  intro src hs
  obtain ⟨src', rs', a', h1, h2, h3, h4⟩ := psVar_written h hr hs
  subst h2 h3
  refine ⟨src', .var late rs' a', h1, .name, ?_⟩
  refine ⟨0, fun n _ st => ?_⟩
  change psFormer e (P e n) src st = _
  unfold psFormer
  rw [psValue_written h hr hs, noMatch_orElse]
  unfold orElse
  refine (bind_ok (a := (src', some (Node.var late rs' a'))) (st' := st) ?_).trans rfl
  refine Eq.trans (bind_ok (h4 st)) ?_
  rfl

theorem means_int {g b f r : Str} {m : Nat} {v : Int} (hg : Signed g m v) (hb : Literal b m)
    (hf : f = [] ∨ f = ['l'] ∨ f = ['L']) (hr : Ended r) :
    Means e (.former (.int v)) (g ++ (b ++ (f ++ r))) r := by
  intro src hs
  refine ⟨src.drop (g.length + b.length + f.length), .int v, ?_, .int, 0, fun n _ st => ?_⟩
  · rw [Src.drop_txt, hs, ← List.append_assoc, ← List.append_assoc]
    rw [show g.length + b.length + f.length = (g ++ b ++ f).length by simp [Nat.add_assoc]]
    rw [List.drop_left]
  · exact C48_value e n src st g b f r m v hs hg hb hf hr.1

theorem cStrTail_inside {q : Char} (hq : q ≠ '\\') {s : Str} (h : Inside q s) (r : Str) :
    cStrTail q (s ++ q :: r) = some (s.length + 1) := by
  induction h with
  | nil => rw [List.nil_append, cStrTail.eq_def]; simp only [if_true]; rfl
  | char h1 h2 h3 _ ih =>
    simp only [List.cons_append]
    rw [cStrTail.eq_def]
    simp only [if_neg h1, if_neg h2, ih]
    rfl
  | escape h1 _ ih =>
    simp only [List.cons_append]
    rw [cStrTail.eq_def]
    simp only [if_neg hq.symm, if_true, if_neg h1, ih]
    rfl

theorem py1Head_inside {q : Char} (hq : q ≠ '\\') {s : Str} (h : Inside q s) (r : Str) :
    py1Head q (s ++ q :: r) = some (s.length + 1) := by
  induction h with
  | nil => rw [List.nil_append, py1Head.eq_def]; simp only [if_true]; rfl
  | char h1 h2 h3 _ ih =>
    simp only [List.cons_append]
    rw [py1Head.eq_def]
    simp only [if_neg h1, if_neg h3, if_neg h2, ih]
    rfl
  | escape h1 _ ih =>
    simp only [List.cons_append]
    rw [py1Head.eq_def]
    simp only [if_neg hq.symm, if_true, if_neg h1, ih]
    rfl

theorem means_literal {q : Char} {s r : Str} (hq : q = '"' ∨ q = '\'') (h : Inside q s) (hr : Ended r) :
    Means e (.former (.str (q :: (s ++ [q])))) (q :: (s ++ q :: r)) r := by
  intro src hs
  have hq1 : q ≠ '\\' := by rcases hq with rfl | rfl <;> decide
  have hq2 : q ≠ '\n' := by rcases hq with rfl | rfl <;> decide
  have hc : cStrLen src.txt = some (s.length + 2) := by
    rw [hs]
    rcases hq with rfl | rfl
    · simp [cStrLen, cStrTail_inside hq1 h r]
    · simp [cStrLen, cStrTail_inside hq1 h r]
  have hp : pyStrLen src.txt = .yes (s.length + 2) := by
    have hpre : pyPrefix (q :: (s ++ q :: r)) = 0 := by rcases hq with rfl | rfl <;> rfl
    have htr : ¬ [q, q].isPrefixOf (s ++ q :: r) = true := by
      rw [List.isPrefixOf_iff_prefix]
      intro hpp
      cases h with
      | nil =>
        simp only [List.nil_append] at hpp
        have := (pre_cons.mp hpp).2
        cases r with
        | nil => exact absurd (List.prefix_nil.mp this) (by simp)
        | cons d r =>
          have hd := (pre_cons.mp this).1
          subst hd
          obtain ⟨-, h1, h2⟩ := hr.2 q rfl
          rcases hq with rfl | rfl
          · exact h1 rfl
          · exact h2 rfl
      | char h1 _ _ _ => exact h1 (pre_cons.mp hpp).1.symm
      | escape _ _ => exact hq1 (pre_cons.mp hpp).1
    have htk : (s ++ q :: r).take (s.length + 1) = s ++ [q] := by
      rw [List.take_append, List.take_of_length_le (by omega), Nat.add_sub_cancel_left]
      rfl
    rw [hs]
    unfold pyStrLen
    simp only [hpre, List.drop_zero]
    rw [if_pos (by rcases hq with rfl | rfl <;> simp), if_neg htr, py1Head_inside hq1 h r]
    simp only [htk, List.getLast?_append, List.getLast?_singleton, Option.some_or]
    rw [if_neg (by simp [hq2])]
    congr 1
    omega
  have htk : src.txt.take (s.length + 2) = q :: (s ++ [q]) := by
    rw [hs, show s.length + 2 = (s.length + 1) + 1 from rfl, List.take_succ_cons, List.take_append,
      List.take_of_length_le (by omega), Nat.add_sub_cancel_left]
    rfl
  have hdr : (src.drop (s.length + 2)).txt = r := by
    rw [Src.drop_txt, hs, show s.length + 2 = (s.length + 1) + 1 from rfl, List.drop_succ_cons,
      List.drop_append, List.drop_of_length_le (by omega), Nat.add_sub_cancel_left]
    rfl
  cases he : e.outputPython with
  | true =>
    refine ⟨src.drop (s.length + 2), .str (src.take (s.length + 2)), hdr, ?_, 0, fun n _ st => ?_⟩
    · have : (src.take (s.length + 2)).txt = q :: (s ++ [q]) := htk
      rw [← this]; exact .str
    · unfold psFormer psValue psQuote
      rw [he, hp]
      rfl
  | false =>
    refine ⟨src.drop (s.length + 2), .str { txt := src.txt.take (s.length + 2) }, hdr, ?_, 0, fun n _ st => ?_⟩
    · have : ({ txt := src.txt.take (s.length + 2) } : Src).txt = q :: (s ++ [q]) := htk
      rw [← this]; exact .str
    · unfold psFormer psValue psQuote
      rw [he, hc]
      rfl

theorem means_quote {mark s r : Str} (hm : IsQuoteMark mark) (hb : Balanced s) (ha : ∀ c ∈ s, Admissible c) :
    Means e (.former (.str s)) (mark ++ (s ++ ')' :: r)) r := by
  intro src hs
  obtain ⟨x, ⟨hx, -⟩, hq⟩ := psQuote_closed e src mark _ s r hm hs ⟨rfl, hb⟩ ha
  refine ⟨src.drop (mark.length + s.length + 1), .str x, ?_, ?_, 0, fun n _ st => ?_⟩
  · rw [Src.drop_txt, hs]
    rw [show mark ++ (s ++ ')' :: r) = (mark ++ s ++ [')']) ++ r by simp,
      show mark.length + s.length + 1 = (mark ++ s ++ [')']).length by simp [Nat.add_assoc], List.drop_left]
  · subst hx; exact .str
  · unfold psFormer psValue
    rw [hq]
    rfl

end Yupp
