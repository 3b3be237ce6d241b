import Verif.Spec.Magic
import Verif.Lemmas.Header
import Verif.Lemmas.Builtin
/-!
# The header of a Python source: what the model makes of it
-/

namespace Yupp

open Spec

theorem isEnc_iff (c : Char) : isEnc c = true ↔ NameStart c ∨ ('0' ≤ c ∧ c ≤ '9') ∨ c = '-' := by
  unfold isEnc
  rw [Bool.or_eq_true, isLetter_iff]
  simp [isFigure, isDig]

theorem encEnd_iff (word : Char → Bool) (s : Str) : ∀ k, encEnd word s k = true ↔ ∃ n, n < k ∧ WordEnd word (s.drop (n + 1))
  | 0 => by simp [encEnd]
  | k + 1 => by
    unfold encEnd
    rw [Bool.or_eq_true, nonWord_iff, encEnd_iff word s k]
    constructor
    · rintro (h | ⟨n, h1, h2⟩)
      · exact ⟨k, by omega, h⟩
      · exact ⟨n, by omega, h2⟩
    · rintro ⟨n, h1, h2⟩
      by_cases h : n = k
      · subst h; exact .inl h2
      · exact .inr ⟨n, by omega, h2⟩

/-- Does the group of the encoding take part? -/
theorem baseNamed_iff (word : Char → Bool) (u : Str) :
    (u.head? = some '.' ∧ encEnd word (u.drop 1) (spanLen isEnc (u.drop 1)) = true) ↔ BaseNamed word u := by
  rw [encEnd_iff]
  constructor
  · rintro ⟨h, n, h1, h2⟩
    cases u with
    | nil => cases h
    | cons c u =>
      cases h
      simp only [List.drop_one, List.tail_cons] at h1 h2
      refine ⟨u.take (n + 1), u.drop (n + 1), by rw [List.take_append_drop], ?_, ?_, h2⟩
      · intro h
        cases u with
        | nil => simp [spanLen] at h1
        | cons c u => simp at h
      · intro c hc
        rw [← isEnc_iff]
        have h3 : u.take (n + 1) = (u.takeWhile isEnc).take (n + 1) := by
          have h4 : u.takeWhile isEnc <+: u := List.takeWhile_prefix _
          obtain ⟨v, hv⟩ := h4
          conv => lhs; rw [← hv]
          rw [List.take_append_of_le_length (by simp only [spanLen] at h1; omega)]
        rw [h3] at hc
        exact List.all_eq_true.1 List.all_takeWhile c (List.mem_of_mem_take hc)
  · rintro ⟨enc, post, rfl, hne, henc, hpost⟩
    refine ⟨rfl, enc.length - 1, ?_, ?_⟩
    · simp only [List.drop_one, List.tail_cons]
      have h1 : enc.length ≤ spanLen isEnc (enc ++ post) := by
        unfold spanLen
        rw [List.takeWhile_append_of_pos (fun c hc => (isEnc_iff c).2 (henc c hc))]
        simp
      have h2 : enc.length ≠ 0 := by simpa using hne
      omega
    · have h2 : enc.length ≠ 0 := by simpa using hne
      simp only [List.drop_one, List.tail_cons]
      rw [show enc.length - 1 + 1 = enc.length by omega, List.drop_left]
      exact hpost

open Classical in
theorem codingAt_eq (word : Char → Bool) {s u : Str} (h : DeclaredAt word s u) : codingAt word s = some (decide (BaseNamed word u)) := by
  obtain ⟨kw, sep, sp, y, rfl, hkw, hsep, hsp, hy, hp⟩ := h
  have lk : kw.length = 6 := by have := congrArg List.length hkw; simpa using this
  have ly : y.length = 4 := by have := congrArg List.length hy; simpa using this
  have d6 : (kw ++ (sep :: (sp ++ (y ++ u)))).drop 6 = sep :: (sp ++ (y ++ u)) := by
    rw [← lk, List.drop_left]
  have d7 : (kw ++ (sep :: (sp ++ (y ++ u)))).drop 7 = sp ++ (y ++ u) := by
    have : (7 : Nat) = 6 + 1 := rfl
    rw [this, ← List.drop_drop, d6]; rfl
  have t6 : (kw ++ (sep :: (sp ++ (y ++ u)))).take 6 = kw := by rw [← lk, List.take_left]
  have db : (sp ++ (y ++ u)).dropWhile isBlank = y ++ u := by
    refine dropWhile_blanks hsp (fun c hc => ?_)
    cases y with
    | nil => simp at ly
    | cons c' y' =>
      simp at hc
      subst hc
      cases hb : isBlank c' with
      | false => rfl
      | true =>
        rw [List.map_cons, lower_blank hb] at hy
        injection hy with h1 _
        subst h1
        exact absurd hb (by decide)
  have t4 : (y ++ u).take 4 = y := by rw [← ly, List.take_left]
  have d4 : (y ++ u).drop 4 = u := by rw [← ly, List.drop_left]
  unfold codingAt
  rw [t6, d6, d7]
  rw [if_pos ⟨by rw [map_lowerChar]; exact hkw, by rcases hsep with rfl | rfl <;> simp⟩]
  simp only [db, t4, d4]
  rw [if_pos (by rw [map_lowerChar]; exact hy)]
  by_cases hb : BaseNamed word u
  · rw [if_pos ((baseNamed_iff word u).2 hb)]
    simp [hb]
  · rw [if_neg (fun h => hb ((baseNamed_iff word u).1 h)), if_pos ((nonWord_iff _ _).2 hp)]
    simp [hb]

open Classical in
theorem codingSearch_eq (word : Char → Bool) : ∀ {c u : Str}, FirstDeclared word c u →
    codingSearch word c = some (decide (BaseNamed word u)) := by
  intro c u h
  obtain ⟨pre, s, rfl, hs, hf⟩ := h
  induction pre with
  | nil =>
    have hc := codingAt_eq word hs
    cases s with
    | nil =>
      obtain ⟨kw, sep, sp, y, h, _⟩ := hs
      simp at h
    | cons c s =>
      simp only [List.nil_append]
      unfold codingSearch
      rw [hc]
  | cons c pre ih =>
    have hn : codingAt word (c :: (pre ++ s)) = none := by
      cases hq : codingAt word (c :: (pre ++ s)) with
      | none => rfl
      | some b =>
        obtain ⟨kw, sep, sp, y, post, h⟩ := (codingAt_some word _).1 (by rw [hq]; simp)
        exact absurd ⟨kw, sep, sp, y, h⟩ (hf [] _ post rfl (by simp))
    rw [List.cons_append]
    unfold codingSearch
    rw [hn]
    refine ih (fun a b v hab hl => hf (c :: a) b v (by rw [List.cons_append, List.cons_append, hab]) (by simpa using hl))

theorem firstDeclared_declares {word : Char → Bool} {c u : Str} (h : FirstDeclared word c u) : Declares word c := by
  obtain ⟨pre, s, rfl, ⟨kw, sep, sp, y, rfl, h⟩, _⟩ := h
  exact ⟨pre, kw, sep, sp, y, u, rfl, h⟩

theorem declares_first {word : Char → Bool} {c : Str} (h : Declares word c) : ∃ u, FirstDeclared word c u := by
  have key : ∀ n, ∀ pre s : Str, pre.length = n → c = pre ++ s → (∃ u, DeclaredAt word s u) → ∃ u, FirstDeclared word c u := by
    intro n
    induction n using Nat.strongRecOn with
    | ind n ih =>
      intro pre s hl hc ⟨u, hu⟩
      by_cases hx : ∃ a b v, c = a ++ b ∧ a.length < pre.length ∧ DeclaredAt word b v
      · obtain ⟨a, b, v, h1, h2, h3⟩ := hx
        exact ih a.length (by omega) a b rfl h1 ⟨v, h3⟩
      · exact ⟨u, pre, s, hc, hu, fun a b v h1 h2 h3 => hx ⟨a, b, v, h1, h2, h3⟩⟩
  obtain ⟨pre, kw, sep, sp, y, u, hc, h⟩ := h
  exact key _ pre _ rfl hc ⟨u, kw, sep, sp, y, rfl, h⟩

theorem kCoding_dotted : kCoding = dotted := rfl

theorem findIdx_first {a b : Str} (h : ∀ p q, a ++ (dotted ++ b) = p ++ (dotted ++ q) → a.length ≤ p.length) :
    findIdx kCoding (a ++ (dotted ++ b)) = some a.length := by
  cases hf : findIdx kCoding (a ++ (dotted ++ b)) with
  | none =>
    have := (findIdx_isSome kCoding (a ++ (dotted ++ b)) (by decide)).2 ⟨a, b, rfl⟩
    rw [hf] at this
    cases this
  | some i =>
    obtain ⟨⟨p, q, h1, h2⟩, h3⟩ := findIdx_occurs _ _ _ hf
    have h4 := h p q (by rw [h1, kCoding_dotted, List.append_assoc])
    have h5 : ¬ a.length < i := fun hl => h3 a.length hl ⟨a, b, by rw [kCoding_dotted, List.append_assoc], rfl⟩
    congr 1
    omega

/-- The nodes of a header. -/
def HeaderNodes (hd : List Node) (k : Str) : Prop :=
  ∃ rs : List Src, hd = rs.map .remark ∧ (rs.map (·.txt)).flatten = k ∧ (k = [] → rs = [])

/-- The line of the magic comment. -/
theorem headerLoop_magic (word : Char → Bool) (n : Nat) (s : Src) {hd : List Node} {ind c k k0 rest : Str} (hs : s.txt = ind ++ (c ++ rest))
    (hr : '\r' ∉ s.txt) (hi : Blanks ind) (hc : CommentText c) (hk : Cleared word c k) (ht : LineRest rest) (hd0 : HeaderNodes hd k0) :
    ∃ s' hd', headerLoop word (n + 1) s hd = some (s', hd', 3 - (n + 1)) ∧ s'.txt = rest ∧ HeaderNodes hd' (k0 ++ k) := by
  obtain ⟨t, rfl, hn⟩ := hc
  obtain ⟨h1, h2, h3⟩ := header_line (t' := rest) (by rw [hs]; simp) hi hn (by intro h; exact hr (by rw [hs]; simp [h])) ht
  obtain ⟨rs, rfl, rfl, hrs⟩ := hd0
  unfold headerLoop
  simp only [h1, h2]
  generalize hct : '#' :: t = c at *
  cases hk with
  | @gone c u hu hb =>
    rw [codingSearch_eq word hu]
    simp only [hb, decide_false]
    exact ⟨_, _, rfl, h3, rs, rfl, by simp, fun h => hrs (by simpa using h)⟩
  | @base a b u hu hb hf =>
    rw [codingSearch_eq word hu]
    simp only [hb, decide_true]
    rw [findIdx_first hf]
    refine ⟨_, _, rfl, h3, rs ++ [((psSpace s).take (1 + t.length)).take a.length,
      ((psSpace s).take (1 + t.length)).drop (a.length + kCoding.length)], by simp, ?_, ?_⟩
    rotate_left
    · intro h
      cases a with
      | nil => exact absurd (List.cons.inj hct).1 (by decide)
      | cons c a => simp at h
    have e1 : (((psSpace s).take (1 + t.length)).take a.length).txt = a := by
      change ((psSpace s).take (1 + t.length)).txt.take a.length = a
      rw [h2, List.take_left]
    have e2 : (((psSpace s).take (1 + t.length)).drop (a.length + kCoding.length)).txt = b := by
      change ((psSpace s).take (1 + t.length)).txt.drop (a.length + kCoding.length) = b
      rw [h2, ← List.drop_drop, List.drop_left]; rfl
    simp only [List.map_append, List.flatten_append, List.map_cons, List.map_nil, List.flatten_cons, List.flatten_nil, List.append_nil, e1, e2]
  | @capitals c u hu hb hf =>
    rw [codingSearch_eq word hu]
    simp only [hb, decide_true]
    have hnone : findIdx kCoding c = none := by
      cases hf' : findIdx kCoding c with
      | none => rfl
      | some i =>
        obtain ⟨⟨p, q, h1, _⟩, _⟩ := findIdx_occurs _ _ _ hf'
        exact absurd (by rw [h1, kCoding_dotted, List.append_assoc]) (hf p q)
    rw [hnone]
    refine ⟨_, _, rfl, h3, rs ++ [{ (psSpace s).take (1 + t.length) with txt := c.dropLast },
      ((psSpace s).take (1 + t.length)).drop 4], by rw [List.map_append]; rfl, ?_, ?_⟩
    rotate_left
    · intro h
      have hdl : c.drop 4 = [] := (List.append_eq_nil_iff.1 (List.append_eq_nil_iff.1 h).2).2
      obtain ⟨pre, s, rfl, ⟨kw, sep, sp, y, rfl, hkw, _⟩, _⟩ := hu
      have := congrArg List.length hdl
      have lk := congrArg List.length hkw
      simp at this lk
      omega
    have e2 : (((psSpace s).take (1 + t.length)).drop 4).txt = c.drop 4 := by
      change ((psSpace s).take (1 + t.length)).txt.drop 4 = _
      rw [h2]
    simp only [List.map_append, List.flatten_append, List.map_cons, List.map_nil, List.flatten_cons, List.flatten_nil, List.append_nil, e2]

/-- **The header**: what is left of it and what follows it. -/
theorem psHeader_eq (word : Char → Bool) (s : Src) {k rest : Str} {n : Nat} (hr : '\r' ∉ s.txt) (h : Header word s.txt k rest n) :
    ∃ s' hd, psHeader word s = some (s', hd, n) ∧ s'.txt = rest ∧ HeaderNodes hd k := by
  obtain ⟨txt, loc⟩ := s
  dsimp only at hr h
  cases h with
  | @first ind c k rest hi hc hk ht =>
    obtain ⟨t, hct, hn⟩ := hc
    have h2 := psSpace_blanks (u := c ++ rest) (s := { txt := ind ++ (c ++ rest), loc := loc }) rfl hi
      (by rw [hct]; intro c hc; cases hc; decide)
    have hp : psEol (psSpace { txt := ind ++ (c ++ rest), loc := loc }) = (psSpace { txt := ind ++ (c ++ rest), loc := loc }, none) := by
      unfold psEol; rw [h2.2, hct]; rfl
    unfold psHeader
    rw [hp]
    have := headerLoop_magic word 1 (psSpace { txt := ind ++ (c ++ rest), loc := loc }) (ind := []) (k0 := []) (hd := []) h2.2
      (by rw [h2.2]; intro h; exact hr (List.mem_append_right _ h)) (by intro c hc; cases hc) ⟨t, hct, hn⟩ hk ht ⟨[], rfl, rfl, fun _ => rfl⟩
    simpa using this
  | @second ind c ind' c' k rest hi hc hd hi' hc' hk ht =>
    obtain ⟨t, hct, hn⟩ := hc
    generalize hs : ({ txt := ind ++ (c ++ '\n' :: (ind' ++ (c' ++ rest))), loc := loc } : Src) = s
    have hst : s.txt = ind ++ (c ++ '\n' :: (ind' ++ (c' ++ rest))) := by rw [← hs]
    have h2 := psSpace_blanks (u := c ++ '\n' :: (ind' ++ (c' ++ rest))) (s := s) hst hi
      (by rw [hct]; intro c hc; cases hc; decide)
    have hp : psEol (psSpace s) = (psSpace s, none) := by
      unfold psEol; rw [h2.2, hct]; rfl
    unfold psHeader
    rw [hp]
    obtain ⟨h4, h5, h6⟩ := header_line (s := psSpace s) (ind := []) (t := t) (t' := '\n' :: (ind' ++ (c' ++ rest)))
      (by rw [h2.2, hct]; simp) (by intro c hc; cases hc) hn
      (by intro h; exact hr (by rw [hct]; simp [h])) (.inr ⟨_, rfl⟩)
    have hsn : codingSearch word ('#' :: t) = none := by
      cases hq : codingSearch word ('#' :: t) with
      | none => rfl
      | some b => exact absurd ((codingSearch_some word _).1 (by rw [hq]; simp)) (by rw [← hct]; exact hd)
    dsimp only
    rw [headerLoop.eq_def]
    simp only [h4, h5, hsn]
    have hp2 : psEol ((psSpace (psSpace s)).drop (1 + t.length))
        = (((psSpace (psSpace s)).drop (1 + t.length)).drop 1, some (((psSpace (psSpace s)).drop (1 + t.length)).take 1)) := by
      unfold psEol; rw [h6]; rfl
    rw [hp2]
    have h7 : (((psSpace (psSpace s)).drop (1 + t.length)).drop 1).txt = ind' ++ (c' ++ rest) := by
      change (((psSpace (psSpace s)).drop (1 + t.length)).txt).drop 1 = _
      rw [h6]; rfl
    have := headerLoop_magic word 0 (((psSpace (psSpace s)).drop (1 + t.length)).drop 1) (k0 := c ++ ['\n'])
      (hd := [] ++ [.remark ((psSpace (psSpace s)).take (1 + t.length)), .remark (((psSpace (psSpace s)).drop (1 + t.length)).take 1)]) h7
      (by rw [h7]; intro h; apply hr; simp at h ⊢; exact .inr (.inr h)) hi' hc' hk ht
      ⟨[(psSpace (psSpace s)).take (1 + t.length), ((psSpace (psSpace s)).drop (1 + t.length)).take 1], rfl, by
        have : (((psSpace (psSpace s)).drop (1 + t.length)).take 1).txt = ['\n'] := by
          change (((psSpace (psSpace s)).drop (1 + t.length)).txt).take 1 = _
          rw [h6]; rfl
        simp only [List.map_cons, List.map_nil, List.flatten_cons, List.flatten_nil, List.append_nil, this, h5, hct], by simp [hct]⟩
    simpa using this
  | @blank ind ind' c' k rest hi hi' hc' hk ht =>
    obtain ⟨s', h1, h2⟩ := psHeader_blank word { txt := ind ++ '\n' :: (ind' ++ (c' ++ rest)), loc := loc } rfl hi
    rw [h1]
    have := headerLoop_magic word 0 s' (hd := []) (k0 := []) h2
      (by rw [h2]; intro h; apply hr; simp at h ⊢; exact .inr h) hi' hc' hk ht ⟨[], rfl, rfl, fun _ => rfl⟩
    simpa using this

theorem cleared_exists {word : Char → Bool} {c : Str} (h : Declares word c) : ∃ k, Cleared word c k := by
  obtain ⟨u, hu⟩ := declares_first h
  by_cases hb : BaseNamed word u
  · cases hf : findIdx kCoding c with
    | none => exact ⟨_, .capitals hu hb (fun p q h => by
        have := (findIdx_isSome kCoding c (by decide)).2 ⟨p, q, h⟩
        rw [hf] at this; cases this)⟩
    | some i =>
      obtain ⟨⟨a, b, rfl, rfl⟩, h3⟩ := findIdx_occurs _ _ _ hf
      rw [kCoding_dotted, List.append_assoc] at hu h3 ⊢
      refine ⟨_, .base hu hb (fun p q hpq => ?_)⟩
      refine Nat.le_of_not_lt (fun hl => h3 p.length hl ⟨p, q, ?_, rfl⟩)
      rw [hpq, List.append_assoc]
  · exact ⟨_, .gone hu hb⟩

theorem cleared_declares {word : Char → Bool} {c k : Str} (h : Cleared word c k) : Declares word c := by
  cases h with
  | gone h _ => exact firstDeclared_declares h
  | base h _ _ => exact firstDeclared_declares h
  | capitals h _ _ => exact firstDeclared_declares h

end Yupp
