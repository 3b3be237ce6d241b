import Verif.Spec.Sequence
import Verif.Props.Texts
import Verif.Props.Arith
/-!
# C86 — Letters and widths
-/

namespace Yupp

open Spec

variable {e : EEnv} {x : BExt} {l loc : Option Loc} {args : List Node} {s s' : ESt}

theorem each_map {r : Char → Char → Prop} {g : Char → Char} : ∀ {t : Str}, (∀ c ∈ t, r c (g c)) → EachChar r t (t.map g)
  | [], _ => .nil
  | c :: t, h => .cons (h c (by simp)) (each_map fun d hd => h d (by simp [hd]))

theorem ascii_chars {p : Char → Prop} (h : ∀ n : Fin 128, p (Char.ofNat n.val)) (c : Char) (hc : c.toNat < 128) : p c := by
  have := h ⟨c.toNat, hc⟩
  rwa [show Char.ofNat (⟨c.toNat, hc⟩ : Fin 128).val = c from Char.ofNat_toNat c] at this

/-- Whether two characters are the same letter. -/
def letterIn (a b : Str) (c d : Char) : Bool := (List.range 26).any fun i => a[i]? == some c && b[i]? == some d

theorem letterIn_of {a b : Str} {c d : Char} (h : letterIn a b c d = true) : SameLetter a b c d := by
  unfold letterIn at h
  rw [List.any_eq_true] at h
  obtain ⟨i, -, hi⟩ := h
  simp only [Bool.and_eq_true, beq_iff_eq] at hi
  exact ⟨i, hi.1, hi.2⟩

theorem small_toLower (c : Char) (hc : c.toNat < 128) : Small c c.toLower := by
  have : ∀ n : Fin 128, (letterIn capitalLetters smallLetters (Char.ofNat n.val) (Char.ofNat n.val).toLower ||
    !capitalLetters.contains (Char.ofNat n.val) && ((Char.ofNat n.val).toLower == Char.ofNat n.val)) = true := by decide +kernel
  have h := ascii_chars (p := fun c => (letterIn capitalLetters smallLetters c c.toLower || !capitalLetters.contains c && (c.toLower == c)) = true) this c hc
  simp only [Bool.or_eq_true, Bool.and_eq_true, beq_iff_eq, Bool.not_eq_true', List.contains_eq_mem, decide_eq_false_iff_not] at h
  exact h.imp letterIn_of id

theorem capital_toUpper (c : Char) (hc : c.toNat < 128) : Capital c c.toUpper := by
  have : ∀ n : Fin 128, (letterIn smallLetters capitalLetters (Char.ofNat n.val) (Char.ofNat n.val).toUpper ||
    !smallLetters.contains (Char.ofNat n.val) && ((Char.ofNat n.val).toUpper == Char.ofNat n.val)) = true := by decide +kernel
  have h := ascii_chars (p := fun c => (letterIn smallLetters capitalLetters c c.toUpper || !smallLetters.contains c && (c.toUpper == c)) = true) this c hc
  simp only [Bool.or_eq_true, Bool.and_eq_true, beq_iff_eq, Bool.not_eq_true', List.contains_eq_mem, decide_eq_false_iff_not] at h
  exact h.imp letterIn_of id

theorem swapped_swapChar (c : Char) (hc : c.toNat < 128) : Swapped c (swapChar c) := by
  have : ∀ n : Fin 128, (letterIn capitalLetters smallLetters (Char.ofNat n.val) (swapChar (Char.ofNat n.val)) ||
    (letterIn smallLetters capitalLetters (Char.ofNat n.val) (swapChar (Char.ofNat n.val)) ||
    !capitalLetters.contains (Char.ofNat n.val) && (!smallLetters.contains (Char.ofNat n.val) && (swapChar (Char.ofNat n.val) == Char.ofNat n.val)))) = true := by
    decide +kernel
  have h := ascii_chars (p := fun c => (letterIn capitalLetters smallLetters c (swapChar c) || (letterIn smallLetters capitalLetters c (swapChar c) ||
    !capitalLetters.contains c && (!smallLetters.contains c && (swapChar c == c)))) = true) this c hc
  simp only [Bool.or_eq_true, Bool.and_eq_true, beq_iff_eq, Bool.not_eq_true', List.contains_eq_mem, decide_eq_false_iff_not] at h
  exact h.imp letterIn_of (Or.imp letterIn_of id)

theorem ascii_all {t : Str} (h : ∀ c ∈ t, c.toNat < 128) : (t.all (·.toNat < 128)) = true := by
  rw [List.all_eq_true]; intro c hc; simpa using h c hc

theorem ascii_call {f : Str} {g : Str → Node} {a : Node} {t : Str} {seen : List Node} (ht : a.text? = some t) (h : ∀ c ∈ t, c.toNat < 128) :
    bAscii x f g a seen = some (g t, seen) := by
  unfold bAscii
  rw [ht]
  simp only []
  rw [if_pos (ascii_all h)]

/-- **C86**. `$lower`, `$upper` and `$swapcase` of an ASCII text change the letters one by one. -/
theorem C86_letters {f : Str} {r : Char → Char → Prop}
    (hf : f = lit "lower" ∧ r = Small ∨ f = lit "upper" ∧ r = Capital ∨ f = lit "swapcase" ∧ r = Swapped)
    (hs : Standard e x f) (hu : Unbound f s) {a : Node} {t : Str} (ha : Args e args s [a] s') (ht : a.text? = some t)
    (hc : ∀ c ∈ t, c.toNat < 128) :
    ∃ u, Evaluates e (fnCall f l loc args) s (.pstr u) s' ∧ EachChar r t u := by
  have h := fun v => ev_call (l := l) (loc := loc) (v := .pstr v) (seen := s'.seen) hs hu ha (text_term ht)
  rcases hf with ⟨rfl, rfl⟩ | ⟨rfl, rfl⟩ | ⟨rfl, rfl⟩
  · exact ⟨t.map Char.toLower, h _ (by rw [show builtinCall _ _ _ _ = bAscii _ _ _ _ _ by simp [builtinCall, textCall, moreCall, lit]; rfl, ascii_call ht hc]),
      each_map fun c h => small_toLower c (hc c h)⟩
  · exact ⟨t.map Char.toUpper, h _ (by rw [show builtinCall _ _ _ _ = bAscii _ _ _ _ _ by simp [builtinCall, textCall, moreCall, lit]; rfl, ascii_call ht hc]),
      each_map fun c h => capital_toUpper c (hc c h)⟩
  · exact ⟨t.map swapChar, h _ (by rw [show builtinCall _ _ _ _ = bAscii _ _ _ _ _ by simp [builtinCall, textCall, moreCall, lit]; rfl, ascii_call ht hc]),
      each_map fun c h => swapped_swapChar c (hc c h)⟩

/-- **C86**. `$capitalize`: the first one as a capital letter, the others as small ones. -/
theorem C86_capitalize (hs : Standard e x (lit "capitalize")) (hu : Unbound (lit "capitalize") s) {a : Node} {c : Char} {t : Str}
    (ha : Args e args s [a] s') (ht : a.text? = some (c :: t)) (hc : ∀ d ∈ c :: t, d.toNat < 128) :
    ∃ d u, Evaluates e (fnCall (lit "capitalize") l loc args) s (.pstr (d :: u)) s' ∧ Capital c d ∧ EachChar Small t u := by
  exact ⟨c.toUpper, t.map Char.toLower, ev_call (v := .pstr _) (seen := s'.seen) hs hu ha (text_term ht)
    (by rw [show builtinCall _ _ _ _ = bAscii _ _ _ _ _ by simp [builtinCall, textCall, moreCall, lit]; rfl, ascii_call ht hc, capitalizeStr]),
    capital_toUpper c (hc c (by simp)), each_map fun d h => small_toLower d (hc d (by simp [h]))⟩

/-- **C86**. `$isdigit` of an ASCII text: 1 if it is not empty and has digits only. -/
theorem C86_isdigit (hs : Standard e x (lit "isdigit")) (hu : Unbound (lit "isdigit") s) {a : Node} {t : Str} (ha : Args e args s [a] s')
    (ht : a.text? = some t) (hc : ∀ c ∈ t, c.toNat < 128) :
    Evaluates e (fnCall (lit "isdigit") l loc args) s (truth (t ≠ [] ∧ ∀ c ∈ t, '0' ≤ c ∧ c ≤ '9')) s' := by
  rw [← callResult_bool (b := t != [] && t.all Char.isDigit) (by
    simp only [Bool.and_eq_true, bne_iff_ne, List.all_eq_true]
    exact and_congr_right fun _ => forall_congr' fun c => imp_congr_right fun _ => by simp [Char.isDigit, Char.le_def])]
  exact ev_call (seen := s'.seen) hs hu ha (text_term ht)
    (by rw [show builtinCall _ _ _ _ = bAscii _ _ _ _ _ by simp [builtinCall, textCall, moreCall, lit]; rfl, ascii_call (t := t) (by rw [text_str ht]; rfl) hc])

/-- **C86**. `$zfill` puts zeros in front of a text that is too short, but behind its sign. -/
theorem C86_zfill (hs : Standard e x (lit "zfill")) (hu : Unbound (lit "zfill") s) {a w : Node} {t : Str} {n : Int}
    (ha : Args e args s [a, w] s') (ht : a.text? = some t) (hw : w.whole? = some n) :
    ∃ (sign body : Str) (k : Nat), t = sign ++ body ∧ (sign = ['+'] ∨ sign = ['-'] ∨ sign = [] ∧ ∀ c, body.head? = some c → c ≠ '+' ∧ c ≠ '-') ∧
      Fills k t.length n ∧ Evaluates e (fnCall (lit "zfill") l loc args) s (.pstr (sign ++ List.replicate k '0' ++ body)) s' := by
  have h := ev_call (l := l) (loc := loc) (v := .pstr (zfillStr n t)) (seen := s'.seen) hs hu ha
    (by simp [areTerms, text_isTerm ht, whole_term hw]) (by simp [builtinCall, textCall, moreCall, lit, ht, hw])
  have hk : Fills (n.toNat - t.length) t.length n := by unfold Fills; omega
  cases t with
  | nil => exact ⟨[], [], _, rfl, .inr (.inr ⟨rfl, by simp⟩), hk, by simpa [zfillStr, callResult, strResult] using h⟩
  | cons c t =>
    by_cases hc : c = '+' ∨ c = '-'
    · refine ⟨[c], t, _, rfl, by rcases hc with rfl | rfl <;> simp, hk, ?_⟩
      simpa [zfillStr, callResult, strResult, hc] using h
    · refine ⟨[], c :: t, _, rfl, .inr (.inr ⟨rfl, by simpa using hc⟩), hk, ?_⟩
      simpa [zfillStr, callResult, strResult, hc] using h

/-- **C86**. `$center` puts blanks on both sides; an odd one goes to the left if the width is odd, to the right if it is even. -/
theorem C86_center (hs : Standard e x (lit "center")) (hu : Unbound (lit "center") s) {a w : Node} {t : Str} {n : Int}
    (ha : Args e args s [a, w] s') (ht : a.text? = some t) (hw : w.whole? = some n) :
    ∃ i j : Nat, Evaluates e (fnCall (lit "center") l loc args) s (.pstr (List.replicate i ' ' ++ t ++ List.replicate j ' ')) s' ∧
      Fills (i + j) t.length n ∧ (i = j ∨ i = j + 1 ∧ n % 2 = 1 ∨ j = i + 1 ∧ n % 2 = 0) := by
  have h := ev_call (l := l) (loc := loc) (v := .pstr (centerStr n ' ' t)) (seen := s'.seen) hs hu ha
    (by simp [areTerms, text_isTerm ht, whole_term hw]) (by simp [builtinCall, textCall, moreCall, lit, ht, hw])
  refine ⟨_, _, h, ?_, ?_⟩
  · unfold Fills; split <;> omega
  · split <;> omega

theorem oct_written (n : Int) : Written 8 (octStr n) n := by
  cases n with
  | ofNat n =>
    obtain ⟨h1, h2⟩ := digits_denote (b := 8) (by omega) (by omega) n
    have := Written.mk (b := 8) (s := []) (g := []) (p := ['0', 'o']) (t := []) (by simp) (by simp) .none (by simp) h2 h1
    simpa [octStr] using this
  | negSucc n =>
    obtain ⟨h1, h2⟩ := digits_denote (b := 8) (by omega) (by omega) (n + 1)
    have := Written.mk (b := 8) (s := []) (g := ['-']) (p := ['0', 'o']) (t := []) (by simp) (by simp) .minus (by simp) h2 h1
    simpa [octStr, Int.negSucc_eq] using this

/-- **C86**. `$oct` writes a number in the base 8. -/
theorem C86_oct (hs : Standard e x (lit "oct")) (hu : Unbound (lit "oct") s) {a : Node} {n : Int} (ha : Args e args s [a] s')
    (hn : a.whole? = some n) : ∃ t, Evaluates e (fnCall (lit "oct") l loc args) s (.pstr t) s' ∧ Written 8 t n :=
  ⟨octStr n, ev_call (v := .pstr _) (seen := s'.seen) hs hu ha (by simp [areTerms, whole_term hn])
    (by simp [builtinCall, textCall, moreCall, lit, hn]), oct_written n⟩

/-- **C86**. `$int_` of a number is the number, of a text the number that it denotes in the base 10. -/
theorem C86_int (hs : Standard e x (lit "int_")) (hu : Unbound (lit "int_") s) {a : Node} {n : Int} (ha : Args e args s [a] s')
    (hn : a.whole? = some n ∨ ∃ t, a.text? = some t ∧ (∀ c ∈ t, c.toNat < 128 ∧ c ≠ '_') ∧ Written 10 t n) :
    Evaluates e (fnCall (lit "int_") l loc args) s (.int n) s' := by
  rcases hn with hn | ⟨t, ht, hc, hv⟩
  · exact ev_call (v := .int n) (seen := s'.seen) hs hu ha (by simp [areTerms, whole_term hn])
      (by simp [builtinCall, textCall, moreCall, lit, hn])
  · have h1 : (t.all fun c => c.toNat < 128 && c != '_') = true := by
      rw [List.all_eq_true]; intro c h; have := hc c h; simp [this.1, this.2]
    have h3 : pyInt 10 t = some n := (pyInt_iff (by omega) t n).2 hv
    have h0 : a.whole? = none := by cases a <;> simp_all [Node.whole?, Node.text?]
    refine ev_call (v := .int _) (seen := s'.seen) hs hu ha (text_term ht) ?_
    have : builtinCall x (lit "int_") [a] s'.seen = bAtoi x [a] a 10 s'.seen := by
      simp [builtinCall, textCall, moreCall, lit, h0]
    rw [this]
    unfold bAtoi
    rw [ht]
    simp only []
    rw [if_pos ⟨by decide, h1⟩]
    simp [h3]

/-- `($zfill [-7] 4)` is `-007`, `($center [ab] 5)` has two blanks to the left. -/
example (pe : PEnv) (s : ESt) (h : s.env = []) :
    Evaluates (stdEnv x pe) (fnCall (lit "zfill") none none [.pstr ['-', '7'], .int 4]) s (.pstr ['-', '0', '0', '7']) s ∧
    Evaluates (stdEnv x pe) (fnCall (lit "center") none none [.pstr ['a', 'b'], .int 5]) s (.pstr [' ', ' ', 'a', 'b', ' ']) s := by
  have hu : ∀ f, Unbound f s := fun f => by unfold Unbound; rw [h]; rfl
  constructor
  · obtain ⟨sg, bd, k, h1, h2, h3, h4⟩ := C86_zfill (l := none) (loc := none) (stdEnv_standard x pe _) (hu _)
      (two_values (.pstr ['-', '7']) (.int 4) (by simp) (by simp) s) rfl rfl
    have hk : k = 2 := by rcases h3 with ⟨-, h3⟩ | h3 <;> simp at h3 <;> omega
    rcases h2 with rfl | rfl | ⟨rfl, h2⟩
    · cases h1
    · cases h1; subst hk; exact h4
    · cases h1; exact absurd rfl (h2 '-' rfl).2
  · obtain ⟨i, j, h1, h2, h3⟩ := C86_center (l := none) (loc := none) (stdEnv_standard x pe _) (hu _)
      (two_values (.pstr ['a', 'b']) (.int 5) (by simp) (by simp) s) rfl rfl
    have hk : i = 2 ∧ j = 1 := by rcases h2 with ⟨-, h2⟩ | h2 <;> simp at h2 <;> omega
    obtain ⟨rfl, rfl⟩ := hk
    exact h1

end Yupp
