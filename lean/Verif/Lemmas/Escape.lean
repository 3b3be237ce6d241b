import Verif.Base.Escape
/-!
# Escaping and unescaping
-/

namespace Yupp

theorem hexVal_digit : ∀ d, d < 16 → hexVal (hexDigit d) = some d := by decide

theorem hexRead_hexOf : ∀ (k j acc n : Nat) (t : Str), n < 16 ^ k →
    hexRead (k + j) acc (hexOf k n ++ t) = hexRead j (16 ^ k * acc + n) t
  | 0, j, acc, n, t, h => by
    have : n = 0 := by simpa using h
    subst this
    simp [hexOf]
  | k + 1, j, acc, n, t, h => by
    have h1 : n / 16 < 16 ^ k := by
      rw [Nat.div_lt_iff_lt_mul (by omega)]
      rw [Nat.pow_succ] at h
      exact h
    have : hexOf (k + 1) n ++ t = hexOf k (n / 16) ++ (hexDigit (n % 16) :: t) := by simp [hexOf]
    rw [this, show k + 1 + j = k + (j + 1) by omega, hexRead_hexOf k (j + 1) acc (n / 16) _ h1, hexRead,
      hexVal_digit _ (Nat.mod_lt _ (by omega))]
    simp only []
    congr 1
    rw [Nat.pow_succ]
    have := Nat.div_add_mod n 16
    have : 16 * (16 ^ k * acc + n / 16) = 16 ^ k * 16 * acc + 16 * (n / 16) := by
      rw [Nat.mul_add, ← Nat.mul_assoc, Nat.mul_comm 16 (16 ^ k)]
    omega

theorem codeChar_toNat (c : Char) : codeChar c.toNat = some c := by
  have hv : c.toNat < 0xd800 ∨ (0xdfff < c.toNat ∧ c.toNat < 0x110000) := c.valid
  unfold codeChar
  rw [if_pos hv, Char.ofNat_toNat]

theorem hexRead_char (k : Nat) (c : Char) (t : Str) (h : c.toNat < 16 ^ k) :
    ((hexRead k 0 (hexOf k c.toNat ++ t)).bind fun (n, s) => (codeChar n).map fun c => ([c], s)) = some ([c], t) := by
  have := hexRead_hexOf k 0 0 c.toNat t h
  rw [Nat.add_zero] at this
  rw [this]
  simp [hexRead, codeChar_toNat]

theorem toNat_lt (c : Char) : c.toNat < 16 ^ 8 := by
  have hv : c.toNat < 0xd800 ∨ (0xdfff < c.toNat ∧ c.toNat < 0x110000) := c.valid
  omega

/-- One character is read back. -/
theorem escDecodeGo_char (c : Char) (t : Str) (n : Nat) :
    escDecodeGo (n + 1) (escChar c ++ t) = (escDecodeGo n t).map (c :: ·) := by
  unfold escChar
  split
  · next h => subst h; simp [escDecodeGo, escRead]
  · split
    · next h => subst h; simp [escDecodeGo, escRead]
    · split
      · next h => subst h; simp [escDecodeGo, escRead]
      · split
        · next h => subst h; simp [escDecodeGo, escRead]
        · split
          · next h _ _ _ _ => simp [escDecodeGo, h]
          · split
            · next h =>
              simp only [List.cons_append, escDecodeGo, if_true, escRead]
              rw [hexRead_char 2 c t h]; rfl
            · split
              · next h =>
                simp only [List.cons_append, escDecodeGo, if_true, escRead]
                rw [hexRead_char 4 c t h]; rfl
              · simp only [List.cons_append, escDecodeGo, if_true, escRead]
                rw [hexRead_char 8 c t (toNat_lt c)]; rfl

theorem escChar_pos (c : Char) : 0 < (escChar c).length := by
  unfold escChar
  repeat' split
  all_goals simp

theorem escDecodeGo_encode : ∀ (s : Str) (n : Nat), (escEncode s).length ≤ n → escDecodeGo n (escEncode s) = some s
  | [], n, _ => by cases n <;> rfl
  | c :: s, n, h => by
    have e : escEncode (c :: s) = escChar c ++ escEncode s := by simp [escEncode]
    rw [e] at h ⊢
    have := escChar_pos c
    rw [List.length_append] at h
    obtain ⟨m, rfl⟩ : ∃ m, n = m + 1 := ⟨n - 1, by omega⟩
    rw [escDecodeGo_char, escDecodeGo_encode s m (by omega)]
    rfl

/-- Decoding undoes encoding. -/
theorem escDecode_encode (s : Str) : escDecode (escEncode s) = some s := escDecodeGo_encode s _ (Nat.le_refl _)

/-! ## Literals -/

/-- A character that means nothing special inside a literal. -/
def Ordinary (q c : Char) : Prop := c ≠ '\\' ∧ c ≠ q ∧ c ≠ '\n' ∧ c ≠ '\r' ∧ c ≠ '\x00'

theorem literalBody_cons {q c : Char} (h : Ordinary q c) (s : Str) :
    literalBody q (c :: s) = (literalBody q s).map fun (b, r) => (c :: b, r) := by
  obtain ⟨h1, h2, h3, h4, h5⟩ := h
  rw [literalBody]
  · rw [if_neg h2, if_neg (by simp [h3, h4, h5])]
  · intro _ _ h _; exact h1 h

theorem literalBody_append {q : Char} : ∀ {t : Str}, (∀ c ∈ t, Ordinary q c) → ∀ (s : Str),
    literalBody q (t ++ s) = (literalBody q s).map fun (b, r) => (t ++ b, r)
  | [], _, s => by simp
  | c :: t, h, s => by
    rw [List.cons_append, literalBody_cons (h c (by simp)), literalBody_append (fun d hd => h d (by simp [hd]))]
    simp [Option.map_map, Function.comp_def]

theorem literalBody_esc {q : Char} {c : Char} (h : c ≠ '\n' ∧ c ≠ '\r' ∧ c ≠ '\x00') (s : Str) :
    literalBody q ('\\' :: c :: s) = (literalBody q s).map fun (b, r) => ('\\' :: c :: b, r) := by
  rw [literalBody, if_neg (by simp [h.1, h.2.1, h.2.2])]

theorem hexDigit_ordinary {q : Char} (hq : q = '"' ∨ q = '\'') : ∀ d, d < 16 → Ordinary q (hexDigit d) := by
  unfold Ordinary
  rcases hq with rfl | rfl <;> decide

theorem hexOf_ordinary {q : Char} (hq : q = '"' ∨ q = '\'') : ∀ (k n : Nat), ∀ c ∈ hexOf k n, Ordinary q c
  | 0, _, c, h => by simp [hexOf] at h
  | k + 1, n, c, h => by
    simp only [hexOf, List.mem_append, List.mem_singleton] at h
    rcases h with h | rfl
    · exact hexOf_ordinary hq k _ c h
    · exact hexDigit_ordinary hq _ (Nat.mod_lt _ (by omega))

theorem literalBody_char {q c : Char} (hq : q = '"' ∨ q = '\'') (hc : c ≠ q) (s : Str) :
    literalBody q (escChar c ++ s) = (literalBody q s).map fun (b, r) => (escChar c ++ b, r) := by
  have hx : ∀ (l : Char) (k n : Nat), l ≠ '\n' ∧ l ≠ '\r' ∧ l ≠ '\x00' →
      literalBody q ('\\' :: l :: hexOf k n ++ s) = (literalBody q s).map fun (b, r) => ('\\' :: l :: hexOf k n ++ b, r) := by
    intro l k n hl
    rw [List.cons_append, List.cons_append, literalBody_esc hl, literalBody_append (hexOf_ordinary hq k n)]
    simp [Option.map_map, Function.comp_def]
  unfold escChar
  split
  · exact literalBody_esc (by decide) s
  · split
    · exact literalBody_esc (by decide) s
    · split
      · exact literalBody_esc (by decide) s
      · split
        · exact literalBody_esc (by decide) s
        · split
          · next h1 h2 h3 h4 h5 =>
            exact literalBody_cons ⟨h1, hc, h3, h4, by rintro rfl; exact absurd h5.1 (by decide)⟩ s
          · split
            · exact hx _ _ _ (by decide)
            · split <;> exact hx _ _ _ (by decide)

theorem literalBody_encode {q : Char} (hq : q = '"' ∨ q = '\'') : ∀ (s : Str), q ∉ s → ∀ t,
    literalBody q (escEncode s ++ q :: t) = some (escEncode s, t)
  | [], _, t => by
    change literalBody q (q :: t) = some ([], t)
    rw [literalBody]
    · rw [if_pos rfl]
    · intro _ _ h _; rcases hq with rfl | rfl <;> exact absurd h (by decide)
  | c :: s, h, t => by
    have e : escEncode (c :: s) = escChar c ++ escEncode s := by simp [escEncode]
    rw [e, List.append_assoc, literalBody_char hq (by rintro rfl; exact h (by simp)),
      literalBody_encode hq s (fun hh => h (by simp [hh])) t]
    rfl

/-- A quoted text without the quote is one literal, whose value is the text. -/
theorem literal_quoted {q : Char} (hq : q = '"' ∨ q = '\'') (other : Str → Option Str) (s : Str) (h : q ∉ s) :
    literalEval other (q :: escEncode s ++ [q]) = some s := by
  unfold literalEval
  simp only [List.cons_append]
  rw [literalBody_encode hq s h []]
  exact escDecode_encode s

/-- The first quote in the text closes the literal, which is then not all of it. -/
theorem literal_quote_inside {q : Char} (hq : q = '"' ∨ q = '\'') (other : Str → Option Str) (s : Str) (h : q ∈ s) :
    literalEval other (q :: escEncode s ++ [q]) = other (q :: escEncode s ++ [q]) := by
  obtain ⟨a, b, rfl, ha⟩ : ∃ a b, s = a ++ q :: b ∧ q ∉ a := by
    clear hq
    induction s with
    | nil => simp at h
    | cons c s ih =>
      by_cases hc : c = q
      · subst hc; exact ⟨[], s, rfl, by simp⟩
      · obtain ⟨a, b, rfl, ha⟩ := ih (by simpa [Ne.symm hc] using h)
        exact ⟨c :: a, b, rfl, by simp [ha, Ne.symm hc]⟩
  have e : escEncode (a ++ q :: b) ++ [q] = escEncode a ++ q :: (escEncode b ++ [q]) := by
    have : escChar q = [q] := by rcases hq with rfl | rfl <;> decide
    simp [escEncode, this]
  unfold literalEval
  simp only [List.cons_append]
  rw [e, literalBody_encode hq a ha]
  cases hb : escEncode b ++ [q] with
  | nil => simp at hb
  | cons _ _ => rfl

/-! ## Texts without quotes -/

theorem escDecodeGo_plain : ∀ (s : Str) (n : Nat), '\\' ∉ s → s.length ≤ n → escDecodeGo n s = some s
  | [], n, _, _ => by cases n <;> rfl
  | c :: s, 0, _, h => by simp at h
  | c :: s, n + 1, h, hn => by
    rw [escDecodeGo, if_neg (by rintro rfl; exact h (by simp)),
      escDecodeGo_plain s n (fun hh => h (by simp [hh])) (by simpa using hn)]
    rfl

theorem escDecode_plain (s : Str) (h : '\\' ∉ s) : escDecode s = some s := escDecodeGo_plain s _ h (Nat.le_refl _)

theorem utf8_ascii : ∀ (s : Str), (∀ c ∈ s, c.toNat < 0x80) → s.flatMap utf8Char = s
  | [], _ => rfl
  | c :: s, h => by
    rw [List.flatMap_cons, utf8_ascii s (fun d hd => h d (by simp [hd]))]
    simp [utf8Char, h c (by simp)]

theorem utf8_length : ∀ (c : Char), 1 ≤ (utf8Char c).length ∧ (0x80 ≤ c.toNat → 2 ≤ (utf8Char c).length) := by
  intro c
  unfold utf8Char
  simp only []
  repeat' split
  all_goals simp <;> omega

theorem utf8_grows (s : Str) (h : ∃ c ∈ s, 0x80 ≤ c.toNat) : s.length < (s.flatMap utf8Char).length := by
  have h1 : ∀ s : Str, s.length ≤ (s.flatMap utf8Char).length := by
    intro s
    induction s with
    | nil => simp
    | cons c s ih => have := (utf8_length c).1; simp only [List.flatMap_cons, List.length_append, List.length_cons]; omega
  induction s with
  | nil => simp at h
  | cons c s ih =>
    obtain ⟨d, hd, hn⟩ := h
    simp only [List.flatMap_cons, List.length_append, List.length_cons]
    rcases List.mem_cons.1 hd with rfl | hd
    · have := (utf8_length d).2 hn; have := h1 s; omega
    · have := ih ⟨d, hd, hn⟩; have := (utf8_length c).1; omega

theorem utf8_no_backslash (s : Str) (h : '\\' ∉ s) : '\\' ∉ s.flatMap utf8Char := by
  intro hb
  obtain ⟨c, hc, hb⟩ := List.mem_flatMap.1 hb
  have hv : c.toNat < 0xd800 ∨ (0xdfff < c.toNat ∧ c.toNat < 0x110000) := c.valid
  have key' : ∀ n, n < 0x100 → 0x80 ≤ n → '\\' ≠ Char.ofNat n := by decide +kernel
  have key : ∀ n, 0x80 ≤ n → n < 0x100 → '\\' ≠ Char.ofNat n := fun n h1 h2 => key' n h2 h1
  unfold utf8Char at hb
  simp only [] at hb
  split at hb
  · simp at hb; exact h (hb ▸ hc)
  · split at hb
    · simp only [List.mem_cons, List.not_mem_nil, or_false] at hb
      rcases hb with hb | hb <;> exact key _ (by omega) (by omega) hb
    · split at hb
      · simp only [List.mem_cons, List.not_mem_nil, or_false] at hb
        rcases hb with hb | hb | hb <;> exact key _ (by omega) (by omega) hb
      · simp only [List.mem_cons, List.not_mem_nil, or_false] at hb
        rcases hb with hb | hb | hb | hb <;> exact key _ (by omega) (by omega) hb

end Yupp
