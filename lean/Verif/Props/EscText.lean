import Verif.Spec.EscText
import Verif.Props.QuoteText
/-!
# C46 — Escape sequences in `$unq`
-/

namespace Yupp
open Spec

theorem octalDigit_facts : ∀ d, d < 8 → ('0' ≤ octalDigit d ∧ octalDigit d ≤ '7') ∧ (octalDigit d).toNat - 48 = d ∧
    ∀ s, escRead (octalDigit d :: s) = (codeChar (octRead 2 d s).1).map fun c => ([c], (octRead 2 d s).2)
  | 0, _ | 1, _ | 2, _ | 3, _ | 4, _ | 5, _ | 6, _ | 7, _ => ⟨by decide, by decide, fun _ => rfl⟩
  | n + 8, h => by omega

theorem octRead_digits {s : Str} : ∀ (ds : List Nat) (k acc : Nat), ds.length ≤ k → (∀ d ∈ ds, d < 8) →
    (ds.length = k ∨ ∀ c, s.head? = some c → ¬ ('0' ≤ c ∧ c ≤ '7')) →
    octRead k acc (ds.map octalDigit ++ s) = (ds.foldl (fun n d => 8 * n + d) acc, s)
  | [], 0, acc, _, _, _ => by simp [octRead]
  | [], k + 1, acc, _, _, h => by
    have h' := h.resolve_left (by simp)
    cases s with
    | nil => simp [octRead]
    | cons c s => simp only [List.map_nil, List.nil_append, octRead, List.foldl_nil]; rw [if_neg (h' c rfl)]
  | d :: ds, 0, acc, h, _, _ => by simp at h
  | d :: ds, k + 1, acc, h1, h2, h3 => by
    obtain ⟨h4, h5, -⟩ := octalDigit_facts d (h2 d (by simp))
    simp only [List.map_cons, List.cons_append, octRead, if_pos h4, h5, List.foldl_cons]
    exact octRead_digits ds k _ (by simpa using h1) (fun x hx => h2 x (by simp [hx])) (by simpa using h3)

theorem octal_small : ∀ (ds : List Nat), (∀ d ∈ ds, d < 8) → ∀ acc, ds.foldl (fun n d => 8 * n + d) acc < (acc + 1) * 8 ^ ds.length
  | [], _, acc => by simp
  | d :: ds, h, acc => by
    have h1 := octal_small ds (fun x hx => h x (by simp [hx])) (8 * acc + d)
    have h2 := h d (by simp)
    have h3 : (8 * acc + d + 1) * 8 ^ ds.length ≤ ((acc + 1) * 8) * 8 ^ ds.length := Nat.mul_le_mul_right _ (by omega)
    simp only [List.foldl_cons, List.length_cons, Nat.pow_succ]
    have h4 : (acc + 1) * (8 ^ ds.length * 8) = ((acc + 1) * 8) * 8 ^ ds.length := by
      rw [Nat.mul_assoc, Nat.mul_comm 8]
    omega

theorem escape_read : ∀ p ∈ escapes, ∀ s, escRead (p.1 :: s) = some ([p.2], s) := by
  intro p hp s
  simp only [escapes, List.mem_cons, List.not_mem_nil, or_false] at hp
  rcases hp with rfl | rfl | rfl | rfl | rfl | rfl | rfl | rfl | rfl | rfl <;> rfl

theorem other_read {c : Char} (h1 : ∀ d, (c, d) ∉ escapes) (h2 : c ∉ ['\n', 'x', 'u', 'U', 'N']) (h3 : ¬ ('0' ≤ c ∧ c ≤ '7')) (s : Str) :
    escRead (c :: s) = some (['\\', c], s) := by
  unfold escRead
  split
  · contradiction
  · rename_i heq
    cases heq
    split <;> first
      | exact if_neg h3
      | (exfalso; apply h2; simp; done)
      | (simp [escapes] at h1; done)

theorem escaped_decode {s t : Str} (h : Escaped s t) : ∀ n, s.length ≤ n → escDecodeGo n s = some t := by
  induction h with
  | nil => intro n _; cases n <;> rfl
  | @char c s t hc _ ih =>
    intro n hn
    cases n with
    | zero => simp at hn
    | succ n => simp [escDecodeGo, hc, ih n (by simpa using hn)]
  | @one c d s t hp _ ih =>
    intro n hn
    cases n with
    | zero => simp at hn
    | succ n => simp [escDecodeGo, escape_read _ hp s, ih n (by simp at hn; omega)]
  | @other c s t h1 h2 h3 _ ih =>
    intro n hn
    cases n with
    | zero => simp at hn
    | succ n => simp [escDecodeGo, other_read h1 h2 h3 s, ih n (by simp at hn; omega)]
  | @octal ds s t h0 h1 h2 h3 _ ih =>
    intro n hn
    cases ds with
    | nil => exact absurd rfl h0
    | cons d ds =>
      cases n with
      | zero => simp at hn
      | succ n =>
        obtain ⟨-, -, h6⟩ := octalDigit_facts d (h2 d (by simp))
        have h7 := octRead_digits (s := s) ds 2 d (by simpa using h1) (fun x hx => h2 x (by simp [hx])) (by simpa using h3)
        have h8 : octalValue (d :: ds) = ds.foldl (fun n d => 8 * n + d) d := by simp [octalValue]
        have h9 := octal_small (d :: ds) h2 0
        have h10 : 8 ^ (d :: ds).length ≤ 8 ^ 3 := Nat.pow_le_pow_right (by omega) h1
        have h11 : octalValue (d :: ds) < 0xd800 := by unfold octalValue; omega
        simp only [List.map_cons, List.cons_append, escDecodeGo, if_true, h6, h7]
        rw [← h8, codeChar, if_pos (.inl h11)]
        simp [ih n (by simp at hn; omega)]

theorem between_body {q : Char} (hq : q = '"' ∨ q = '\'') {b : Str} (h : BetweenQuotes q b) : literalBody q (b ++ [q]) = some (b, []) := by
  induction h with
  | nil =>
    change literalBody q [q] = some ([], [])
    rw [literalBody]
    · rw [if_pos rfl]
    · intro _ _ h _; rcases hq with rfl | rfl <;> exact absurd h (by decide)
  | @char c s h1 h2 _ ih =>
    simp only [List.mem_cons, List.not_mem_nil, or_false, not_or] at h2
    rw [List.cons_append, literalBody_cons ⟨h2.1, h1, h2.2.1, h2.2.2.1, h2.2.2.2⟩, ih]
    rfl
  | @behind c s h1 _ ih =>
    simp only [List.mem_cons, List.not_mem_nil, or_false, not_or] at h1
    rw [List.cons_append, List.cons_append, literalBody_esc h1, ih]
    rfl

/-- **C46.** `$unq` of a text between quotes, without line ends and zero characters and with every quote in it behind a
    backslash: the escape sequences are replaced by what they stand for, and the quotes are removed. -/
theorem C46_escapes (hs : Standard e x (lit "unq")) (hu : Unbound (lit "unq") s) {v : Node} {q : Char} (hq : q = '"' ∨ q = '\'') {b t : Str}
    (ha : Args e args s [v] s') (hv : v.text? = some (q :: b ++ [q])) (hb : BetweenQuotes q b) (ht : Escaped b t) :
    Evaluates e (fnCall (lit "unq") l loc args) s (.pstr t) s' := by
  have h := ev_call (l := l) (loc := loc) hs hu ha (text_term hv) (call_q x v s'.seen).2.2
  have h1 : bUnq x v = t := by
    unfold bUnq
    rw [hv]
    simp only [List.cons_append, List.head?_cons]
    have hq' : (q :: b ++ [q]).head? = some '"' ∨ (q :: b ++ [q]).head? = some '\'' := by rcases hq with rfl | rfl <;> simp
    refine (if_pos hq').trans ?_
    simp only [literalEval, between_body hq hb]
    simp [escDecode, escaped_decode ht _ (Nat.le_refl _)]
  rwa [h1] at h

/-! An example: `"\101\n\"7\0"`, and `\q`. -/

/-- The text between the quotes. -/
def escSample : Str := ['\\', '1', '0', '1', '\\', 'n', '\\', '"', '7', '\\', '0']

example : BetweenQuotes '"' escSample :=
  .behind (by decide) (.char (by decide) (by decide) (.char (by decide) (by decide) (.behind (by decide) (.behind (by decide) (.char (by decide) (by decide)
    (.behind (by decide) .nil))))))
example : Escaped escSample ['A', '\n', '"', '7', '\x00'] :=
  .octal (ds := [1, 0, 1]) (by simp) (by simp) (by simp) (.inl rfl) (.one (by simp [escapes]) (.one (by simp [escapes]) (.char (by decide)
    (.octal (ds := [0]) (s := []) (by simp) (by simp) (by simp) (.inr (by simp)) .nil))))
example : Escaped ['\\', 'q'] ['\\', 'q'] := .other (by simp [escapes]) (by decide) (by decide) .nil

end Yupp
