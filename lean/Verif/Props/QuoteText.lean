import Verif.Props.Builtin
/-!
# C46 — What a quoted text looks like
-/

namespace Yupp
open Spec

/-- A printable character of ASCII. -/
def PrintableAscii (c : Char) : Prop := ' ' ≤ c ∧ c ≤ '~'

theorem printable_iff {c : Char} : PrintableAscii c ↔ 0x20 ≤ c.toNat ∧ c.toNat < 0x7f := by
  unfold PrintableAscii
  simp only [Char.le_def, UInt32.le_iff_toNat_le]
  change 0x20 ≤ c.toNat ∧ c.toNat ≤ 0x7e ↔ _
  omega

theorem hexDigit_printable : ∀ d, d < 16 → PrintableAscii (hexDigit d) := by
  unfold PrintableAscii
  decide

theorem hexOf_printable : ∀ (k n : Nat), ∀ c ∈ hexOf k n, PrintableAscii c
  | 0, _, c, h => by simp [hexOf] at h
  | k + 1, n, c, h => by
    simp only [hexOf, List.mem_append, List.mem_singleton] at h
    rcases h with h | rfl
    · exact hexOf_printable k _ c h
    · exact hexDigit_printable _ (Nat.mod_lt _ (by omega))

theorem escChar_printable (c : Char) : ∀ d ∈ escChar c, PrintableAscii d := by
  have hb : PrintableAscii '\\' := by unfold PrintableAscii; decide
  have hl : ∀ l ∈ ['\\', 't', 'n', 'r', 'x', 'u', 'U'], PrintableAscii l := by unfold PrintableAscii; decide
  unfold escChar
  intro d hd
  split at hd
  · exact hl d (by simp at hd ⊢; simp [hd])
  · split at hd
    · exact hl d (by simp at hd ⊢; rcases hd with rfl | rfl <;> simp)
    · split at hd
      · exact hl d (by simp at hd ⊢; rcases hd with rfl | rfl <;> simp)
      · split at hd
        · exact hl d (by simp at hd ⊢; rcases hd with rfl | rfl <;> simp)
        · split at hd
          · next h => obtain rfl : d = c := by simpa using hd
                      exact printable_iff.2 h
          · split at hd
            · rcases List.mem_cons.1 hd with rfl | hd
              · exact hb
              · rcases List.mem_cons.1 hd with rfl | hd
                · exact hl _ (by simp)
                · exact hexOf_printable _ _ _ hd
            · split at hd <;>
              · rcases List.mem_cons.1 hd with rfl | hd
                · exact hb
                · rcases List.mem_cons.1 hd with rfl | hd
                  · exact hl _ (by simp)
                  · exact hexOf_printable _ _ _ hd

theorem escEncode_plain {t : Str} (h : ∀ c ∈ t, PrintableAscii c ∧ c ≠ '\\') : escEncode t = t := by
  induction t with
  | nil => rfl
  | cons c t ih =>
    obtain ⟨h1, h2⟩ := h c (by simp)
    have hc : escChar c = [c] := by
      have hp := printable_iff.1 h1
      unfold escChar
      rw [if_neg h2, if_neg (by rintro rfl; exact absurd hp.1 (by decide)), if_neg (by rintro rfl; exact absurd hp.1 (by decide)),
        if_neg (by rintro rfl; exact absurd hp.1 (by decide)), if_pos hp]
    have e : escEncode (c :: t) = escChar c ++ escEncode t := by simp [escEncode]
    rw [e, hc, ih (fun d hd => h d (by simp [hd]))]
    rfl

/-- The evaluation of `($q x)` and `($qs x)`. -/
theorem ev_quote {f : Str} {q : Char} (hf : Quoting f q) (hs : Standard e x f) (hu : Unbound f s) {v : Node} {t : Str}
    (ha : Args e args s [v] s') (ht : v.text? = some t) : Evaluates e (fnCall f l loc args) s (.pstr (q :: escEncode t ++ [q])) s' := by
  have h1 : Evaluates e (fnCall f l loc args) s (.pstr (bQuote x q v)) s' := by
    rcases hf with ⟨rfl, rfl⟩ | ⟨rfl, rfl⟩
    · exact ev_call hs hu ha (text_term ht) (call_q x v s'.seen).1
    · exact ev_call hs hu ha (text_term ht) (call_q x v s'.seen).2.1
  rwa [bQuote, text_str ht] at h1

/-- **C46.** Whatever characters a text has, the text quoted is one line of printable ASCII characters between two quotes. -/
theorem C46_printable {f : Str} {q : Char} (hf : Quoting f q) (hs : Standard e x f) (hu : Unbound f s) {v : Node} {t : Str}
    (ha : Args e args s [v] s') (ht : v.text? = some t) :
    ∃ b, Evaluates e (fnCall f l loc args) s (.pstr (q :: b ++ [q])) s' ∧ ∀ c ∈ b, PrintableAscii c := by
  refine ⟨_, ev_quote hf hs hu ha ht, fun c hc => ?_⟩
  obtain ⟨d, -, hd⟩ := List.mem_flatMap.1 hc
  exact escChar_printable d c hd

/-- **C46.** A text of printable ASCII characters without backslashes stands between the quotes as it is. -/
theorem C46_plain {f : Str} {q : Char} (hf : Quoting f q) (hs : Standard e x f) (hu : Unbound f s) {v : Node} {t : Str}
    (ha : Args e args s [v] s') (ht : v.text? = some t) (hp : ∀ c ∈ t, PrintableAscii c ∧ c ≠ '\\') :
    Evaluates e (fnCall f l loc args) s (.pstr (q :: t ++ [q])) s' := by
  have h := ev_quote (l := l) (loc := loc) hf hs hu ha ht
  rwa [escEncode_plain hp] at h

/-! A text for each of the two theorems: one with a tabulation, DEL and a snowman, and one that is kept. -/

example : escEncode (lit "a\t\x7f☃") = lit "a\\t\\x7f\\u2603" := by decide +kernel
example : ∀ c ∈ lit "int x = 1; // 'y'", PrintableAscii c ∧ c ≠ '\\' := by unfold PrintableAscii; decide +kernel

end Yupp
