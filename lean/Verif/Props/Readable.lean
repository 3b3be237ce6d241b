import Verif.Model.Readable
import Verif.Spec.Readable
/-!
# C74: what is shown of a program that is not reduced to text
-/

namespace Yupp

open Spec

/-! ## Lines -/

theorem sliceStr_drop (st : Str) {i j : Nat} (h : i ≤ j) : st.drop i = sliceStr st i j ++ st.drop j := by
  unfold sliceStr
  rw [← List.take_append_drop j st, List.drop_append]
  rw [List.take_append_drop]
  by_cases hj : j ≤ st.length
  · rw [List.length_take, Nat.min_eq_left hj, Nat.sub_eq_zero_of_le h, List.drop_zero]
  · rw [List.drop_eq_nil_of_le (by omega : st.length ≤ j)]
    simp

theorem sliceStr_ne {st : Str} {i j : Nat} (h : i < j) (hi : i < st.length) : sliceStr st i j ≠ [] := by
  intro h0
  have := congrArg List.length h0
  simp [sliceStr] at this
  omega

theorem wrapped_loop (st : Str) : ∀ (r : List (Nat × Option Nat × Nat)) (i : Nat), (∀ x ∈ r, x.1 < st.length) →
    (∀ x ∈ r, ∀ e, x.2.1 = some e → x.1 ≤ e) → Wrapped (st.drop i) (prettyLoop st r i)
  | [], i, _, _ => .rest
  | (b, e, depth) :: r, i, h, he => by
    have ih := fun i => wrapped_loop st r i (fun x hx => h x (List.mem_cons_of_mem _ hx)) (fun x hx => he x (List.mem_cons_of_mem _ hx))
    have hb : b < st.length := h _ (List.mem_cons_self ..)
    have hi : ∀ d, ∀ c ∈ prettyIndent d, c = ' ' := fun d c hc => List.eq_of_mem_replicate hc
    unfold prettyLoop
    split
    · next hib =>
      cases e with
      | none =>
        dsimp only
        split
        · rw [sliceStr_drop st (by omega : i ≤ b + 1)]
          exact .line (sliceStr_ne (by omega) (by omega)) (hi _) (ih _)
        · rw [sliceStr_drop st (by omega : i ≤ b), sliceStr_drop st (by omega : b ≤ b + 1)]
          simp only [List.append_assoc]
          have h2 := Wrapped.line (sliceStr_ne (by omega : b < b + 1) hb) (hi depth) (ih (b + 1))
          have h1 := Wrapped.line (sliceStr_ne (by omega : i < b) (Nat.lt_of_le_of_lt hib hb)) (hi (depth + 1)) h2
          simpa only [List.append_assoc] using h1
      | some e =>
        have hbe : b ≤ e := he _ (List.mem_cons_self ..) e rfl
        dsimp only
        have hle : i ≤ (if e - b + 2 * depth < 100 then e else b) + 1 := by split <;> omega
        rw [sliceStr_drop st hle]
        exact .line (sliceStr_ne (by split <;> omega) (by omega)) (hi _) (ih _)
    · exact ih i

/-! ## The table of brackets -/

theorem mem_insertKey {x y : Nat × α} {ys : List (Nat × α)} : y ∈ insertKey x ys ↔ y = x ∨ y ∈ ys := by
  induction ys with
  | nil => simp [insertKey]
  | cons z zs ih =>
    unfold insertKey
    split
    · simp
    · simp only [List.mem_cons, ih]
      constructor
      · rintro (h | h | h) <;> simp [h]
      · rintro (h | h | h) <;> simp [h]

theorem mem_sortKeys {y : Nat × α} {xs : List (Nat × α)} : y ∈ sortKeys xs ↔ y ∈ xs := by
  induction xs with
  | nil => simp [sortKeys]
  | cons x xs ih => rw [sortKeys, List.foldr_cons, mem_insertKey, ← sortKeys, ih, List.mem_cons]

theorem sorted_insertKey {x : Nat × α} {ys : List (Nat × α)} (h : ys.Pairwise (fun a b => a.1 ≤ b.1)) :
    (insertKey x ys).Pairwise (fun a b => a.1 ≤ b.1) := by
  induction ys with
  | nil => simp [insertKey]
  | cons z zs ih =>
    have hz := List.pairwise_cons.mp h
    unfold insertKey
    split
    · next hx =>
      refine List.pairwise_cons.mpr ⟨fun y hy => ?_, h⟩
      rcases List.mem_cons.mp hy with rfl | hy
      · exact hx
      · exact Nat.le_trans hx (hz.1 y hy)
    · next hx =>
      refine List.pairwise_cons.mpr ⟨fun y hy => ?_, ih hz.2⟩
      rcases mem_insertKey.mp hy with rfl | hy
      · omega
      · exact hz.1 y hy

theorem sorted_sortKeys (xs : List (Nat × α)) : (sortKeys xs).Pairwise (fun a b => a.1 ≤ b.1) := by
  induction xs with
  | nil => exact List.Pairwise.nil
  | cons x xs ih => exact sorted_insertKey ih

theorem nest_append (d : Nat) (a b : Str) : nest d (a ++ b) = nest (nest d a) b := List.foldl_append

def isCloser (c : Char) : Bool := c = ')' || c = ']' || c = '}'
def isOpener (c : Char) : Bool := c = '(' || c = '[' || c = '{'

theorem nest_one (d : Nat) (c : Char) : nest d [c] = if isCloser c then d - 1 else if isOpener c then d + 1 else d := rfl

/-- What an entry of the table says. -/
def EntryRight (st : Str) : Nat × Option Nat × Nat → Prop
  | (b, none, d) => b < st.length ∧ (∃ c, st[b]? = some c ∧ isCloser c = true) ∧ nest 0 (st.take b) = d + 1
  | (b, some e, d) => b < e ∧ e < st.length ∧ nest 0 (st.take b) = d ∧ (∃ c, st[b]? = some c ∧ isOpener c = true)

/-- The positions of open brackets. -/
def OpenAt (st : Str) : List Nat → Nat → Prop
  | [], _ => True
  | b :: r, i => b < i ∧ nest 0 (st.take b) = r.length ∧ (∃ c, st[b]? = some c ∧ isOpener c = true) ∧ OpenAt st r b

theorem OpenAt.le {st : Str} {r : List Nat} {i j : Nat} (h : OpenAt st r i) (hij : i ≤ j) : OpenAt st r j := by
  cases r with
  | nil => trivial
  | cons b r => exact ⟨by have := h.1; omega, h.2⟩

theorem take_succ_cons (pre : Str) (c : Char) (t : Str) : (pre ++ c :: t).take (pre.length + 1) = pre ++ [c] := by
  rw [show pre ++ c :: t = (pre ++ [c]) ++ t by simp]
  exact List.take_left' (by simp)

theorem scan_right : ∀ (t pre : Str) (opened : List Nat), opened.length = nest 0 pre → OpenAt (pre ++ t) opened pre.length →
    ∀ x ∈ scanBrackets pre.length opened t, EntryRight (pre ++ t) x := by
  intro t
  induction t with
  | nil => intro pre opened _ _ x hx; cases hx
  | cons c t ih =>
    intro pre opened hlen hop x hx
    have hsplit : pre ++ c :: t = (pre ++ [c]) ++ t := by simp
    have hl : pre.length + 1 = (pre ++ [c]).length := by simp
    have hn : nest 0 (pre ++ [c]) = if isCloser c then opened.length - 1 else if isOpener c then opened.length + 1 else opened.length := by
      rw [nest_append, ← hlen, nest_one]
    have hc : (pre ++ c :: t)[pre.length]? = some c := by simp
    have htake : (pre ++ c :: t).take pre.length = pre := List.take_left' rfl
    unfold scanBrackets at hx
    by_cases h1 : isCloser c = true
    · rw [if_pos h1] at hn
      have h1' : (c = ')' || c = ']' || c = '}') = true := h1
      rw [if_pos h1'] at hx
      cases opened with
      | nil =>
        dsimp only at hx
        rw [hl] at hx
        rw [hsplit]
        exact ih _ [] (by rw [hn]; rfl) trivial x hx
      | cons b rest =>
        dsimp only at hx
        obtain ⟨o1, o2, o3, o4⟩ := hop
        rcases List.mem_cons.mp hx with rfl | hx
        · exact ⟨o1, by simp, o2, o3⟩
        · rcases List.mem_cons.mp hx with rfl | hx
          · exact ⟨by simp, ⟨c, hc, h1⟩, by rw [htake, ← hlen]; rfl⟩
          · rw [hl] at hx
            rw [hsplit] at o4 ⊢
            exact ih _ rest (by rw [hn]; rfl) (o4.le (by simp; omega)) x hx
    · rw [if_neg h1] at hn
      have h1' : ¬ (c = ')' || c = ']' || c = '}') = true := h1
      rw [if_neg h1'] at hx
      by_cases h2 : isOpener c = true
      · rw [if_pos h2] at hn
        have h2' : (c = '(' || c = '[' || c = '{') = true := h2
        rw [if_pos h2', hl] at hx
        have hop' : OpenAt (pre ++ c :: t) (pre.length :: opened) (pre ++ [c]).length :=
          ⟨by simp, by rw [htake, hlen], ⟨c, hc, h2⟩, hop⟩
        rw [hsplit] at hop' ⊢
        exact ih _ _ (by rw [hn]; rfl) hop' x hx
      · rw [if_neg h2] at hn
        have h2' : ¬ (c = '(' || c = '[' || c = '{') = true := h2
        rw [if_neg h2', hl] at hx
        have hop' := hop.le (j := (pre ++ [c]).length) (by simp)
        rw [hsplit] at hop' ⊢
        exact ih _ _ (by rw [hn]) hop' x hx

/-- If all brackets that are opened are closed, each of them has an entry, and so has each closing one that has a partner. -/
theorem scan_complete : ∀ (t pre : Str) (opened : List Nat), opened.length = nest 0 pre → nest 0 (pre ++ t) = 0 →
    (∀ b ∈ opened, ∃ x ∈ scanBrackets pre.length opened t, x.1 = b) ∧
    ∀ j, pre.length ≤ j → j < (pre ++ t).length → (∃ x ∈ scanBrackets pre.length opened t, x.1 = j) ∨
      nest 0 ((pre ++ t).take (j + 1)) = nest 0 ((pre ++ t).take j) := by
  intro t
  induction t with
  | nil =>
    intro pre opened hlen h0
    rw [List.append_nil] at h0
    rw [h0] at hlen
    have : opened = [] := List.length_eq_zero_iff.mp hlen
    subst this
    exact ⟨by simp, fun j h1 h2 => by simp at h2; omega⟩
  | cons c t ih =>
    intro pre opened hlen h0
    have hsplit : pre ++ c :: t = (pre ++ [c]) ++ t := by simp
    have hl : pre.length + 1 = (pre ++ [c]).length := by simp
    have hn : nest 0 (pre ++ [c]) = if isCloser c then opened.length - 1 else if isOpener c then opened.length + 1 else opened.length := by
      rw [nest_append, ← hlen, nest_one]
    have flat : nest 0 (pre ++ [c]) = nest 0 pre → nest 0 ((pre ++ c :: t).take (pre.length + 1)) = nest 0 ((pre ++ c :: t).take pre.length) := by
      intro h
      rw [take_succ_cons, List.take_left' rfl]
      exact h
    have rest : ∀ (opened' : List Nat) (x0 : List (Nat × Option Nat × Nat)),
        opened'.length = nest 0 (pre ++ [c]) →
        ((∃ x ∈ x0, x.1 = pre.length) ∨ pre.length ∈ opened' ∨ nest 0 (pre ++ [c]) = nest 0 pre) →
        (∀ b ∈ opened, (∃ x ∈ x0, x.1 = b) ∨ b ∈ opened') →
        (∀ b ∈ opened, ∃ x ∈ x0 ++ scanBrackets (pre.length + 1) opened' t, x.1 = b) ∧
        ∀ j, pre.length ≤ j → j < (pre ++ c :: t).length → (∃ x ∈ x0 ++ scanBrackets (pre.length + 1) opened' t, x.1 = j) ∨
          nest 0 ((pre ++ c :: t).take (j + 1)) = nest 0 ((pre ++ c :: t).take j) := by
      intro opened' x0 hlen' hpos hold
      obtain ⟨i1, i2⟩ := ih (pre ++ [c]) opened' hlen' (by rw [← hsplit]; exact h0)
      rw [← hl] at i1
      have lift : ∀ b ∈ opened', ∃ x ∈ x0 ++ scanBrackets (pre.length + 1) opened' t, x.1 = b := by
        intro b hb
        obtain ⟨x, hx, he⟩ := i1 b hb
        exact ⟨x, List.mem_append_right _ hx, he⟩
      refine ⟨?_, ?_⟩
      · intro b hb
        rcases hold b hb with ⟨x, hx, he⟩ | hb
        · exact ⟨x, List.mem_append_left _ hx, he⟩
        · exact lift b hb
      · intro j h1 h2
        rcases Nat.lt_or_ge pre.length j with h3 | h3
        · have := i2 j (by rw [← hl]; omega) (by rw [← hsplit]; exact h2)
          rw [← hl, ← hsplit] at this
          rcases this with ⟨x, hx, he⟩ | h
          · exact .inl ⟨x, List.mem_append_right _ hx, he⟩
          · exact .inr h
        · have : j = pre.length := by omega
          subst this
          rcases hpos with ⟨x, hx, he⟩ | hb | h
          · exact .inl ⟨x, List.mem_append_left _ hx, he⟩
          · exact .inl (lift _ hb)
          · exact .inr (flat h)
    unfold scanBrackets
    by_cases h1 : isCloser c = true
    · rw [if_pos h1] at hn
      have h1' : (c = ')' || c = ']' || c = '}') = true := h1
      rw [if_pos h1']
      cases opened with
      | nil => exact rest [] [] (by rw [hn]; rfl) (.inr (.inr (by rw [hn, ← hlen]; rfl))) (fun b hb => by cases hb)
      | cons b rest' =>
        exact rest rest' [(b, some pre.length, rest'.length), (pre.length, none, rest'.length)] (by rw [hn]; rfl)
          (.inl ⟨(pre.length, none, rest'.length), by simp, rfl⟩) (by
            intro b' hb'
            rcases List.mem_cons.mp hb' with rfl | hb'
            · exact .inl ⟨_, List.mem_cons_self .., rfl⟩
            · exact .inr hb')
    · rw [if_neg h1] at hn
      have h1' : ¬ (c = ')' || c = ']' || c = '}') = true := h1
      rw [if_neg h1']
      by_cases h2 : isOpener c = true
      · rw [if_pos h2] at hn
        have h2' : (c = '(' || c = '[' || c = '{') = true := h2
        rw [if_pos h2']
        exact rest (pre.length :: opened) [] (by rw [hn]; rfl) (.inr (.inl (List.mem_cons_self ..))) (fun b hb => .inr (List.mem_cons_of_mem _ hb))
      · rw [if_neg h2] at hn
        have h2' : ¬ (c = '(' || c = '[' || c = '{') = true := h2
        rw [if_neg h2']
        exact rest opened [] (by rw [hn]) (.inr (.inr (by rw [hn, hlen]))) (fun b hb => .inr hb)

/-! ## Depth -/

theorem nest_slice (st : Str) {i j : Nat} (h : i ≤ j) : nest 0 (st.take j) = nest (nest 0 (st.take i)) (sliceStr st i j) := by
  rw [← nest_append]
  congr 1
  unfold sliceStr
  have := List.take_append_drop i (st.take j)
  rw [List.take_take, Nat.min_eq_left h] at this
  exact this.symm

theorem nest_flat (st : Str) {i b : Nat} (hb : b ≤ st.length) : i ≤ b →
    (∀ j, i ≤ j → j < b → nest 0 (st.take (j + 1)) = nest 0 (st.take j)) → nest 0 (st.take b) = nest 0 (st.take i) := by
  induction b with
  | zero => intro h _; rw [Nat.le_zero.mp h]
  | succ b ih =>
    intro h hf
    rcases Nat.eq_or_lt_of_le h with rfl | h
    · rfl
    · rw [hf b (by omega) (by omega)]
      exact ih (by omega) (by omega) (fun j h1 h2 => hf j h1 (by omega))

theorem sliceStr_one {st : Str} {b : Nat} {c : Char} (h : st[b]? = some c) : sliceStr st b (b + 1) = [c] := by
  obtain ⟨hlt, rfl⟩ := List.getElem?_eq_some_iff.mp h
  unfold sliceStr
  rw [List.take_succ, List.drop_append, List.getElem?_eq_getElem hlt]
  simp [Nat.min_eq_left (Nat.le_of_lt hlt)]

theorem closing_one {c : Char} (h : isCloser c = true) : Closing [c] := by
  unfold isCloser at h
  simp only [Bool.or_eq_true, decide_eq_true_eq] at h
  rcases h with (rfl | rfl) | rfl
  · exact .inl rfl
  · exact .inr (.inl rfl)
  · exact .inr (.inr rfl)

theorem closing_nest {d : Nat} {s : Str} (h : Closing s) : nest d s = d - 1 := by
  rcases h with rfl | rfl | rfl <;> rfl

theorem broken_loop (st : Str) : ∀ (r : List (Nat × Option Nat × Nat)) (i : Nat), r.Pairwise (fun a b => a.1 ≤ b.1) →
    (∀ x ∈ r, EntryRight st x) →
    (∀ j, i ≤ j → j < st.length → (∃ x ∈ r, x.1 = j) ∨ nest 0 (st.take (j + 1)) = nest 0 (st.take j)) →
    Broken (nest 0 (st.take i)) (st.drop i) (prettyLoop st r i)
  | [], i, _, _, _ => .rest
  | (b, e, depth) :: r, i, hs, hr, hc => by
    have hs' := List.pairwise_cons.mp hs
    have ih := fun i => broken_loop st r i hs'.2 (fun x hx => hr x (List.mem_cons_of_mem _ hx))
    have hrest : ∀ k, b < k → i ≤ k → ∀ j, k ≤ j → j < st.length →
        (∃ x ∈ r, x.1 = j) ∨ nest 0 (st.take (j + 1)) = nest 0 (st.take j) := by
      intro k h1 h2 j h3 h4
      rcases hc j (by omega) h4 with ⟨x, hx, he⟩ | h
      · rcases List.mem_cons.mp hx with rfl | hx
        · simp at he; omega
        · exact .inl ⟨x, hx, he⟩
      · exact .inr h
    unfold prettyLoop
    split
    · next hib =>
      have flat : b < st.length → nest 0 (st.take b) = nest 0 (st.take i) := by
        intro hb
        refine nest_flat st (by omega) hib (fun j h1 h2 => ?_)
        rcases hc j h1 (by omega) with ⟨x, hx, he⟩ | h
        · rcases List.mem_cons.mp hx with rfl | hx
          · simp at he; omega
          · have := hs'.1 x hx; simp at this; omega
        · exact h
      cases e with
      | none =>
        obtain ⟨hb, ⟨c, hcb, hcl⟩, hn⟩ := hr _ (List.mem_cons_self ..)
        have hone := sliceStr_one hcb
        have ht := closing_one hcl
        have hi' := ih (b + 1) (hrest _ (by omega) (by omega))
        have hd : nest 0 (st.take i) = depth + 1 := by rw [← flat hb]; exact hn
        rw [nest_slice st (by omega : b ≤ b + 1), hone, hn] at hi'
        dsimp only
        split
        · next hib' =>
          subst hib'
          rw [sliceStr_drop st (by omega : i ≤ i + 1), hone, hd]
          exact .close ht hi'
        · rw [sliceStr_drop st (by omega : i ≤ b), sliceStr_drop st (by omega : b ≤ b + 1), hone]
          have hpiece : nest (depth + 1) (sliceStr st i b) = depth + 1 := by
            have := nest_slice st hib
            rw [hd, hn] at this
            exact this.symm
          have h2 := Broken.close ht hi'
          rw [← hpiece] at h2
          have h1 := Broken.line (d := depth + 1) (sliceStr_ne (by omega : i < b) (by omega)) (fun hcl => by
            rw [closing_nest hcl] at hpiece
            omega) h2
          rw [hd]
          simpa only [List.append_assoc, prettyIndent, hpiece, Nat.add_sub_cancel] using h1
      | some e =>
        obtain ⟨hbe, he, hn, c, hcb, hop⟩ := hr _ (List.mem_cons_self ..)
        have hd : nest 0 (st.take i) = depth := by rw [← flat (by omega)]; exact hn
        dsimp only
        generalize hb' : (if e - b + 2 * depth < 100 then e else b) = b'
        have h1 : b ≤ b' := by rw [← hb']; split <;> omega
        have hi' := ih (b' + 1) (hrest _ (by omega) (by omega))
        rw [nest_slice st (by omega : i ≤ b' + 1)] at hi'
        rw [sliceStr_drop st (by omega : i ≤ b' + 1)]
        have hmem : c ∈ sliceStr st i (b' + 1) := by
          unfold sliceStr
          refine List.mem_of_getElem? (i := b - i) ?_
          rw [List.getElem?_drop, List.getElem?_take, if_pos (by omega), show i + (b - i) = b by omega]
          exact hcb
        have := Broken.line (d := nest 0 (st.take i)) (sliceStr_ne (by omega : i < b' + 1) (by omega)) (fun hcl => by
          have : Closing [c] := by
            rcases hcl with h | h | h <;> rw [h] at hmem <;> cases List.mem_singleton.mp hmem
            · exact .inl rfl
            · exact .inr (.inl rfl)
            · exact .inr (.inr rfl)
          revert hop
          rcases this with h | h | h <;> cases h <;> decide) hi'
        rw [hd] at this ⊢
        exact this
    · next hib =>
      refine ih i (fun j h1 h2 => hrest i (by omega) (by omega) j h1 h2)

/-! ## The property -/

theorem scan_right0 (st : Str) : ∀ x ∈ scanBrackets 0 [] st, EntryRight st x := scan_right st [] [] rfl trivial

/-- **C74**. The printed form of a node is shown broken into lines: nothing of it is lost, changed or moved; only line ends and
    spaces at the beginning of lines are added. -/
theorem C74_nothing_lost (st : Str) : Wrapped st (astPretty st) := by
  refine wrapped_loop st _ 0 (fun x hx => ?_) (fun x hx e he => ?_) <;>
  · have := scan_right0 st x (mem_sortKeys.mp hx)
    obtain ⟨b, o, d⟩ := x
    cases o with
    | none => first | exact this.1 | cases he
    | some e' =>
      obtain ⟨h1, h2, _⟩ := this
      first
      | (change b < st.length; omega)
      | (cases he; exact Nat.le_of_lt h1)

/-- **C74**. If every bracket that is opened in it is closed, the lines are indented by their depth: two spaces for each open
    bracket. -/
theorem C74_indented (st : Str) (h : nest 0 st = 0) : Broken 0 st (astPretty st) :=
  broken_loop st _ 0 (sorted_sortKeys _) (fun x hx => scan_right0 st x (mem_sortKeys.mp hx)) (fun j h1 h2 => by
    rcases (scan_complete st [] [] rfl h).2 j (Nat.zero_le _) h2 with ⟨x, hx, he⟩ | h
    · exact .inl ⟨x, mem_sortKeys.mpr hx, he⟩
    · exact .inr h)

mutual
theorem readable_textual (cfg : Config) (x : TextExt) : ∀ v : Node, Textual v → readable cfg x v = plainStr cfg x v
  | .trim a i, h => by cases h with | trim h => rw [readable, plainStr, readable_textual cfg x a h]
  | .lazy a, h => by cases h with | lazy h => rw [readable, plainStr, readable_textual cfg x a h]
  | .list xs, h => by cases h with | list h => rw [readable, plainStr, readables_textual cfg x xs h]
  | .t xs i, h => by cases h with | t h => rw [readable, plainStr, readables_textual cfg x xs h]
  | .atom _, _ | .remark _, _ | .str _, _ | .plain _ _ _, _ | .pstr _, _ | .result _, _ | .int _, _ | .bool _, _ | .float _, _ => by
    simp [readable, plainStr, strOf]
theorem readables_textual (cfg : Config) (x : TextExt) : ∀ xs : List Node, (∀ y ∈ xs, Textual y) → readables cfg x xs = plainStrs cfg x xs
  | [], _ => rfl
  | y :: ys, h => by
    rw [readables, plainStrs, readable_textual cfg x y (h y (List.mem_cons_self ..)),
      readables_textual cfg x ys (fun z hz => h z (List.mem_cons_of_mem _ hz))]
end

/-- **C74**. What is text already is shown as it would be in the generated file. -/
theorem C74_text_as_generated (cfg : Config) (x : TextExt) {v : Node} (h : Textual v) : readable cfg x v = plainStr cfg x v :=
  readable_textual cfg x v h

theorem readables_append (cfg : Config) (x : TextExt) (a b : List Node) : readables cfg x (a ++ b) = readables cfg x a ++ readables cfg x b := by
  induction a with
  | nil => rfl
  | cons y ys ih => rw [List.cons_append, readables, ih, readables, List.append_assoc]

/-- **C74**. In a text with parts that are not known, the parts that are text stand in their places, each as generated. -/
theorem C74_in_place (cfg : Config) (x : TextExt) (before after : List Node) {v : Node} (i : Indent) (h : Textual v) :
    readable cfg x (.t (before ++ v :: after) i) =
      readable cfg x (.t before i) ++ plainStr cfg x v ++ readable cfg x (.t after i) := by
  rw [readable, readables_append, readables, C74_text_as_generated cfg x h, readable, readable, List.append_assoc]

/-- C74. A value that is nothing is shown as `None`, although nothing would be generated for it. -/
theorem C74_none (cfg : Config) (x : TextExt) (h : x.repr .none = lit "None") :
    readable cfg x .none = lit "None" ∧ plainStr cfg x .none = [] := by
  refine ⟨?_, rfl⟩
  simp only [readable]
  rw [h]
  decide +kernel

namespace ReadableExample

/-- A short node stays on its line. -/
example : astPretty (lit "VAR(ATOM('a'))") = lit "VAR(ATOM('a'))\n" := by decide +kernel

/-- A long one is broken at its brackets. -/
def long : Str := lit "F(" ++ List.replicate 99 'x' ++ lit "[y])"

example : nest 0 long = 0 ∧ astPretty long = lit "F(\n" ++ lit "  " ++ List.replicate 99 'x' ++ lit "[y]\n" ++ lit ")\n" := by
  decide +kernel

/-- A program whose end waits for an unknown name. -/
example : Textual (.t [.atom { txt := lit "ab" }, .int 7] (.str [])) := .t (by
  intro y hy
  simp only [List.mem_cons, List.not_mem_nil, or_false] at hy
  rcases hy with rfl | rfl
  · exact .atom
  · exact .int)

end ReadableExample

end Yupp
