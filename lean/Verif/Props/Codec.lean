import Verif.Model.Codec
/-!
# Properties of the codec: C43, C44, C51
-/

namespace Yupp

/-- Written `yupp` in any letter case. -/
def IsYupp (p : Str) : Prop := p.map Char.toLower = ['y', 'u', 'p', 'p']

theorem findIdx_dot (s : Str) : ∀ i, findIdx ['.'] s = some i ↔ ∃ a b, s = a ++ '.' :: b ∧ a.length = i ∧ '.' ∉ a := by
  induction s with
  | nil => intro i; simp [findIdx]
  | cons c t ih =>
    intro i
    by_cases hc : c = '.'
    · subst hc
      have : findIdx ['.'] ('.' :: t) = some 0 := by simp [findIdx]
      rw [this]
      constructor
      · intro h; simp at h; subst h; exact ⟨[], t, rfl, rfl, by simp⟩
      · rintro ⟨a, b, h, rfl, ha⟩
        cases a with
        | nil => rfl
        | cons x a => simp at h; simp [← h.1] at ha
    · have hp : (['.'].isPrefixOf (c :: t)) = false := by
        have : ('.' == c) = false := by simpa using Ne.symm hc
        simp [List.isPrefixOf, this]
      simp only [findIdx, hp, Bool.false_eq_true, if_false]
      constructor
      · intro h
        cases hf : findIdx ['.'] t with
        | none => rw [hf] at h; simp at h
        | some j =>
          rw [hf] at h
          simp only [Option.map_some, Option.some.injEq] at h
          obtain ⟨a, b, h1, h2, h3⟩ := (ih j).1 hf
          exact ⟨c :: a, b, by rw [h1]; rfl, by simp [h2, ← h], by simp [h3, Ne.symm hc]⟩
      · rintro ⟨a, b, h, rfl, ha⟩
        cases a with
        | nil => simp at h; exact absurd h.1 hc
        | cons x a =>
          simp only [List.cons_append, List.cons.injEq] at h
          simp only [List.mem_cons, not_or] at ha
          rw [(ih a.length).2 ⟨a, b, h.2, rfl, ha.2⟩]
          rfl

/-- C43: the codec answers exactly for `yupp` in any letter case (based on UTF-8) and for `yupp.<encoding>`
    with a known encoding (based on it). -/
theorem C43_lookup (known : Str → Bool) (coding : Str) (base : BaseCodec) :
    searchFunction known coding = some base ↔
      ∃ p, IsYupp p ∧
        ((coding = p ∧ base = .utf8) ∨
         (∃ enc, coding = p ++ '.' :: enc ∧ known enc = true ∧ base = .named enc)) := by
  have hlen : (lit "yupp").length = 4 := by decide
  have hy : lit "yupp" = ['y', 'u', 'p', 'p'] := by decide
  have hnodot : ∀ p, IsYupp p → '.' ∉ p := by
    intro p hp hm
    have : Char.toLower '.' ∈ p.map Char.toLower := List.mem_map_of_mem hm
    rw [hp] at this
    revert this; decide
  have hplen : ∀ p, IsYupp p → p.length = 4 := by
    intro p hp; have := congrArg List.length hp; simpa using this
  have hstart : ∀ p r : Str, IsYupp p → startsWith (lowerStr (p ++ r)) (lit "yupp") = true := by
    intro p r hp
    unfold startsWith lowerStr
    rw [List.map_append, hp, hy]
    simp
  unfold searchFunction
  constructor
  · intro h
    by_cases hs : startsWith (lowerStr coding) (lit "yupp") = true
    · rw [if_neg (by simp [hs])] at h
      have hpre : IsYupp (coding.take 4) := by
        unfold startsWith lowerStr at hs
        rw [List.isPrefixOf_iff_prefix, hy] at hs
        obtain ⟨t, ht⟩ := hs
        unfold IsYupp
        rw [List.map_take, ← ht]
        simp
      cases hf : findIdx ['.'] coding with
      | some dot =>
        rw [hf] at h
        simp only [hlen] at h
        by_cases hd : dot = 4
        · subst hd
          rw [if_neg (by simp)] at h
          by_cases hk : known (coding.drop 5) = true
          · rw [if_pos hk] at h
            obtain ⟨a, b, h1, h2, _⟩ := (findIdx_dot coding 4).1 hf
            refine ⟨coding.take 4, hpre, .inr ⟨coding.drop 5, ?_, hk, ?_⟩⟩
            · have ht : coding.take 4 = a := by rw [h1, ← h2]; simp
              have hd' : coding.drop 5 = b := by
                rw [h1, ← List.drop_drop (i := 1) (j := 4), ← h2]; simp
              rw [ht, hd']; exact h1
            · simp only [Option.some.injEq] at h; exact h.symm
          · rw [if_neg hk] at h; simp at h
        · rw [if_pos hd] at h; simp at h
      | none =>
        rw [hf] at h
        simp only [hlen] at h
        by_cases hd : coding.length = 4
        · rw [if_neg (by simp [hd])] at h
          refine ⟨coding.take 4, hpre, .inl ⟨?_, ?_⟩⟩
          · rw [List.take_of_length_le (by omega)]
          · simp only [Option.some.injEq] at h; exact h.symm
        · rw [if_pos hd] at h; simp at h
    · rw [if_pos (by simp [hs])] at h
      simp at h
  · rintro ⟨p, hp, ⟨rfl, rfl⟩ | ⟨enc, rfl, hk, rfl⟩⟩
    · have := hstart coding [] hp
      rw [List.append_nil] at this
      rw [if_neg (by simp [this])]
      have hf : findIdx ['.'] coding = none := by
        cases hf : findIdx ['.'] coding with
        | none => rfl
        | some i =>
          obtain ⟨a, b, h1, _, _⟩ := (findIdx_dot coding i).1 hf
          exact absurd (by rw [h1]; simp) (hnodot coding hp)
      rw [hf]
      simp only [hlen]
      rw [if_neg (by simp [hplen coding hp])]
    · rw [if_neg (by simp [hstart p _ hp])]
      have hf : findIdx ['.'] (p ++ '.' :: enc) = some 4 :=
        (findIdx_dot _ 4).2 ⟨p, enc, rfl, hplen p hp, hnodot p hp⟩
      have hd : (p ++ '.' :: enc).drop 5 = enc := by
        rw [← List.drop_drop (i := 1) (j := 4), ← hplen p hp]; simp
      rw [hf]
      simp only [hlen, hd, hk]
      rw [if_neg (by simp)]
      simp

example : searchFunction (· == lit "latin-1") (lit "YUPP.latin-1") = some (.named (lit "latin-1")) ∧
    searchFunction (fun _ => true) (lit "yupp8") = none ∧
    searchFunction (fun _ => true) (lit "Yupp") = some .utf8 := by decide

/-- C44: however the bytes are cut into chunks, every chunk but the final one yields the empty text and
    the final one yields the decoding of all the bytes together. -/
theorem C44_chunking (dec : List UInt8 → Option (Str × Nat)) (chunks : List (List UInt8)) (last : List UInt8)
    (txt : Str) (n : Nat) (hdec : dec (chunks.flatten ++ last) = some (txt, n)) (hne : chunks.flatten ++ last ≠ []) :
    feed dec [] chunks last = some (List.replicate chunks.length [] ++ [txt]) := by
  have key : ∀ (chunks : List (List UInt8)) (buf : List UInt8),
      dec (buf ++ chunks.flatten ++ last) = some (txt, n) → buf ++ chunks.flatten ++ last ≠ [] →
      feed dec buf chunks last = some (List.replicate chunks.length [] ++ [txt]) := by
    intro chunks
    induction chunks with
    | nil =>
      intro buf hd hn
      simp only [List.flatten_nil, List.append_nil] at hd hn
      have : (buf ++ last).isEmpty = false := by
        cases hb : buf ++ last with
        | nil => exact absurd hb hn
        | cons x t => rfl
      simp [feed, incDecode, this, hd]
    | cons c cs ih =>
      intro buf hd hn
      have := ih (buf ++ c) (by simpa [List.append_assoc] using hd) (by simpa [List.append_assoc] using hn)
      simp [feed, incDecode, this, List.replicate_succ]
  exact key chunks [] (by simpa using hdec) (by simpa using hne)

/-- C44: with no bytes at all the results are empty texts. -/
theorem C44_no_bytes (dec : List UInt8 → Option (Str × Nat)) (k : Nat) :
    feed dec [] (List.replicate k []) [] = some (List.replicate (k + 1) []) := by
  induction k with
  | zero => simp [feed, incDecode]
  | succ k ih => simp [feed, incDecode, List.replicate_succ, ih]

/-- C44: two ways of cutting the same bytes give the same text. -/
theorem C44_chunking_irrelevant (dec : List UInt8 → Option (Str × Nat)) (cs cs' : List (List UInt8))
    (l l' : List UInt8) (h : cs.flatten ++ l = cs'.flatten ++ l') (r : List Str) (hr : feed dec [] cs l = some r) :
    ∃ r', feed dec [] cs' l' = some r' ∧ r.flatten = r'.flatten := by
  have flat : ∀ (k : Nat) (t : Str), (List.replicate k ([] : Str) ++ [t]).flatten = t := by
    intro k t
    induction k with
    | zero => simp
    | succ k ih => simp
  have none_case : ∀ (chunks : List (List UInt8)) (last buf : List UInt8), dec (buf ++ chunks.flatten ++ last) = none →
      buf ++ chunks.flatten ++ last ≠ [] → feed dec buf chunks last = none := by
    intro chunks last
    induction chunks with
    | nil =>
      intro buf hd hn
      simp only [List.flatten_nil, List.append_nil] at hd hn
      have : (buf ++ last).isEmpty = false := by
        cases hb : buf ++ last with
        | nil => exact absurd hb hn
        | cons x t => rfl
      simp [feed, incDecode, this, hd]
    | cons c cs ih =>
      intro buf hd hn
      have := ih (buf ++ c) (by simpa [List.append_assoc] using hd) (by simpa [List.append_assoc] using hn)
      simp [feed, incDecode, this]
  by_cases hne : cs.flatten ++ l = []
  · have e : ∀ (chunks : List (List UInt8)) (last : List UInt8), chunks.flatten ++ last = [] →
        feed dec [] chunks last = some (List.replicate chunks.length [] ++ [[]]) := by
      intro chunks last he
      induction chunks with
      | nil => simp only [List.flatten_nil, List.nil_append] at he; subst he; simp [feed, incDecode]
      | cons c cs ih =>
        simp only [List.flatten_cons, List.append_eq_nil_iff] at he
        have := ih (by simp only [List.append_eq_nil_iff]; exact ⟨he.1.2, he.2⟩)
        rw [he.1.1]
        simp [feed, incDecode, this, List.replicate_succ]
    rw [e cs l hne] at hr
    refine ⟨_, e cs' l' (by rw [← h]; exact hne), ?_⟩
    simp only [Option.some.injEq] at hr
    rw [← hr, flat, flat]
  · cases hd : dec (cs.flatten ++ l) with
    | none =>
      rw [none_case cs l [] (by simpa using hd) (by simpa using hne)] at hr
      simp at hr
    | some p =>
      obtain ⟨t, n⟩ := p
      rw [C44_chunking dec cs l t n hd hne] at hr
      refine ⟨_, C44_chunking dec cs' l' t n (by rw [← h]; exact hd) (by rw [← h]; exact hne), ?_⟩
      simp only [Option.some.injEq] at hr
      rw [← hr, flat, flat]

example : feed (fun b => some (b.map fun x => Char.ofNat x.toNat, b.length)) [] [[104], [], [105]] [33] =
    some [[], [], [], lit "hi!"] := by decide

/-- C51: the codec hands to Python only a text that Python's parser accepts: the generated text, or
    nothing. -/
theorem C51_only_valid_code (py3 : Bool) (parses : Str → Bool) (proc : Prog (Bool × Plain × Str × Nat)) (o : Oracle) (s : Sys)
    (code : Str) (reg : Option (Str × Nat)) (s' : Sys) (h : decodeStream py3 parses proc o s = .done (code, reg) s') :
    code = [] ∨ (parses code = true ∧ ∃ plain fno n, proc o s = .done (true, plain, fno, n) s' ∧ plain.txt = code) := by
  unfold decodeStream at h
  cases hp : proc o s with
  | crashed s1 => rw [hp] at h; simp at h
  | raised s1 => rw [hp] at h; cases py3 <;> cases h; exact .inl rfl
  | done v s1 =>
    obtain ⟨ok, plain, fno, n⟩ := v
    rw [hp] at h
    cases ok with
    | false => cases h; exact .inl rfl
    | true =>
      simp only [Bool.not_true, Bool.false_eq_true, if_false] at h
      by_cases hq : parses plain.txt = true
      · rw [if_pos hq] at h
        cases h
        exact .inr ⟨hq, plain, fno, n, rfl, rfl⟩
      · rw [if_neg hq] at h
        cases py3 <;> cases h; exact .inl rfl

/-- C51: in Python 2 the codec always returns a text; in Python 3 it raises an exception if the generated text is not
    accepted or the translator raises one, and then only. -/
theorem C51_when_it_fails (py3 : Bool) (parses : Str → Bool) (proc : Prog (Bool × Plain × Str × Nat)) (o : Oracle) (s s' : Sys) :
    decodeStream py3 parses proc o s = .raised s' ↔ py3 = true ∧ (proc o s = .raised s' ∨
      ∃ plain fno n, proc o s = .done (true, plain, fno, n) s' ∧ parses plain.txt = false) := by
  unfold decodeStream
  cases hp : proc o s with
  | crashed s1 => simp
  | raised s1 => cases py3 <;> simp
  | done v s1 =>
    obtain ⟨ok, plain, fno, n⟩ := v
    cases ok <;> cases hq : parses plain.txt <;> cases py3 <;> simp [hq]
    all_goals grind

example : (decodeStream true (fun t => t == lit "ok") (Prog.pure (true, .str (lit "ok"), [], 1)) ⟨fun _ => .ok, fun n => n⟩
    ⟨fun _ => none, 0⟩ |> fun | .done c _ => c.1 | _ => []) = lit "ok" := by decide

example : (decodeStream true (fun t => t == lit "ok") (Prog.pure (true, .str (lit "no"), [], 1)) ⟨fun _ => .ok, fun n => n⟩
    ⟨fun _ => none, 0⟩ |> fun | .raised _ => true | _ => false) = true := by decide

end Yupp
