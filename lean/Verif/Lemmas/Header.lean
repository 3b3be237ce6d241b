import Verif.Spec.Header
import Verif.Lemmas.Lexeme
import Verif.Model.Parse
import Verif.Model.Shell
import Verif.Lemmas.Src
/-!
# The header of a Python source: the model finds what the specification says
-/

namespace Yupp

theorem lowerChar_eq (c : Char) : lowerChar c = c.toLower := by
  unfold lowerChar Char.toLower
  have h1 : ('A' ≤ c ∧ c ≤ 'Z') ↔ (c.val ≥ 'A'.val ∧ c.val ≤ 'Z'.val) := by
    rfl
  by_cases h : 'A' ≤ c ∧ c ≤ 'Z'
  · have h' := h1.1 h
    rw [if_pos h, dif_pos h']
    have hb : c.val.toNat ≤ 90 := h'.2
    apply Char.toNat_inj.mp
    have e1 : (Char.ofNat (c.toNat + 32)).toNat = c.toNat + 32 := by
      have : (c.toNat + 32).isValidChar := Or.inl (by change c.val.toNat + 32 < 0xd800; omega)
      unfold Char.ofNat; rw [dif_pos this]; rfl
    rw [e1]
    change c.val.toNat + 32 = (c.val + 32).toNat
    rw [UInt32.toNat_add]
    change c.val.toNat + 32 = (c.val.toNat + 32) % 2 ^ 32
    rw [Nat.mod_eq_of_lt (by omega)]
  · rw [if_neg h, dif_neg (fun h' => h (h1.2 h'))]

theorem map_lowerChar (s : Str) : s.map lowerChar = s.map Char.toLower := by
  apply List.map_congr_left
  intro c _
  exact lowerChar_eq c

theorem isBlank_iff (c : Char) : isBlank c = true ↔ c = ' ' ∨ c = '\t' := by simp [isBlank]

theorem blanks_iff (t : Str) : Blanks t ↔ ∀ x ∈ t, isBlank x = true := by
  constructor <;> intro h c hc
  · exact (isBlank_iff c).2 (h c hc)
  · exact (isBlank_iff c).1 (h c hc)

theorem nonWord_iff (word : Char → Bool) (t : Str) : nonWord word t = true ↔ WordEnd word t := by
  unfold WordEnd
  cases t with
  | nil => simp [nonWord]
  | cons c t =>
    simp only [nonWord, List.head?_cons, Option.some.injEq, forall_eq', Bool.not_eq_true', Bool.or_eq_false_iff]
    have h2 : isLetter c = false ↔ ¬ NameStart c := by
      rw [← isLetter_iff]; simp
    have h3 : isDig c = false ↔ ¬ ('0' ≤ c ∧ c ≤ '9') := by
      simp [isDig]
    have h4 : (decide (0x80 ≤ c.toNat) && word c) = false ↔ ¬ (128 ≤ c.toNat ∧ word c = true) := by
      simp
    rw [h2, h3, h4]
    exact and_assoc

theorem dropWhile_blanks {sp t : Str} (h : Blanks sp) (ht : ∀ c, t.head? = some c → isBlank c = false) :
    (sp ++ t).dropWhile isBlank = t := by
  induction sp with
  | nil =>
    cases t with
    | nil => rfl
    | cons c t => simp [ht c rfl]
  | cons c sp ih =>
    have hc : isBlank c = true := (isBlank_iff c).2 (h c (by simp))
    simp only [List.cons_append, List.dropWhile, hc]
    exact ih (fun x hx => h x (by simp [hx]))

theorem lower_blank {c : Char} (h : isBlank c = true) : c.toLower = c := by
  rcases (isBlank_iff c).1 h with rfl | rfl <;> decide

/-- What the magic pattern matches at the start of a text. -/
theorem codingAt_some (word : Char → Bool) (s : Str) :
    codingAt word s ≠ none ↔ ∃ kw sep sp y post, s = kw ++ (sep :: (sp ++ (y ++ post))) ∧
      kw.map Char.toLower = ['c', 'o', 'd', 'i', 'n', 'g'] ∧ (sep = ':' ∨ sep = '=') ∧ Blanks sp ∧
      y.map Char.toLower = ['y', 'u', 'p', 'p'] ∧ WordEnd word post := by
  constructor
  · intro h
    unfold codingAt at h
    split at h
    · rename_i h1
      obtain ⟨h1, h2⟩ := h1
      simp only [] at h
      split at h
      · rename_i h3
        obtain ⟨sep, hs, hsep⟩ : ∃ sep, (s.drop 6).head? = some sep ∧ (sep = ':' ∨ sep = '=') := by
          rcases h2 with h2 | h2
          · exact ⟨_, h2, .inl rfl⟩
          · exact ⟨_, h2, .inr rfl⟩
        have hd : s.drop 6 = sep :: s.drop 7 := by
          cases hq : s.drop 6 with
          | nil => rw [hq] at hs; cases hs
          | cons a b =>
            rw [hq] at hs
            cases hs
            have : s.drop 7 = (s.drop 6).drop 1 := by rw [List.drop_drop]
            rw [this, hq]; rfl
        have hw : WordEnd word (((s.drop 7).dropWhile isBlank).drop 4) := by
          split at h
          · rename_i h4
            intro c hc
            rw [h4.1] at hc
            cases hc
            refine ⟨?_, by decide, fun h => absurd h.1 (by decide)⟩
            rw [← isLetter_iff]; decide
          · split at h
            · rename_i h4
              exact (nonWord_iff _ _).1 h4
            · exact absurd rfl h
        refine ⟨s.take 6, sep, (s.drop 7).takeWhile isBlank, ((s.drop 7).dropWhile isBlank).take 4,
          ((s.drop 7).dropWhile isBlank).drop 4, ?_, by rw [← map_lowerChar]; exact h1, hsep, ?_,
          by rw [← map_lowerChar]; exact h3, hw⟩
        · rw [List.take_append_drop, List.takeWhile_append_dropWhile, ← hd, List.take_append_drop]
        · rw [blanks_iff]
          intro x hx
          exact List.all_eq_true.1 List.all_takeWhile x hx
      · exact absurd rfl h
    · exact absurd rfl h
  · rintro ⟨kw, sep, sp, y, post, rfl, hkw, hsep, hsp, hy, hp⟩
    have lk : kw.length = 6 := by have := congrArg List.length hkw; simpa using this
    have ly : y.length = 4 := by have := congrArg List.length hy; simpa using this
    have d6 : (kw ++ (sep :: (sp ++ (y ++ post)))).drop 6 = sep :: (sp ++ (y ++ post)) := by
      rw [← lk, List.drop_left]
    have d7 : (kw ++ (sep :: (sp ++ (y ++ post)))).drop 7 = sp ++ (y ++ post) := by
      have : (7 : Nat) = 6 + 1 := rfl
      rw [this, ← List.drop_drop, d6]; rfl
    have t6 : (kw ++ (sep :: (sp ++ (y ++ post)))).take 6 = kw := by rw [← lk, List.take_left]
    have db : (sp ++ (y ++ post)).dropWhile isBlank = y ++ post := by
      refine dropWhile_blanks hsp (fun c hc => ?_)
      cases y with
      | nil => simp at ly
      | cons c' y' =>
        simp at hc
        subst hc
        cases hb : isBlank c' with
        | false => rfl
        | true =>
          rw [List.map_cons, lower_blank hb] at hy
          injection hy with h1 _
          subst h1
          exact absurd hb (by decide)
    have t4 : (y ++ post).take 4 = y := by rw [← ly, List.take_left]
    have d4 : (y ++ post).drop 4 = post := by rw [← ly, List.drop_left]
    unfold codingAt
    rw [t6, d6, d7]
    rw [if_pos ⟨by rw [map_lowerChar]; exact hkw, by rcases hsep with rfl | rfl <;> simp⟩]
    simp only [db, t4, d4]
    rw [if_pos (by rw [map_lowerChar]; exact hy)]
    split
    · simp
    · rw [if_pos ((nonWord_iff _ _).2 hp)]
      simp

/-- The search of the magic pattern in a line. -/
theorem codingSearch_some (word : Char → Bool) (s : Str) : codingSearch word s ≠ none ↔ Declares word s := by
  induction s with
  | nil =>
    constructor
    · intro h; exact absurd rfl h
    · rintro ⟨pre, kw, sep, sp, y, post, h, _⟩
      simp at h
  | cons c t ih =>
    have key : codingSearch word (c :: t) ≠ none ↔ codingAt word (c :: t) ≠ none ∨ codingSearch word t ≠ none := by
      rw [codingSearch]
      cases h : codingAt word (c :: t) with
      | none => simp
      | some b => simp
    rw [key, ih, codingAt_some]
    constructor
    · rintro (⟨kw, sep, sp, y, post, h⟩ | ⟨pre, kw, sep, sp, y, post, h, h'⟩)
      · exact ⟨[], kw, sep, sp, y, post, h⟩
      · exact ⟨c :: pre, kw, sep, sp, y, post, by rw [h]; rfl, h'⟩
    · rintro ⟨pre, kw, sep, sp, y, post, h, h'⟩
      cases pre with
      | nil => exact .inl ⟨kw, sep, sp, y, post, h, h'⟩
      | cons a pre =>
        injection h with _ h2
        exact .inr ⟨pre, kw, sep, sp, y, post, h2, h'⟩

theorem declares_cons (word : Char → Bool) {c : Char} (hc : c.toLower ≠ 'c') (t : Str) :
    Declares word (c :: t) ↔ Declares word t := by
  constructor
  · rintro ⟨pre, kw, sep, sp, y, post, h, hk, h'⟩
    cases pre with
    | nil =>
      cases kw with
      | nil => simp at hk
      | cons a kw =>
        injection h with h1 _
        subst h1
        simp at hk
        exact absurd hk.1 hc
    | cons a pre =>
      injection h with _ h2
      exact ⟨pre, kw, sep, sp, y, post, h2, hk, h'⟩
  · rintro ⟨pre, kw, sep, sp, y, post, h, h'⟩
    exact ⟨c :: pre, kw, sep, sp, y, post, by rw [h]; rfl, h'⟩

theorem declares_blanks (word : Char → Bool) {ind : Str} (hi : Blanks ind) (t : Str) :
    Declares word (ind ++ t) ↔ Declares word t := by
  induction ind with
  | nil => rfl
  | cons c ind ih =>
    rw [List.cons_append, declares_cons word, ih (fun x hx => hi x (by simp [hx]))]
    rcases hi c (by simp) with rfl | rfl <;> decide

theorem findIdx_isSome (sub s : Str) (hs : sub ≠ []) : (findIdx sub s).isSome ↔ ∃ a b, s = a ++ (sub ++ b) := by
  induction s with
  | nil =>
    constructor
    · intro h; simp [findIdx, hs] at h
    · rintro ⟨a, b, h⟩
      have := List.append_eq_nil_iff.1 h.symm
      exact absurd (List.append_eq_nil_iff.1 this.2).1 hs
  | cons c t ih =>
    rw [findIdx]
    split
    · rename_i h
      obtain ⟨b, hb⟩ := List.isPrefixOf_iff_prefix.1 h
      exact ⟨fun _ => ⟨[], b, hb.symm⟩, fun _ => rfl⟩
    · rename_i h
      rw [Option.isSome_map, ih]
      constructor
      · rintro ⟨a, b, rfl⟩
        exact ⟨c :: a, b, rfl⟩
      · rintro ⟨a, b, he⟩
        cases a with
        | nil => exact absurd (List.isPrefixOf_iff_prefix.2 ⟨b, he.symm⟩) h
        | cons x a =>
          injection he with _ h2
          exact ⟨a, b, h2⟩

/-! ## Lines -/

theorem FirstLine.unique {l l' text : Str} (h : FirstLine l text) (h' : FirstLine l' text) : l = l' := by
  obtain ⟨h1, t, rfl, h2⟩ := h
  obtain ⟨h3, t', he, h4⟩ := h'
  have key : ∀ (l t : Str), '\n' ∉ l → (t = [] ∨ ∃ t', t = '\n' :: t') →
      (l ++ t).takeWhile (fun c => c != '\n') = l := by
    intro l t hl ht
    induction l with
    | nil => rcases ht with rfl | ⟨t', rfl⟩ <;> simp
    | cons c l ih =>
      simp only [List.mem_cons, not_or] at hl
      have : (c != '\n') = true := by simpa using fun h => hl.1 h.symm
      simp only [List.cons_append, List.takeWhile, this]
      rw [ih hl.2]
  rw [← key l t h1 h2, he, key l' t' h3 h4]

theorem firstLine_exists (text : Str) : ∃ l, FirstLine l text := by
  induction text with
  | nil => exact ⟨[], by simp, [], rfl, .inl rfl⟩
  | cons c t ih =>
    by_cases hc : c = '\n'
    · exact ⟨[], by simp, c :: t, rfl, .inr ⟨t, by rw [hc]⟩⟩
    · obtain ⟨l, h1, t', rfl, h2⟩ := ih
      exact ⟨c :: l, by simp [h1, Ne.symm hc], t', rfl, h2⟩

theorem readline_colon (text : Str) :
    contains (readline text) (lit "coding:") = true ↔ ColonFirst text := by
  have hlit : lit "coding:" = ['c', 'o', 'd', 'i', 'n', 'g', ':'] := by decide
  obtain ⟨l, hl⟩ := firstLine_exists text
  have hr : readline text = l ∨ readline text = l ++ ['\n'] := by
    obtain ⟨h1, t, rfl, h2⟩ := hl
    clear hlit
    induction l with
    | nil =>
      rcases h2 with rfl | ⟨t', rfl⟩
      · exact .inl rfl
      · exact .inr (by simp [readline])
    | cons c l ih =>
      simp only [List.mem_cons, not_or] at h1
      simp only [List.cons_append, readline, Ne.symm h1.1, if_false, List.cons.injEq, true_and]
      exact ih h1.2
  have hc : ColonFirst text ↔ ∃ a b, l = a ++ (lit "coding:" ++ b) := by
    constructor
    · rintro ⟨l', a, b, h1, h2⟩
      exact ⟨a, b, by rw [hl.unique h1, h2]⟩
    · rintro ⟨a, b, h⟩
      exact ⟨l, a, b, hl, h⟩
  unfold contains
  rw [findIdx_isSome _ _ (by rw [hlit]; simp), hc]
  rcases hr with hr | hr
  · rw [hr]
  · rw [hr]
    constructor
    · rintro ⟨a, b, h⟩
      rcases List.eq_nil_or_concat b with rfl | ⟨b', x, rfl⟩
      · rw [hlit] at h
        have := congrArg List.getLast? h
        simp at this
      · refine ⟨a, b', ?_⟩
        rw [List.concat_eq_append, ← List.append_assoc, ← List.append_assoc] at h
        have := (List.append_inj' h rfl).1
        rw [this, List.append_assoc]
    · rintro ⟨a, b, h⟩
      exact ⟨a, b ++ ['\n'], by rw [h]; simp⟩

/-! ## The header loop -/

theorem blanks_split (t : Str) : ∃ ind u, t = ind ++ u ∧ Blanks ind ∧ ∀ c, u.head? = some c → isBlank c = false := by
  refine ⟨t.takeWhile isBlank, t.dropWhile isBlank, List.takeWhile_append_dropWhile.symm, ?_, ?_⟩
  · rw [blanks_iff]
    exact fun x hx => List.all_eq_true.1 List.all_takeWhile x hx
  · intro c hc
    have := List.head?_dropWhile_not isBlank t
    rw [hc] at this
    simpa using this

theorem psSpace_blanks {s : Src} {ind u : Str} (h : s.txt = ind ++ u) (hi : Blanks ind)
    (hu : ∀ c, u.head? = some c → isBlank c = false) : psSpace s = s.drop ind.length ∧ (psSpace s).txt = u := by
  have h1 : psSpace s = s.drop ind.length := by
    unfold psSpace
    rw [h, spanLen_append _ _ _ ((blanks_iff ind).1 hi) hu]
  refine ⟨h1, ?_⟩
  rw [h1]
  change s.txt.drop ind.length = u
  rw [h, List.drop_left]

theorem CommentLine.not_blanks {l : Str} (h : CommentLine l) : ¬ Blanks l := by
  obtain ⟨ind, t, rfl, _⟩ := h
  intro hb
  have := hb '#' (by simp)
  revert this; decide

/-- One line of the header: the rest after the comment, and what the pattern says. -/
theorem header_line {s : Src} {ind t t' : Str} (h : s.txt = ind ++ '#' :: t ++ t') (hi : Blanks ind)
    (hn : '\n' ∉ t) (hr : '\r' ∉ t) (ht : t' = [] ∨ ∃ u, t' = '\n' :: u) :
    remarkPyLen (psSpace s).txt = .yes (1 + t.length) ∧ ((psSpace s).take (1 + t.length)).txt = '#' :: t ∧
      ((psSpace s).drop (1 + t.length)).txt = t' := by
  have h2 := (psSpace_blanks (u := '#' :: t ++ t') (by rw [h]; simp) hi
    (by intro c hc; cases hc; decide)).2
  refine ⟨?_, ?_, ?_⟩
  · rw [h2]
    simp only [List.cons_append, remarkPyLen]
    rw [spanLen_append]
    · intro x hx
      have h3 : x ≠ '\n' := fun he => hn (he ▸ hx)
      have h4 : x ≠ '\r' := fun he => hr (he ▸ hx)
      simp [isEol, h3, h4]
    · intro c hc
      rcases ht with rfl | ⟨u, rfl⟩
      · cases hc
      · cases hc; decide
  · change (psSpace s).txt.take (1 + t.length) = _
    rw [h2, Nat.add_comm]
    have : t.length + 1 = ('#' :: t).length := rfl
    rw [this, List.take_left]
  · change (psSpace s).txt.drop (1 + t.length) = _
    rw [h2, Nat.add_comm]
    have : t.length + 1 = ('#' :: t).length := rfl
    rw [this, List.drop_left]

theorem header_magic (word : Char → Bool) (n : Nat) (s : Src) (hd : List Node) {l : Str} (hr : '\r' ∉ s.txt)
    (hl : FirstLine l s.txt) (hc : CommentLine l) (hm : Declares word l) :
    ∃ r hd', headerLoop word (n + 1) s hd = some (r, hd', 3 - (n + 1)) := by
  obtain ⟨hn, t', he, ht⟩ := hl
  obtain ⟨ind, t, rfl, hi⟩ := hc
  obtain ⟨h1, h2, h3⟩ := header_line he hi (by intro h; exact hn (by simp [h]))
    (by intro h; exact hr (by rw [he]; simp [h])) ht
  have hs : codingSearch word ('#' :: t) ≠ none :=
    (codingSearch_some word _).2 ((declares_blanks word hi _).1 hm)
  unfold headerLoop
  simp only [h1, h2]
  cases hq : codingSearch word ('#' :: t) with
  | none => exact absurd hq hs
  | some b =>
    cases b
    · exact ⟨_, _, rfl⟩
    · simp only []
      split <;> exact ⟨_, _, rfl⟩

theorem header_other (word : Char → Bool) (n : Nat) (s : Src) (hd : List Node) {l : Str} (hr : '\r' ∉ s.txt)
    (hl : FirstLine l s.txt) (hc : CommentLine l) (hm : ¬ Declares word l) :
    ∃ s' hd', headerLoop word (n + 1) s hd = headerLoop word n s' hd' ∧
      ((s.txt = l ∧ s'.txt = []) ∨ s.txt = l ++ '\n' :: s'.txt) := by
  obtain ⟨hn, t', he, ht⟩ := hl
  obtain ⟨ind, t, rfl, hi⟩ := hc
  obtain ⟨h1, h2, h3⟩ := header_line he hi (by intro h; exact hn (by simp [h]))
    (by intro h; exact hr (by rw [he]; simp [h])) ht
  have hs : codingSearch word ('#' :: t) = none := by
    cases hq : codingSearch word ('#' :: t) with
    | none => rfl
    | some b =>
      exact absurd ((declares_blanks word hi _).2 ((codingSearch_some word _).1 (by rw [hq]; simp))) hm
  rw [headerLoop.eq_def]
  simp only [h1, h2, hs]
  rcases ht with rfl | ⟨u, rfl⟩
  · have hp : psEol ((psSpace s).drop (1 + t.length)) = ((psSpace s).drop (1 + t.length), none) := by
      unfold psEol; rw [h3]
    rw [hp]
    exact ⟨_, _, rfl, .inl ⟨by rw [he]; simp, h3⟩⟩
  · have hp : psEol ((psSpace s).drop (1 + t.length))
        = (((psSpace s).drop (1 + t.length)).drop 1, some (((psSpace s).drop (1 + t.length)).take 1)) := by
      unfold psEol; rw [h3]; rfl
    rw [hp]
    refine ⟨_, _, rfl, .inr ?_⟩
    have : (((psSpace s).drop (1 + t.length)).drop 1).txt = u := by
      change (((psSpace s).drop (1 + t.length)).txt).drop 1 = u
      rw [h3]; rfl
    rw [this, he]

theorem header_stop (word : Char → Bool) (n : Nat) (s : Src) (hd : List Node) {l : Str}
    (hl : FirstLine l s.txt) (hc : ¬ CommentLine l) : headerLoop word n s hd = none := by
  cases n with
  | zero => rfl
  | succ n =>
    obtain ⟨ind, u, he, hi, hu⟩ := blanks_split s.txt
    have h2 := (psSpace_blanks he hi hu).2
    have hrm : remarkPyLen (psSpace s).txt = .no := by
      rw [h2]
      unfold remarkPyLen
      split
      · rename_i t
        exfalso
        obtain ⟨l', hl'⟩ := firstLine_exists t
        obtain ⟨h3, t', rfl, h4⟩ := hl'
        refine hc ?_
        have : FirstLine (ind ++ '#' :: l') s.txt := by
          refine ⟨?_, t', by rw [he]; simp, h4⟩
          simp only [List.mem_append, List.mem_cons, not_or]
          refine ⟨?_, by decide, h3⟩
          intro h
          have := hi _ h
          revert this; decide
        rw [hl.unique this]
        exact ⟨ind, l', rfl, hi⟩
      · rfl
    rw [headerLoop.eq_def]
    simp only [hrm]

theorem psHeader_first (word : Char → Bool) (s : Src) (hr : '\r' ∉ s.txt) (h : MagicFirst word s.txt) :
    ∃ r hd, psHeader word s = some (r, hd, 1) := by
  obtain ⟨l, hl, hc, hm⟩ := h
  obtain ⟨ind, t, hlt, hi⟩ := hc
  obtain ⟨hn, t', he, ht⟩ := hl
  have h2 := psSpace_blanks (u := '#' :: t ++ t') (s := s) (by rw [he, hlt]; simp) hi
    (by intro c hc; cases hc; decide)
  unfold psHeader
  have hp : psEol (psSpace s) = (psSpace s, none) := by
    unfold psEol; rw [h2.2]; rfl
  rw [hp]
  refine header_magic word 1 (psSpace s) [] (l := '#' :: t) ?_ ?_ ⟨[], t, rfl, by intro c hc; cases hc⟩ ?_
  · rw [h2.2]
    intro hx; apply hr; rw [he, hlt]; simp at hx ⊢
    exact .inr hx
  · rw [h2.2]
    exact ⟨by intro hx; apply hn; rw [hlt]; simp at hx ⊢; exact .inr hx, t', rfl, ht⟩
  · rw [hlt] at hm
    exact (declares_blanks word hi _).1 hm

/-- Before a comment nothing but blanks is taken. -/
theorem psHeader_comment (word : Char → Bool) (s : Src) {l : Str} (hl : FirstLine l s.txt) (hc : CommentLine l) :
    ∃ s' ind l', psHeader word s = headerLoop word 2 s' [] ∧ s.txt = ind ++ s'.txt ∧ Blanks ind ∧
      l = ind ++ l' ∧ FirstLine l' s'.txt ∧ CommentLine l' := by
  obtain ⟨ind, t, hlt, hi⟩ := hc
  obtain ⟨hn, t', he, ht⟩ := hl
  have h2 := psSpace_blanks (u := '#' :: t ++ t') (s := s) (by rw [he, hlt]; simp) hi
    (by intro c hc; cases hc; decide)
  refine ⟨psSpace s, ind, '#' :: t, ?_, by rw [h2.2, he, hlt]; simp, hi, hlt, ?_,
    ⟨[], t, rfl, by intro c hc; cases hc⟩⟩
  · unfold psHeader
    have hp : psEol (psSpace s) = (psSpace s, none) := by
      unfold psEol; rw [h2.2]; rfl
    rw [hp]
  · rw [h2.2]
    exact ⟨by intro hx; apply hn; rw [hlt]; simp at hx ⊢; exact .inr hx, t', rfl, ht⟩

/-- A blank first line is skipped. -/
theorem psHeader_blank (word : Char → Bool) (s : Src) {l t : Str} (he : s.txt = l ++ '\n' :: t) (hb : Blanks l) :
    ∃ s', psHeader word s = headerLoop word 1 s' [] ∧ s'.txt = t := by
  have h2 := psSpace_blanks (u := '\n' :: t) he hb (by intro c hc; cases hc; decide)
  have hp : psEol (psSpace s) = ((psSpace s).drop 1, some ((psSpace s).take 1)) := by
    unfold psEol; rw [h2.2]; rfl
  refine ⟨(psSpace s).drop 1, by unfold psHeader; rw [hp], ?_⟩
  change (psSpace s).txt.drop 1 = t
  rw [h2.2]; rfl

/-- Before anything else there is no header. -/
theorem psHeader_else (word : Char → Bool) (s : Src) (hr : '\r' ∉ s.txt) {l : Str} (hl : FirstLine l s.txt)
    (hc : ¬ CommentLine l) (hb : ¬ Blanks l) : psHeader word s = none := by
  obtain ⟨ind, u, he, hi, hu⟩ := blanks_split s.txt
  have h2 := (psSpace_blanks he hi hu).2
  have hni : '\n' ∉ ind := by
    intro h
    have := hi _ h
    revert this; decide
  have hp : psEol (psSpace s) = (psSpace s, none) := by
    unfold psEol
    rw [h2]
    cases u with
    | nil => rfl
    | cons c t =>
      have hcn : c ≠ '\n' := by
        rintro rfl
        exact hb (by rw [hl.unique ⟨hni, _, he, .inr ⟨_, rfl⟩⟩]; exact hi)
      have hcr : c ≠ '\r' := by
        rintro rfl
        exact hr (by rw [he]; simp)
      simp [isEol, hcn, hcr]
  unfold psHeader
  rw [hp]
  obtain ⟨l', hl'⟩ := firstLine_exists u
  have hll : l = ind ++ l' := by
    obtain ⟨h3, t', h4, h5⟩ := hl'
    refine hl.unique ⟨by simp [hni, h3], t', by rw [he, h4]; simp, h5⟩
  refine header_stop word 2 _ [] (by rw [h2]; exact hl') (fun hc' => hc ?_)
  obtain ⟨i, t, h6, h7⟩ := hc'
  refine ⟨ind ++ i, t, by rw [hll, h6]; simp, ?_⟩
  intro c hx
  rcases List.mem_append.1 hx with hx | hx
  · exact hi c hx
  · exact h7 c hx

theorem SecondLine.unique {l l' text : Str} (h : SecondLine l text) (h' : SecondLine l' text) : l = l' := by
  obtain ⟨a, t, h1, rfl, h2⟩ := h
  obtain ⟨b, u, h3, he, h4⟩ := h'
  have hab : a = b := FirstLine.unique ⟨h1, _, rfl, .inr ⟨_, rfl⟩⟩ ⟨h3, _, he, .inr ⟨_, rfl⟩⟩
  subst hab
  have := List.append_cancel_left he
  injection this with _ h5
  subst h5
  exact h2.unique h4

theorem psHeader_second (word : Char → Bool) (s : Src) (hr : '\r' ∉ s.txt) (h : MagicSecond word s.txt) :
    ∃ r hd, psHeader word s = some (r, hd, 2) := by
  obtain ⟨l₁, l₂, hl1, ⟨l₁', t, hn, he, hl2⟩, h1, hc2, hm2⟩ := h
  have : l₁ = l₁' := hl1.unique ⟨hn, _, he, .inr ⟨_, rfl⟩⟩
  subst this
  rcases h1 with hb | ⟨hc1, hm1⟩
  · obtain ⟨s', h3, h4⟩ := psHeader_blank word s he hb
    rw [h3]
    subst h4
    refine header_magic word 0 s' [] ?_ hl2 hc2 hm2
    intro hx; exact hr (by rw [he]; simp [hx])
  · obtain ⟨s', ind, l', h3, h4, hi, h5, h6, h7⟩ := psHeader_comment word s hl1 hc1
    rw [h3]
    have hr' : '\r' ∉ s'.txt := by intro hx; exact hr (by rw [h4]; simp [hx])
    obtain ⟨s2, hd, h8, h9⟩ := header_other word 1 s' [] hr' h6 h7
      (fun hd => hm1 (by rw [h5]; exact (declares_blanks word hi _).2 hd))
    rw [h8]
    have h10 : s2.txt = t := by
      rcases h9 with ⟨h9, _⟩ | h9
      · exfalso
        rw [h4, h9, ← h5] at he
        have := congrArg List.length he
        simp at this
      · rw [h4, h9, h5, List.append_assoc] at he
        have := List.append_cancel_left (List.append_cancel_left he)
        injection this
    subst h10
    refine header_magic word 0 s2 hd ?_ hl2 hc2 hm2
    intro hx; exact hr (by rw [he]; simp [hx])

theorem psHeader_neither (word : Char → Bool) (s : Src) (hr : '\r' ∉ s.txt) (h1 : ¬ MagicFirst word s.txt)
    (h2 : ¬ MagicSecond word s.txt) : psHeader word s = none := by
  obtain ⟨l, hl⟩ := firstLine_exists s.txt
  by_cases hc : CommentLine l
  · have hm : ¬ Declares word l := fun hm => h1 ⟨l, hl, hc, hm⟩
    obtain ⟨s', ind, l', h3, h4, hi, h5, h6, h7⟩ := psHeader_comment word s hl hc
    rw [h3]
    have hr' : '\r' ∉ s'.txt := by intro hx; exact hr (by rw [h4]; simp [hx])
    obtain ⟨s2, hd, h8, h9⟩ := header_other word 1 s' [] hr' h6 h7
      (fun hd => hm (by rw [h5]; exact (declares_blanks word hi _).2 hd))
    rw [h8]
    rcases h9 with ⟨h9, h10⟩ | h9
    · refine header_stop word 1 s2 hd (l := []) (by rw [h10]; exact ⟨by simp, [], rfl, .inl rfl⟩) ?_
      rintro ⟨i, t, h, _⟩
      simp at h
    · obtain ⟨l2, hl2⟩ := firstLine_exists s2.txt
      have he : s.txt = l ++ '\n' :: s2.txt := by rw [h4, h9, h5]; simp
      have hs2 : SecondLine l2 s.txt := ⟨l, s2.txt, hl.1, he, hl2⟩
      by_cases hc2 : CommentLine l2
      · have hm2 : ¬ Declares word l2 := fun hm2 => h2 ⟨l, l2, hl, hs2, .inr ⟨hc, hm⟩, hc2, hm2⟩
        obtain ⟨s3, hd3, h11, _⟩ := header_other word 0 s2 hd
          (by intro hx; exact hr (by rw [he]; simp [hx])) hl2 hc2 hm2
        rw [h11]
        rfl
      · exact header_stop word 1 s2 hd hl2 hc2
  · by_cases hb : Blanks l
    · obtain ⟨hn, t, he, ht⟩ := hl
      rcases ht with rfl | ⟨t', rfl⟩
      · have h3 := psSpace_blanks (u := []) he hb (by intro c hc; cases hc)
        have hp : psEol (psSpace s) = (psSpace s, none) := by
          unfold psEol; rw [h3.2]
        unfold psHeader
        rw [hp]
        refine header_stop word 2 _ [] (l := []) (by rw [h3.2]; exact ⟨by simp, [], rfl, .inl rfl⟩) ?_
        rintro ⟨i, t, h, _⟩
        simp at h
      · obtain ⟨s', h3, h4⟩ := psHeader_blank word s he hb
        rw [h3]
        obtain ⟨l2, hl2⟩ := firstLine_exists s'.txt
        have hs2 : SecondLine l2 s.txt := ⟨l, s'.txt, hn, by rw [h4]; exact he, hl2⟩
        by_cases hc2 : CommentLine l2
        · have hm2 : ¬ Declares word l2 :=
            fun hm2 => h2 ⟨l, l2, ⟨hn, _, he, .inr ⟨_, rfl⟩⟩, hs2, .inl hb, hc2, hm2⟩
          obtain ⟨s3, hd3, h11, _⟩ := header_other word 0 s' []
            (by intro hx; exact hr (by rw [he, ← h4]; simp [hx])) hl2 hc2 hm2
          rw [h11]
          rfl
        · exact header_stop word 1 s' [] hl2 hc2
    · exact psHeader_else word s hr hl hc hb

end Yupp
