import Verif.Props.Origin
import Verif.Props.Indent
import Verif.Spec.Message
import Verif.Lemmas.Reduce
import Verif.Lemmas.Lines
import Verif.Lemmas.Sound
import Verif.Lemmas.Trim
/-!
# C73 — Error messages tell the right place
-/

namespace Yupp

open Spec

theorem findIdx_lf {l t : Str} (h : '\n' ∉ l) : findIdx ['\n'] (l ++ '\n' :: t) = some l.length := by
  induction l with
  | nil => rfl
  | cons c l ih =>
    show (if (['\n'].isPrefixOf (c :: (l ++ '\n' :: t))) = true then some 0 else (findIdx ['\n'] (l ++ '\n' :: t)).map (· + 1)) = _
    rw [if_neg, ih fun h' => h (by simp [h'])]
    · rfl
    · intro hp
      simp only [List.isPrefixOf, Bool.and_true, beq_iff_eq] at hp
      exact h (hp ▸ List.mem_cons_self ..)

theorem findIdx_no_lf {l : Str} (h : '\n' ∉ l) : findIdx ['\n'] l = none := by
  induction l with
  | nil => rfl
  | cons c l ih =>
    show (if (['\n'].isPrefixOf (c :: l)) = true then _ else _) = _
    rw [if_neg, ih fun h' => h (by simp [h'])]
    · rfl
    · intro hp
      simp only [List.isPrefixOf, Bool.and_true, beq_iff_eq] at hp
      exact h (hp ▸ List.mem_cons_self ..)

theorem eolAt_line {before line after : Str} {col : Nat} (h1 : '\n' ∉ line) (h2 : after = [] ∨ after.head? = some '\n')
    (hc : col ≤ line.length) : eolAt (before ++ line ++ after) (before.length + col) = before.length + line.length := by
  have hd : (before ++ line ++ after).drop (before.length + col) = line.drop col ++ after := by
    rw [List.append_assoc, ← List.drop_drop, List.drop_left, List.drop_append_of_le_length hc]
  have hn : '\n' ∉ line.drop col := fun h => h1 (List.mem_of_mem_drop h)
  unfold eolAt
  rw [hd]
  rcases h2 with rfl | h2
  · rw [List.append_nil, findIdx_no_lf hn]
    simp
  · cases after with
    | nil => cases h2
    | cons c t =>
      cases h2
      rw [findIdx_lf hn]
      simp only [List.length_drop]
      omega

/-- The lines before a place, and its line. -/
theorem splitLines_before (before : Str) : ∀ (line : Str), (before = [] ∨ before.getLast? = some '\n') → OnlyLf before →
    (∀ c ∈ line, isLineBreak c = false) → ∃ ls, splitLines (before ++ line) = ls ++ splitLines line ∧ ls.length = before.count '\n' ∧
      (before ≠ [] → ls ≠ []) := by
  induction hn : before.length using Nat.strongRecOn generalizing before with
  | _ n ih =>
    intro line hb ho hl
    by_cases h0 : before = []
    · subst h0
      exact ⟨[], rfl, rfl, fun h => absurd rfl h⟩
    · have hlast : before.getLast? = some '\n' := hb.resolve_left h0
      have hm : '\n' ∈ before := List.mem_of_getLast? hlast
      obtain ⟨b, r, rfl, hbn⟩ : ∃ b r, before = b ++ '\n' :: r ∧ '\n' ∉ b := by
        clear ih hn ho hlast hb h0
        induction before with
        | nil => cases hm
        | cons c t iht =>
          by_cases hc : c = '\n'
          · subst hc; exact ⟨[], t, rfl, by simp⟩
          · rcases List.mem_cons.1 hm with h | h
            · exact absurd h.symm hc
            · obtain ⟨b, r, rfl, hb⟩ := iht h
              exact ⟨c :: b, r, rfl, by simp [hb, Ne.symm hc]⟩
      have hbb : ∀ c ∈ b, isLineBreak c = false := by
        intro c hc
        cases hx : isLineBreak c with
        | false => rfl
        | true =>
          have := ho c (by simp [hc]) (isLineBreak_iff.1 hx)
          subst this
          exact absurd hc hbn
      obtain ⟨ls, h1, h2, -⟩ := ih r.length (by rw [← hn]; simp; omega) r rfl line
        (by
          by_cases hr : r = []
          · exact .inl hr
          · right
            rw [List.getLast?_append] at hlast
            cases hg : ('\n' :: r).getLast? with
            | none => simp at hg
            | some c =>
              rw [hg] at hlast
              simp only [Option.some_or] at hlast
              cases r with
              | nil => exact absurd rfl hr
              | cons d t => rw [← hlast, ← hg, List.getLast?_cons_cons])
        (fun c hc => ho c (by simp [hc])) hl
      refine ⟨b :: ls, ?_, ?_, by simp⟩
      · unfold splitLines at h1 ⊢
        rw [List.append_assoc, List.cons_append, splitKeep_line b hbb, List.map_cons, h1]
        have : (b ++ ['\n']).takeWhile (fun c => !isLineBreak c) = b := by
          rw [List.takeWhile_append_of_pos (fun c hc => by rw [hbb c hc]; rfl)]
          show b ++ List.takeWhile _ ['\n'] = b
          rw [show List.takeWhile (fun c => !isLineBreak c) ['\n'] = [] from by decide]
          simp
        rw [this]
        rfl
      · rw [List.length_cons, h2, List.count_append, List.count_eq_zero.2 hbn, List.count_cons_self]
        omega

theorem splitLines_one {line : Str} (hl : ∀ c ∈ line, isLineBreak c = false) (hn : line ≠ []) : splitLines line = [line] := by
  unfold splitLines
  rw [splitKeep_noBreak line hl hn, List.map_singleton]
  have : ∀ {l : Str}, (∀ c ∈ l, isLineBreak c = false) → l.takeWhile (fun c => !isLineBreak c) = l := by
    intro l h
    have := List.takeWhile_append_of_pos (l₂ := []) (p := fun c => !isLineBreak c) (l₁ := l) (fun c hc => by rw [h c hc]; rfl)
    simpa using this
  rw [this hl]

theorem noBreak_of_onlyLf {before line after : Str} (ho : OnlyLf (before ++ line ++ after)) (h1 : '\n' ∉ line) :
    ∀ c ∈ line, isLineBreak c = false := by
  intro c hc
  cases hx : isLineBreak c with
  | false => rfl
  | true =>
    have := ho c (by simp [hc]) (isLineBreak_iff.1 hx)
    subst this
    exact absurd hc h1

/-- **C73**. A place in a line that is not empty is told exactly: the number of its line, the line without its indent, and the
    pointer below the character. -/
theorem C73_exact {text line : Str} {pos n col : Nat} (h : AtLine text pos n line col) (hl : line ≠ []) (ho : OnlyLf text)
    (inMacro : Bool) (name : Str) (pointer : Bool) :
    tellHere inMacro name text pos pointer =
      { inMacro, name, line := n, shown := lstrip line
        caret := if pointer then some (col - (line.length - (lstrip line).length)) else none } := by
  obtain ⟨⟨before, after, rfl, hb, ha, rfl, rfl⟩, h1, hc⟩ := h
  unfold tellHere
  have hbr := noBreak_of_onlyLf ho h1
  have he := eolAt_line (before := before) h1 ha hc
  have ht : (before ++ line ++ after).take (before.length + line.length) = before ++ line := by
    rw [← List.length_append, List.take_left]
  obtain ⟨ls, hs, hlen, -⟩ := splitLines_before before line hb (fun c hc => ho c (by simp [hc])) hbr
  rw [splitLines_one hbr hl] at hs
  simp only [he, ht, hs, List.getLast?_concat, List.length_append, List.length_singleton, hlen]
  have hle : (lstrip line).length ≤ line.length := (List.dropWhile_sublist _).length_le
  congr 1
  split
  · congr 1
    omega
  · rfl

/-- **C73**. The character above the pointer is the one at the place, unless that is in the indent (then the pointer is at the
    beginning of the line). -/
theorem C73_pointer {text line : Str} {pos n col : Nat} (h : AtLine text pos n line col) (hl : line ≠ []) (ho : OnlyLf text)
    (inMacro : Bool) (name : Str) : ∃ k, (tellHere inMacro name text pos true).caret = some k ∧
      ((∀ c ∈ line.take col, isSpace c = true) → k = 0) ∧
      ((∃ c ∈ line.take (col + 1), isSpace c = false) → (tellHere inMacro name text pos true).shown[k]? = line[col]?) ∧
      ∀ c, line[col]? = some c → text[pos]? = some c := by
  rw [C73_exact h hl ho]
  obtain ⟨⟨before, after, rfl, hb, ha, rfl, rfl⟩, h1, hc⟩ := h
  obtain ⟨a, h2, h3, h4⟩ : ∃ a, line = a ++ lstrip line ∧ (∀ c ∈ a, isSpace c = true) ∧
      ∀ c, (lstrip line).head? = some c → isSpace c = false := by
    refine ⟨line.takeWhile isSpace, (List.takeWhile_append_dropWhile ..).symm, ?_, ?_⟩
    · exact List.all_eq_true.1 List.all_takeWhile
    · intro c hc
      have := List.head?_dropWhile_not isSpace line
      unfold lstrip at hc
      rw [hc] at this
      simpa using this
  have hlen : line.length - (lstrip line).length = a.length := by
    have := congrArg List.length h2
    rw [List.length_append] at this
    omega
  simp only [if_true, hlen]
  refine ⟨_, rfl, ?_, ?_, ?_⟩
  · intro hw
    rcases Nat.lt_or_ge a.length col with hlt | hge
    · exfalso
      have hne : lstrip line ≠ [] := by
        intro h0
        rw [h0, List.append_nil] at h2
        rw [h2] at hc
        omega
      cases hl' : lstrip line with
      | nil => exact hne hl'
      | cons c t =>
        have hf := h4 c (by rw [hl']; rfl)
        have : c ∈ line.take col := by
          rw [h2, hl', List.take_append, List.mem_append]
          right
          obtain ⟨k, hk⟩ : ∃ k, col - a.length = k + 1 := ⟨col - a.length - 1, by omega⟩
          rw [hk]
          simp
        rw [hw c this] at hf
        cases hf
    · omega
  · rintro ⟨c, hcm, hcs⟩
    have hge : a.length ≤ col := by
      rcases Nat.lt_or_ge col a.length with hlt | hge
      · exfalso
        rw [h2, List.take_append_of_le_length (by omega)] at hcm
        have := h3 c (List.mem_of_mem_take hcm)
        rw [this] at hcs
        cases hcs
      · exact hge
    conv => rhs; rw [h2]
    rw [List.getElem?_append_right hge]
  · intro c hcc
    have hlt : col < line.length := by
      rcases Nat.lt_or_ge col line.length with h | h
      · exact h
      · rw [List.getElem?_eq_none h] at hcc; cases hcc
    rw [List.append_assoc, List.getElem?_append_right (by omega), Nat.add_sub_cancel_left, List.getElem?_append_left hlt]
    exact hcc

/-- **C73**. Every position up to the end of the text is in one column of one line. -/
theorem C73_exists {text : Str} {pos : Nat} (h : pos ≤ text.length) : ∃ n line col, AtLine text pos n line col := by
  induction text generalizing pos with
  | nil =>
    have : pos = 0 := by simpa using h
    subst this
    exact ⟨1, [], 0, ⟨[], [], rfl, .inl rfl, .inl rfl, rfl, rfl⟩, by simp, Nat.le_refl _⟩
  | cons c t ih =>
    by_cases hc : c = '\n'
    · subst hc
      cases pos with
      | zero => exact ⟨1, [], 0, ⟨[], '\n' :: t, rfl, .inl rfl, .inr rfl, rfl, rfl⟩, by simp, Nat.le_refl _⟩
      | succ p =>
        obtain ⟨n, line, col, ⟨b, a, h1, h2, h3, h4, h5⟩, h6, h7⟩ := ih (pos := p) (by simpa using h)
        refine ⟨n + 1, line, col, ⟨'\n' :: b, a, by simp [h1], .inr ?_, h3, by simp [h4]; omega, by simp [h5]⟩, h6, h7⟩
        rcases h2 with rfl | h2
        · rfl
        · cases b with
          | nil => rfl
          | cons d u => rw [List.getLast?_cons_cons]; exact h2
    · obtain ⟨n, line, col, ⟨b, a, h1, h2, h3, h4, h5⟩, h6, h7⟩ := ih (pos := pos - 1) (by
        rw [List.length_cons] at h; omega)
      cases b with
      | nil =>
        cases pos with
        | zero =>
          refine ⟨1, c :: line, 0, ⟨[], a, by simp [h1], .inl rfl, h3, rfl, rfl⟩, ?_, by simp⟩
          simp [h6, Ne.symm hc]
        | succ p =>
          refine ⟨1, c :: line, col + 1, ⟨[], a, by simp [h1], .inl rfl, h3, by simp at h4 ⊢; exact h4, rfl⟩, ?_, by simp; exact h7⟩
          simp [h6, Ne.symm hc]
      | cons d u =>
        have hb : (d :: u).getLast? = some '\n' := h2.resolve_left (by simp)
        cases pos with
        | zero =>
          exfalso
          simp at h4
          omega
        | succ p =>
          refine ⟨n, line, col, ⟨c :: d :: u, a, by simp [h1], .inr (by rw [List.getLast?_cons_cons]; exact hb), h3, ?_, ?_⟩, h6, h7⟩
          · simp at h4 ⊢; omega
          · rw [h5, List.count_cons_of_ne hc]

/-- **C73**, where it fails: a place in an empty line (or at the end of a text that ends with a line end) is told as one line
    too early, and the pointer stands behind that line. -/
theorem C73_empty_line {text : Str} {pos n : Nat} (h : AtLine text pos n [] 0) (h0 : n ≠ 1) (ho : OnlyLf text)
    (inMacro : Bool) (name : Str) (pointer : Bool) : (tellHere inMacro name text pos pointer).line + 1 = n ∧
      ((tellHere inMacro name text pos true).caret = some (tellHere inMacro name text pos true).shown.length) := by
  obtain ⟨⟨before, after, rfl, hb, ha, rfl, rfl⟩, h1, hc⟩ := h
  rw [List.append_nil] at ho ⊢
  have he := eolAt_line (before := before) (line := []) (after := after) (col := 0) (by simp) ha (Nat.le_refl _)
  simp only [List.append_nil, List.length_nil, Nat.add_zero] at he
  obtain ⟨ls, hs, hlen, -⟩ := splitLines_before before [] hb (fun c hc => ho c (by simp [hc])) (by simp)
  rw [List.append_nil] at hs
  unfold tellHere
  simp only [Nat.add_zero, he, List.take_left, hs]
  constructor
  · show (ls ++ splitLines []).length + 1 = _
    rw [show splitLines [] = [] from rfl, List.append_nil, hlen]
  · simp only [if_true]
    congr 1
    omega

/-- **C73**, where it fails: a form feed counts as a line end. -/
theorem C73_form_feed : ∃ text pos n line col, AtLine text pos n line col ∧ line ≠ [] ∧
    (tellHere false [] text pos true).line ≠ n :=
  ⟨['a', Char.ofNat 12, 'b'], 2, 1, ['a', Char.ofNat 12, 'b'], 2, ⟨⟨[], [], rfl, .inl rfl, .inl rfl, rfl, rfl⟩, by decide, by decide⟩,
    by decide, by decide⟩

/-! ## Calls and declarations -/

/-- **C73**. A place in an evaluated text is told with all the places it comes from: those of the call first, then those of the
    declaration, then itself, each of them right, the pointer only below the last one. -/
theorem C73_chain {w : World} {texts : Nat → Str} {l : Loc} {b : Bool} {cs : List (Loc × Bool)} (h : PlaceChain w l b cs)
    (hi : ∀ p ∈ cs, ∃ d text n line col, w.find p.1.file = some (d, text) ∧ AtLine text p.1.pos.toNat n line col ∧ line ≠ [] ∧ OnlyLf text) :
    ∃ ts n0, (∀ n, n0 ≤ n → w.tell texts n l b = some ts) ∧ ts.length = cs.length ∧
      ∀ (i : Nat) l' b' t, cs[i]? = some (l', b') → ts[i]? = some t → ToldRight w texts l' b' t := by
  have last : ∀ {l : Loc} {b : Bool} {d : Decl} {text : Str}, w.find l.file = some (d, text) →
      (∃ d text n line col, w.find l.file = some (d, text) ∧ AtLine text l.pos.toNat n line col ∧ line ≠ [] ∧ OnlyLf text) →
      ToldRight w texts l b (tellHere (isDigits l.file) (if isDigits l.file then texts (digitsVal l.file) else shownName l.file d)
        text l.pos.toNat b) := by
    rintro l b d text hf ⟨d', text', n, line, col, hf', h1, h2, h3⟩
    rw [hf] at hf'
    cases hf'
    rw [C73_exact h1 h2 h3]
    exact ⟨d, text, n, line, col, hf, h1, rfl, rfl, rfl, rfl, rfl⟩
  have glue : ∀ {cs ds : List (Loc × Bool)} {ts us : List Told}, ts.length = cs.length → us.length = ds.length →
      (∀ (i : Nat) l' b' t, cs[i]? = some (l', b') → ts[i]? = some t → ToldRight w texts l' b' t) →
      (∀ (i : Nat) l' b' t, ds[i]? = some (l', b') → us[i]? = some t → ToldRight w texts l' b' t) →
      (∀ (i : Nat) l' b' t, (cs ++ ds)[i]? = some (l', b') → (ts ++ us)[i]? = some t → ToldRight w texts l' b' t) := by
    intro cs ds ts us h1 h2 h3 h4 i l' b' t h5 h6
    rcases Nat.lt_or_ge i cs.length with hlt | hge
    · rw [List.getElem?_append_left hlt] at h5
      rw [List.getElem?_append_left (by omega)] at h6
      exact h3 i l' b' t h5 h6
    · rw [List.getElem?_append_right hge] at h5
      rw [List.getElem?_append_right (by omega), h1] at h6
      exact h4 _ l' b' t h5 h6
  have single : ∀ {p : Loc × Bool} {u : Told}, ToldRight w texts p.1 p.2 u →
      ∀ (i : Nat) l' b' t, [p][i]? = some (l', b') → [u][i]? = some t → ToldRight w texts l' b' t := by
    intro p u h i l' b' t h1 h2
    cases i with
    | zero => cases h1; cases h2; exact h
    | succ i => cases h1
  induction h with
  | @file l b d t hf hd =>
    have := last (b := b) hf (hi (l, b) (by simp))
    rw [hd] at this
    refine ⟨[_], 1, fun n hn => ?_, rfl, single this⟩
    obtain ⟨n, rfl⟩ : ∃ k, n = k + 1 := ⟨n - 1, by omega⟩
    unfold World.tell
    rw [hf]
    simp only [hd, Bool.false_eq_true, if_false]
    congr 3
  | @called l b dl t c cs ds hf hd hc _ _ ih1 ih2 =>
    obtain ⟨ts, n1, h1, h2, h3⟩ := ih1 fun p hp => hi p (by simp [hp])
    obtain ⟨us, n2, h4, h5, h6⟩ := ih2 fun p hp => hi p (by simp [hp])
    have := last (b := b) hf (hi (l, b) (by simp))
    rw [hd, if_pos rfl] at this
    refine ⟨ts ++ us ++ [_], max n1 n2 + 1, fun n hn => ?_, by simp [h2, h5], glue (by simp [h2, h5]) rfl (glue h2 h5 h3 h6) (single this)⟩
    obtain ⟨n, rfl⟩ : ∃ k, n = k + 1 := ⟨n - 1, by omega⟩
    unfold World.tell
    rw [hf]
    simp only [hd, if_true, hc]
    rw [h1 n (by omega), h4 n (by omega)]
    rfl
  | @uncalled l b dl t ds hf hd hc _ ih2 =>
    obtain ⟨us, n2, h4, h5, h6⟩ := ih2 fun p hp => hi p (by simp [hp])
    have := last (b := b) hf (hi (l, b) (by simp))
    rw [hd, if_pos rfl] at this
    refine ⟨us ++ [_], n2 + 1, fun n hn => ?_, by simp [h5], glue h5 rfl h6 (single this)⟩
    obtain ⟨n, rfl⟩ : ∃ k, n = k + 1 := ⟨n - 1, by omega⟩
    unfold World.tell
    rw [hf]
    simp only [hd, if_true, hc]
    rw [h4 n (by omega)]
    rfl

theorem find_registered {w : World} {f : Str} (h : Registered w f) : ∃ d t, w.find f = some (d, t) ∧ (f, d, t) ∈ w.source := by
  obtain ⟨d, t, h⟩ := h
  unfold World.find
  cases hf : w.source.find? (·.1 == f) with
  | none =>
    have := List.find?_eq_none.1 hf _ h
    simp at this
  | some p =>
    obtain ⟨g, d', t'⟩ := p
    have h1 := List.find?_some hf
    have h2 := List.mem_of_find?_eq_some hf
    simp only [beq_iff_eq] at h1
    subst h1
    exact ⟨d', t', rfl, h2⟩

/-- **C73**. With the tables in order, every place in a text that is there has such a chain: looking
    it up ends and does not fail. -/
theorem C73_never_fails {w : World} (hw : Sound w) {l : Loc} (hl : Registered w l.file) (b : Bool) :
    ∃ cs, PlaceChain w l b cs := by
  have key : ∀ (m : Nat) (l : Loc) (b : Bool), Older w m l.file → ∃ cs, PlaceChain w l b cs := by
    intro m
    induction m using Nat.strongRecOn with
    | _ m ih =>
      rintro l b ⟨hr, ho⟩
      obtain ⟨d, t, hf, hm⟩ := find_registered hr
      cases hdg : isDigits l.file with
      | false => exact ⟨_, .file hf hdg⟩
      | true =>
        obtain ⟨k, hk, hlt, dl, rfl, hdecl⟩ := hw.text _ d t hm hdg
        have hkv : digitsVal l.file = k := by rw [hk, digitsVal_natStr]
        have hkm : k < m := by rw [← hkv]; exact ho hdg
        obtain ⟨ds, hds⟩ := ih k hkm dl false hdecl
        cases hi : w.inclusion[k]? with
        | none => rw [List.getElem?_eq_none_iff] at hi; omega
        | some c =>
          cases c with
          | none => exact ⟨_, .uncalled hf hdg (by rw [hkv]; exact hi) hds⟩
          | some c =>
            obtain ⟨cs, hcs⟩ := ih k hkm c false (hw.call k c hi)
            exact ⟨_, .called hf hdg (by rw [hkv]; exact hi) hcs hds⟩
  cases hdg : isDigits l.file with
  | false =>
    obtain ⟨d, t, hf, _⟩ := find_registered hl
    exact ⟨_, .file hf hdg⟩
  | true => exact key (digitsVal l.file + 1) l b ⟨hl, fun _ => by omega⟩

/-- **C73**. After every translation, the places in the result and in what the scopes hold can be told. -/
theorem C73_after_a_translation (e : EEnv) (hp : Honest e) (hn : Names e.pe) {n : Nat} {input : Option Str}
    {seen : List Node} {text : Str} (hseen : ∀ l ∈ leavesL seen, MadeOf [] l) {xs : List Node} {st : PSt} {v : Node} {s : ESt}
    (hpar : (P e.pe n).parse e.pe.inputFile (PSt.start e.pe input text) = .ok (xs, st))
    (hev : E e n (.text xs) { p := st, seen := seen } = .ok (v, s)) (l : Loc) (hl : Place (v.leaves ++ s.leaves) l) (b : Bool) :
    ∃ cs, PlaceChain s.p.world l b cs := by
  obtain ⟨h1, -, h2⟩ := C63_after_a_translation e hp hn hseen hpar hev
  obtain ⟨rs, h3, -⟩ := h2 l hl
  refine C73_never_fails h1 ?_ b
  cases h3 with
  | file h _ => exact ⟨_, _, h⟩
  | both h _ => exact ⟨_, _, h⟩
  | declared h _ => exact ⟨_, _, h⟩

namespace MessageExample

/-- A macro `m` declared in line 1 of `a.yu`, called in line 3; the place is the second character of its expansion. -/
def w : World := { source := [(lit "0", .at ⟨lit "a.yu", 8⟩, lit "x y"), (lit "a.yu", .path (some []), lit "($macro m ()x y)\n\n  ($m)\n")],
                   inclusion := [some ⟨lit "a.yu", 22⟩] }

example : ∃ ts, w.tell (fun _ => lit "m") 2 ⟨lit "0", 2⟩ true = some ts ∧
    locText ts = lit "\n  File \"a.yu\", line 3\n    ($m)\n  File \"a.yu\", line 1\n    ($macro m ()x y)\n  Macro \"m\", line 1\n    x y\n      ^" :=
  ⟨_, rfl, by decide +kernel⟩

example : PlaceChain w ⟨lit "0", 2⟩ true [(⟨lit "a.yu", 22⟩, false), (⟨lit "a.yu", 8⟩, false), (⟨lit "0", 2⟩, true)] :=
  .called (dl := ⟨lit "a.yu", 8⟩) (t := lit "x y") (c := ⟨lit "a.yu", 22⟩) (cs := [_]) (ds := [_]) (by decide) (by decide) (by decide)
    (.file (d := .path (some [])) (t := _) rfl (by decide)) (.file (d := .path (some [])) (t := _) rfl (by decide))

example : AtLine (lit "($macro m ()x y)\n\n  ($m)\n") 22 3 (lit "  ($m)") 4 :=
  ⟨⟨lit "($macro m ()x y)\n\n", lit "\n", by decide, .inr (by decide), .inr (by decide), by decide, by decide⟩, by decide, by decide⟩

end MessageExample

end Yupp
