import Verif.Lemmas.Parse
import Verif.Spec.Reference
/-!
# The tables of `yushell` are in order

The parser registers texts only under the next free number and declares them only at places in texts that were there
before.
-/

namespace Yupp

open Spec

/-! ## Numbers as names -/

theorem natStr_digits (n : Nat) : natStr n = Nat.toDigits 10 n := Nat.toList_repr

theorem digitsVal_ofDigitChars (l : Str) : ∀ a, l.foldl (fun n c => 10 * n + (c.toNat - 48)) a = Nat.ofDigitChars 10 l a := by
  induction l with
  | nil => intro a; rfl
  | cons c t ih =>
    intro a
    rw [List.foldl_cons, ih, Nat.ofDigitChars_cons]
    rfl

theorem digitsVal_natStr (n : Nat) : digitsVal (natStr n) = n := by
  unfold digitsVal
  rw [digitsVal_ofDigitChars, natStr_digits, Nat.ofDigitChars_toDigits (by omega) (by omega)]

theorem isDigits_natStr (n : Nat) : isDigits (natStr n) = true := by
  unfold isDigits
  rw [natStr_digits, Bool.and_eq_true]
  refine ⟨?_, List.all_eq_true.mpr fun c hc => Nat.isDigit_of_mem_toDigits (by omega) (by omega) hc⟩
  cases h : Nat.toDigits 10 n with
  | nil => exact absurd h Nat.toDigits_ne_nil
  | cons => rfl

/-! ## Tables that are in order -/

theorem Spec.Registered.le {w w' : World} {f : Str} (h : Registered w f) (hw : w.Le w') : Registered w' f := by
  obtain ⟨d, t, h⟩ := h
  obtain ⟨p, hp⟩ := hw.source
  exact ⟨d, t, by rw [hp]; exact List.mem_append_right _ h⟩

theorem Spec.Older.le {w w' : World} {m : Nat} {f : Str} (h : Older w m f) (hw : w.Le w') : Older w' m f := ⟨Registered.le h.1 hw, h.2⟩

/-- A place in a text that is there is older than the next number. -/
theorem Spec.Sound.older {w : World} (h : Sound w) {f : Str} (hf : Registered w f) : Older w w.inclusion.length f := by
  refine ⟨hf, fun hd => ?_⟩
  obtain ⟨d, t, hm⟩ := hf
  obtain ⟨m, rfl, hm, _⟩ := h.text _ _ _ hm hd
  rwa [digitsVal_natStr]

theorem Spec.Sound.number {w : World} (h : Sound w) (decl : Decl) (call : Option Loc) (text : Str)
    (hd : ∃ l, decl = .at l ∧ Registered w l.file) (hc : ∀ l, call = some l → Registered w l.file) :
    Sound { source := (natStr w.inclusion.length, decl, text) :: w.source, inclusion := w.inclusion ++ [call] } := by
  have le : w.Le { source := (natStr w.inclusion.length, decl, text) :: w.source, inclusion := w.inclusion ++ [call] } :=
    ⟨⟨[_], rfl⟩, ⟨[_], rfl⟩⟩
  refine ⟨?_, ?_⟩
  · intro key d t hm hk
    rcases List.mem_cons.mp hm with hm | hm
    · cases hm
      obtain ⟨dl, hdl, hr⟩ := hd
      exact ⟨_, rfl, by simp, dl, hdl, Older.le (h.older hr) le⟩
    · obtain ⟨m, h1, h2, dl, h3, h4⟩ := h.text key d t hm hk
      exact ⟨m, h1, by simp; omega, dl, h3, Older.le h4 le⟩
  · intro m c hm
    dsimp only at hm
    rw [List.getElem?_append] at hm
    split at hm
    · exact Older.le (h.call m c hm) le
    · next hlt =>
      have : m - w.inclusion.length = 0 := by
        rcases Nat.eq_zero_or_pos (m - w.inclusion.length) with h | h
        · exact h
        · rw [List.getElem?_eq_none (by simp; omega)] at hm; cases hm
      rw [this] at hm
      cases hm
      have := h.older (hc c rfl)
      exact ⟨Registered.le this.1 le, fun hd => Nat.lt_of_lt_of_le (this.2 hd) (by omega)⟩

theorem Spec.Sound.name {w : World} (h : Sound w) (key : Str) (decl : Decl) (text : Str) (hk : isDigits key = false) :
    Sound { w with source := (key, decl, text) :: w.source } := by
  have le : w.Le { w with source := (key, decl, text) :: w.source } := ⟨⟨[_], rfl⟩, ⟨[], by simp⟩⟩
  refine ⟨?_, fun m c hm => Older.le (h.call m c hm) le⟩
  intro k d t hm hd
  rcases List.mem_cons.mp hm with hm | hm
  · cases hm; rw [hk] at hd; cases hd
  · obtain ⟨m, h1, h2, dl, h3, h4⟩ := h.text k d t hm hd
    exact ⟨m, h1, h2, dl, h3, Older.le h4 le⟩

/-! ## The file of a fragment -/

/-- The file a fragment lies in. -/
def Src.file (s : Src) : Option Str := s.loc.map (·.file)

@[simp] theorem file_drop (s : Src) (k : Nat) : (s.drop k).file = s.file := by
  unfold Src.file Src.drop; cases s.loc <;> rfl
@[simp] theorem file_gap (s : Src) : (psGap s).file = s.file := file_drop ..
@[simp] theorem file_space (s : Src) : (psSpace s).file = s.file := file_drop ..
theorem file_eol {s r : Src} {x} (h : psEol s = (r, x)) : r.file = s.file := by
  unfold psEol at h
  split at h
  · split at h <;> cases h <;> simp
  · cases h; rfl
theorem file_atom {s r : Src} {x} (h : psAtom s = (r, x)) : r.file = s.file := by
  cases h; exact file_drop ..

/-! ## Through the rules -/

/-- Run on tables that are in order, with `f` the name of a text, `m` leaves them in order and its result satisfies
    `Q`. -/
def PM.Holds (f : Option Str) (m : PM α) (Q : α → Prop) : Prop := ∀ st a st', Sound st.world →
  (∃ k, f = some k ∧ Registered st.world k) → m st = .ok (a, st') →
  Sound st'.world ∧ (∀ k, Registered st.world k → Registered st'.world k) ∧ Q a

namespace PM
theorem holds_pure {f} {a : α} {Q : α → Prop} (h : Q a) : Holds f (Pure.pure a) Q := by
  intro st b st' h0 _ hm; cases hm; exact ⟨h0, fun _ => id, h⟩
theorem holds_err {f} {Q : α → Prop} : Holds f PM.err Q := by intro st b st' _ _ hm; cases hm
theorem holds_timeout {f} {Q : α → Prop} : Holds f PM.timeout Q := by intro st b st' _ _ hm; cases hm
theorem holds_bind {g} {m : PM α} {f : α → PM β} {Q : α → Prop} {R : β → Prop} (h : Holds g m Q) (hf : ∀ a, Q a → Holds g (f a) R) :
    Holds g (m >>= f) R := by
  intro st b st' h0 hr hm
  change PM.bind m f st = _ at hm
  unfold PM.bind at hm
  split at hm
  · next a s1 h1 =>
    obtain ⟨h2, h3, h4⟩ := h _ _ _ h0 hr h1
    obtain ⟨h5, h6, h7⟩ := hf a h4 _ _ _ h2 (hr.imp fun k hk => ⟨hk.1, h3 k hk.2⟩) hm
    exact ⟨h5, fun k hk => h6 k (h3 k hk), h7⟩
  · cases hm
  · cases hm
end PM

open PM (Holds holds_pure holds_err holds_timeout holds_bind)

/-- The rest of the source lies in the file `f`. -/
def In (f : Option Str) (r : Src × α) : Prop := r.1.file = f

theorem holds_orElse {g} {r : PM (Src × Option α)} {f : Src → PM (Src × Option α)} (h : r.Holds g (In g))
    (hf : ∀ s, s.file = g → (f s).Holds g (In g)) : (orElse r f).Holds g (In g) := by
  unfold orElse
  refine holds_bind h (fun a ha => ?_)
  obtain ⟨s, leg⟩ := a
  cases leg with
  | some x => exact holds_pure ha
  | none => exact hf s ha

structure Parsers.Files (p : Parsers) : Prop where
  form : ∀ f s, s.file = f → (p.form s).Holds f (In f)
  args : ∀ f fn s args named, s.file = f → (p.args fn s args named).Holds f (In f)
  items : ∀ f s lst, s.file = f → (p.items s lst).Holds f (In f)
  bounds : ∀ f s b late, s.file = f → (p.bounds s b late).Holds f (In f)
  text : ∀ f stop t, t.sou.file = f → (p.text stop t).Holds f (In f)
  parse : ∀ key st a st', Sound st.world → p.parse key st = .ok (a, st') →
    Sound st'.world ∧ ∀ k, Registered st.world k → Registered st'.world k

theorem Parsers.Files.holds {p : Parsers} (h : p.Files) (key : Str) {f : Option Str} : (p.parse key).Holds f (fun _ => True) :=
  fun _ _ _ h0 _ hm => ⟨(h.parse _ _ _ _ h0 hm).1, (h.parse _ _ _ _ h0 hm).2, trivial⟩

/-- Goes through a rule. -/
macro "holds" : tactic => `(tactic| repeat' (first
  | exact holds_err
  | exact holds_timeout
  | (refine holds_pure ?_; simp_all [In]; done)
  | split))

variable {p : Parsers} {e : PEnv} {f : Option Str}

theorem psQuoted_file {s : Src} (hs : s.file = f) : (psQuoted s).Holds f (In f) := by
  unfold psQuoted noMatch
  dsimp only
  holds

theorem psQuote_file {s : Src} (hs : s.file = f) : (psQuote e s).Holds f (In f) := by
  unfold psQuote
  holds
  all_goals exact psQuoted_file hs

theorem psNumber_file {s : Src} (hs : s.file = f) : (psNumber e s).Holds f (In f) := by
  unfold psNumber noMatch
  dsimp only
  holds

theorem psValue_file {s : Src} (hs : s.file = f) : (psValue e s).Holds f (In f) :=
  holds_orElse (psQuote_file hs) fun _ h => psNumber_file h

theorem psComment_file {s : Src} (hs : s.file = f) : (psComment s).Holds f (In f) := by
  unfold psComment noMatch
  dsimp only
  holds

theorem psRemark_file {s : Src} (hs : s.file = f) : (psRemark e s).Holds f (In f) := by
  unfold psRemark noMatch
  holds

theorem closing_file {s : Src} {tag : Str} (hs : s.file = f) : (closing tag s).Holds f (fun r => r.file = f) := by
  unfold closing
  have : ∀ s : Src, s.file = f → (if s.at ')' then pure (s.drop 1) else PM.err : PM Src).Holds f (fun r => r.file = f) := by
    intro s hs
    split
    · exact holds_pure (by rw [file_drop]; exact hs)
    · exact holds_err
  exact this _ (by split <;> simp [hs])

theorem regions_file : ∀ n (s : Src) reg a, s.file = f → (regions n s reg a).Holds f (In f)
  | 0, _, _, _, _ => holds_timeout
  | n + 1, s, reg, a, hs => by
    unfold regions
    split
    · split
      · next h => exact regions_file n _ _ _ (by rw [file_atom h, file_drop, hs])
      · exact holds_err
    · exact holds_pure hs

theorem psVar_file {s : Src} (hs : s.file = f) : (psVar s).Holds f (In f) := by
  unfold psVar noMatch
  split
  · split
    · next h => exact holds_pure (by change _ = f; rw [file_atom h, file_drop, hs])
    · exact holds_err
  · split
    · next h => exact holds_pure (by change _ = f; rw [file_atom h, hs])
    · next h => exact holds_bind (regions_file _ _ _ _ (by rw [file_atom h, hs])) (fun a ha => holds_pure ha)

theorem atoms1_file : ∀ n (s : Src) l, s.file = f → (atoms1 n s l).Holds f (In f)
  | 0, _, _, _ => holds_timeout
  | n + 1, s, l, hs => by
    unfold atoms1
    split
    · exact holds_err
    · next h =>
      have h' := (file_atom h).trans hs
      dsimp only
      split
      · exact holds_pure (by simp [In, h'])
      · exact atoms1_file n _ _ (by simp [h'])

theorem atoms0_file : ∀ n (s : Src) l, s.file = f → (atoms0 n s l).Holds f (In f)
  | 0, _, _, _ => holds_timeout
  | n + 1, s, l, hs => by
    unfold atoms0
    split
    · exact holds_pure (by simp [In, hs])
    · split
      · exact holds_err
      · next h => exact atoms0_file n _ _ (by simp [(file_atom h).trans hs])

theorem psBinding_file (h : p.Files) {s : Src} (hs : s.file = f) : (psBinding p s).Holds f (In f) := by
  unfold psBinding
  refine holds_bind (Q := In f) ?_ (fun a ha => ?_)
  · split
    · exact holds_bind (atoms1_file _ _ _ (by simp [hs])) (fun a ha => holds_pure ha)
    · split
      · next h => exact holds_pure (by change _ = f; rw [file_atom h, hs])
      · exact holds_err
  obtain ⟨s, lval⟩ := a
  refine holds_bind (h.form f _ (by rw [file_gap]; exact ha)) (fun a ha => ?_)
  obtain ⟨s, leg⟩ := a
  cases leg with
  | none => exact holds_err
  | some x => exact holds_pure ha

theorem psSet_file (h : p.Files) {s : Src} (hs : s.file = f) : (psSet p s).Holds f (In f) := by
  unfold psSet noMatch
  split
  · exact holds_bind (psBinding_file h (by simp [hs])) (fun a ha => holds_bind (closing_file (by rw [file_gap]; exact ha))
      (fun b hb => holds_pure hb))
  · exact holds_pure hs

theorem psLet_file (h : p.Files) {s : Src} (hs : s.file = f) : (psLet p s).Holds f (In f) := by
  unfold psLet noMatch
  split
  · refine holds_bind (psBinding_file h (by simp [hs])) (fun a ha => holds_bind (h.form f _ (by rw [file_gap]; exact ha)) (fun b hb => ?_))
    obtain ⟨s, leg⟩ := b
    cases leg with
    | none => exact holds_err
    | some y => exact holds_bind (closing_file (by rw [file_gap]; exact hb)) (fun _ hc => holds_pure hc)
  · exact holds_pure hs

theorem psMacro_file {s : Src} (hs : s.file = f) : (psMacro s).Holds f (In f) := by
  unfold psMacro noMatch
  dsimp only
  split
  · split
    · exact holds_err
    · next h =>
      have h' := file_atom h
      simp only [file_gap, file_drop, hs] at h'
      split
      · refine holds_bind (atoms0_file _ _ _ (by simp [h'])) (fun a ha => ?_)
        obtain ⟨s, pars⟩ := a
        dsimp only
        split
        · exact holds_pure (by change (Src.drop _ _).file = f; rw [file_drop]; exact ha)
        · exact holds_err
      · exact holds_err
  · exact holds_pure hs

theorem psEmit_file (h : p.Files) {s : Src} (hs : s.file = f) : (psEmit p s).Holds f (In f) := by
  unfold psEmit noMatch
  split
  · refine holds_bind (psVar_file (by simp [hs])) (fun a ha => ?_)
    obtain ⟨s, v⟩ := a
    cases v with
    | none => exact holds_err
    | some v =>
      obtain ⟨late, reg, a⟩ := v
      refine holds_bind (h.form f _ (by rw [file_gap]; exact ha)) (fun b hb => holds_bind (closing_file ?_) (fun _ hc => holds_pure hc))
      obtain ⟨s, leg⟩ := b
      cases leg with
      | none => exact hb
      | some x => dsimp only; rw [file_gap]; exact hb
  · exact holds_pure hs

theorem psCode_file (h : p.Files) {s : Src} (hs : s.file = f) : (psCode p s).Holds f (In f) := by
  have hm : ∀ stop (s : Src), s.file = f → (do
      let (s, ast) ← p.text stop { sou := s }
      pure (s, some (.text ast)) : PM (Src × Option Node)).Holds f (In f) := fun stop s hs =>
    holds_bind (h.text f stop _ hs) (fun a ha => holds_pure ha)
  unfold psCode noMatch
  dsimp only
  split
  · split
    · next he => exact hm _ _ (by rw [file_eol he]; simp [hs])
    · exact hm _ _ (by simp [hs])
  · repeat' split
    all_goals first | exact holds_pure hs | exact hm _ _ (by simp [hs])

/-- The place of an infix expression lies in the file, too. -/
theorem psInfix_place (h : p.Files) {s : Src} (hs : s.file = f) :
    (psInfix p s).Holds f (fun r => In f r ∧ ∀ x loc, r.2 = some (.infix x loc) → loc.map (·.file) = f) := by
  unfold psInfix noMatch
  split
  · refine holds_bind (h.text f _ _ (by simp [hs])) (fun a ha => holds_pure ⟨ha, ?_⟩)
    intro x loc hx; cases hx; exact hs
  · split
    · refine holds_bind (h.text f _ _ (by simp [hs])) (fun a ha => holds_pure ⟨ha, ?_⟩)
      intro x loc hx
      cases hx
      rw [Option.map_map]
      exact hs
    · exact holds_pure ⟨hs, by intro x loc hx; cases hx⟩

theorem Holds.mono {m : PM α} {Q R : α → Prop} (h : m.Holds f Q) (hr : ∀ a, Q a → R a) : m.Holds f R := by
  intro st a st' h0 h1 hm
  obtain ⟨a, b, c⟩ := h st a st' h0 h1 hm
  exact ⟨a, b, hr _ c⟩

theorem psInfix_file (h : p.Files) {s : Src} (hs : s.file = f) : (psInfix p s).Holds f (In f) :=
  Holds.mono (psInfix_place h hs) (fun _ h => h.1)

theorem psItems_file (h : p.Files) (s : Src) (lst : List Node) (hs : s.file = f) : (psItems p s lst).Holds f (In f) := by
  unfold psItems
  dsimp only
  split
  · exact holds_pure (by simp [In, hs])
  · refine holds_bind (h.form f _ (by split <;> simp [hs])) (fun a ha => ?_)
    obtain ⟨s, leg⟩ := a
    cases leg with
    | none => exact holds_err
    | some x => exact h.items f _ _ (by rw [file_gap]; exact ha)

theorem psList_file (h : p.Files) {s : Src} (hs : s.file = f) : (psList p s).Holds f (In f) := by
  unfold psList noMatch
  split
  · exact holds_bind (h.items f _ _ (by simp [hs])) (fun a ha => holds_pure ha)
  · exact holds_pure hs

theorem argName_file {s l n : Src} (h : argName s = some (l, n)) : l.file = s.file := by
  unfold argName at h
  split at h
  · split at h
    · next ha =>
      dsimp only at h
      split at h
      · cases h
      · cases h; rw [file_gap, file_atom ha, file_drop]
    · cases h
  · cases h

theorem psArgs_file (h : p.Files) (fn : Option Src) (s : Src) (a : List Node) (b : List (Src × Node)) (hs : s.file = f) :
    (psArgs p fn s a b).Holds f (In f) := by
  unfold psArgs
  dsimp only
  split
  · next hl =>
    have hl := (argName_file hl).trans ((file_gap s).trans hs)
    split
    · exact holds_pure hl
    · refine holds_bind (h.form f _ (by rw [file_gap]; exact hl)) (fun c hc => ?_)
      obtain ⟨s, leg⟩ := c
      cases leg with
      | none => exact holds_err
      | some x => exact h.args f _ _ _ _ hc
  · refine holds_bind (h.form f _ (by split <;> simp [hs])) (fun c hc => ?_)
    obtain ⟨s, leg⟩ := c
    cases leg with
    | some x => exact h.args f _ _ _ _ hc
    | none =>
      dsimp only
      split
      · exact holds_err
      · exact holds_pure hc

theorem psApplication_file (h : p.Files) {s : Src} (hs : s.file = f) : (psApplication p s).Holds f (In f) := by
  unfold psApplication noMatch
  dsimp only
  split
  · exact holds_pure hs
  split
  · exact holds_pure hs
  split
  · exact psCode_file h hs
  split
  · exact psEmit_file h hs
  split
  · exact psInfix_file h hs
  refine holds_bind (h.form f _ (by rw [file_gap]; split <;> simp [hs])) (fun c hc => ?_)
  obtain ⟨s, leg⟩ := c
  cases leg with
  | none => exact holds_err
  | some g =>
    refine holds_bind (h.args f _ _ _ _ hc) (fun a ha => ?_)
    split
    · exact holds_pure (by change (Src.drop _ _).file = f; rw [file_drop, file_gap]; exact ha)
    · exact holds_err

theorem psLForm_file (h : p.Files) {s : Src} (hs : s.file = f) : (psLForm p s).Holds f (In f) :=
  holds_orElse (psCode_file h hs) fun _ hs => holds_orElse (psInfix_file h hs) fun _ hs => holds_orElse (psLet_file h hs) fun _ hs =>
    holds_orElse (psApplication_file h hs) fun _ hs => psList_file h hs

theorem psBounds_file (h : p.Files) (s : Src) (b : List Bound) (l : List Src) (hs : s.file = f) :
    (psBounds p s b l).Holds f (In f) := by
  unfold psBounds
  split
  · split
    · split
      · exact h.bounds f _ _ _ (by simp [hs])
      · exact holds_err
    · split
      · exact holds_err
      · next h' =>
        have h' := (file_atom h').trans ((file_drop s 1).trans hs)
        refine holds_bind (Q := In f) ?_ (fun a ha => ?_)
        · split
          · refine holds_bind (h.form f _ (by simp [h'])) (fun a ha => ?_)
            obtain ⟨s, leg⟩ := a
            cases leg with
            | none => exact holds_err
            | some x => exact holds_pure ha
          · exact holds_pure h'
        · obtain ⟨s, d⟩ := a
          dsimp only
          replace ha : s.file = f := ha
          split
          · exact h.bounds f _ _ _ (by simp [ha])
          · split
            · exact h.bounds f _ _ _ (by simp [ha])
            · exact holds_err
  · exact holds_pure hs

theorem psLambda_file (h : p.Files) {s : Src} (hs : s.file = f) : (psLambda p s).Holds f (In f) := by
  unfold psLambda noMatch
  split
  · split
    · refine holds_bind (psVar_file (by simp [hs])) (fun a ha => ?_)
      obtain ⟨s, v⟩ := a
      cases v with
      | none => exact holds_err
      | some v =>
        obtain ⟨late, reg, a⟩ := v
        dsimp only
        replace ha : s.file = f := ha
        split
        · refine holds_bind (psLForm_file h (by simp [ha])) (fun a ha => ?_)
          obtain ⟨s, leg⟩ := a
          cases leg with
          | none => exact holds_err
          | some x => exact holds_pure ha
        · exact holds_err
    · refine holds_bind (psBounds_file h _ _ _ hs) (fun b hb => ?_)
      obtain ⟨s, b⟩ := b
      refine holds_bind (psLForm_file h hb) (fun a ha => ?_)
      obtain ⟨s, leg⟩ := a
      cases leg with
      | none => exact holds_err
      | some x => exact holds_pure ha
  · exact holds_pure hs

theorem psFormer_file (h : p.Files) {s : Src} (hs : s.file = f) : (psFormer e p s).Holds f (In f) :=
  holds_orElse (psValue_file hs) fun _ hs => holds_orElse (holds_bind (psVar_file hs) (fun _ ha => holds_pure ha)) fun _ hs =>
  holds_orElse (psLambda_file h hs) fun _ hs => psLForm_file h hs

theorem psForm_file (h : p.Files) {s : Src} (hs : s.file = f) : (psForm e p s).Holds f (In f) := by
  unfold psForm noMatch
  refine holds_bind (psFormer_file h hs) (fun a ha => ?_)
  obtain ⟨s, leg⟩ := a
  replace ha : s.file = f := ha
  cases leg with
  | none => exact holds_pure ha
  | some x =>
    dsimp only
    split
    · refine holds_bind (psFormer_file h (by simp [ha])) (fun c hc => ?_)
      obtain ⟨s, leg⟩ := c
      replace hc : s.file = f := hc
      cases leg with
      | none => exact holds_err
      | some c =>
        dsimp only
        split
        · refine holds_bind (h.form f _ (by simp [hc])) (fun d hd => ?_)
          obtain ⟨s, leg⟩ := d
          cases leg with
          | none => exact holds_err
          | some d => exact holds_pure hd
        · exact holds_pure (by simp [In, hc])
    · exact holds_pure (by simp [In, ha])

theorem importSource_sound (hl : ∀ k, isDigits k = true → e.readLib k = none) (lib : Str) (once : Bool) :
    (importSource e lib once).Holds f (fun _ => True) := by
  intro st a st' h0 _ hm
  unfold importSource at hm
  split at hm
  · cases hm; exact ⟨h0, fun _ => id, trivial⟩
  · split at hm
    · cases hm
    · next hr =>
      cases hm
      refine ⟨h0.name _ _ _ ?_, fun k ⟨d, t, h⟩ => ⟨d, t, List.mem_cons_of_mem _ h⟩, trivial⟩
      cases hd : isDigits lib with
      | false => rfl
      | true => rw [hl _ hd] at hr; cases hr

theorem importPython_sound (script : Str) : (importPython e script).Holds f (fun _ => True) := by
  intro st a st' h0 _ hm
  unfold importPython at hm
  split at hm
  · cases hm; exact ⟨h0, fun _ => id, trivial⟩
  · split at hm
    · cases hm; exact ⟨h0, fun _ => id, trivial⟩
    · cases hm

theorem importEval_sound (ast : List Node) (loc : Option Loc) (hl : loc.map (·.file) = f) :
    (importEval e ast loc).Holds f (fun _ => True) := by
  intro st a st' h0 hf hm
  unfold importEval at hm
  split at hm
  · cases hm
  · cases hm
    refine ⟨h0.number _ none _ ?_ (by intro l hl; cases hl), fun k ⟨d, t, h⟩ => ⟨d, t, List.mem_cons_of_mem _ h⟩, trivial⟩
    obtain ⟨k, rfl, hr⟩ := hf
    cases loc with
    | none => cases hl
    | some l' => cases hl; exact ⟨l', rfl, hr⟩

theorem psImport_file (h : p.Files) (hl : ∀ k, isDigits k = true → e.readLib k = none) {s : Src} (hs : s.file = f) :
    (psImport e p s).Holds f (In f) := by
  unfold psImport noMatch
  split
  · have hs' : (psGap (s.drop kImport.length)).file = f := by simp [hs]
    refine holds_bind (Q := In f) ?_ (fun a ha => holds_bind (closing_file (by rw [file_gap]; exact ha)) (fun _ hb => holds_pure hb))
    split
    · next ha => exact holds_bind (importSource_sound hl _ _) (fun _ _ => holds_bind (h.holds _) (fun a _ => holds_pure ((file_atom ha).trans hs')))
    · next ha =>
      refine holds_bind (psQuote_file ((file_atom ha).trans hs')) (fun a ha => ?_)
      obtain ⟨s, leg⟩ := a
      replace ha : s.file = f := ha
      dsimp only
      split
      · split
        · exact holds_bind (importPython_sound _) (fun _ _ => holds_pure ha)
        · exact holds_bind (importSource_sound hl _ _) (fun _ _ => holds_bind (h.holds _) (fun _ _ => holds_pure ha))
      · refine holds_bind (psInfix_place h ha) (fun a ha => ?_)
        obtain ⟨s, leg⟩ := a
        dsimp only
        split
        · exact holds_bind (importEval_sound _ _ (ha.2 _ _ rfl)) (fun _ _ => holds_bind (h.holds _) (fun _ _ => holds_pure ha.1))
        · exact holds_err
  · exact holds_pure hs

theorem one_file {m : PM (Src × Option Node)} (h : m.Holds f (In f)) : (do
    let (s, leg) ← m
    pure (s, leg.map ([·])) : PM (Src × Option (List Node))).Holds f (In f) :=
  holds_bind h (fun _ ha => holds_pure ha)

theorem psTextLeg_file (h : p.Files) (hl : ∀ k, isDigits k = true → e.readLib k = none) {s : Src} (hs : s.file = f) :
    (psTextLeg e p s).Holds f (In f) := by
  unfold psTextLeg
  dsimp only
  refine holds_orElse (one_file (psSet_file h hs)) fun s hs => ?_
  refine holds_orElse (one_file (psLet_file h hs)) fun s hs => ?_
  refine holds_orElse (psImport_file h hl hs) fun s hs => ?_
  refine holds_orElse (one_file (psMacro_file hs)) fun s hs => ?_
  refine holds_orElse (one_file (psComment_file hs)) fun s hs => ?_
  refine holds_orElse (one_file (psApplication_file h hs)) fun s hs => ?_
  refine holds_orElse (one_file (psQuote_file hs)) fun s hs => ?_
  exact one_file (psRemark_file hs)

theorem stopAt_file {stop : Stop} {s r : Src} {sq pth : Nat} (h : stopAt stop s sq pth = some r) : r.file = s.file := by
  unfold stopAt at h
  split at h
  · split at h <;> cases h; rfl
  · split at h
    · next he =>
      dsimp only at h
      split at h
      · cases h
      · cases h; simp [file_eol he]
    · cases h
  · dsimp only at h
    repeat' split at h
    all_goals first | cases h | (cases h; done) | skip
    all_goals simp
  · split at h <;> cases h; simp
  · split at h <;> cases h; simp
  · split at h
    · cases h; simp
    · split at h
      · cases h; rfl
      · split at h
        · split at h
          · cases h
          · split at h <;> cases h; rfl
        · split at h <;> cases h; rfl
  · split at h <;> cases h; simp

theorem plainStep_file {t t' : TextSt} (h : plainStep t = some t') : t'.sou.file = t.sou.file := by
  unfold plainStep at h
  dsimp only at h
  split at h
  · cases h
  · split at h
    · cases h
    · cases h; simp

theorem psText_file (h : p.Files) (hl : ∀ k, isDigits k = true → e.readLib k = none) (stop : Stop) (t : TextSt) (ht : t.sou.file = f) :
    (psText e p stop t).Holds f (In f) := by
  unfold psText
  refine holds_bind (psTextLeg_file h hl ht) (fun a hx => ?_)
  obtain ⟨s, leg⟩ := a
  replace hx : s.file = f := hx
  cases leg with
  | some xs => exact h.text f _ _ hx
  | none =>
    dsimp only
    split
    · next hs => exact holds_pure ((stopAt_file hs).trans hx)
    · refine holds_bind (Q := fun t' => t'.sou.file = f) ?_ (fun t' ht => h.text f _ _ ht)
      intro st a st' h0 _ hm
      cases hp : plainStep { t with sou := s } with
      | none => rw [hp] at hm; cases hm
      | some t' => rw [hp] at hm; cases hm; exact ⟨h0, fun _ => id, (plainStep_file hp).trans hx⟩

theorem psRun_file (h : p.Files) (s : Src) (hd : List Node) (hs : s.file = f) : (psRun p s hd).Holds f (fun _ => True) := by
  unfold psRun
  split
  · exact holds_err
  · exact holds_bind (h.text f _ _ hs) (fun a ha => holds_pure trivial)

theorem headerLoop_file (word : Char → Bool) : ∀ n (s : Src) hd r, headerLoop word n s hd = some r → r.1.file = s.file := by
  intro n
  induction n with
  | zero => intro s hd r h; cases h
  | succ n ih =>
    intro s hd r h
    unfold headerLoop at h
    dsimp only at h
    split at h
    · split at h
      · cases h; simp
      · split at h
        · cases h; simp
        · cases h; simp
      · split at h
        · next he => rw [ih _ _ _ h, file_eol he]; simp
        · next he => rw [ih _ _ _ h, file_eol he]; simp
    · cases h

theorem psHeader_file {word : Char → Bool} {s : Src} {r} (h : psHeader word s = some r) : r.1.file = s.file := by
  unfold psHeader at h
  split at h
  · next he => rw [headerLoop_file _ _ _ _ _ h, file_eol he]; simp
  · next he => rw [headerLoop_file _ _ _ _ _ h, file_eol he]; simp

theorem psParse_file (h : p.Files) (key : Str) (st : PSt) (a : List Node) (st' : PSt) (h0 : Sound st.world)
    (hm : psParse e p key st = .ok (a, st')) :
    Sound st'.world ∧ ∀ k, Registered st.world k → Registered st'.world k := by
  have run : ∀ (st1 : PSt) (s : Src) hd, st1.world = st.world → Registered st.world key → s.file = some key →
      psRun p s hd st1 = .ok (a, st') → Sound st'.world ∧ ∀ k, Registered st.world k → Registered st'.world k := by
    intro st1 s hd hw hk hs hm
    have := psRun_file h s hd hs st1 a st' (by rw [hw]; exact h0) ⟨key, rfl, by rw [hw]; exact hk⟩ hm
    rw [hw] at this
    exact ⟨this.1, this.2.1⟩
  unfold psParse at hm
  change (match st.world.find key with
    | none => PM.err
    | some (_, []) => pure []
    | some (_, txt) =>
      let s : Src := { txt := txt, loc := some ⟨key, 0⟩ }
      if e.inputFile = key && e.outputPython then
        match psHeader e.word s with
        | some (rest, header, shrink) => do
          PM.set { st with shrink := shrink }
          psRun p rest header
        | none => psRun p s []
      else psRun p s [] : PM (List Node)) st = _ at hm
  have hk : ∀ x, st.world.find key = some x → Registered st.world key := fun x hx => ⟨_, _, find_mem hx⟩
  rcases hf : st.world.find key with _ | ⟨d, _ | ⟨c, t⟩⟩
  · rw [hf] at hm; cases hm
  · rw [hf] at hm; cases hm; exact ⟨h0, fun _ => id⟩
  · rw [hf] at hm
    have hk := hk _ hf
    dsimp only at hm
    split at hm
    · cases hd : psHeader e.word { txt := c :: t, loc := some ⟨key, 0⟩ } with
      | some r => rw [hd] at hm; exact run { st with shrink := r.2.2 } r.1 r.2.1 rfl hk (psHeader_file hd) hm
      | none => rw [hd] at hm; exact run st _ _ rfl hk rfl hm
    · exact run st _ _ rfl hk rfl hm

theorem Parsers.Files.step (h : p.Files) (hl : ∀ k, isDigits k = true → e.readLib k = none) : (p.step e).Files where
  form _ _ := psForm_file h
  args _ := psArgs_file h
  items _ := psItems_file h
  bounds _ := psBounds_file h
  text _ := psText_file h hl
  parse := psParse_file h

/-- Parsing keeps the tables in order. -/
theorem P_files (hl : ∀ k, isDigits k = true → e.readLib k = none) : ∀ n, (P e n).Files
  | 0 => ⟨fun _ _ _ => holds_timeout, fun _ _ _ _ _ _ => holds_timeout, fun _ _ _ _ => holds_timeout,
      fun _ _ _ _ _ => holds_timeout, fun _ _ _ _ => holds_timeout, fun _ _ _ _ _ hm => by cases hm⟩
  | n + 1 => (P_files hl n).step hl

end Yupp
