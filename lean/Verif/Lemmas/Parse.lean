import Verif.Lemmas.Src
import Verif.Spec.Leaves
import Verif.Spec.Imports
/-!
# What every rule of the grammar does with the text and with the tables

`Good e libs n p` says of a parser `p`: each rule leaves a rest of its text, a match takes at least one
character, the tables only grow, the fragments it keeps are found in the registered texts, and it does
not give up if `n` exceeds the length of the text (plus that of the libraries still to be read).
-/

namespace Yupp

namespace PM

/-- `m`, started in `st`, establishes `Q` if it returns, and does not give up unless `T`. -/
def Sat (T : Prop) (m : PM α) (st : PSt) (Q : α → PSt → Prop) : Prop :=
  match m st with
  | .ok (a, st') => Q a st'
  | .err => True
  | .timeout => T

theorem sat_pure {T : Prop} {a : α} {st : PSt} {Q : α → PSt → Prop} (h : Q a st) :
    Sat T (Pure.pure a : PM α) st Q := h

theorem sat_pure' {T : Prop} {a : α} {st : PSt} {Q : α → PSt → Prop} (h : Q a st) :
    Sat T (PM.pure a : PM α) st Q := h

theorem sat_err {T : Prop} {st : PSt} {Q : α → PSt → Prop} : Sat T (PM.err : PM α) st Q := trivial

theorem sat_timeout {T : Prop} {st : PSt} {Q : α → PSt → Prop} (h : T) :
    Sat T (PM.timeout : PM α) st Q := h

theorem sat_mono {T T' : Prop} {m : PM α} {st : PSt} {Q Q' : α → PSt → Prop} (h : Sat T m st Q)
    (hT : T → T') (hQ : ∀ a st', Q a st' → Q' a st') : Sat T' m st Q' := by
  unfold Sat at *
  split <;> simp_all

theorem sat_bind {T : Prop} {m : PM α} {f : α → PM β} {st : PSt} {Q : β → PSt → Prop}
    (h : Sat T m st (fun a st' => Sat T (f a) st' Q)) : Sat T (m >>= f) st Q := by
  change Sat T (PM.bind m f) st Q
  unfold Sat PM.bind at *
  cases hm : m st with
  | ok r => rw [hm] at h; exact h
  | err => trivial
  | timeout => rw [hm] at h; exact h

theorem sat_get {T : Prop} {st : PSt} {Q : PSt → PSt → Prop} (h : Q st st) : Sat T PM.get st Q := h

theorem sat_set {T : Prop} {st st' : PSt} {Q : Unit → PSt → Prop} (h : Q () st') :
    Sat T (PM.set st') st Q := h

theorem sat_bind' {T T' : Prop} {m : PM α} {f : α → PM β} {st : PSt} {Q : β → PSt → Prop}
    {R : α → PSt → Prop} (h : Sat T' m st R) (hT : T' → T)
    (hf : ∀ a st', R a st' → Sat T (f a) st' Q) : Sat T (m >>= f) st Q :=
  sat_bind (sat_mono h hT hf)

end PM

open PM (Sat sat_pure sat_pure' sat_err sat_timeout sat_mono sat_bind sat_bind' sat_get sat_set)

/-! ## Tables -/

/-- The digits of a number determine it. -/
theorem natStr_inj {m n : Nat} (h : natStr m = natStr n) : m = n := by
  have h' : Nat.toDigits 10 m = Nat.toDigits 10 n := by
    have e : ∀ k : Nat, natStr k = Nat.toDigits 10 k := fun k => Nat.toList_repr
    rw [← e, ← e, h]
  rw [← Nat.ofDigitChars_toDigits (b := 10) (n := m) (by omega) (by omega), h',
    Nat.ofDigitChars_toDigits (by omega) (by omega)]

theorem natStr_ne_null (m : Nat) : natStr m ≠ lit "<null>" := by
  intro h
  have e : natStr m = Nat.toDigits 10 m := Nat.toList_repr
  have h2 : '<' ∈ Nat.toDigits 10 m := by rw [← e, h]; decide
  have := Nat.isDigit_of_mem_toDigits (by omega) (by omega) h2
  revert this; decide

theorem find_cons (w : World) (k : Str) (d : Decl) (t : Str) (f : Str) :
    World.find { w with source := (k, d, t) :: w.source } f
      = if k = f then some (d, t) else w.find f := by
  unfold World.find
  by_cases h : k = f <;> simp [h]

theorem find_mem {w : World} {f : Str} {d : Decl} {t : Str} (h : w.find f = some (d, t)) :
    (f, d, t) ∈ w.source := by
  unfold World.find at h
  obtain ⟨⟨g, d', t'⟩, h1, h2⟩ := Option.map_eq_some_iff.mp h
  have := List.find?_some h1
  simp at this h2
  obtain ⟨rfl, rfl⟩ := h2
  subst this
  exact List.mem_of_find?_eq_some h1

theorem mem_find {w : World} {f : Str} {d : Decl} {t : Str} (h : (f, d, t) ∈ w.source) :
    (w.find f).isSome := by
  unfold World.find
  rw [Option.isSome_map, List.find?_isSome]
  exact ⟨_, h, by simp⟩

/-- Every library read is registered, and `($import name)` reads nothing twice. -/
structure ReadsOK (st : PSt) : Prop where
  registered : ∀ r ∈ st.reads, (st.world.find r.1).isSome
  once : ((st.reads.filter (·.2)).map (·.1)).Nodup

/-- The tables only grow. -/
structure Grow (e : PEnv) (st st' : PSt) : Prop where
  source : ∃ pre, st'.world.source = pre ++ st.world.source
  null : e.readLib (lit "<null>") = none → st'.world.find (lit "<null>") = st.world.find (lit "<null>")
  reads : ReadsOK st → ReadsOK st'
  agree : Agree e st → Agree e st'
  shrink : st'.shrink = st.shrink ∨ ∃ d txt r hd, (e.inputFile, d, txt) ∈ st'.world.source ∧
    psHeader e.word { txt := txt, loc := some ⟨e.inputFile, 0⟩ } = some (r, hd, st'.shrink)
  incl : ∃ post, st'.world.inclusion = st.world.inclusion ++ post

theorem Grow.refl (e : PEnv) (st : PSt) : Grow e st st :=
  ⟨⟨[], rfl⟩, fun _ => rfl, id, id, .inl rfl, ⟨[], by simp⟩⟩

theorem Grow.trans {e : PEnv} {a b c : PSt} (h1 : Grow e a b) (h2 : Grow e b c) : Grow e a c := by
  obtain ⟨p, hp⟩ := h1.source
  obtain ⟨q, hq⟩ := h2.source
  refine ⟨⟨q ++ p, by rw [hq, hp, List.append_assoc]⟩, fun h => (h2.null h).trans (h1.null h),
    h2.reads ∘ h1.reads, h2.agree ∘ h1.agree, ?_, ?_⟩
  rotate_left
  · obtain ⟨p, hp⟩ := h1.incl
    obtain ⟨q, hq⟩ := h2.incl
    exact ⟨p ++ q, by rw [hq, hp, List.append_assoc]⟩
  rcases h2.shrink with h | h
  · rcases h1.shrink with h' | ⟨d, txt, r, hd, hm, hh⟩
    · exact .inl (h.trans h')
    · exact .inr ⟨d, txt, r, hd, by rw [hq]; exact List.mem_append_right _ hm, by rw [h]; exact hh⟩
  · exact .inr h

theorem Grow.mem {e : PEnv} {st st' : PSt} (h : Grow e st st') {x} (hx : x ∈ st.world.source) :
    x ∈ st'.world.source := by
  obtain ⟨p, hp⟩ := h.source
  rw [hp]; exact List.mem_append_right _ hx

theorem Grow.found {e : PEnv} {st st' : PSt} (h : Grow e st st') {f : Str}
    (hx : (st.world.find f).isSome) : (st'.world.find f).isSome := by
  obtain ⟨p, hp⟩ := h.source
  unfold World.find at *
  rw [Option.isSome_map] at *
  rw [hp, List.find?_append]
  cases List.find? (fun x => x.1 == f) p <;> simp [hx]

/-! ## Fragments -/

/-- The text `s` is the rest of a registered text at its location. -/
def SouOK (st : PSt) (s : Src) : Prop :=
  ∃ file d txt, ∃ k : Nat, s.loc = some ⟨file, k⟩ ∧ (file, d, txt) ∈ st.world.source ∧
    k ≤ txt.length ∧ s.txt = txt.drop k

theorem SouOK.mono {e : PEnv} {st st' : PSt} {s s' : Src} (h : SouOK st s) (hg : Grow e st st')
    (hs : s'.Suf s) : SouOK st' s' := by
  obtain ⟨file, d, txt, k, h1, h2, h3, h4⟩ := h
  obtain ⟨j, hj, rfl⟩ := hs
  refine ⟨file, d, txt, k + j, ?_, hg.mem h2, ?_, ?_⟩
  · simp [Src.drop, h1]
  · rw [h4] at hj; simp at hj; omega
  · simp [h4, List.drop_drop]

theorem SouOK.take {st : PSt} {s : Src} (h : SouOK st s) (n : Nat) :
    (s.take n).Found st.world.source := by
  obtain ⟨file, d, txt, k, h1, h2, h3, h4⟩ := h
  refine ⟨?_, fun hl => by simp [Src.take, h1] at hl⟩
  intro l hl
  simp only [Src.take, h1, Option.some.injEq] at hl
  subst hl
  refine ⟨d, txt, h2, k, rfl, ?_, ?_⟩
  · simp [h4]; omega
  · simp [h4]

theorem Src.Found.mono {e : PEnv} {st st' : PSt} {s : Src} (h : s.Found st.world.source)
    (hg : Grow e st st') : s.Found st'.world.source := by
  refine ⟨?_, h.2⟩
  intro l hl
  obtain ⟨d, txt, h1, h2⟩ := h.1 l hl
  exact ⟨d, txt, hg.mem h1, h2⟩

theorem Src.found_none (src : List (Str × Decl × Str)) {t : Str} (h : Unplaced t) : Src.Found src { txt := t } :=
  ⟨fun l hl => (by cases hl), fun _ => h⟩

/-- If the text was registered, the fragments `l` are found. -/
def Lv (st : PSt) (s : Src) (st' : PSt) (l : List Src) : Prop :=
  SouOK st s → ∀ y ∈ l, y.Found st'.world.source

theorem Lv.nil {st st' : PSt} {s : Src} : Lv st s st' [] := fun _ _ h => by cases h

theorem Lv.app {st st' : PSt} {s : Src} {a b : List Src} (h1 : Lv st s st' a) (h2 : Lv st s st' b) :
    Lv st s st' (a ++ b) := by
  intro h y hy
  rcases List.mem_append.mp hy with hy | hy
  · exact h1 h y hy
  · exact h2 h y hy

theorem Lv.cons {st st' : PSt} {s a : Src} {b : List Src} (h1 : Lv st s st' [a]) (h2 : Lv st s st' b) :
    Lv st s st' (a :: b) := h1.app h2

theorem Lv.later {e : PEnv} {st st' st'' : PSt} {s : Src} {l : List Src} (h : Lv st s st' l)
    (hg : Grow e st' st'') : Lv st s st'' l := fun hs y hy => (h hs y hy).mono hg

theorem Lv.shift {e : PEnv} {st st1 st2 : PSt} {s s1 : Src} {l : List Src} (h : Lv st1 s1 st2 l)
    (hg : Grow e st st1) (hs : s1.Suf s) : Lv st s st2 l := fun h0 => h (h0.mono hg hs)

theorem Lv.take {st : PSt} {s : Src} {n : Nat} : Lv st s st [s.take n] := by
  intro h y hy
  cases List.mem_singleton.mp hy
  exact h.take n

theorem Lv.noloc {st st' : PSt} {s : Src} {t : Str} (ht : Unplaced t) : Lv st s st' [{ txt := t }] := by
  intro h y hy
  cases List.mem_singleton.mp hy
  exact Src.found_none _ ht

theorem srcsList_append (a b : List Node) : srcsList (a ++ b) = srcsList a ++ srcsList b := by
  induction a with
  | nil => simp [srcsList]
  | cons x xs ih => simp [srcsList, ih]

theorem srcsNamed_append (a b : List (Src × Node)) : srcsNamed (a ++ b) = srcsNamed a ++ srcsNamed b := by
  induction a with
  | nil => simp [srcsNamed]
  | cons x xs ih => simp [srcsNamed, ih]

theorem srcsBound_append (a b : List Bound) : srcsBound (a ++ b) = srcsBound a ++ srcsBound b := by
  induction a with
  | nil => simp [srcsBound]
  | cons x xs ih =>
    obtain ⟨l, a, d⟩ := x
    cases d <;> simp [srcsBound, ih]

theorem srcsList_one (x : Node) : srcsList [x] = x.srcs := by simp [srcsList]

/-! ## Enough nesting -/

/-- What a library costs. -/
def libCost (e : PEnv) (l : Str) : Nat :=
  match e.readLib l with
  | some (_, t) => 2 * (unifyEol t).length + 3
  | none => 0

/-- The cost of the libraries not read yet. -/
def unread (e : PEnv) (libs : List Str) (st : PSt) : Nat :=
  ((libs.filter (fun l => (st.world.find l).isNone)).map (libCost e)).sum

theorem unread_mono {e : PEnv} {libs : List Str} {st st' : PSt} (h : Grow e st st') :
    unread e libs st' ≤ unread e libs st := by
  unfold unread
  induction libs with
  | nil => simp
  | cons l ls ih =>
    cases h1 : (st.world.find l).isNone
    · have h2 : (st'.world.find l).isNone = false := by
        have h3 : (st.world.find l).isSome := by
          cases hh : st.world.find l <;> simp_all
        have := h.found h3
        cases hh : st'.world.find l <;> simp_all
      simp only [List.filter_cons, h1, h2]
      exact ih
    · cases h2 : (st'.world.find l).isNone
      · simp only [List.filter_cons, h1, h2, if_true, List.map_cons, List.sum_cons]
        simp only [Bool.false_eq_true, if_false]
        omega
      · simp only [List.filter_cons, h1, h2, if_true, List.map_cons, List.sum_cons]
        omega

theorem unread_import {e : PEnv} {libs : List Str} {st st' : PSt} (h : Grow e st st') {l : Str}
    (hl : l ∈ libs) (h0 : st.world.find l = none) (h1 : (st'.world.find l).isSome) :
    unread e libs st' + libCost e l ≤ unread e libs st := by
  induction libs with
  | nil => cases hl
  | cons m ls ih =>
    by_cases hm : m = l
    · subst hm
      have := unread_mono (libs := ls) h
      have h2 : (st'.world.find m).isNone = false := by
        cases hh : st'.world.find m <;> simp_all
      unfold unread at this ⊢
      simp only [List.filter_cons, h0, h2, if_true, List.map_cons, List.sum_cons, Option.isNone_none]
      simp only [Bool.false_eq_true, if_false]
      omega
    · have h3 : l ∈ ls := by
        rcases List.mem_cons.mp hl with h | h
        · exact absurd h.symm hm
        · exact h
      have h4 := ih h3
      have h5 := unread_mono (libs := [m]) h
      unfold unread at h4 h5 ⊢
      cases ha : (st.world.find m).isNone <;> cases hb : (st'.world.find m).isNone <;>
        simp [ha, hb] at h5 ⊢ <;> omega

theorem ImportsOnly.drop {libs : List Str} {t : Str} (h : ImportsOnly libs t) (n : Nat) :
    ImportsOnly libs (t.drop n) := by
  intro k hk
  rw [List.drop_drop] at hk ⊢
  exact h (n + k) hk

/-- The assumptions under which the parser does not give up. -/
structure Tame (e : PEnv) (libs : List Str) (st : PSt) : Prop where
  texts : ∀ l ∈ libs, ∀ p t, e.readLib l = some (p, t) → ImportsOnly libs (unifyEol t)
  null : libs ≠ [] → e.readLib (lit "<null>") = none
  empty : libs ≠ [] → ∀ d t, st.world.find (lit "<null>") = some (d, t) → t = []

theorem Tame.back {e : PEnv} {libs : List Str} {st st' : PSt} (h : Tame e libs st) (hg : Grow e st st') :
    Tame e libs st' :=
  ⟨h.texts, h.null, fun hl d t ht => h.empty hl d t (by rw [← hg.null (h.null hl)]; exact ht)⟩

/-- With at most `n` levels the parser may give up on `s` (`extra` levels more are needed). -/
def Bad (e : PEnv) (libs : List Str) (n extra : Nat) (s : Src) (st : PSt) : Prop :=
  ImportsOnly libs s.txt → Tame e libs st → n ≤ 2 * s.txt.length + extra + unread e libs st

theorem Src.Suf.importsOnly {libs : List Str} {s s' : Src} (h : s'.Suf s) (hi : ImportsOnly libs s.txt) :
    ImportsOnly libs s'.txt := by
  obtain ⟨k, _, rfl⟩ := h
  exact hi.drop k

theorem Bad.mono {e : PEnv} {libs : List Str} {n x : Nat} {s s' : Src} {st st' : PSt}
    (h : Bad e libs n x s' st') (hs : s'.Suf s) (hg : Grow e st st') : Bad e libs n x s st := by
  intro hi ht
  have := h (hs.importsOnly hi) (ht.back hg)
  have := hs.len
  have := unread_mono (libs := libs) hg
  omega

/-- One level less for a shorter text. -/
theorem Bad.step {e : PEnv} {libs : List Str} {n x y : Nat} {s s' : Src} {st st' : PSt}
    (h : Bad e libs n x s' st') (hs : s'.SSuf s) (hg : Grow e st st') (hx : x ≤ y + 1) :
    Bad e libs (n + 1) y s st := by
  intro hi ht
  have := h (hs.suf.importsOnly hi) (ht.back hg)
  have := hs.len
  have := unread_mono (libs := libs) hg
  omega

/-- One level less for the same text, at the price of the extra level. -/
theorem Bad.same {e : PEnv} {libs : List Str} {n : Nat} {s s' : Src} {st st' : PSt}
    (h : Bad e libs n 0 s' st') (hs : s'.Suf s) (hg : Grow e st st') : Bad e libs (n + 1) 1 s st := by
  intro hi ht
  have := h (hs.importsOnly hi) (ht.back hg)
  have := hs.len
  have := unread_mono (libs := libs) hg
  omega

/-! ## The contract of the rules -/

/-- A rule that may fail to match. -/
def RuleQ (e : PEnv) (lv : α → List Src) (s : Src) (st : PSt) (r : Src × Option α) (st' : PSt) : Prop :=
  Grow e st st' ∧
    match r.2 with
    | none => r.1 = s
    | some x => r.1.SSuf s ∧ Lv st s st' (lv x)

/-- The generator works on the text it was started on. -/
def GenOK (st : PSt) (t : TextSt) : Prop :=
  ∀ g, t.gen = some g → SouOK st g.start ∧ t.sou = g.start.drop g.i

/-- The text registered under a name. -/
def textOf (st : PSt) (key : Str) : Str :=
  match st.world.find key with
  | some (_, t) => t
  | none => []

structure Good (e : PEnv) (libs : List Str) (n : Nat) (p : Parsers) : Prop where
  form : ∀ s st, Sat (Bad e libs n 0 s st) (p.form s) st (RuleQ e Node.srcs s st)
  args : ∀ fn s args named st, Sat (Bad e libs n 1 s st) (p.args fn s args named) st (fun r st' =>
    Grow e st st' ∧ r.1.Suf s ∧
      (Lv st s st (srcsList args ++ srcsNamed named) → Lv st s st' (srcsList r.2.1 ++ srcsNamed r.2.2)))
  items : ∀ s lst st, Sat (Bad e libs n 1 s st) (p.items s lst) st (fun r st' =>
    Grow e st st' ∧ r.1.SSuf s ∧ (Lv st s st (srcsList lst) → Lv st s st' (srcsList r.2)))
  bounds : ∀ s bound late st, Sat (Bad e libs n 0 s st) (p.bounds s bound late) st (fun r st' =>
    Grow e st st' ∧ r.1.Suf s ∧ (Lv st s st (srcsBound bound ++ late) → Lv st s st' (srcsBound r.2)))
  text : ∀ stop t st, Sat (Bad e libs n 0 t.sou st) (p.text stop t) st (fun r st' =>
    Grow e st st' ∧ r.1.Suf t.sou ∧
      (GenOK st t → Lv st t.sou st (srcsList t.ast) → Lv st t.sou st' (srcsList r.2)))
  parse : ∀ key st, Sat (Bad e libs n 1 { txt := textOf st key } st) (p.parse key) st (fun ast st' =>
    Grow e st st' ∧ ∀ y ∈ srcsList ast, y.Found st'.world.source)

theorem Good.bot (e : PEnv) (libs : List Str) : Good e libs 0 Parsers.bot where
  form _ _ := sat_timeout (fun _ _ => Nat.zero_le _)
  args _ _ _ _ _ := sat_timeout (fun _ _ => Nat.zero_le _)
  items _ _ _ := sat_timeout (fun _ _ => Nat.zero_le _)
  bounds _ _ _ _ := sat_timeout (fun _ _ => Nat.zero_le _)
  text _ _ _ := sat_timeout (fun _ _ => Nat.zero_le _)
  parse _ _ := sat_timeout (fun _ _ => Nat.zero_le _)

/-! ## Rules that call no other rule -/

section
variable {e : PEnv} {libs : List Str}

theorem rule_noMatch {lv : α → List Src} {T : Prop} (s : Src) (st : PSt) :
    Sat T (noMatch s) st (RuleQ e lv s st) := sat_pure ⟨Grow.refl _ _, rfl⟩

theorem rule_some {lv : α → List Src} {T : Prop} {s r : Src} {st : PSt} {x : α} (h : r.SSuf s)
    (hl : Lv st s st (lv x)) : Sat T (pure (r, some x) : PM (Src × Option α)) st (RuleQ e lv s st) :=
  sat_pure ⟨Grow.refl _ _, h, hl⟩

theorem rule_orElse {lv : α → List Src} {T : Prop} {s : Src} {st : PSt} {r : PM (Src × Option α)}
    {next : Src → PM (Src × Option α)} (h1 : Sat T r st (RuleQ e lv s st))
    (h2 : ∀ st', Grow e st st' → Sat T (next s) st' (RuleQ e lv s st')) :
    Sat T (orElse r next) st (RuleQ e lv s st) := by
  refine sat_bind (sat_mono h1 id ?_)
  rintro ⟨s1, leg⟩ st1 ⟨hg, hq⟩
  cases leg with
  | some x => exact sat_pure ⟨hg, hq⟩
  | none =>
    cases (hq : s1 = s)
    refine sat_mono (h2 st1 hg) id ?_
    rintro ⟨s2, leg⟩ st2 ⟨hg2, hq2⟩
    refine ⟨hg.trans hg2, ?_⟩
    cases leg with
    | some x => exact ⟨hq2.1, hq2.2.shift hg (Src.Suf.refl _)⟩
    | none => exact hq2

theorem rule_closing {T : Prop} {tag : Str} {s : Src} {st : PSt} {Q : Src → PSt → Prop}
    (h : ∀ r, r.SSuf s → Q r st) : Sat T (closing tag s) st Q := by
  unfold closing
  have hs : (if s.starts tag then psGap (s.drop tag.length) else s).Suf s := by
    split
    · rename_i hh
      exact (psGap_suf _).trans (Src.suf_drop (Src.starts_len hh))
    · exact Src.Suf.refl _
  revert hs
  generalize (if s.starts tag then psGap (s.drop tag.length) else s) = s'
  intro hs
  dsimp only
  split
  · rename_i hh
    exact sat_pure (h _ (Src.SSuf.suf_trans (Src.starts_ssuf hh (by decide)) hs))
  · exact sat_err

theorem rule_body {T : Prop} {s s0 : Src} {st : PSt} {n : Nat} (h : bodyLen s.txt = some n) {x : Node}
    (hs : s.SSuf s0) (hl : Lv st s0 st x.srcs) :
    Sat T (pure (s.drop (n + 1), some x) : PM (Src × Option Node)) st (RuleQ e Node.srcs s0 st) :=
  rule_some (Src.SSuf.suf_trans (Src.ssuf_drop (by omega) (bodyLen_lt h)) hs.suf) hl

theorem quoteMark_le (s : Src) (h : (if s.starts kBquote then kBquote.length
      else if s.starts kQuote then kQuote.length else 0) ≠ 0) :
    (s.drop (if s.starts kBquote then kBquote.length
      else if s.starts kQuote then kQuote.length else 0)).SSuf s := by
  split at h
  · rename_i hh
    rw [if_pos hh]
    exact Src.starts_ssuf hh (by decide)
  · rename_i h1
    rw [if_neg h1]
    split at h
    · rename_i hh
      rw [if_pos hh]
      exact Src.starts_ssuf hh (by decide)
    · exact absurd rfl h

theorem rule_quoted {T : Prop} (s : Src) (st : PSt) :
    Sat T (psQuoted s) st (RuleQ e Node.srcs s st) := by
  unfold psQuoted
  have hm := quoteMark_le s
  revert hm
  generalize (if s.starts kBquote then kBquote.length
      else if s.starts kQuote then kQuote.length else 0) = pos
  intro hm
  dsimp only
  split
  · exact rule_noMatch _ _
  · rename_i hp
    split
    · rename_i hb
      exact rule_body hb (hm hp) (by simp only [Node.srcs]; exact Lv.noloc .empty)
    · rename_i n _ hb
      exact rule_body hb (hm hp) (by
        simp only [Node.srcs]; exact Lv.take.shift (Grow.refl e _) (hm hp).suf)
    · exact sat_err

theorem cStrLen_unplaced {s : Str} {n : Nat} (h : cStrLen s = some n) : Unplaced (s.take n) := by
  unfold cStrLen at h
  split at h
  · obtain ⟨m, -, rfl⟩ := Option.map_eq_some_iff.mp h
    exact .literal (.inl rfl)
  · obtain ⟨m, -, rfl⟩ := Option.map_eq_some_iff.mp h
    exact .literal (.inr rfl)
  · cases h

theorem rule_quote {T : Prop} (s : Src) (st : PSt) :
    Sat T (psQuote e s) st (RuleQ e Node.srcs s st) := by
  unfold psQuote
  split
  · split
    · rename_i n hn
      have := pyStrLen_le hn
      exact rule_some (Src.ssuf_drop this.1 this.2) (by simp only [Node.srcs]; exact Lv.take)
    · exact sat_err
    · exact rule_quoted s st
  · split
    · rename_i n hn
      have := cStrLen_le hn
      exact rule_some (Src.ssuf_drop this.1 this.2) (by simp only [Node.srcs]; exact Lv.noloc (cStrLen_unplaced hn))
    · exact rule_quoted s st

theorem rule_number {T : Prop} (s : Src) (st : PSt) :
    Sat T (psNumber e s) st (RuleQ e Node.srcs s st) := by
  unfold psNumber
  dsimp only
  split
  · rename_i h
    split
    · exact rule_some (Src.ssuf_drop (Nat.pos_of_ne_zero h) (floatLen_le _)) (by simp only [Node.srcs]; exact Lv.nil)
    · exact sat_err
  · split
    · rename_i h
      split
      · exact rule_some (Src.ssuf_drop (Nat.pos_of_ne_zero h) (intLen_le _)) (by simp only [Node.srcs]; exact Lv.nil)
      · exact sat_err
    · exact rule_noMatch _ _

theorem rule_value {T : Prop} (s : Src) (st : PSt) :
    Sat T (psValue e s) st (RuleQ e Node.srcs s st) :=
  rule_orElse (rule_quote s st) (fun st' _ => rule_number s st')

theorem rule_comment {T : Prop} (s : Src) (st : PSt) :
    Sat T (psComment s) st (RuleQ e Node.srcs s st) := by
  unfold psComment
  split
  · rename_i h
    dsimp only
    split
    · rename_i n hn
      exact rule_body hn (Src.starts_ssuf h (by decide)) (by simp only [Node.srcs]; exact Lv.nil)
    · exact sat_err
  · exact rule_noMatch _ _

theorem rule_remark {T : Prop} (s : Src) (st : PSt) :
    Sat T (psRemark e s) st (RuleQ e Node.srcs s st) := by
  have key : ∀ r : Scan, (∀ n, r = .yes n → 0 < n ∧ n ≤ s.txt.length) →
      Sat T (match r with
        | .yes n => pure (s.drop n, some (.remark (s.take n)))
        | .raises => PM.err
        | .no => noMatch s) st (RuleQ e Node.srcs s st) := by
    intro r hr
    cases r with
    | yes n =>
      have := hr n rfl
      exact rule_some (Src.ssuf_drop this.1 this.2) (by simp only [Node.srcs]; exact Lv.take)
    | raises => exact sat_err
    | no => exact rule_noMatch _ _
  refine key _ ?_
  intro n hn
  split at hn
  · cases hn
  · exact remarkCLen_le hn
  · exact remarkPyLen_le hn

theorem rule_regions (e : PEnv) {T : Prop} {st : PSt} : ∀ (n : Nat) (s0 s : Src) (reg : List Src)
    (a : Src), s.txt.length < n → s.SSuf s0 → Lv st s0 st (reg ++ [a]) →
    Sat T (regions n s reg a) st (fun r st' => st' = st ∧ r.1.SSuf s0 ∧ Lv st s0 st (r.2.1 ++ [r.2.2]))
  | 0, _, _, _, _, h, _, _ => by omega
  | n + 1, s0, s, reg, a, h, hs, hl => by
    unfold regions
    split
    · rename_i h2
      have h2' : (s.drop 2).Suf s := Src.suf_drop (Src.starts_len h2)
      split
      · rename_i s' b hb
        obtain ⟨h3, k, _, _, rfl, _⟩ := psAtom_some hb
        have h4 := h3.suf_trans h2'
        refine rule_regions e n s0 s' _ _ ?_ (h4.suf_trans hs.suf) ?_
        · have := h4.len; omega
        · exact hl.app (Lv.take.shift (Grow.refl e _) (h2'.trans hs.suf))
      · exact sat_err
    · exact sat_pure ⟨rfl, hs, hl⟩

/-- The fragments of a variable. -/
def varSrcs (v : Bool × List Src × Src) : List Src := v.2.1 ++ [v.2.2]

theorem rule_var {T : Prop} (s : Src) (st : PSt) :
    Sat T (psVar s) st (RuleQ e varSrcs s st) := by
  unfold psVar
  split
  · rename_i h
    have hs : (s.drop 1).SSuf s := Src.starts_ssuf h (by decide)
    split
    · rename_i r a ha
      obtain ⟨h3, k, _, _, rfl, _⟩ := psAtom_some ha
      exact rule_some (h3.suf_trans hs.suf) (Lv.take.shift (Grow.refl e _) hs.suf)
    · exact sat_err
  · split
    · rename_i r ha
      cases psAtom_none ha
      exact rule_noMatch _ _
    · rename_i r a ha
      obtain ⟨h3, k, _, _, rfl, _⟩ := psAtom_some ha
      refine sat_bind (sat_mono (rule_regions e _ s r [] (s.take k) (Nat.lt_succ_self _) h3 Lv.take)
        id ?_)
      rintro ⟨s2, reg, a2⟩ st2 ⟨rfl, h, hl⟩
      exact rule_some h hl

theorem rule_atoms1 (e : PEnv) {T : Prop} {st : PSt} : ∀ (n : Nat) (s0 s : Src) (l : List Src),
    s.txt.length < n → s.Suf s0 → Lv st s0 st l →
    Sat T (atoms1 n s l) st (fun r st' => st' = st ∧ r.1.SSuf s0 ∧ Lv st s0 st r.2)
  | 0, _, _, _, h, _, _ => by omega
  | n + 1, s0, s, l, h, hs, hl => by
    unfold atoms1
    split
    · exact sat_err
    · rename_i s' a ha
      obtain ⟨h3, k, _, _, rfl, _⟩ := psAtom_some ha
      have h4 : (psGap s').SSuf s := Src.SSuf.trans_suf (psGap_suf _) h3
      have hl' : Lv st s0 st (l ++ [s.take k]) := hl.app (Lv.take.shift (Grow.refl e _) hs)
      dsimp only
      split
      · rename_i hp
        exact sat_pure ⟨rfl, ((Src.starts_ssuf hp (by decide)).trans h4).suf_trans hs, hl'⟩
      · refine rule_atoms1 e n s0 _ _ ?_ (h4.suf.trans hs) hl'
        have := h4.len; omega

theorem rule_atoms0 (e : PEnv) {T : Prop} {st : PSt} : ∀ (n : Nat) (s0 s : Src) (l : List Src),
    s.txt.length < n → s.Suf s0 → Lv st s0 st l →
    Sat T (atoms0 n s l) st (fun r st' => st' = st ∧ r.1.SSuf s0 ∧ Lv st s0 st r.2)
  | 0, _, _, _, h, _, _ => by omega
  | n + 1, s0, s, l, h, hs, hl => by
    unfold atoms0
    split
    · rename_i hp
      exact sat_pure ⟨rfl, (Src.starts_ssuf hp (by decide)).suf_trans hs, hl⟩
    · split
      · exact sat_err
      · rename_i s' a ha
        obtain ⟨h3, k, _, _, rfl, _⟩ := psAtom_some ha
        have h4 : (psGap s').SSuf s := Src.SSuf.trans_suf (psGap_suf _) h3
        refine rule_atoms0 e n s0 _ _ ?_ (h4.suf.trans hs)
          (hl.app (Lv.take.shift (Grow.refl e _) hs))
        have := h4.len; omega

theorem rule_macro {T : Prop} (s : Src) (st : PSt) :
    Sat T (psMacro s) st (RuleQ e Node.srcs s st) := by
  unfold psMacro
  split
  · rename_i h
    have h1 : (psGap (s.drop kMacro.length)).SSuf s :=
      Src.SSuf.trans_suf (psGap_suf _) (Src.starts_ssuf h (by decide))
    split
    · exact sat_err
    · rename_i s2 name ha
      obtain ⟨h3, k, _, _, rfl, _⟩ := psAtom_some ha
      dsimp only
      split
      · rename_i hp
        have h5 : ((psGap s2).drop 1).SSuf s :=
          (Src.starts_ssuf hp (by decide)).trans ((Src.SSuf.trans_suf (psGap_suf _) h3).trans h1)
        refine sat_bind (sat_mono (rule_atoms0 e _ s _ [] (Nat.lt_succ_self _)
          ((psGap_suf _).trans h5.suf) Lv.nil) id ?_)
        rintro ⟨s6, pars⟩ st2 ⟨rfl, h6, hl⟩
        dsimp only
        split
        · rename_i n hn
          refine rule_body hn h6 ?_
          simp only [Node.srcs]
          exact (Lv.take.shift (Grow.refl e _) h1.suf).cons hl
        · exact sat_err
      · exact sat_err
  · exact rule_noMatch _ _

/-! ## Rules that call others -/

variable {n : Nat} {p : Parsers}

theorem rule_binding (hp : Good e libs n p) (s0 s : Src) (st : PSt) (hs : s.SSuf s0) :
    Sat (Bad e libs (n + 1) 0 s0 st) (psBinding p s) st (fun r st' =>
      Grow e st st' ∧ r.1.SSuf s0 ∧ Lv st s0 st' (r.2.1.srcs ++ r.2.2.srcs)) := by
  unfold psBinding
  have hlval : Sat (Bad e libs (n + 1) 0 s0 st) (
      if s.at '(' then do
        let s := psGap (s.drop 1)
        let (s, l) ← atoms1 (s.txt.length + 1) s []
        pure (s, LVal.many l)
      else
        match psAtom s with
        | (s, some a) => pure (s, LVal.one a)
        | (_, none) => PM.err : PM (Src × LVal)) st
      (fun r st' => st' = st ∧ r.1.SSuf s0 ∧ Lv st s0 st r.2.srcs) := by
    split
    · rename_i h
      have h1 : (psGap (s.drop 1)).Suf s0 :=
        (psGap_suf _).trans ((Src.starts_ssuf h (by decide)).suf.trans hs.suf)
      refine sat_bind (sat_mono (rule_atoms1 e _ s0 _ [] (Nat.lt_succ_self _) h1 Lv.nil) id ?_)
      rintro ⟨s6, l⟩ st2 ⟨rfl, h6, hl⟩
      exact sat_pure ⟨rfl, h6, hl⟩
    · split
      · rename_i s2 a ha
        obtain ⟨h3, k, _, _, rfl, _⟩ := psAtom_some ha
        exact sat_pure ⟨rfl, h3.trans hs, Lv.take.shift (Grow.refl e _) hs.suf⟩
      · exact sat_err
  refine sat_bind (sat_mono hlval id ?_)
  rintro ⟨s1, lval⟩ st1 ⟨rfl, h1, hl⟩
  dsimp only
  have h2 : (psGap s1).SSuf s0 := Src.SSuf.trans_suf (psGap_suf _) h1
  refine sat_bind' (hp.form (psGap s1) st1) (fun h => h.step h2 (Grow.refl _ _) (by omega)) ?_
  rintro ⟨s3, leg⟩ st3 ⟨hg, hq⟩
  cases leg with
  | none => exact sat_err
  | some x =>
    exact sat_pure ⟨hg, hq.1.trans h2, (hl.later hg).app (hq.2.shift (Grow.refl e _) h2.suf)⟩

theorem rule_set (hp : Good e libs n p) (s : Src) (st : PSt) :
    Sat (Bad e libs (n + 1) 0 s st) (psSet p s) st (RuleQ e Node.srcs s st) := by
  unfold psSet
  split
  · rename_i h
    have h1 : (psGap (s.drop kSet.length)).SSuf s :=
      Src.SSuf.trans_suf (psGap_suf _) (Src.starts_ssuf h (by decide))
    refine sat_bind' (rule_binding hp s _ st h1) id ?_
    rintro ⟨s2, lval, x⟩ st2 ⟨hg, h2, hl⟩
    refine sat_bind (rule_closing ?_)
    intro r hr
    refine sat_pure ⟨hg, (hr.suf_trans (psGap_suf _)).trans h2, ?_⟩
    simpa only [Node.srcs] using hl
  · exact rule_noMatch _ _

theorem rule_let (hp : Good e libs n p) (s : Src) (st : PSt) :
    Sat (Bad e libs (n + 1) 0 s st) (psLet p s) st (RuleQ e Node.srcs s st) := by
  unfold psLet
  split
  · rename_i h
    have h1 : (psGap (s.drop kLet.length)).SSuf s :=
      Src.SSuf.trans_suf (psGap_suf _) (Src.starts_ssuf h (by decide))
    refine sat_bind' (rule_binding hp s _ st h1) id ?_
    rintro ⟨s2, lval, x⟩ st2 ⟨hg, h2, hl⟩
    dsimp only
    have h3 : (psGap s2).SSuf s := Src.SSuf.trans_suf (psGap_suf _) h2
    refine sat_bind' (hp.form (psGap s2) st2) (fun h => h.step h3 hg (by omega)) ?_
    rintro ⟨s4, leg⟩ st4 ⟨hg4, hq⟩
    cases leg with
    | none => exact sat_err
    | some y =>
      refine sat_bind (rule_closing ?_)
      intro r hr
      refine sat_pure ⟨hg.trans hg4, (hr.suf_trans (psGap_suf _)).trans (hq.1.trans h3), ?_⟩
      simp only [Node.srcs]
      rw [← List.append_assoc]
      exact (hl.later hg4).app (hq.2.shift hg h3.suf)
  · exact rule_noMatch _ _

theorem rule_emit (hp : Good e libs n p) (s : Src) (st : PSt) :
    Sat (Bad e libs (n + 1) 0 s st) (psEmit p s) st (RuleQ e Node.srcs s st) := by
  unfold psEmit
  split
  · rename_i h
    have h1 : (psGap (s.drop kEmit.length)).SSuf s :=
      Src.SSuf.trans_suf (psGap_suf _) (Src.starts_ssuf h (by decide))
    refine sat_bind (sat_mono (rule_var (e := e) (psGap (s.drop kEmit.length)) st) id ?_)
    rintro ⟨s2, v⟩ st2 ⟨hg, hv⟩
    dsimp only
    cases v with
    | none => exact sat_err
    | some v =>
      obtain ⟨late, reg, a⟩ := v
      have h2 : s2.SSuf s := hv.1.trans h1
      have hl : Lv st s st2 (reg ++ [a]) := hv.2.shift (Grow.refl e _) h1.suf
      have h3 : (psGap s2).SSuf s := Src.SSuf.trans_suf (psGap_suf _) h2
      refine sat_bind' (hp.form (psGap s2) st2) (fun h => h.step h3 hg (by omega)) ?_
      rintro ⟨s4, leg⟩ st4 ⟨hg4, hq⟩
      cases leg with
      | none =>
        cases (hq : s4 = psGap s2)
        refine sat_bind (rule_closing ?_)
        intro r hr
        refine sat_pure ⟨hg.trans hg4, hr.trans h3, ?_⟩
        simp only [Node.srcs, Option.getD_none]
        exact hl.later hg4
      | some y =>
        refine sat_bind (rule_closing ?_)
        intro r hr
        refine sat_pure ⟨hg.trans hg4, (hr.suf_trans (psGap_suf _)).trans (hq.1.trans h3), ?_⟩
        simp only [Node.srcs, Option.getD_some]
        rw [← List.singleton_append, ← List.append_assoc]
        exact (hl.later hg4).app (hq.2.shift hg h3.suf)
  · exact rule_noMatch _ _

/-- A text in brackets. -/
theorem rule_block (hp : Good e libs n p) (s s1 : Src) (st : PSt) (stop : Stop) (h : s1.SSuf s)
    (mk : List Node → Node) (hmk : ∀ l, (mk l).srcs = srcsList l) :
    Sat (Bad e libs (n + 1) 0 s st) (do
      let (rest, ast) ← p.text stop { sou := s1 }
      pure (rest, some (mk ast)) : PM (Src × Option Node)) st (RuleQ e Node.srcs s st) := by
  refine sat_bind' (hp.text stop { sou := s1 } st) (fun hb => hb.step h (Grow.refl _ _) (by omega)) ?_
  rintro ⟨s2, ast⟩ st2 ⟨hg, h2, hl⟩
  refine sat_pure ⟨hg, Src.SSuf.trans_suf h2 h, ?_⟩
  rw [hmk]
  exact (hl (fun g hgen => by cases hgen) (by simp only [srcsList]; exact Lv.nil)).shift (Grow.refl e _) h.suf

theorem rule_code (hp : Good e libs n p) (s : Src) (st : PSt) :
    Sat (Bad e libs (n + 1) 0 s st) (psCode p s) st (RuleQ e Node.srcs s st) := by
  unfold psCode
  dsimp only
  have hb : ∀ stop s1, s1.SSuf s → Sat (Bad e libs (n + 1) 0 s st) (do
      let (rest, ast) ← p.text stop { sou := s1 }
      pure (rest, some (.text ast)) : PM (Src × Option Node)) st (RuleQ e Node.srcs s st) :=
    fun stop s1 h => rule_block hp s s1 st stop h .text (fun l => by simp only [Node.srcs])
  split
  · rename_i h
    have h1 := Src.starts_ssuf h (by decide)
    split
    · rename_i rest eol he
      exact hb _ _ ((psEol_some he).1.trans (Src.SSuf.trans_suf (psSpace_suf _) h1))
    · exact hb _ _ h1
  · split
    · rename_i h; exact hb _ _ (Src.starts_ssuf h (by decide))
    · split
      · rename_i h; exact hb _ _ (Src.starts_ssuf h (by decide))
      · split
        · rename_i h; exact hb _ _ (Src.starts_ssuf h (by decide))
        · exact rule_noMatch _ _

theorem rule_infix (hp : Good e libs n p) (s : Src) (st : PSt) :
    Sat (Bad e libs (n + 1) 0 s st) (psInfix p s) st (RuleQ e Node.srcs s st) := by
  unfold psInfix
  split
  · rename_i h
    exact rule_block hp s _ st .brace (Src.starts_ssuf h (by decide)) (fun l => .infix (.text l) s.loc)
      (fun l => by simp only [Node.srcs])
  · split
    · rename_i h
      exact rule_block hp s _ st .code (Src.starts_ssuf h (by decide))
        (fun l => .infix (.text l) (s.loc.map (fun l => { l with pos := l.pos + 1 })))
        (fun l => by simp only [Node.srcs])
    · exact rule_noMatch _ _

theorem rule_list (hp : Good e libs n p) (s : Src) (st : PSt) :
    Sat (Bad e libs (n + 1) 0 s st) (psList p s) st (RuleQ e Node.srcs s st) := by
  unfold psList
  split
  · rename_i h
    have h1 : (psGap (s.drop 1)).SSuf s :=
      Src.SSuf.trans_suf (psGap_suf _) (Src.starts_ssuf h (by decide))
    refine sat_bind' (hp.items (psGap (s.drop 1)) [] st) (fun h => h.step h1 (Grow.refl _ _) (by omega)) ?_
    rintro ⟨s2, lst⟩ st2 ⟨hg, h2, hl⟩
    refine sat_pure ⟨hg, h2.trans h1, ?_⟩
    simp only [Node.srcs]
    exact (hl (by simp only [srcsList]; exact Lv.nil)).shift (Grow.refl e _) h1.suf
  · exact rule_noMatch _ _

theorem embed_suf (s : Src) : (if s.at '*' then psGap (s.drop 1) else s).Suf s := by
  split
  · rename_i h
    exact (psGap_suf _).trans (Src.starts_ssuf h (by decide)).suf
  · exact Src.Suf.refl _

theorem embed_srcs (b : Bool) (x : Node) : (if b then Node.embed x else x).srcs = x.srcs := by
  cases b <;> simp [Node.srcs]

theorem rule_items (hp : Good e libs n p) (s : Src) (lst : List Node) (st : PSt) :
    Sat (Bad e libs (n + 1) 1 s st) (psItems p s lst) st (fun r st' =>
      Grow e st st' ∧ r.1.SSuf s ∧ (Lv st s st (srcsList lst) → Lv st s st' (srcsList r.2))) := by
  unfold psItems
  split
  · rename_i h
    exact sat_pure ⟨Grow.refl _ _, Src.starts_ssuf h (by decide), id⟩
  · dsimp only
    have h1 := embed_suf s
    refine sat_bind' (hp.form _ st) (fun h => h.same h1 (Grow.refl _ _)) ?_
    rintro ⟨s2, leg⟩ st2 ⟨hg, hq⟩
    cases leg with
    | none => exact sat_err
    | some x =>
      have h2 : (psGap s2).SSuf s := Src.SSuf.trans_suf (psGap_suf _) (hq.1.suf_trans h1)
      refine sat_mono (hp.items (psGap s2) _ st2) (fun h => h.step h2 hg (by omega)) ?_
      rintro ⟨s3, l3⟩ st3 ⟨hg3, h3, hl3⟩
      refine ⟨hg.trans hg3, h3.trans h2, fun hl => ?_⟩
      intro hs
      refine hl3 ?_ (hs.mono hg h2.suf)
      rw [srcsList_append, srcsList_one, embed_srcs]
      intro _ y hy
      rcases List.mem_append.mp hy with hy | hy
      · exact (hl hs y hy).mono hg
      · exact hq.2 (hs.mono (Grow.refl e _) h1) y hy

theorem argName_some {s look name : Src} (h : argName s = some (look, name)) :
    look.SSuf s ∧ ∃ k, name = (s.drop 1).take k ∧ (s.drop 1).Suf s := by
  unfold argName at h
  split at h
  · rename_i h0
    have h1 := Src.starts_ssuf h0 (by decide)
    split at h
    · rename_i l a ha
      obtain ⟨h3, k, _, _, rfl, _⟩ := psAtom_some ha
      dsimp only at h
      split at h
      · cases h
      · cases h
        exact ⟨Src.SSuf.trans_suf (psGap_suf _) (h3.trans h1), k, rfl, h1.suf⟩
    · cases h
  · cases h

theorem rule_args (hp : Good e libs n p) (fn : Option Src) (s : Src) (args : List Node)
    (named : List (Src × Node)) (st : PSt) :
    Sat (Bad e libs (n + 1) 1 s st) (psArgs p fn s args named) st (fun r st' =>
      Grow e st st' ∧ r.1.Suf s ∧
        (Lv st s st (srcsList args ++ srcsNamed named) → Lv st s st' (srcsList r.2.1 ++ srcsNamed r.2.2))) := by
  unfold psArgs
  dsimp only
  have h0 := psGap_suf s
  revert h0
  generalize psGap s = s0
  intro h0
  split
  · rename_i look name ha
    obtain ⟨h1, k, rfl, hk⟩ := argName_some ha
    split
    · exact sat_pure ⟨Grow.refl _ _, h1.suf.trans h0, id⟩
    · have h2 : (psGap look).SSuf s := (Src.SSuf.trans_suf (psGap_suf _) h1).suf_trans h0
      refine sat_bind' (hp.form (psGap look) st) (fun h => h.step h2 (Grow.refl _ _) (by omega)) ?_
      rintro ⟨s3, leg⟩ st3 ⟨hg, hq⟩
      cases leg with
      | none => exact sat_err
      | some x =>
        have h3 : s3.SSuf s := hq.1.trans h2
        refine sat_mono (hp.args fn s3 args _ st3) (fun h => h.step h3 hg (by omega)) ?_
        rintro ⟨s4, a4, n4⟩ st4 ⟨hg4, h4, hl4⟩
        refine ⟨hg.trans hg4, h4.trans h3.suf, fun hl hs => ?_⟩
        refine hl4 ?_ (hs.mono hg h3.suf)
        intro _ y hy
        rw [srcsNamed_append, ← List.append_assoc] at hy
        rcases List.mem_append.mp hy with hy | hy
        · exact (hl hs y hy).mono hg
        · simp only [srcsNamed, List.append_nil, List.mem_cons] at hy
          rcases hy with rfl | hy
          · exact ((hs.mono (Grow.refl e _) (hk.trans h0)).take k).mono hg
          · exact hq.2 (hs.mono (Grow.refl e _) h2.suf) y hy
  · have h1 := (embed_suf s0).trans h0
    refine sat_bind' (hp.form _ st) (fun h => h.same h1 (Grow.refl _ _)) ?_
    rintro ⟨s2, leg⟩ st2 ⟨hg, hq⟩
    cases leg with
    | none =>
      dsimp only
      split
      · exact sat_err
      · cases (hq : s2 = _)
        exact sat_pure ⟨hg, h1, fun hl => hl.later hg⟩
    | some x =>
      have h2 : s2.SSuf s := hq.1.suf_trans h1
      refine sat_mono (hp.args fn s2 _ named st2) (fun h => h.step h2 hg (by omega)) ?_
      rintro ⟨s4, a4, n4⟩ st4 ⟨hg4, h4, hl4⟩
      refine ⟨hg.trans hg4, h4.trans h2.suf, fun hl hs => ?_⟩
      refine hl4 ?_ (hs.mono hg h2.suf)
      intro _ y hy
      rw [srcsList_append, srcsList_one, embed_srcs] at hy
      rcases List.mem_append.mp hy with hy | hy
      · rcases List.mem_append.mp hy with hy | hy
        · exact (hl hs y (List.mem_append_left _ hy)).mono hg
        · exact hq.2 (hs.mono (Grow.refl e _) h1) y hy
      · exact (hl hs y (List.mem_append_right _ hy)).mono hg

theorem rule_application (hp : Good e libs n p) (s : Src) (st : PSt) :
    Sat (Bad e libs (n + 1) 0 s st) (psApplication p s) st (RuleQ e Node.srcs s st) := by
  unfold psApplication
  split
  · exact rule_noMatch _ _
  split
  · exact rule_noMatch _ _
  split
  · exact rule_code hp s st
  split
  · exact rule_emit hp s st
  split
  · exact rule_infix hp s st
  rename_i hk _ _ _ _
  have hk : s.starts kApply = true := by simpa using hk
  dsimp only
  have h2 : (s.drop 2).SSuf s := Src.starts_ssuf hk (by decide)
  have h3 : (psGap (if (s.drop 2).at '$' then (s.drop 2).drop 1 else s.drop 2)).SSuf s := by
    refine Src.SSuf.trans_suf (psGap_suf _) ?_
    split
    · rename_i h
      exact (Src.starts_ssuf h (by decide)).trans h2
    · exact h2
  refine sat_bind' (hp.form _ st) (fun h => h.step h3 (Grow.refl _ _) (by omega)) ?_
  rintro ⟨s4, leg⟩ st4 ⟨hg, hq⟩
  cases leg with
  | none => exact sat_err
  | some f =>
    have h4 : s4.SSuf s := hq.1.trans h3
    refine sat_bind' (hp.args _ s4 [] [] st4) (fun h => h.step h4 hg (by omega)) ?_
    rintro ⟨s5, a5, n5⟩ st5 ⟨hg5, h5, hl5⟩
    dsimp only
    split
    · rename_i hc
      refine sat_pure ⟨hg.trans hg5, Src.SSuf.trans_suf
        ((Src.starts_ssuf hc (by decide)).suf.trans ((psGap_suf _).trans h5)) h4, ?_⟩
      have key : Lv st s st5 (Node.apply f a5 n5
          (s.loc.map (fun l => { l with pos := l.pos + 1 }))).srcs := by
        simp only [Node.srcs]
        refine Lv.cons ?_ (Lv.app ?_ ?_)
        · have hd : ({ txt := ['$'], loc := s.loc.map (fun l => { l with pos := l.pos + 1 }) } : Src)
              = (s.drop 1).take 1 := by
            obtain ⟨w, hw⟩ := List.isPrefixOf_iff_prefix.mp hk
            obtain ⟨tx, lc⟩ := s
            simp only at hw
            subst hw
            rfl
          rw [hd]
          exact (Lv.take.shift (Grow.refl e _)
            (Src.suf_drop (by have := Src.starts_len hk; simp [kApply] at this; omega))).later (hg.trans hg5)
        · exact (hq.2.shift (Grow.refl e _) h3.suf).later hg5
        · exact (hl5 (by simp only [srcsList, srcsNamed, List.append_nil]; exact Lv.nil)).shift hg h4.suf
      split
      · simpa only [Node.srcs] using key
      · exact key
    · exact sat_err

theorem rule_lform (hp : Good e libs n p) (s : Src) (st : PSt) :
    Sat (Bad e libs (n + 1) 0 s st) (psLForm p s) st (RuleQ e Node.srcs s st) := by
  have w : ∀ {r : PM (Src × Option Node)} {st1}, Grow e st st1 →
      Sat (Bad e libs (n + 1) 0 s st1) r st1 (RuleQ e Node.srcs s st1) →
      Sat (Bad e libs (n + 1) 0 s st) r st1 (RuleQ e Node.srcs s st1) :=
    fun hg h => sat_mono h (fun hb => hb.mono (Src.Suf.refl _) hg) (fun _ _ => id)
  unfold psLForm
  refine rule_orElse (rule_code hp s st) (fun st1 g1 => ?_)
  refine rule_orElse (w g1 (rule_infix hp s st1)) (fun st2 g2 => ?_)
  refine rule_orElse (w (g1.trans g2) (rule_let hp s st2)) (fun st3 g3 => ?_)
  refine rule_orElse (w ((g1.trans g2).trans g3) (rule_application hp s st3)) (fun st4 g4 => ?_)
  exact w (((g1.trans g2).trans g3).trans g4) (rule_list hp s st4)

theorem rule_bounds (hp : Good e libs n p) (s : Src) (bound : List Bound) (late : List Src) (st : PSt) :
    Sat (Bad e libs (n + 1) 0 s st) (psBounds p s bound late) st (fun r st' =>
      Grow e st st' ∧ r.1.Suf s ∧ (Lv st s st (srcsBound bound ++ late) → Lv st s st' (srcsBound r.2))) := by
  unfold psBounds
  split
  · rename_i h
    have h1 := Src.starts_ssuf h (by decide)
    split
    · rename_i h3
      split
      · have h4 : (s.drop 4).SSuf s := by
          have := (Src.starts_ssuf h3 (by decide)).trans h1
          rw [Src.drop_drop] at this
          exact this
        have h5 : (psGap (s.drop 4)).SSuf s := Src.SSuf.trans_suf (psGap_suf _) h4
        refine sat_mono (hp.bounds _ _ _ st) (fun h => h.step h5 (Grow.refl _ _) (by omega)) ?_
        rintro ⟨s6, b6⟩ st6 ⟨hg, h6, hl6⟩
        refine ⟨hg, h6.trans h5.suf, fun hl hs => ?_⟩
        refine hl6 ?_ (hs.mono (Grow.refl e _) h5.suf)
        intro _ y hy
        rw [srcsBound_append, List.append_nil] at hy
        rcases List.mem_append.mp hy with hy | hy
        · exact hl hs y (List.mem_append_left _ hy)
        · simp only [srcsBound, List.nil_append, List.mem_cons, List.not_mem_nil, or_false] at hy
          subst hy
          exact Src.found_none _ .dots
      · exact sat_err
    · split
      · exact sat_err
      · rename_i s2 a ha
        obtain ⟨h3, k, _, _, rfl, _⟩ := psAtom_some ha
        have h2 : s2.SSuf s := h3.trans h1
        have hla : Lv st s st [(s.drop 1).take k] := Lv.take.shift (Grow.refl e _) h1.suf
        have hd : Sat (Bad e libs (n + 1) 0 s st) (
            if s2.at ':' then do
              let (s, form) ← p.form (s2.drop 1)
              match form with
              | some x => pure (s, some x)
              | none => PM.err
            else pure (s2, none) : PM (Src × Option Node)) st (fun r st' =>
            Grow e st st' ∧ r.1.SSuf s ∧ ∀ x, r.2 = some x → Lv st s st' x.srcs) := by
          split
          · rename_i hc
            have h4 := (Src.starts_ssuf hc (by decide)).trans h2
            refine sat_bind' (hp.form _ st) (fun h => h.step h4 (Grow.refl _ _) (by omega)) ?_
            rintro ⟨s5, leg⟩ st5 ⟨hg, hq⟩
            cases leg with
            | none => exact sat_err
            | some x =>
              refine sat_pure ⟨hg, hq.1.trans h4, fun y hy => ?_⟩
              cases hy
              exact hq.2.shift (Grow.refl e _) h4.suf
          · exact sat_pure ⟨Grow.refl _ _, h2, fun y hy => by cases hy⟩
        refine sat_bind (sat_mono hd id ?_)
        rintro ⟨s5, dflt⟩ st5 ⟨hg, h5, hl5⟩
        dsimp only at hl5 ⊢
        split
        · rename_i hdd
          have h6 : (psGap (s5.drop 2)).SSuf s :=
            Src.SSuf.trans_suf (psGap_suf _) ((Src.starts_ssuf hdd (by decide)).trans h5)
          refine sat_mono (hp.bounds _ _ _ st5) (fun h => h.step h6 hg (by omega)) ?_
          rintro ⟨s7, b7⟩ st7 ⟨hg7, h7, hl7⟩
          refine ⟨hg.trans hg7, h7.trans h6.suf, fun hl hs => ?_⟩
          refine hl7 ?_ (hs.mono hg h6.suf)
          intro _ y hy
          rw [← List.append_assoc] at hy
          rcases List.mem_append.mp hy with hy | hy
          · exact (hl hs y hy).mono hg
          · exact (hla hs y hy).mono hg
        · split
          · rename_i hdd
            have h6 : (psGap (s5.drop 1)).SSuf s :=
              Src.SSuf.trans_suf (psGap_suf _) ((Src.starts_ssuf hdd (by decide)).trans h5)
            refine sat_mono (hp.bounds _ _ _ st5) (fun h => h.step h6 hg (by omega)) ?_
            rintro ⟨s7, b7⟩ st7 ⟨hg7, h7, hl7⟩
            refine ⟨hg.trans hg7, h7.trans h6.suf, fun hl hs => ?_⟩
            refine hl7 ?_ (hs.mono hg h6.suf)
            intro _ y hy
            rw [srcsBound_append, List.append_nil] at hy
            rcases List.mem_append.mp hy with hy | hy
            · exact (hl hs y (List.mem_append_left _ hy)).mono hg
            · cases dflt with
              | none =>
                simp only [srcsBound, List.mem_append, List.mem_cons, List.not_mem_nil, or_false] at hy
                rcases hy with hy | hy
                · exact (hl hs y (List.mem_append_right _ hy)).mono hg
                · exact (hla hs y (by simp [hy])).mono hg
              | some x =>
                simp only [srcsBound, List.mem_append, List.mem_cons, List.append_nil] at hy
                rcases hy with hy | hy | hy
                · exact (hl hs y (List.mem_append_right _ hy)).mono hg
                · exact (hla hs y (by simp [hy])).mono hg
                · exact hl5 x rfl hs y hy
          · exact sat_err
  · refine sat_pure ⟨Grow.refl _ _, Src.Suf.refl _, fun hl hs y hy => hl hs y (List.mem_append_left _ hy)⟩

theorem rule_lambda (hp : Good e libs n p) (s : Src) (st : PSt) :
    Sat (Bad e libs (n + 1) 0 s st) (psLambda p s) st (RuleQ e Node.srcs s st) := by
  unfold psLambda
  split
  · rename_i h
    have h1 := Src.starts_ssuf h (by decide)
    split
    · rename_i hb
      have h2 : (s.drop 2).SSuf s := by
        have := (Src.starts_ssuf hb (by decide)).trans h1
        rw [Src.drop_drop] at this
        exact this
      have h3 : (psGap (s.drop 2)).SSuf s := Src.SSuf.trans_suf (psGap_suf _) h2
      refine sat_bind (sat_mono (rule_var (e := e) (psGap (s.drop 2)) st) id ?_)
      rintro ⟨s4, v⟩ st4 ⟨hg, hv⟩
      dsimp only
      cases v with
      | none => exact sat_err
      | some v =>
        obtain ⟨lt, reg, a⟩ := v
        dsimp only
        have hl : Lv st s st4 (reg ++ [a]) := hv.2.shift (Grow.refl e _) h3.suf
        split
        · rename_i hc
          have h5 : (psGap ((psGap s4).drop 2)).SSuf s :=
            Src.SSuf.trans_suf ((psGap_suf _).trans ((Src.starts_ssuf hc (by decide)).suf.trans
              ((psGap_suf _).trans hv.1.suf))) h3
          refine sat_bind' (rule_lform hp _ st4) (fun hb => hb.mono h5.suf hg) ?_
          rintro ⟨s6, leg⟩ st6 ⟨hg6, hq⟩
          cases leg with
          | none => exact sat_err
          | some x =>
            refine sat_pure ⟨hg.trans hg6, hq.1.trans h5, ?_⟩
            simp only [Node.srcs]
            rw [← List.singleton_append, ← List.append_assoc]
            exact (hl.later hg6).app (hq.2.shift hg h5.suf)
        · exact sat_err
    · refine sat_bind' (rule_bounds hp s [] [] st) id ?_
      rintro ⟨s4, b4⟩ st4 ⟨hg, h4, hl4⟩
      dsimp only
      have hl : Lv st s st4 (srcsBound b4) :=
        hl4 (by simp only [srcsBound, List.append_nil]; exact Lv.nil)
      refine sat_bind' (rule_lform hp s4 st4) (fun hb => hb.mono h4 hg) ?_
      rintro ⟨s6, leg⟩ st6 ⟨hg6, hq⟩
      cases leg with
      | none => exact sat_err
      | some x =>
        refine sat_pure ⟨hg.trans hg6, hq.1.suf_trans h4, ?_⟩
        simp only [Node.srcs]
        exact (hl.later hg6).app (hq.2.shift hg h4)
  · exact rule_noMatch _ _

theorem rule_varNode {T : Prop} (s : Src) (st : PSt) :
    Sat T (do
      let (s, v) ← psVar s
      pure (s, v.map (fun (late, reg, a) => Node.var late reg a)) : PM (Src × Option Node)) st
      (RuleQ e Node.srcs s st) := by
  refine sat_bind (sat_mono (rule_var (e := e) s st) id ?_)
  rintro ⟨s2, v⟩ st2 ⟨hg, hv⟩
  cases v with
  | none => exact sat_pure ⟨hg, hv⟩
  | some v =>
    obtain ⟨lt, reg, a⟩ := v
    refine sat_pure ⟨hg, hv.1, ?_⟩
    simp only [Node.srcs]
    exact hv.2

theorem rule_former (hp : Good e libs n p) (s : Src) (st : PSt) :
    Sat (Bad e libs (n + 1) 0 s st) (psFormer e p s) st (RuleQ e Node.srcs s st) := by
  have w : ∀ {r : PM (Src × Option Node)} {st1}, Grow e st st1 →
      Sat (Bad e libs (n + 1) 0 s st1) r st1 (RuleQ e Node.srcs s st1) →
      Sat (Bad e libs (n + 1) 0 s st) r st1 (RuleQ e Node.srcs s st1) :=
    fun hg h => sat_mono h (fun hb => hb.mono (Src.Suf.refl _) hg) (fun _ _ => id)
  unfold psFormer
  refine rule_orElse (rule_value s st) (fun st1 g1 => ?_)
  refine rule_orElse (rule_varNode s st1) (fun st2 g2 => ?_)
  refine rule_orElse (w (g1.trans g2) (rule_lambda hp s st2)) (fun st3 g3 => ?_)
  exact w ((g1.trans g2).trans g3) (rule_lform hp s st3)

theorem rule_form (hp : Good e libs n p) (s : Src) (st : PSt) :
    Sat (Bad e libs (n + 1) 0 s st) (psForm e p s) st (RuleQ e Node.srcs s st) := by
  unfold psForm
  refine sat_bind (sat_mono (rule_former hp s st) id ?_)
  rintro ⟨s1, leg⟩ st1 ⟨hg, hq⟩
  cases leg with
  | none =>
    cases (hq : s1 = s)
    exact sat_pure ⟨hg, rfl⟩
  | some l1 =>
    dsimp only
    have h1 : (psGap s1).SSuf s := Src.SSuf.trans_suf (psGap_suf _) hq.1
    split
    · rename_i hc
      have h2 : (psGap ((psGap s1).drop 1)).SSuf s :=
        Src.SSuf.trans_suf ((psGap_suf _).trans (Src.starts_ssuf hc (by decide)).suf) h1
      refine sat_bind' (rule_former hp _ st1) (fun hb => hb.mono h2.suf hg) ?_
      rintro ⟨s3, leg⟩ st3 ⟨hg3, hq3⟩
      cases leg with
      | none => exact sat_err
      | some c =>
        dsimp only
        have h3 : (psGap s3).SSuf s := Src.SSuf.trans_suf (psGap_suf _) (hq3.1.trans h2)
        have hl3 : Lv st s st3 (c.srcs ++ l1.srcs) :=
          (hq3.2.shift hg h2.suf).app (hq.2.later hg3)
        split
        · rename_i hb
          have h4 : (psGap ((psGap s3).drop 1)).SSuf s :=
            Src.SSuf.trans_suf ((psGap_suf _).trans (Src.starts_ssuf hb (by decide)).suf) h3
          refine sat_bind' (hp.form _ st3) (fun hb => hb.step h4 (hg.trans hg3) (by omega)) ?_
          rintro ⟨s5, leg⟩ st5 ⟨hg5, hq5⟩
          cases leg with
          | none => exact sat_err
          | some l0 =>
            refine sat_pure ⟨(hg.trans hg3).trans hg5, hq5.1.trans h4, ?_⟩
            simp only [Node.srcs]
            rw [← List.append_assoc]
            exact (hl3.later hg5).app (hq5.2.shift (hg.trans hg3) h4.suf)
        · refine sat_pure ⟨hg.trans hg3, h3, ?_⟩
          simp only [Node.srcs, List.append_nil]
          exact hl3
    · exact sat_pure ⟨hg, h1, hq.2⟩

/-! ## Imports -/

/-- Registering a library. -/
theorem Grow.lib {st : PSt} {lib path txt : Str} {once : Bool} (hr : e.readLib lib = some (path, txt))
    (ho : once = true → st.world.find lib = none) :
    Grow e st { st with
      world := { st.world with source := (lib, .path (some path), unifyEol txt) :: st.world.source }
      reads := (lib, once) :: st.reads } where
  source := ⟨[_], rfl⟩
  incl := ⟨[], by simp⟩
  shrink := .inl rfl
  null hn := by
    have : lib ≠ lit "<null>" := by rintro rfl; rw [hn] at hr; cases hr
    rw [find_cons, if_neg this]
  reads h := by
    refine ⟨fun r hr' => ?_, ?_⟩
    · rw [find_cons]
      split
      · rfl
      · rename_i hne
        rcases List.mem_cons.mp hr' with rfl | hr'
        · exact absurd rfl hne
        · exact h.registered r hr'
    · cases once with
      | false => exact h.once
      | true =>
        simp only [List.filter_cons, if_true, List.map_cons, List.nodup_cons]
        refine ⟨fun hm => ?_, h.once⟩
        obtain ⟨r, hr1, hr2⟩ := List.mem_map.mp hm
        have := h.registered r (List.mem_filter.mp hr1).1
        rw [hr2, ho rfl] at this
        cases this
  agree h := by
    refine ⟨?_, ?_, h.lib, ?_⟩
    · intro f d t hm p t' hp
      rcases List.mem_cons.mp hm with hm | hm
      · cases hm; rw [hr] at hp; cases hp; rfl
      · exact h.same f d t hm p t' hp
    · intro f d t hm m hf
      rcases List.mem_cons.mp hm with hm | hm
      · cases hm; rw [hf, h.lib] at hr; cases hr
      · exact h.num f d t hm m hf
    · intro f d t d' t' h1 h2
      rcases List.mem_cons.mp h1 with h1 | h1
      · cases h1
        rcases List.mem_cons.mp h2 with h2 | h2
        · cases h2; rfl
        · exact (h.same _ _ _ h2 _ _ hr).symm
      · rcases List.mem_cons.mp h2 with h2 | h2
        · cases h2
          exact h.same _ _ _ h1 _ _ hr
        · exact h.uniq f d t d' t' h1 h2

/-- Registering an evaluated text. -/
theorem Grow.num {st : PSt} {d : Decl} {txt : Str} {c : Option Loc} :
    Grow e st { st with world := { source := (natStr st.world.inclusion.length, d, txt) :: st.world.source
                                   inclusion := st.world.inclusion ++ [c] } } where
  source := ⟨[_], rfl⟩
  incl := ⟨[c], rfl⟩
  shrink := .inl rfl
  null _ := by
    have := find_cons { st.world with inclusion := st.world.inclusion ++ [c] }
      (natStr st.world.inclusion.length) d txt (lit "<null>")
    rw [if_neg (natStr_ne_null _)] at this
    exact this
  reads h := by
    refine ⟨fun r hr => ?_, h.once⟩
    have := find_cons { st.world with inclusion := st.world.inclusion ++ [c] }
      (natStr st.world.inclusion.length) d txt r.1
    refine (congrArg Option.isSome this).trans ?_
    split
    · rfl
    · exact h.registered r hr
  agree h := by
    refine ⟨?_, ?_, h.lib, ?_⟩
    · intro f d t hm p t' hp
      rcases List.mem_cons.mp hm with hm | hm
      · cases hm; rw [h.lib] at hp; cases hp
      · exact h.same f d t hm p t' hp
    · intro f d t hm m hf
      simp only [List.length_append, List.length_cons, List.length_nil]
      rcases List.mem_cons.mp hm with hm | hm
      · cases hm
        have := natStr_inj hf
        omega
      · have := h.num f d t hm m hf
        omega
    · intro f d t d' t' h1 h2
      rcases List.mem_cons.mp h1 with h1 | h1
      · cases h1
        rcases List.mem_cons.mp h2 with h2 | h2
        · cases h2; rfl
        · exact absurd (h.num _ _ _ h2 _ rfl) (Nat.lt_irrefl _)
      · rcases List.mem_cons.mp h2 with h2 | h2
        · cases h2
          exact absurd (h.num _ _ _ h1 _ rfl) (Nat.lt_irrefl _)
        · exact h.uniq f d t d' t' h1 h2

theorem Grow.script {st : PSt} {sc : List Str} : Grow e st { st with scripts := sc } :=
  ⟨⟨[], rfl⟩, fun _ => rfl, fun h => ⟨h.registered, h.once⟩, fun h => ⟨h.same, h.num, h.lib, h.uniq⟩, .inl rfl, ⟨[], by simp⟩⟩

theorem Grow.header {st : PSt} {sh : Nat} (h : ∃ d txt r hd, (e.inputFile, d, txt) ∈ st.world.source ∧
    psHeader e.word { txt := txt, loc := some ⟨e.inputFile, 0⟩ } = some (r, hd, sh)) :
    Grow e st { st with shrink := sh } :=
  ⟨⟨[], rfl⟩, fun _ => rfl, fun h => ⟨h.registered, h.once⟩, fun h => ⟨h.same, h.num, h.lib, h.uniq⟩, .inr h, ⟨[], by simp⟩⟩

theorem rule_importSource {T : Prop} (lib : Str) (once : Bool) (st : PSt) :
    Sat T (importSource e lib once) st (fun key st' => Grow e st st' ∧
      ((key = lit "<null>" ∧ st' = st ∧ once = true) ∨
        (key = lib ∧ ∃ path txt, e.readLib lib = some (path, txt) ∧ textOf st' lib = unifyEol txt ∧
          (st'.world.find lib).isSome ∧ (once = true → st.world.find lib = none)))) := by
  unfold importSource Sat
  by_cases h : (once && (st.world.find lib).isSome) = true
  · simp only [h, if_true]
    exact ⟨Grow.refl _ _, .inl ⟨trivial, trivial, by simp at h; exact h.1⟩⟩
  · simp only [h]
    cases hr : e.readLib lib with
    | none => trivial
    | some r =>
      obtain ⟨path, txt⟩ := r
      dsimp only
      have ho : once = true → st.world.find lib = none := by
        intro ho
        cases hf : st.world.find lib with
        | none => rfl
        | some _ => simp [ho, hf] at h
      refine ⟨Grow.lib hr ho, .inr ⟨rfl, path, txt, rfl, ?_, ?_, ho⟩⟩
      · unfold textOf; rw [find_cons, if_pos rfl]
      · rw [find_cons, if_pos rfl]; rfl

theorem rule_importPython {T : Prop} (script : Str) (st : PSt) :
    Sat T (importPython e script) st (fun _ st' => Grow e st st') := by
  unfold importPython Sat
  by_cases h : script ∈ st.scripts
  · simp only [h, if_true]
    exact Grow.refl _ _
  · by_cases h2 : e.loadScript script
    · simp only [h, h2, if_true, if_false]
      exact Grow.script
    · simp only [h, h2, if_false]
      trivial

theorem rule_importEval {T : Prop} (ast : List Node) (loc : Option Loc) (st : PSt) :
    Sat T (importEval e ast loc) st (fun _ st' => Grow e st st') := by
  unfold importEval Sat
  dsimp only
  cases h : e.evalImport st.scripts ast with
  | none => trivial
  | some sou => exact Grow.num

theorem dropWhile_eq (f : Char → Bool) (s : Str) : s.dropWhile f = s.drop (spanLen f s) := by
  unfold spanLen
  induction s with
  | nil => rfl
  | cons c t ih =>
    by_cases h : f c <;> simp [h, ih]

/-- What the text says about an import at its start. -/
theorem ImportsOnly.here {s : Src} (h : s.starts kImport = true) (hi : ImportsOnly libs s.txt) :
    ∃ a, (psAtom (psGap (s.drop kImport.length))).2 = some a ∧ a.txt ++ lit ".yu" ∈ libs := by
  have h1 := hi 0 (by rw [List.drop_zero]; exact List.isPrefixOf_iff_prefix.mp h)
  simp only [Nat.zero_add, dropWhile_eq] at h1
  obtain ⟨h2, h3⟩ := h1
  have e1 : (psGap (s.drop kImport.length)).txt = List.drop (spanLen isGap (List.drop 8 s.txt)) (List.drop 8 s.txt) := rfl
  rw [← e1] at h2 h3
  unfold psAtom
  dsimp only
  rw [if_neg (by omega)]
  exact ⟨_, rfl, h3⟩

theorem bad_nil {x y : Nat} {st : PSt} (h : Bad e libs x y { txt := [] } st) (ht : Tame e libs st) :
    x ≤ y + unread e libs st := by
  have := h (by intro k hk; simp at hk) ht
  simpa using this

theorem srcsList_enclose (l : List Node) : srcsList (encloseImport l) = srcsList l := by
  unfold encloseImport
  split
  · rename_i h
    cases l with
    | nil => rfl
    | cons => simp at h
  · simp [srcsList, Node.srcs, srcsList_append]

theorem rule_import (hp : Good e libs n p) (s : Src) (st : PSt) :
    Sat (Bad e libs (n + 1) 0 s st) (psImport e p s) st (RuleQ e srcsList s st) := by
  unfold psImport
  by_cases h : s.starts kImport = true
  · rw [if_pos h]
    have h8 := Src.starts_len h
    simp only [kImport, List.length_cons, List.length_nil] at h8
    have h1 : (psGap (s.drop kImport.length)).SSuf s :=
      Src.SSuf.trans_suf (psGap_suf _) (Src.starts_ssuf h (by decide))
    dsimp only
    refine sat_bind' (R := fun r st' => Grow e st st' ∧ r.1.SSuf s ∧ Lv st s st' (srcsList r.2))
      (T' := Bad e libs (n + 1) 0 s st) ?_ id ?_
    · split
      · rename_i s2 a ha
        obtain ⟨h3, -⟩ := psAtom_some ha
        refine sat_bind (sat_mono (rule_importSource _ _ st) id ?_)
        rintro key st1 ⟨hg, hk⟩
        refine sat_bind' (hp.parse key st1) ?_ ?_
        · intro hb hi ht
          obtain ⟨a', ha', hlib⟩ := ImportsOnly.here h hi
          rw [ha] at ha'
          cases ha'
          have hne : libs ≠ [] := by rintro rfl; cases hlib
          rcases hk with ⟨rfl, rfl, -⟩ | ⟨rfl, path, txt, hr, htx, hsome, hnone⟩
          · have : textOf st1 (lit "<null>") = [] := by
              unfold textOf
              cases hf : st1.world.find (lit "<null>") with
              | none => rfl
              | some dt => obtain ⟨d, t⟩ := dt; exact ht.empty hne d t hf
            rw [this] at hb
            have := bad_nil hb ht
            omega
          · rw [htx] at hb
            have h5 := hb (ht.texts _ hlib _ _ hr) (ht.back hg)
            have h6 := unread_import hg hlib (hnone rfl) hsome
            unfold libCost at h6
            rw [hr] at h6
            dsimp only at h5 h6
            omega
        · rintro ast st3 ⟨hg3, hl⟩
          refine sat_pure ⟨hg.trans hg3, h3.trans h1, fun _ => ?_⟩
          rw [srcsList_enclose]
          exact hl
      · rename_i s2 ha
        cases psAtom_none ha
        have hbad : Bad e libs (n + 1) 0 s st := by
          intro hi _
          obtain ⟨a', ha', -⟩ := ImportsOnly.here h hi
          rw [ha] at ha'
          cases ha'
        refine sat_bind (sat_mono (rule_quote (e := e) _ st) id ?_)
        rintro ⟨s3, leg⟩ st3 ⟨hg, hq⟩
        dsimp only
        split
        · rename_i q
          have h3 : s3.SSuf s := hq.1.trans h1
          split
          · refine sat_bind (sat_mono (rule_importPython _ st3) id ?_)
            rintro - st4 hg4
            exact sat_pure ⟨hg.trans hg4, h3, by simp only [srcsList]; exact Lv.nil⟩
          · refine sat_bind (sat_mono (rule_importSource _ _ st3) id ?_)
            rintro key st4 ⟨hg4, -⟩
            refine sat_bind' (hp.parse key st4) (fun _ => hbad) ?_
            rintro ast st5 ⟨hg5, hl⟩
            refine sat_pure ⟨(hg.trans hg4).trans hg5, h3, fun _ => ?_⟩
            rw [srcsList_enclose]
            exact hl
        · have h3 : s3.Suf s := by
            cases leg with
            | none => cases (hq : s3 = _); exact h1.suf
            | some x => exact (hq.1.trans h1).suf
          refine sat_bind' (rule_infix hp s3 st3) (fun _ => hbad) ?_
          rintro ⟨s4, leg⟩ st4 ⟨hg4, hq4⟩
          dsimp only
          split
          · rename_i ast loc
            refine sat_bind (sat_mono (rule_importEval _ _ st4) id ?_)
            rintro key st5 hg5
            refine sat_bind' (hp.parse _ _) (fun _ => hbad) ?_
            rintro ast st6 ⟨hg6, hl⟩
            exact sat_pure ⟨((hg.trans hg4).trans hg5).trans hg6, hq4.1.suf_trans h3, fun _ => hl⟩
          · exact sat_err
    · rintro ⟨s2, ast⟩ st2 ⟨hg, h2, hl⟩
      refine sat_bind (rule_closing ?_)
      intro r hr
      exact sat_pure ⟨hg, (hr.suf_trans (psGap_suf _)).trans h2, hl⟩
  · rw [if_neg h]
    exact rule_noMatch _ _

/-! ## Texts -/

theorem rule_one {T : Prop} {r : PM (Src × Option Node)} {s : Src} {st : PSt}
    (h : Sat T r st (RuleQ e Node.srcs s st)) :
    Sat T (do
      let (s, leg) ← r
      pure (s, leg.map ([·])) : PM (Src × Option (List Node))) st (RuleQ e srcsList s st) := by
  refine sat_bind (sat_mono h id ?_)
  rintro ⟨s2, leg⟩ st2 ⟨hg, hq⟩
  cases leg with
  | none => exact sat_pure ⟨hg, hq⟩
  | some x => exact sat_pure ⟨hg, hq.1, by dsimp only; rw [srcsList_one]; exact hq.2⟩

theorem rule_textLeg (hp : Good e libs n p) (s : Src) (st : PSt) :
    Sat (Bad e libs (n + 1) 0 s st) (psTextLeg e p s) st (RuleQ e srcsList s st) := by
  have w : ∀ {r : PM (Src × Option (List Node))} {st1}, Grow e st st1 →
      Sat (Bad e libs (n + 1) 0 s st1) r st1 (RuleQ e srcsList s st1) →
      Sat (Bad e libs (n + 1) 0 s st) r st1 (RuleQ e srcsList s st1) :=
    fun hg h => sat_mono h (fun hb => hb.mono (Src.Suf.refl _) hg) (fun _ _ => id)
  unfold psTextLeg
  dsimp only
  refine rule_orElse (rule_one (rule_set hp s st)) (fun st1 g1 => ?_)
  refine rule_orElse (w g1 (rule_one (rule_let hp s st1))) (fun st2 g2 => ?_)
  have g12 := g1.trans g2
  refine rule_orElse (w g12 (rule_import hp s st2)) (fun st3 g3 => ?_)
  have g13 := g12.trans g3
  refine rule_orElse (rule_one (rule_macro s st3)) (fun st4 g4 => ?_)
  have g14 := g13.trans g4
  refine rule_orElse (rule_one (rule_comment s st4)) (fun st5 g5 => ?_)
  have g15 := g14.trans g5
  refine rule_orElse (w g15 (rule_one (rule_application hp s st5))) (fun st6 g6 => ?_)
  have g16 := g15.trans g6
  refine rule_orElse (rule_one (rule_quote s st6)) (fun st7 g7 => ?_)
  exact rule_one (rule_remark s st7)

theorem openBracket_suf {s : Src} (h : openBracket s ≠ 0) : (s.drop (openBracket s)).SSuf s := by
  unfold openBracket at *
  by_cases h1 : s.at '[' = true
  · rw [if_pos h1]; exact Src.starts_ssuf h1 (by decide)
  · rw [if_neg h1] at h ⊢
    by_cases h2 : s.starts ['\\', '['] = true
    · rw [if_pos h2]; exact Src.starts_ssuf h2 (by decide)
    · rw [if_neg h2] at h; exact absurd rfl h

theorem stopAt_suf {stop : Stop} {s r : Src} {sq pth : Nat} (h : stopAt stop s sq pth = some r) :
    r.Suf s := by
  cases stop with
  | eof =>
    unfold stopAt at h
    dsimp only at h
    split at h
    · cases h; exact Src.Suf.refl _
    · cases h
  | eolBracket =>
    unfold stopAt at h
    dsimp only at h
    split at h
    · rename_i rest eol he
      split at h
      · cases h
      · rename_i ho
        cases h
        exact (openBracket_suf ho).suf.trans ((psSpace_suf _).trans (psEol_some he).1.suf)
    · cases h
  | bracket =>
    unfold stopAt at h
    dsimp only at h
    split at h
    · cases h
    · rename_i ho
      have hs := (openBracket_suf ho).suf
      split at h
      · split at h
        · cases h
        · split at h
          · cases h; exact hs
          · cases h
      · split at h
        · cases h; exact hs
        · cases h
  | square =>
    unfold stopAt at h
    dsimp only at h
    split at h
    · rename_i hh
      cases h
      simp at hh
      exact (Src.starts_ssuf hh.1 (by decide)).suf
    · cases h
  | code =>
    unfold stopAt at h
    dsimp only at h
    split at h
    · rename_i hh
      cases h
      simp at hh
      exact (Src.starts_ssuf hh.1 (by decide)).suf
    · cases h
  | comma =>
    unfold stopAt at h
    dsimp only at h
    split at h
    · rename_i hh
      cases h
      exact (Src.starts_ssuf hh (by decide)).suf
    · split at h
      · cases h; exact Src.Suf.refl _
      · split at h
        · split at h
          · cases h
          · split at h
            · cases h; exact Src.Suf.refl _
            · cases h
        · split at h
          · cases h; exact Src.Suf.refl _
          · cases h
  | brace =>
    unfold stopAt at h
    dsimp only at h
    split at h
    · rename_i hh
      cases h
      exact (Src.starts_ssuf hh (by decide)).suf
    · cases h

theorem srcsList_dropLast {l : List Node} {y : Src} (h : y ∈ srcsList l.dropLast) : y ∈ srcsList l := by
  rcases List.eq_nil_or_concat l with rfl | ⟨l', x, rfl⟩
  · simpa using h
  · rw [List.concat_eq_append] at h ⊢
    rw [List.dropLast_concat] at h
    rw [srcsList_append]
    exact List.mem_append_left _ h

theorem plainStep_some {t t' : TextSt} (h : plainStep t = some t') :
    t'.sou.SSuf t.sou ∧ ∀ st, GenOK st t → SouOK st t.sou →
      (∀ y ∈ srcsList t.ast, y.Found st.world.source) →
      GenOK st t' ∧ ∀ y ∈ srcsList t'.ast, y.Found st.world.source := by
  unfold plainStep at h
  cases hsou : t.sou.txt with
  | nil =>
    simp [hsou] at h
  | cons c cs =>
    have hss : (t.sou.drop 1).SSuf t.sou := Src.ssuf_drop (by omega) (by simp [hsou])
    cases hg : t.gen with
    | none =>
      simp only [hg, hsou] at h
      split at h
      · cases h
      · cases h
        refine ⟨hss, fun st _ h2 h3 => ⟨?_, ?_⟩⟩
        · intro g hg'
          cases hg'
          exact ⟨h2, by simp⟩
        · intro y hy
          dsimp only at hy
          rw [srcsList_append, srcsList_one] at hy
          rcases List.mem_append.mp hy with hy | hy
          · exact h3 y hy
          · simp only [Node.srcs, List.mem_singleton] at hy
            subst hy
            exact h2.take _
    | some g =>
      simp only [hg, hsou] at h
      split at h
      · cases h
      · cases h
        refine ⟨hss, fun st h1 h2 h3 => ?_⟩
        obtain ⟨h4, h5⟩ := h1 g hg
        refine ⟨?_, ?_⟩
        · intro g' hg'
          cases hg'
          exact ⟨h4, by dsimp only; rw [h5, Src.drop_drop]⟩
        · intro y hy
          dsimp only at hy
          rw [srcsList_append, srcsList_one] at hy
          rcases List.mem_append.mp hy with hy | hy
          · exact h3 y (srcsList_dropLast hy)
          · simp only [Node.srcs, List.mem_singleton] at hy
            subst hy
            exact h4.take _

theorem GenOK.mono {st st' : PSt} {t : TextSt} (h : GenOK st t) (hg : Grow e st st') : GenOK st' t := by
  intro g hgen
  exact ⟨(h g hgen).1.mono hg (Src.Suf.refl _), (h g hgen).2⟩

theorem rule_text (hp : Good e libs n p) (stop : Stop) (t : TextSt) (st : PSt) :
    Sat (Bad e libs (n + 1) 0 t.sou st) (psText e p stop t) st (fun r st' =>
      Grow e st st' ∧ r.1.Suf t.sou ∧
        (GenOK st t → Lv st t.sou st (srcsList t.ast) → Lv st t.sou st' (srcsList r.2))) := by
  unfold psText
  refine sat_bind (sat_mono (rule_textLeg hp t.sou st) id ?_)
  rintro ⟨s1, leg⟩ st1 ⟨hg, hq⟩
  cases leg with
  | some xs =>
    obtain ⟨h1, hl1⟩ := hq
    refine sat_mono (hp.text stop _ st1) (fun hb => hb.step h1 hg (by omega)) ?_
    rintro ⟨s2, ast⟩ st2 ⟨hg2, h2, hl2⟩
    refine ⟨hg.trans hg2, h2.trans h1.suf, fun _ hl hs => ?_⟩
    refine hl2 (fun g hgen => by cases hgen) ?_ (hs.mono hg h1.suf)
    intro _ y hy
    dsimp only at hy
    rw [srcsList_append] at hy
    rcases List.mem_append.mp hy with hy | hy
    · exact (hl hs y hy).mono hg
    · exact hl1 hs y hy
  | none =>
    cases (hq : s1 = t.sou)
    dsimp only
    split
    · rename_i rest hr
      exact sat_pure ⟨hg, stopAt_suf hr, fun _ hl => hl.later hg⟩
    · cases ht : plainStep t with
      | none => exact sat_err
      | some t' =>
        obtain ⟨h1, h2⟩ := plainStep_some ht
        refine sat_bind (m := PM.ofOption (some t')) (sat_pure' ?_)
        refine sat_mono (hp.text stop t' st1) (fun hb => hb.step h1 hg (by omega)) ?_
        rintro ⟨s3, ast⟩ st3 ⟨hg3, h3, hl3⟩
        refine ⟨hg.trans hg3, h3.trans h1.suf, fun hgen hl hs => ?_⟩
        have h4 := h2 st1 (hgen.mono hg) (hs.mono hg (Src.Suf.refl _)) (fun y hy => (hl hs y hy).mono hg)
        exact hl3 h4.1 (fun _ => h4.2) (hs.mono hg h1.suf)

theorem found_within {st : PSt} {s a : Src} (h : SouOK st s) {k m : Nat} (hk : k ≤ s.txt.length)
    (hl : a.loc = (s.drop k).loc) (ht : a.txt = (s.txt.drop k).take m) : a.Found st.world.source := by
  have : a = (s.drop k).take m := by
    cases a
    simp only [Src.take] at *
    rw [hl, ht]
    rfl
  rw [this]
  exact (h.mono (e := { inputFile := [] }) (Grow.refl _ _) (Src.suf_drop hk)).take m

theorem codingSearch_len {word : Char → Bool} {b : Bool} : ∀ s, codingSearch word s = some b → 6 ≤ s.length
  | [] => by simp [codingSearch]
  | c :: t => by
    intro h
    rw [codingSearch] at h
    split at h
    · rename_i hc
      unfold codingAt at hc
      split at hc
      · rename_i h6
        have := congrArg List.length h6.1
        simp at this
        simp; omega
      · cases hc
    · have := codingSearch_len t h
      simp; omega

theorem headerLoop_some {word : Char → Bool} {st : PSt} {s0 : Src} (h0 : SouOK st s0) :
    ∀ (n : Nat) (s : Src) (hd : List Node) {r : Src} {hd' : List Node} {k : Nat},
    s.Suf s0 → (∀ y ∈ srcsList hd, y.Found st.world.source) →
    headerLoop word n s hd = some (r, hd', k) →
    r.Suf s0 ∧ ∀ y ∈ srcsList hd', y.Found st.world.source
  | 0, _, _, _, _, _, _, _, h => by simp [headerLoop] at h
  | n + 1, s, hd, r, hd', k, hs, hl, h => by
    unfold headerLoop at h
    have hs1 := (psSpace_suf s).trans hs
    revert h hs1
    generalize psSpace s = s1
    intro h hs1
    dsimp only at h
    split at h
    · rename_i j hj
      obtain ⟨hj0, hj1⟩ := remarkPyLen_le hj
      have h1 : SouOK st s1 := h0.mono (e := { inputFile := [] }) (Grow.refl _ _) hs1
      have hr : (s1.drop j).Suf s0 := (Src.suf_drop hj1).trans hs1
      have hleg : (s1.take j).Found st.world.source := h1.take j
      have app : ∀ a b : Src, a.Found st.world.source → b.Found st.world.source →
          ∀ y ∈ srcsList (hd ++ [.remark a, .remark b]), y.Found st.world.source := by
        intro a b ha hb y hy
        rw [srcsList_append] at hy
        rcases List.mem_append.mp hy with hy | hy
        · exact hl y hy
        · simp only [srcsList, Node.srcs, List.append_nil, List.cons_append, List.nil_append,
            List.mem_cons, List.not_mem_nil, or_false] at hy
          rcases hy with rfl | rfl
          · exact ha
          · exact hb
      have within : ∀ (a : Src) (k m : Nat), k ≤ j → a.loc = (s1.drop k).loc →
          a.txt = (s1.txt.drop k).take m → a.Found st.world.source :=
        fun a k m hk h2 h3 => found_within h1 (by omega) h2 h3
      split at h
      · cases h
        exact ⟨hr, hl⟩
      · split at h
        · rename_i i hi
          cases h
          have hi' := findIdx_le _ _ _ hi
          simp only [Src.take_txt, List.length_take, kCoding, List.length_cons, List.length_nil] at hi'
          refine ⟨hr, app _ _ ?_ ?_⟩
          · refine within _ 0 i (by omega) ?_ ?_
            · rw [Src.drop_zero]; rfl
            · simp only [Src.take_txt, List.take_take, List.drop_zero]; congr 1; omega
          · refine within _ (i + kCoding.length) (j - (i + kCoding.length)) ?_ ?_ ?_
            · simp [kCoding]; omega
            · simp [Src.take, Src.drop]
            · simp [List.drop_take]
        · cases h
          refine ⟨hr, app _ _ ?_ ?_⟩
          · refine within _ 0 (j - 1) (by omega) ?_ ?_
            · rw [Src.drop_zero]; rfl
            · simp only [Src.take_txt, List.dropLast_eq_take, List.take_take, List.drop_zero,
                List.length_take]
              congr 1; omega
          · rename_i hc _ _
            have h4 : 4 ≤ j := by
              have := codingSearch_len _ hc
              simp only [Src.take_txt, List.length_take] at this
              omega
            refine within _ 4 (j - 4) h4 ?_ ?_
            · simp [Src.take, Src.drop]
            · simp [List.drop_take]
      · split at h
        · rename_i rest eol he
          obtain ⟨h3, rfl⟩ := psEol_some he
          refine headerLoop_some h0 n rest _ (h3.suf.trans hr) (app _ _ hleg ?_) h
          exact (h0.mono (e := { inputFile := [] }) (Grow.refl _ _) hr).take 1
        · rename_i rest he
          cases psEol_none he
          refine headerLoop_some h0 n _ _ hr ?_ h
          intro y hy
          rw [srcsList_append] at hy
          rcases List.mem_append.mp hy with hy | hy
          · exact hl y hy
          · simp only [srcsList, Node.srcs, List.append_nil, List.mem_singleton] at hy
            subst hy
            exact hleg
    · cases h

theorem psHeader_some {word : Char → Bool} {st : PSt} {s0 : Src} (h0 : SouOK st s0) {r : Src}
    {hd : List Node} {k : Nat} (h : psHeader word s0 = some (r, hd, k)) :
    r.Suf s0 ∧ ∀ y ∈ srcsList hd, y.Found st.world.source := by
  unfold psHeader at h
  split at h
  · rename_i rest eol he
    exact headerLoop_some h0 _ _ _ ((psEol_some he).1.suf.trans (psSpace_suf _))
      (by intro y hy; simp [srcsList] at hy) h
  · rename_i rest he
    cases psEol_none he
    exact headerLoop_some h0 _ _ _ (psSpace_suf _) (by intro y hy; simp [srcsList] at hy) h

theorem rule_run (hp : Good e libs n p) (key : Str) (st st1 : PSt) (s0 s : Src) (header : List Node)
    (hg : Grow e st st1) (h0 : SouOK st1 s0) (hs : s.Suf s0) (htx : s0.txt = textOf st key)
    (hh : ∀ y ∈ srcsList header, y.Found st1.world.source) :
    Sat (Bad e libs (n + 1) 1 { txt := textOf st key } st) (psRun p s header) st1 (fun ast st' =>
      Grow e st st' ∧ ∀ y ∈ srcsList ast, y.Found st'.world.source) := by
  unfold psRun
  split
  · exact sat_err
  · refine sat_bind' (hp.text .eof { sou := s } st1) ?_ ?_
    · intro hb
      have h1 : Bad e libs (n + 1) 1 s0 st := hb.same hs hg
      unfold Bad at h1 ⊢
      rw [htx] at h1
      exact h1
    · rintro ⟨s2, ast⟩ st2 ⟨hg2, h2, hl2⟩
      refine sat_pure ⟨hg.trans hg2, ?_⟩
      have h3 := hl2 (fun g hgen => by cases hgen) (by simp only [srcsList]; exact Lv.nil)
        (h0.mono (Grow.refl e _) hs)
      split
      · intro y hy; simp [srcsList] at hy
      · intro y hy
        rw [srcsList_append] at hy
        rcases List.mem_append.mp hy with hy | hy
        · exact (hh y hy).mono hg2
        · exact h3 y hy

theorem rule_parse (hp : Good e libs n p) (key : Str) (st : PSt) :
    Sat (Bad e libs (n + 1) 1 { txt := textOf st key } st) (psParse e p key) st (fun ast st' =>
      Grow e st st' ∧ ∀ y ∈ srcsList ast, y.Found st'.world.source) := by
  have nohead : ∀ y ∈ srcsList [], y.Found st.world.source := by intro y hy; simp [srcsList] at hy
  unfold psParse
  refine sat_bind (sat_get ?_)
  cases hf : st.world.find key with
  | none => exact sat_err
  | some dt =>
    obtain ⟨d, txt⟩ := dt
    cases txt with
    | nil => exact sat_pure ⟨Grow.refl _ _, nohead⟩
    | cons c cs =>
      have htx : textOf st key = c :: cs := by unfold textOf; rw [hf]
      have h0 : SouOK st { txt := c :: cs, loc := some ⟨key, 0⟩ } :=
        ⟨key, d, c :: cs, 0, rfl, find_mem hf, Nat.zero_le _, rfl⟩
      dsimp only
      split
      · rename_i hk
        simp only [Bool.and_eq_true, decide_eq_true_eq] at hk
        split
        · rename_i rest header shrink hh
          obtain ⟨h1, h2⟩ := psHeader_some h0 hh
          refine sat_bind (sat_set ?_)
          refine rule_run hp key st _ _ rest header (Grow.header ?_) h0 h1 htx.symm h2
          rw [hk.1]
          exact ⟨d, _, rest, header, find_mem hf, hh⟩
        · exact rule_run hp key st st _ _ [] (Grow.refl _ _) h0 (Src.Suf.refl _) htx.symm nohead
      · exact rule_run hp key st st _ _ [] (Grow.refl _ _) h0 (Src.Suf.refl _) htx.symm nohead

theorem Good.step (hp : Good e libs n p) : Good e libs (n + 1) (p.step e) where
  form := rule_form hp
  args := rule_args hp
  items := rule_items hp
  bounds := rule_bounds hp
  text := rule_text hp
  parse := rule_parse hp

end

theorem P_good (e : PEnv) (libs : List Str) : ∀ n, Good e libs n (P e n)
  | 0 => Good.bot e libs
  | n + 1 => (P_good e libs n).step

end Yupp
