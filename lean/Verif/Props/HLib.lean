import Verif.Spec.HLib
import Verif.Props.Fill
/-!
# C103 — The macros of `lib/h.yu`
-/

namespace Yupp
open Spec

/-- The template as the grammar reads it. -/
def slotsExpr : List Slot → ExprText
  | [] => .nil
  | .plain w :: ps => .chars w (slotsExpr ps)
  | .quoted w :: ps => .str ('"' :: (w ++ ['"'])) (slotsExpr ps)
  | .name a :: ps => .expr (.app (.name false [] a) .nil .nil) (slotsExpr ps)

section
variable {m : Mode}

/-- `($a)` -/
theorem insert_reads {a : Str} (h : FreeName a) (r : Str) :
    Reads m (.body (.app (.name false [] a) .nil .nil)) ('(' :: '$' :: (a ++ ')' :: r)) r :=
  .app (g := []) isGap_nil (.inr (h.keyword _)) (form_shut (.name (.plain h.name) (ended_close r))) .argsEnd

/-- No plain text follows: the end, a parenthesis, or a literal. -/
def Ahead (m : Mode) (s : Str) : Prop := ∀ c, s.head? = some c → c = '(' ∨ (c = '"' ∧ m.python = false)

theorem ahead_ne {s : Str} (h : Ahead m s) {d : Char} (h1 : d ≠ '(') (h2 : d ≠ '"') : s.head? ≠ some d := by
  intro hd
  rcases h d hd with rfl | ⟨rfl, -⟩
  · exact h1 rfl
  · exact h2 rfl

theorem ahead_plain {sq d : Nat} {c : Char} {w s : Str} (hw : PlainOk m (c :: w)) (hs : Ahead m s) :
    PlainAt m .file sq d c (w ++ s) := by
  obtain ⟨-, h2, h3⟩ := hw
  obtain ⟨k1, k2, k3⟩ := h3 [] (c :: w) rfl
  refine ⟨(h2 c List.mem_cons_self).1, fun r h => ?_, fun h => k1 (prefix_two h (ahead_ne hs (by decide) (by decide))),
    fun h => k2 (prefix_two h (ahead_ne hs (by decide) (by decide))), fun h => ?_, fun h => ?_⟩
  · have := endOf_ends (top := true) h
    cases this.1
  · cases hpy : m.python with
    | false =>
      generalize hz : c :: (w ++ s) = z at h
      cases h with
      | c _ hq _ => injection hz with hz; exact (h2 c List.mem_cons_self).2 (hz ▸ hq)
      | py h _ _ _ => rw [hpy] at h; cases h
      | long h _ _ => rw [hpy] at h; cases h
      | lines h _ _ _ => rw [hpy] at h; cases h
    | true =>
      obtain ⟨p, q, t, hp, hq, he⟩ := literal_quote h
      refine no_literal (w := c :: w) (s := s) (fun c hc => (h2 c hc).2) (fun c hc => ?_) (prefix_chars hp) hq he
      rcases hs c hc with h | ⟨-, h⟩
      · exact .inl h
      · rw [hpy] at h; cases h
  · refine k3 ?_
    cases hm : m.remarks with
    | none => rw [hm] at h; exact h
    | c =>
      rw [hm] at h
      exact h.imp (fun h => prefix_two h (ahead_ne hs (by decide) (by decide)))
        (fun h => prefix_two h (ahead_ne hs (by decide) (by decide)))
    | python =>
      rw [hm] at h
      obtain ⟨t, ht⟩ := h
      simp only [List.cons_append, List.nil_append, List.cons.injEq] at ht
      exact ⟨w, by rw [← ht.1]; rfl⟩

theorem ahead_run {xs : ExprText} {s r : Str} (hx : xs.startsPlain = false) (hs : Ahead m s) :
    ∀ (w v : Str) (sq d : Nat), (w ≠ [] → PlainOk m w) → (∀ sq d, Reads m (.text .file sq d xs) s r) →
      Reads m (.run .file sq d v (.chars (v ++ w) xs)) (w ++ s) r := by
  intro w
  induction w with
  | nil =>
    intro v sq d _ h
    rw [List.append_nil]
    exact .runEnd hx (h sq d)
  | cons c w ih =>
    intro v sq d hw h
    refine .runChar (ahead_plain (hw (by simp)) hs) ?_
    have := ih (v ++ [c]) (opened '[' ']' sq c) (opened '(' ')' d c) (fun hne => ?_) h
    · simpa using this
    · cases w with
      | nil => exact absurd rfl hne
      | cons e w => exact (hw (by simp)).tail

/-- Plain text at the top of a file. -/
theorem ahead_chars {w s r : Str} {xs : ExprText} {sq d : Nat} (hw : PlainOk m w) (hx : xs.startsPlain = false)
    (hs : Ahead m s) (h : ∀ sq d, Reads m (.text .file sq d xs) s r) : Reads m (.text .file sq d (.chars w xs)) (w ++ s) r := by
  cases w with
  | nil => exact absurd rfl hw.1
  | cons c w =>
    refine .textChar (ahead_plain hw hs) ?_
    refine ahead_run hx hs w [c] _ _ (fun hne => ?_) h
    cases w with
    | nil => exact absurd rfl hne
    | cons e w => exact hw.tail

theorem written_ahead {ps : List Slot} (h : SlotsOk m ps) (hp : ∀ u qs, ps ≠ .plain u :: qs) : Ahead m (written ps) := by
  intro c hc
  cases ps with
  | nil => cases hc
  | cons p ps =>
    cases p with
    | plain w => exact absurd rfl (hp w ps)
    | quoted w => simp [written] at hc; exact .inr ⟨hc.symm, h.1⟩
    | name a => simp [written] at hc; exact .inl hc.symm

theorem pieces_plain {ps : List Slot} (hp : ∀ u qs, ps ≠ .plain u :: qs) : (slotsExpr ps).startsPlain = false := by
  cases ps with
  | nil => rfl
  | cons p ps =>
    cases p with
    | plain w => exact absurd rfl (hp w ps)
    | quoted w => rfl
    | name a => rfl

theorem insideC_of : ∀ {w : Str}, (∀ c ∈ w, c ≠ '"' ∧ c ≠ '\\' ∧ c ≠ '(') → InsideC '"' w
  | [], _ => .nil
  | c :: w, h => .char (h c (by simp)).1 (h c (by simp)).2.1 (insideC_of (fun d hd => h d (by simp [hd])))

/-- A template is read as it is written. -/
theorem pieces_reads : ∀ {ps : List Slot}, SlotsOk m ps → ∀ sq d, Reads m (.text .file sq d (slotsExpr ps)) (written ps) []
  | [], _, _, _ => .textEnd .file
  | .plain w :: ps, h, sq, d => ahead_chars h.1 (pieces_plain h.2.1) (written_ahead h.2.2 h.2.1) (pieces_reads h.2.2)
  | .quoted w :: ps, h, sq, d => by
    have := Reads.textLiteral (m := m) (k := .file) (sq := sq) (pth := d) (.c (s := written ps) h.1 (.inl rfl) (insideC_of h.2.1)) (pieces_reads h.2.2 sq d)
    simpa [written, slotsExpr] using this
  | .name a :: ps, h, sq, d => .textExpr (insert_reads h.1 _) ⟨_, rfl⟩ (h.1.directive _) (pieces_reads h.2 sq d)

theorem pieces_count : ∀ ps : List Slot, partCount (slotsExpr ps) = ps.length
  | [] => rfl
  | .plain _ :: ps => by simp [slotsExpr, partCount, pieces_count ps]
  | .quoted _ :: ps => by simp [slotsExpr, partCount, pieces_count ps]
  | .name _ :: ps => by simp [slotsExpr, partCount, pieces_count ps]

theorem pieces_replaced {val : Str → Str} {names : List Str} : ∀ {ps : List Slot}, (∀ a, .name a ∈ ps → a ∈ names) →
    replaced (fun a => if a ∈ names then some (val a) else none) (slotsExpr ps) = some (completed val ps)
  | [], _ => rfl
  | .plain _ :: ps, h => by
    simp [slotsExpr, replaced, completed, pieces_replaced (val := val) (ps := ps) (fun a ha => h a (List.mem_cons_of_mem _ ha))]
  | .quoted _ :: ps, h => by
    simp [slotsExpr, replaced, completed, pieces_replaced (val := val) (ps := ps) (fun a ha => h a (List.mem_cons_of_mem _ ha))]
  | .name a :: ps, h => by
    simp [slotsExpr, replaced, completed, pieces_replaced (val := val) (ps := ps) (fun a ha => h a (List.mem_cons_of_mem _ ha)), h a (List.mem_cons_self ..)]

end

theorem slots_filled {e : EEnv} {s : ESt} {cfg : Config} {ps : List Slot} {val : Str → Str}
    (hval : ∀ a, .name a ∈ ps → Stands e s a (val a) ∧ OneLine (val a)) :
    ∃ f : Str → Option Str, (∀ a t, f a = some t → Stands e s a t) ∧ Filled cfg f true (.str []) false (slotsExpr ps) (completed val ps) := by
  let names : List Str := ps.filterMap fun | .name a => some a | _ => none
  have hmem : ∀ a, a ∈ names ↔ .name a ∈ ps := by
    intro a
    simp only [names, List.mem_filterMap]
    constructor
    · rintro ⟨p, hp, hpa⟩
      cases p with
      | plain w => cases hpa
      | quoted w => cases hpa
      | name b => injection hpa with hpa; subst hpa; exact hp
    · intro h; exact ⟨_, h, rfl⟩
  have hv : ∀ a t, (if a ∈ names then some (val a) else none) = some t → .name a ∈ ps ∧ t = val a := by
    intro a t h
    split at h
    · next hm => injection h with h; exact ⟨(hmem a).1 hm, h.symm⟩
    · cases h
  exact ⟨fun a => if a ∈ names then some (val a) else none,
    fun a t h => by obtain ⟨h1, rfl⟩ := hv a t h; exact (hval a h1).1,
    C103_lines (fun a t h => by obtain ⟨h1, rfl⟩ := hv a t h; exact (hval a h1).2) (pieces_replaced (fun a h => (hmem a).2 h))⟩

/-- **C103.** A macro without parameters whose text is a template of two pieces or more, the texts of its names having one line
    each: a call gives the template with the texts in place of the names. -/
theorem C103_template (e : EEnv) (fn : Node) (text decl : Src) (c0 : Option Src) (args : List Node) (loc : Option Loc)
    (s s1 s2 : ESt) (hf : Evaluates e fn s (.mclosure text [] decl c0) s1) (ha : Args e args s1 [] s2)
    (ps : List Slot) (ht : text.txt = written ps) (hok : SlotsOk (modeOf e.pe) ps) (hl : 2 ≤ ps.length) (hne : text.txt ≠ [])
    (hk : e.pe.outputPython = true → e.pe.inputFile ≠ natStr s2.p.world.inclusion.length)
    (val : Str → Str) (hval : ∀ a, .name a ∈ ps → Stands e s2 a (val a) ∧ OneLine (val a)) :
    ∃ s3, s3.env = s2.env ∧ (∃ v, Evaluates e (.apply fn args [] loc) s v s3 ∧ v.text? = some (completed val ps)) ∧
      ∀ ind cut rest o, Generates e .no false rest s3 o →
        Generates e ind cut (.apply fn args [] loc :: rest) s (o.after (blockAt e.cfg ind (completed val ps))) := by
  obtain ⟨f, h1, h2⟩ := slots_filled (cfg := e.cfg) hval
  exact C103_without_parameters e fn text decl c0 args loc s s1 s2 hf ha (ht ▸ pieces_reads hok 0 0) hne
    (by rw [pieces_count]; omega) hk (val := f) h1 h2

/-! ## Arguments -/

theorem nowhere_append {k w s : Str} (h1 : ∀ a b, w = a ++ b → b ≠ [] → ¬ k <+: b ++ s) (h2 : ∀ a b, s = a ++ b → ¬ k <+: b) :
    ∀ a b, w ++ s = a ++ b → b ≠ [] → ¬ k <+: b := by
  intro a b h hb
  rcases List.append_eq_append_iff.1 h with ⟨c, rfl, hc⟩ | ⟨c, rfl, hc⟩
  · exact h2 c b hc
  · subst hc
    cases c with
    | nil => exact h2 [] s rfl
    | cons x c => exact h1 a (x :: c) rfl (by simp)

theorem prefix_close {p a r : Str} (hp : ')' ∉ p) (ha : ')' ∉ a) (h : p ++ [')'] <+: a ++ ')' :: r) : p = a := by
  induction p generalizing a with
  | nil =>
    cases a with
    | nil => rfl
    | cons c a => simp [List.cons_prefix_cons] at h; subst h; simp at ha
  | cons d p ih =>
    cases a with
    | nil => simp [List.cons_prefix_cons] at h; rw [h.1] at hp; simp at hp
    | cons c a =>
      simp only [List.cons_append, List.cons_prefix_cons] at h
      rw [h.1, ih (fun h => hp (List.mem_cons_of_mem _ h)) (fun h => ha (List.mem_cons_of_mem _ h)) h.2]

theorem plain_marker {m : Mode} {p w t : Str} (hw : PlainOk m w) (hs : Ahead m t) :
    ∀ u v, w = u ++ v → v ≠ [] → ¬ (['(', '$'] ++ p ++ [')']) <+: v ++ t := by
  intro u v huv hv hpre
  cases v with
  | nil => exact hv rfl
  | cons c v =>
    cases v with
    | nil =>
      cases t with
      | nil => simp [List.cons_prefix_cons] at hpre
      | cons d r =>
        simp only [List.cons_append, List.nil_append, List.cons_prefix_cons] at hpre
        rcases hs d rfl with rfl | ⟨rfl, -⟩
        · exact absurd hpre.2.1 (by decide)
        · exact absurd hpre.2.1 (by decide)
    | cons d v =>
      simp only [List.cons_append, List.nil_append, List.cons_prefix_cons] at hpre
      obtain ⟨rfl, rfl, -⟩ := hpre
      exact (hw.2.2 _ _ huv).1 ⟨v, rfl⟩

theorem name_noParens {n : Str} (h : Yupp.IsName n) : '(' ∉ n ∧ ')' ∉ n := by
  constructor <;> intro hm <;> have := isName_chars h _ hm <;> revert this <;> (unfold NameChar NameStart; decide)

theorem name_marker {p n t : Str} (hp : '(' ∉ p ∧ ')' ∉ p) (hn : '(' ∉ n ∧ ')' ∉ n) (hne : p ≠ n) :
    ∀ u v, '(' :: '$' :: (n ++ [')']) = u ++ v → v ≠ [] → ¬ (['(', '$'] ++ p ++ [')']) <+: v ++ t := by
  intro u v huv hv hpre
  cases u with
  | nil =>
    rw [List.nil_append] at huv
    subst huv
    simp only [List.cons_append, List.nil_append, List.cons_prefix_cons, List.append_assoc, true_and] at hpre
    exact hne (prefix_close hp.2 hn.2 hpre)
  | cons c u =>
    simp only [List.cons_append, List.cons.injEq] at huv
    cases v with
    | nil => exact hv rfl
    | cons d v =>
      simp only [List.cons_append, List.cons_prefix_cons] at hpre
      have : '(' ∈ '$' :: (n ++ [')']) := by rw [huv.2, ← hpre.1]; simp
      simp at this
      exact hn.1 this

theorem quoted_marker {p w t : Str} (hw : ∀ c ∈ w, c ≠ '"' ∧ c ≠ '\\' ∧ c ≠ '(') :
    ∀ u v, '"' :: (w ++ ['"']) = u ++ v → v ≠ [] → ¬ (['(', '$'] ++ p ++ [')']) <+: v ++ t := by
  intro u v huv hv hpre
  cases v with
  | nil => exact hv rfl
  | cons d v =>
    simp only [List.cons_append, List.cons_prefix_cons] at hpre
    have : '(' ∈ '"' :: (w ++ ['"']) := by rw [huv, ← hpre.1]; simp
    simp at this
    exact (hw _ this).2.2 rfl

/-- In a template a marker is the place of a name. -/
theorem written_marker {m : Mode} {p : Str} (hp : '(' ∉ p ∧ ')' ∉ p) : ∀ {qs : List Slot}, SlotsOk m qs → .name p ∉ qs →
    ∀ a b, written qs = a ++ b → ¬ (['(', '$'] ++ p ++ [')']) <+: b
  | [], _, _, a, b, h => by
    obtain ⟨-, rfl⟩ := List.append_eq_nil_iff.1 h.symm
    simp
  | .plain w :: qs, h, hq, a, b, hab => by
    by_cases hb : b = []
    · subst hb; simp
    exact nowhere_append (w := w) (s := written qs) (plain_marker h.1 (written_ahead h.2.2 h.2.1))
      (written_marker hp h.2.2 (fun hm => hq (List.mem_cons_of_mem _ hm))) a b hab hb
  | .quoted w :: qs, h, hq, a, b, hab => by
    by_cases hb : b = []
    · subst hb; simp
    exact nowhere_append (w := '"' :: (w ++ ['"'])) (s := written qs) (quoted_marker h.2.1)
      (written_marker hp h.2.2 (fun hm => hq (List.mem_cons_of_mem _ hm))) a b (by rw [← hab]; simp [written]) hb
  | .name n :: qs, h, hq, a, b, hab => by
    by_cases hb : b = []
    · subst hb; simp
    exact nowhere_append (w := '(' :: '$' :: (n ++ [')'])) (s := written qs)
      (name_marker hp (name_noParens h.1.name) (fun he => hq (he ▸ List.mem_cons_self ..)))
      (written_marker hp h.2 (fun hm => hq (List.mem_cons_of_mem _ hm))) a b (by rw [← hab]; simp [written]) hb

theorem simul_pass {ρ : List (Str × Str)} : ∀ {w s : Str},
    (∀ p ∈ ρ, ∀ u v, w = u ++ v → v ≠ [] → ¬ (['(', '$'] ++ p.1 ++ [')']) <+: v ++ s) → simul ρ 0 (w ++ s) = w ++ simul ρ 0 s
  | [], _, _ => rfl
  | c :: w, s, h => by
    have : ρ.find? (fun p => (['(', '$'] ++ p.1 ++ [')']).isPrefixOf (c :: (w ++ s))) = none := by
      rw [List.find?_eq_none]
      intro p hp hpre
      exact h p hp [] (c :: w) rfl (by simp) (List.isPrefixOf_iff_prefix.1 hpre)
    change simul ρ 0 (c :: (w ++ s)) = c :: (w ++ simul ρ 0 s)
    rw [simul, this]
    simp only []
    rw [simul_pass (fun p hp u v huv => h p hp (c :: u) v (by rw [huv]; rfl))]

/-- The arguments are put in a template in the places of the parameters; the other names stay. -/
theorem C103_substitute {m : Mode} {ρ : List (Str × Str)} (hρ : NamesOk ρ) : ∀ {ps : List Slot}, SlotsOk m ps →
    substitute ρ (written ps) = putArgs ρ ps
  | [], _ => rfl
  | .plain w :: ps, h => by
    have ih := C103_substitute hρ h.2.2
    unfold substitute at ih ⊢
    simp only [written, putArgs]
    rw [simul_pass (fun p _ => plain_marker h.1 (written_ahead h.2.2 h.2.1)), ih]
  | .quoted w :: ps, h => by
    have ih := C103_substitute hρ h.2.2
    unfold substitute at ih ⊢
    simp only [written, putArgs]
    rw [show '"' :: (w ++ '"' :: written ps) = '"' :: (w ++ ['"']) ++ written ps by simp, simul_pass (fun p _ => quoted_marker h.2.1), ih]
    simp
  | .name a :: ps, h => by
    have ih := C103_substitute hρ h.2
    have ha := name_noParens h.1.name
    unfold substitute at ih ⊢
    simp only [written, putArgs]
    have key : ∀ p ∈ ρ, (['(', '$'] ++ p.1 ++ [')']).isPrefixOf ('(' :: '$' :: (a ++ ')' :: written ps)) = decide (p.1 = a) := by
      intro p hp
      by_cases hpa : p.1 = a
      · rw [hpa, decide_eq_true rfl]
        exact List.isPrefixOf_iff_prefix.2 ⟨written ps, by simp⟩
      · rw [decide_eq_false hpa]
        refine Bool.eq_false_iff.2 (fun hpre => hpa ?_)
        have := List.isPrefixOf_iff_prefix.1 hpre
        simp only [List.cons_append, List.nil_append, List.cons_prefix_cons, true_and] at this
        exact prefix_close (hρ p hp).2 ha.2 this
    have hfind : ρ.find? (fun p => (['(', '$'] ++ p.1 ++ [')']).isPrefixOf ('(' :: '$' :: (a ++ ')' :: written ps))) =
        ρ.find? (fun p => decide (p.1 = a)) := by
      clear ih
      induction ρ with
      | nil => rfl
      | cons q ρ ihρ =>
        rw [List.find?_cons, List.find?_cons, key q (List.mem_cons_self ..),
          ihρ (fun p hp => hρ p (List.mem_cons_of_mem _ hp)) (fun p hp => key p (List.mem_cons_of_mem _ hp))]
    cases hf : ρ.find? (fun p => decide (p.1 = a)) with
    | some p =>
      have hpa : p.1 = a := by simpa using List.find?_some hf
      rw [simul, hfind, hf]
      simp only []
      rw [simul_skip, ← ih, hpa]
      have : ('$' :: (a ++ ')' :: written ps)).drop (a.length + 2) = written ps := by simp
      rw [this]
    | none =>
      have hnone : ∀ p ∈ ρ, p.1 ≠ a := by
        intro p hp
        simpa using List.find?_eq_none.1 hf p hp
      have := simul_pass (ρ := ρ) (w := '(' :: '$' :: (a ++ [')'])) (s := written ps)
        (fun p hp => name_marker (hρ p hp) ha (hnone p hp))
      rw [show '(' :: '$' :: (a ++ ')' :: written ps) = '(' :: '$' :: (a ++ [')']) ++ written ps by simp, this, ih]
      simp

theorem written_unmarked {m : Mode} {ρ : List (Str × Str)} (hρ : NamesOk ρ) {qs : List Slot} (h : SlotsOk m qs)
    (hq : ∀ p ∈ ρ, .name p.1 ∉ qs) : Unmarked ρ (written qs) := by
  intro p hp a b ht
  rw [List.append_assoc] at ht
  exact written_marker (hρ p hp) h (hq p hp) a _ ht (List.prefix_append ..)

/-- **C103.** A macro whose text is a template when the arguments are put in, the texts of its names having one line each: a call
    gives the template with the texts in place of the names. -/
theorem C103_expanded (e : EEnv) (fn : Node) (text decl : Src) (c0 : Option Src) (params : List Str) (args vs : List Node)
    (ts : List Str) (loc : Option Loc) (s s1 s2 : ESt)
    (hf : Evaluates e fn s (.mclosure text (params.map (fun p => (p, Node.bound))) decl c0) s1)
    (ha : Args e args s1 vs s2) (hps : params ≠ []) (hl : vs.length = params.length) (hnd : params.Nodup) (hva : vaArgs ∉ params)
    (hv : ∀ v ∈ vs, Value v) (hn : ∀ v ∈ vs, v ≠ .none) (hts : Each2 ArgText vs ts) (hok : NamesOk (params.zip ts))
    (qs : List Slot) (ht : substitute (params.zip ts) text.txt = written qs) (hq : SlotsOk (modeOf e.pe) qs)
    (hfree : ∀ p ∈ params.zip ts, .name p.1 ∉ qs) (h2 : 2 ≤ qs.length) (hne : written qs ≠ [])
    (hk : e.pe.outputPython = true → e.pe.inputFile ≠ natStr s2.p.world.inclusion.length)
    (val : Str → Str) (hval : ∀ a, .name a ∈ qs → Stands e s2 a (val a) ∧ OneLine (val a)) :
    ∃ s3, s3.env = s2.env ∧ (∃ v, Evaluates e (.apply fn args [] loc) s v s3 ∧ v.text? = some (completed val qs)) ∧
      ∀ ind cut rest o, Generates e .no false rest s3 o →
        Generates e ind cut (.apply fn args [] loc :: rest) s (o.after (blockAt e.cfg ind (completed val qs))) := by
  obtain ⟨f, h1, h3⟩ := slots_filled (cfg := e.cfg) hval
  exact C103_macro e fn text decl c0 params args vs ts loc s s1 s2 hf ha hps hl hnd hva hv hn hts hok
    (ht ▸ written_unmarked hok hq hfree) (ht ▸ pieces_reads hq 0 0) (ht ▸ hne) (by rw [pieces_count]; omega) hk (val := f) h1 h3


/-! ## The macros of `lib/h.yu` -/

/-- As `plainCheck`, the number sign being allowed. -/
def hashCheck : Str → Bool
  | [] => true
  | c :: s => (decide (c = '\t' ∨ c = '\n' ∨ c = '\r' ∨ (' ' ≤ c ∧ c ≤ 'ÿ'))) && c != '"' && c != '\'' && c != '/' &&
      !(c == '(' && (s.head? == some '$' || s.head? == some '`')) && hashCheck s

theorem hashCheck_spec {m : Mode} (hm : m.remarks ≠ .python) : ∀ {w : Str}, hashCheck w = true →
    (∀ c ∈ w, Yupp.Admissible c ∧ ¬ QuoteMark c) ∧
    ∀ a b, w = a ++ b → ¬ ['(', '$'] <+: b ∧ ¬ ['(', '`'] <+: b ∧ ¬ StartsRemark m.remarks b := by
  intro w
  induction w with
  | nil =>
    intro _
    refine ⟨(fun _ h => by cases h), fun a b h => ?_⟩
    obtain ⟨rfl, rfl⟩ := List.append_eq_nil_iff.mp h.symm
    refine ⟨by simp, by simp, ?_⟩
    cases m.remarks <;> simp [StartsRemark]
  | cons c w ih =>
    intro h
    unfold hashCheck at h
    simp only [Bool.and_eq_true, decide_eq_true_eq, bne_iff_ne, ne_eq, Bool.not_eq_true', Bool.and_eq_false_iff,
      Bool.or_eq_false_iff, beq_eq_false_iff_ne] at h
    obtain ⟨⟨⟨⟨⟨h1, h2⟩, h3⟩, h5⟩, h6⟩, h7⟩ := h
    obtain ⟨i1, i2⟩ := ih h7
    refine ⟨fun d hd => ?_, fun a b hab => ?_⟩
    · rcases List.mem_cons.mp hd with rfl | hd
      · exact ⟨h1, fun hq => hq.elim h2 h3⟩
      · exact i1 d hd
    · cases a with
      | cons d a =>
        simp only [List.cons_append, List.cons.injEq] at hab
        exact i2 a b hab.2
      | nil =>
        rw [List.nil_append] at hab
        subst hab
        refine ⟨?_, ?_, ?_⟩
        · rintro ⟨t, ht⟩
          simp only [List.cons_append, List.cons.injEq, List.nil_append] at ht
          rcases h6 with h6 | h6
          · exact h6 ht.1.symm
          · exact h6.1 (by rw [← ht.2]; rfl)
        · rintro ⟨t, ht⟩
          simp only [List.cons_append, List.cons.injEq, List.nil_append] at ht
          rcases h6 with h6 | h6
          · exact h6 ht.1.symm
          · exact h6.2 (by rw [← ht.2]; rfl)
        · cases hr : m.remarks with
          | none => exact id
          | c =>
            rintro (⟨t, ht⟩ | ⟨t, ht⟩) <;> (simp only [List.cons_append, List.cons.injEq] at ht; exact h5 ht.1.symm)
          | python => exact absurd hr hm

theorem plainOk_hash {m : Mode} (hm : m.remarks ≠ .python) {w : Str} (hw : w ≠ []) (h : hashCheck w = true) : PlainOk m w :=
  ⟨hw, (hashCheck_spec hm h).1, (hashCheck_spec hm h).2⟩

theorem free_hName : FreeName hName where
  name := ⟨'h', ['-', 'n', 'a', 'm', 'e'], rfl, .inl (by decide), by intro x hx; unfold NameChar NameStart; revert x hx; decide⟩
  keyword := by intro r; simp [NoKeyword, hName]
  directive := by intro r; simp [NoDirective, hName]

/-- The pieces of `h-end`. -/
def hEndSlots : List Slot :=
  [.plain (lit "\n#undef "), .name hName, .plain (lit "_EXT\n#undef "), .name hName, .plain (lit "_INIT\n#undef "), .name hName,
   .plain (lit "_EXT_C\n#undef "), .name hName, .plain (lit "_VAR\n#undef "), .name hName, .plain (lit "_VAR_INIT\n#undef "), .name hName,
   .plain (lit "_VAR_C\n#undef "), .name hName, .plain (lit "_VAR_C_INIT\n#undef "), .name hName, .plain (lit "_INL\n#endif\n")]

theorem hEnd_written : hEndText = written hEndSlots := by decide +kernel

theorem hEnd_ok {m : Mode} (hm : m.remarks ≠ .python) : SlotsOk m hEndSlots := by
  simp only [hEndSlots, SlotsOk]
  refine ⟨?_, ?_, free_hName, ?_, ?_, free_hName, ?_, ?_, free_hName, ?_, ?_, free_hName, ?_, ?_, free_hName, ?_, ?_, free_hName, ?_, ?_, free_hName,
    ?_, ?_, free_hName, ?_, ?_, trivial⟩ <;> first | exact plainOk_hash hm (by decide +kernel) (by decide +kernel) | (intro u qs h; cases h)

theorem hEnd_completed (n : Str) : completed (fun _ => n) hEndSlots = headerEnd n := by
  simp [hEndSlots, completed, headerEnd, hMacros, lit]

/-- **C103.** `($h-end)` of the library: the macros of the header are undefined, and its condition is closed. -/
theorem C103_h_end (e : EEnv) (fn : Node) (text decl : Src) (c0 : Option Src) (args : List Node) (loc : Option Loc)
    (s s1 s2 : ESt) (hf : Evaluates e fn s (.mclosure text [] decl c0) s1) (htext : text.txt = hEndText) (ha : Args e args s1 [] s2)
    (hsk : e.pe.skip ≠ .python) (hk : e.pe.outputPython = true → e.pe.inputFile ≠ natStr s2.p.world.inclusion.length)
    (n : Str) (hn : Stands e s2 hName n) (h1 : OneLine n) :
    ∃ s3, s3.env = s2.env ∧ (∃ v, Evaluates e (.apply fn args [] loc) s v s3 ∧ v.text? = some (headerEnd n)) ∧
      ∀ ind cut rest o, Generates e .no false rest s3 o →
        Generates e ind cut (.apply fn args [] loc :: rest) s (o.after (blockAt e.cfg ind (headerEnd n))) := by
  rw [← hEnd_completed]
  have hm : (modeOf e.pe).remarks ≠ .python := by
    unfold modeOf
    cases h : e.pe.skip <;> simp_all
  refine C103_template e fn text decl c0 args loc s s1 s2 hf ha hEndSlots (htext.trans hEnd_written) (hEnd_ok hm) (by decide)
    (by rw [htext]; decide +kernel) hk (fun _ => n) ?_
  intro a h
  have : a = hName := by simpa [hEndSlots] using h
  subst this
  exact ⟨hn, h1⟩

/-- **C103.** A macro with the text `($h-name)SUFFIX`, as `extern`, `extern-c` and `inline`, gives the name with the suffix. -/
theorem C103_suffix (e : EEnv) (fn : Node) (text decl : Src) (c0 : Option Src) (args : List Node) (loc : Option Loc)
    (s s1 s2 : ESt) (hf : Evaluates e fn s (.mclosure text [] decl c0) s1) {a w : Str}
    (htext : text.txt = lit "($" ++ a ++ lit ")" ++ w) (haf : FreeName a) (hw : PlainOk (modeOf e.pe) w) (ha : Args e args s1 [] s2)
    (hk : e.pe.outputPython = true → e.pe.inputFile ≠ natStr s2.p.world.inclusion.length)
    (n : Str) (hn : Stands e s2 a n) (h1 : OneLine n) :
    ∃ s3, s3.env = s2.env ∧ (∃ v, Evaluates e (.apply fn args [] loc) s v s3 ∧ v.text? = some (n ++ w)) ∧
      ∀ ind cut rest o, Generates e .no false rest s3 o →
        Generates e ind cut (.apply fn args [] loc :: rest) s (o.after (blockAt e.cfg ind (n ++ w))) := by
  have hc : completed (fun _ => n) [.name a, .plain w] = n ++ w := by simp [completed]
  rw [← hc]
  refine C103_template e fn text decl c0 args loc s s1 s2 hf ha [.name a, .plain w] (by rw [htext]; simp [written, lit])
    ⟨haf, hw, by simp, trivial⟩ (by simp) (by rw [htext]; simp [lit]) hk (fun _ => n) ?_
  intro b h
  have : b = a := by simpa using h
  subst this
  exact ⟨hn, h1⟩

/-- Plain texts with a blank between them. -/
theorem plainOk_blank {m : Mode} {u v : Str} (hu : PlainOk m u) (hv : PlainOk m (' ' :: v)) : PlainOk m (u ++ ' ' :: v) := by
  refine ⟨by simp, ?_, ?_⟩
  · intro c hc
    rcases List.mem_append.1 hc with h | h
    · exact hu.2.1 c h
    · exact hv.2.1 c h
  · intro a b hab
    rcases List.append_eq_append_iff.1 hab with ⟨c, rfl, hc⟩ | ⟨c, rfl, hc⟩
    · exact hv.2.2 c b hc
    · subst hc
      cases c with
      | nil => exact hv.2.2 [] _ rfl
      | cons d c =>
        obtain ⟨k1, k2, k3⟩ := hu.2.2 a (d :: c) rfl
        have key : ∀ x y : Char, y ≠ ' ' → ¬ [x, y] <+: d :: c → ¬ [x, y] <+: d :: c ++ ' ' :: v := by
          intro x y hy hn h
          cases c with
          | nil => simp [List.cons_prefix_cons] at h; exact hy h.2
          | cons d' c => simp [List.cons_prefix_cons] at h hn; exact hn h.1 h.2
        refine ⟨key _ _ (by decide) k1, key _ _ (by decide) k2, ?_⟩
        cases hr : m.remarks with
        | none => exact id
        | c =>
          rw [hr] at k3
          exact fun h => h.elim (key _ _ (by decide) (fun h => k3 (.inl h))) (key _ _ (by decide) (fun h => k3 (.inr h)))
        | python =>
          rw [hr] at k3
          intro h
          exact k3 (by simpa [StartsRemark, List.cons_prefix_cons] using h)

/-- **C103.** A macro with the text `($h-name)u($p)v`, as `var` and `var-c`, called with a plain text: the name, the text between
    `u` and `v`. -/
theorem C103_around (e : EEnv) (fn : Node) (text decl : Src) (c0 : Option Src) (args : List Node) (x : Node) (d : Str) (loc : Option Loc)
    (s s1 s2 : ESt) {a p u v : Str} (hf : Evaluates e fn s (.mclosure text [(p, .bound)] decl c0) s1)
    (htext : text.txt = lit "($" ++ a ++ lit ")" ++ u ++ lit " ($" ++ p ++ lit ")" ++ ' ' :: v)
    (haf : FreeName a) (hpf : FreeName p) (hne : a ≠ p) (hpv : p ≠ vaArgs)
    (hu : PlainOk (modeOf e.pe) u) (hd : PlainOk (modeOf e.pe) (' ' :: d)) (hv : PlainOk (modeOf e.pe) (' ' :: v))
    (ha : Args e args s1 [x] s2) (hx : Value x) (hxn : x ≠ .none) (ht : ArgText x d)
    (hk : e.pe.outputPython = true → e.pe.inputFile ≠ natStr s2.p.world.inclusion.length)
    (n : Str) (hn : Stands e s2 a n) (h1 : OneLine n) :
    ∃ s3, s3.env = s2.env ∧ (∃ y, Evaluates e (.apply fn args [] loc) s y s3 ∧ y.text? = some (n ++ u ++ ' ' :: d ++ ' ' :: v)) ∧
      ∀ ind cut rest o, Generates e .no false rest s3 o →
        Generates e ind cut (.apply fn args [] loc :: rest) s (o.after (blockAt e.cfg ind (n ++ u ++ ' ' :: d ++ ' ' :: v))) := by
  have hc : completed (fun _ => n) [.name a, .plain (u ++ ' ' :: d ++ ' ' :: v)] = n ++ u ++ ' ' :: d ++ ' ' :: v := by simp [completed]
  rw [← hc]
  have hp := name_noParens hpf.name
  have hq : PlainOk (modeOf e.pe) (u ++ ' ' :: d ++ ' ' :: v) := plainOk_blank (plainOk_blank hu hd) hv
  have hokρ : NamesOk ([p].zip [d]) := by intro q hq; simp at hq; subst hq; exact hp
  refine C103_expanded e fn text decl c0 [p] args [x] [d] loc s s1 s2 hf ha (by simp) rfl (by simp) (by simpa using hpv.symm)
    (by simpa using hx) (by simpa using hxn) (.cons ht .nil) hokρ
    [.name a, .plain (u ++ ' ' :: d ++ ' ' :: v)] ?_ ⟨haf, hq, by simp, trivial⟩ (by simpa using hne.symm) (by simp) (by simp [written]) hk (fun _ => n) ?_
  · have hw : text.txt = written [.name a, .plain (u ++ [' ']), .name p, .plain (' ' :: v)] := by rw [htext]; simp [written, lit]
    have hu' : PlainOk (modeOf e.pe) (u ++ [' ']) :=
      plainOk_blank hu (plainOk_of_check _ (by simp) (by decide))
    have hsl : SlotsOk (modeOf e.pe) [.name a, .plain (u ++ [' ']), .name p, .plain (' ' :: v)] := ⟨haf, hu', by simp, hpf, hv, by simp, trivial⟩
    rw [hw, C103_substitute hokρ hsl]
    have h3 : decide (p = a) = false := decide_eq_false hne.symm
    simp [putArgs, written, h3]
  · intro b h
    have : b = a := by simpa using h
    subst this
    exact ⟨hn, h1⟩


/-! ## The lines of the file -/

/-- A macro with this name, these parameters and this text. -/
def isMacroWith (name : Str) (params : List Str) (body : Str) : Node → Bool
  | .macro v ps t => decide (v.txt = name) && decide (ps.map (·.txt) = params) && decide (t.txt = body)
  | _ => false

theorem isMacroWith_sound {name body : Str} {params : List Str} {d : Node} (h : isMacroWith name params body d = true) :
    ∃ v ps t, d = .macro v ps t ∧ v.txt = name ∧ ps.map (·.txt) = params ∧ t.txt = body := by
  unfold isMacroWith at h
  split at h
  · simp only [Bool.and_eq_true, decide_eq_true_eq] at h
    exact ⟨_, _, _, rfl, h.1.1, h.1.2, h.2⟩
  · cases h

/-- The text `l`, parsed, is one definition: of the macro `name` with the parameters `params` and the text `body`. -/
def DefinesMacro (l name : Str) (params : List Str) (body : Str) : Prop :=
  ∃ (n : Nat) (v : Src) (ps : List Src) (t : Src) (st : PSt),
    (P { inputFile := ['a'] } n).parse ['a'] (PSt.start { inputFile := ['a'] } none l) = .ok ([.macro v ps t], st) ∧
    v.txt = name ∧ ps.map (·.txt) = params ∧ t.txt = body

theorem definesMacro_of {l name body : Str} {params : List Str} (h : parsedAlone 100 l (isMacroWith name params body) = true) :
    DefinesMacro l name params body := by
  obtain ⟨d, p, h1, h2⟩ := parsedAlone_sound h
  obtain ⟨v, ps, t, rfl, h3, h4, h5⟩ := isMacroWith_sound h2
  exact ⟨100, v, ps, t, p, h1, h3, h4, h5⟩

set_option maxRecDepth 100000 in
/-- **C103.** The macros that the theorems are about are those of the file `lib/h.yu`. -/
theorem C103_library :
    DefinesMacro hEndLines (lit "h-end") [] hEndText ∧
    DefinesMacro externLine (lit "extern") [] (lit "($" ++ hName ++ lit ")" ++ lit "_EXT") ∧
    DefinesMacro externCLine (lit "extern-c") [] (lit "($" ++ hName ++ lit ")" ++ lit "_EXT_C") ∧
    DefinesMacro inlineLine (lit "inline") [] (lit "($" ++ hName ++ lit ")" ++ lit "_INL") ∧
    DefinesMacro varLine (lit "var") [lit "dec"]
      (lit "($" ++ hName ++ lit ")" ++ lit "_VAR(" ++ lit " ($" ++ lit "dec" ++ lit ")" ++ ' ' :: lit ");") ∧
    DefinesMacro varCLine (lit "var-c") [lit "dec"]
      (lit "($" ++ hName ++ lit ")" ++ lit "_VAR_C(" ++ lit " ($" ++ lit "dec" ++ lit ")" ++ ' ' :: lit ");") :=
  ⟨definesMacro_of (by decide +kernel), definesMacro_of (by decide +kernel), definesMacro_of (by decide +kernel),
    definesMacro_of (by decide +kernel), definesMacro_of (by decide +kernel), definesMacro_of (by decide +kernel)⟩

/-! Examples. -/

theorem free_dec : FreeName (lit "dec") where
  name := ⟨'d', ['e', 'c'], rfl, .inl (by decide), by intro x hx; unfold NameChar NameStart; revert x hx; decide⟩
  keyword := by intro r; simp [NoKeyword, lit]
  directive := by intro r; simp [NoDirective, lit]

theorem oneLine_foo : OneLine (lit "FOO") := by
  refine ⟨by decide, fun c hc => ?_⟩
  obtain rfl : 'F' = c := by simpa [lit] using hc
  decide

/-- `($extern)` in a header with the name `FOO`. -/
example (e : EEnv) (decl m : Src) (s : ESt) (hm : Scopes.lookup s.env m.txt = some (.mclosure ⟨lit "($h-name)_EXT", none⟩ [] decl none))
    (hh : Scopes.lookup s.env hName = some (.pstr (lit "FOO"))) (hk : e.pe.outputPython = false) :
    ∃ v s3, Evaluates e (.apply (.var false [] m) [] [] none) s v s3 ∧ v.text? = some (lit "FOO_EXT") := by
  obtain ⟨s3, -, ⟨v, h1, h2⟩, -⟩ := C103_suffix e (.var false [] m) ⟨lit "($h-name)_EXT", none⟩ decl none [] none s s s
    (evaluates_iff.2 (var_value hm (by simp))) (a := hName) (w := lit "_EXT") rfl free_hName (plainOk_of_check _ (by decide) (by decide)) (.nil s)
    (by simp [hk]) (lit "FOO") (.value hh (.pstr _) (by simp)) oneLine_foo
  exact ⟨v, s3, h1, h2⟩

/-- `($var,,bool plugh)` -/
example (e : EEnv) (decl m : Src) (s : ESt)
    (hm : Scopes.lookup s.env m.txt = some (.mclosure ⟨lit "($h-name)_VAR( ($dec) );", none⟩ [(lit "dec", .bound)] decl none))
    (hh : Scopes.lookup s.env hName = some (.pstr (lit "FOO"))) (hk : e.pe.outputPython = false) :
    ∃ v s3, Evaluates e (.apply (.var false [] m) [.pstr (lit "bool plugh")] [] none) s v s3 ∧ v.text? = some (lit "FOO_VAR( bool plugh );") := by
  obtain ⟨s3, -, ⟨v, h1, h2⟩, -⟩ := C103_around e (.var false [] m) ⟨lit "($h-name)_VAR( ($dec) );", none⟩ decl none [.pstr (lit "bool plugh")]
    (.pstr (lit "bool plugh")) (lit "bool plugh") none s s s (a := hName) (p := lit "dec") (u := lit "_VAR(") (v := lit ");")
    (evaluates_iff.2 (var_value hm (by simp))) rfl free_hName free_dec (by decide) (by decide)
    (plainOk_of_check _ (by decide) (by decide)) (plainOk_of_check _ (by decide) (by decide)) (plainOk_of_check _ (by decide) (by decide))
    (.one (evaluates_iff.2 (ev_value e (.pstr _) s)) (by simp) (by simp) (.nil s)) (.pstr _) (by simp) (.pstr _)
    (by simp [hk]) (lit "FOO") (.value hh (.pstr _) (by simp)) oneLine_foo
  exact ⟨v, s3, h1, h2⟩

/-- `($h-end)` -/
example (e : EEnv) (decl m : Src) (s : ESt) (hm : Scopes.lookup s.env m.txt = some (.mclosure ⟨hEndText, none⟩ [] decl none))
    (hh : Scopes.lookup s.env hName = some (.pstr (lit "FOO"))) (hk : e.pe.outputPython = false) (hsk : e.pe.skip = .none) :
    ∃ v s3, Evaluates e (.apply (.var false [] m) [] [] none) s v s3 ∧ v.text? = some (headerEnd (lit "FOO")) := by
  obtain ⟨s3, -, ⟨v, h1, h2⟩, -⟩ := C103_h_end e (.var false [] m) ⟨hEndText, none⟩ decl none [] none s s s
    (evaluates_iff.2 (var_value hm (by simp))) rfl (.nil s) (by simp [hsk])
    (by simp [hk]) (lit "FOO") (.value hh (.pstr _) (by simp)) oneLine_foo
  exact ⟨v, s3, h1, h2⟩

/-- A text of two lines in the place of a name that is indented: the second line gets the indent. -/
example (cfg : Config) (val : Str → Option Str) (hc : cfg.trimAppIndent = true) (hb : cfg.browse = false) (hv : val (lit "a") = some (lit "x\ny")) :
    Filled cfg val true (.str []) false (.chars (lit "{\n  ") (.expr (.app (.name false [] (lit "a")) .nil .nil) (.chars (lit "\n}") .nil)))
      (lit "{\n  x\n  y\n}") := by
  have hi : Indented true (lit "{\n  ") (.str [' ', ' ']) :=
    Indented.step (w := ['{', '\n', ' ']) (Indented.step (w := ['{', '\n']) (Indented.step (w := ['{']) (Indented.step (w := []) (.base true) '{') '\n') ' ') ' '
  obtain ⟨i, hj⟩ := indented_total false (lit "\n}")
  have := Filled.chars (cfg := cfg) (val := val) (ind := .str []) (cut := false) hi
    (Filled.name (cfg := cfg) (f := false) (cut := false) (ind := .str [' ', ' ']) hv (.chars (cut := false) hj .nil))
  have h2 : blockAt cfg (.str [' ', ' ']) (lit "x\ny") = lit "x\n  y" := by
    simp only [blockAt, reindent, hb, Bool.false_eq_true, if_false]
    unfold trim
    rw [hc]
    decide +kernel
  rw [h2] at this
  simpa [fragment, lit] using this

end Yupp
