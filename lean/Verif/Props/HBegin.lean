import Verif.Spec.HBegin
import Verif.Props.HLib
import Verif.Props.Letters
import Verif.Props.ModuleScope
import Verif.Lemmas.KernelRfl
/-!
# C104 — The header guard of `lib/h.yu`
-/

namespace Yupp
open Spec

/-! ## A template in front of other pieces -/

section
variable {e : EEnv} {s : ESt}

/-- **C104.** A text with inserted names in front of other pieces: the filled text comes before theirs. -/
theorem C104_then {val : Str → Option Str} (hval : ∀ a t, val a = some t → Stands e s a t) {f cut : Bool} {ind : Indent}
    {xs : ExprText} {t : Str} (h : Filled e.cfg val f ind cut xs t) {ind' : Indent} {cut' : Bool} (hl : Leads f ind cut xs ind' cut')
    {nodes : List Node} (hx : TextTrees f xs nodes) {rest : List Node} {o : Yield} (ho : Generates e ind' cut' rest s o) :
    Generates e ind cut (nodes ++ rest) s (o.after t) := by
  induction h generalizing nodes with
  | nil => cases hx; cases hl; rw [after_nil]; exact ho
  | @chars _ _ cut _ _ _ _ hi _ ih =>
    cases hl with
    | chars hi' hl =>
    rw [← indented_det hi hi'] at hl
    cases hx with
    | @chars _ w j _ _ hj hx =>
      rw [indented_det hi hj] at ih hl
      have := Generates.plain (cut := cut) (w := w) (c := false) (ih hl hx)
      rw [Bool.or_false, after_after] at this
      exact this
  | str _ ih =>
    cases hl with
    | str hl =>
    cases hx with
    | @str _ w _ _ hx =>
      rw [← after_after]
      exact .item (x := .str w) ⟨(by rintro ⟨_, _, _, h⟩; cases h), by simp⟩ ⟨1, rfl⟩ (data_item (.str w) (by simp)) (.str w) (ih hl hx)
  | remark _ ih =>
    cases hl with
    | remark hl =>
    cases hx with
    | @remark _ w _ _ hx =>
      rw [← after_after]
      exact .item (x := .remark w) ⟨(by rintro ⟨_, _, _, h⟩; cases h), by simp⟩ ⟨1, rfl⟩ (data_item (.remark w) (by simp)) (.remark w) (ih hl hx)
  | comment _ ih => cases hl with | comment hl => cases hx with | comment hx => exact .comment (ih hl hx)
  | @name _ ind cut a xs t u hv _ ih =>
    cases hl with
    | expr hl =>
    cases hx with
    | expr _ hn hx =>
      cases hn with
      | @app _ _ _ n ns ms l hf ha hm =>
        cases ha
        cases hm
        generalize hz : Expr.name false [] a = z at hf
        cases hf <;> first | (cases hz; done) | skip
        injection hz with h1 h2 h3
        subst h1
        next rs b =>
        subst h3
        obtain rfl : rs = [] := by simpa using h2.symm
        obtain ⟨v, h4, h5, h6, h7⟩ := stands_value (hval _ _ hv) l
        have := Generates.item (ind := ind) (cut := cut) ⟨(by rintro ⟨_, _, _, h⟩; cases h), by simp⟩ h4 (data_item h5 h6) (data_final h5) (ih hl hx)
        have hi : itemText e ind (.apply (.var false [] b) [] [] l) v = blockAt e.cfg ind u := by
          rw [← h7]
          cases ind <;> rfl
        rwa [hi, after_after] at this

end

/-- A template that ends with a line end leads to the beginning of a line. -/
theorem slots_lead : ∀ (ps : List Slot) (w : Str) (f : Bool) (ind : Indent) (cut : Bool),
    Leads f ind cut (slotsExpr (ps ++ [.plain (w ++ ['\n'])])) (.str []) false
  | [], w, f, ind, cut =>
    .chars (.line (a := w) (b := []) (c := '\n') (.inl rfl) (by intro c hc; cases hc)) (by
      simp only [indentBehind, reduceCtorEq, if_false, slotsExpr]
      exact .nil)
  | .plain v :: ps, w, f, ind, cut => by
    obtain ⟨i, hi⟩ := indented_total f v
    exact .chars hi (slots_lead ps w _ _ _)
  | .quoted v :: ps, w, f, ind, cut => .str (slots_lead ps w _ _ _)
  | .name v :: ps, w, f, ind, cut => .expr (slots_lead ps w _ _ _)

/-! ## The pieces of `h-begin` -/

/-- As `plainCheck`, number signs and slashes being allowed. -/
def rawCheck : Str → Bool
  | [] => true
  | c :: s => (decide (c = '\t' ∨ c = '\n' ∨ c = '\r' ∨ (' ' ≤ c ∧ c ≤ 'ÿ'))) && c != '"' && c != '\'' &&
      !(c == '(' && (s.head? == some '$' || s.head? == some '`')) && rawCheck s

theorem rawCheck_spec {m : Mode} (hm : m.remarks = .none) : ∀ {w : Str}, rawCheck w = true →
    (∀ c ∈ w, Yupp.Admissible c ∧ ¬ QuoteMark c) ∧
    ∀ a b, w = a ++ b → ¬ ['(', '$'] <+: b ∧ ¬ ['(', '`'] <+: b ∧ ¬ StartsRemark m.remarks b := by
  intro w
  induction w with
  | nil =>
    intro _
    refine ⟨(fun _ h => by cases h), fun a b h => ?_⟩
    obtain ⟨rfl, rfl⟩ := List.append_eq_nil_iff.mp h.symm
    refine ⟨by simp, by simp, ?_⟩
    rw [hm]; exact id
  | cons c w ih =>
    intro h
    unfold rawCheck at h
    simp only [Bool.and_eq_true, decide_eq_true_eq, bne_iff_ne, ne_eq, Bool.not_eq_true', Bool.and_eq_false_iff,
      Bool.or_eq_false_iff, beq_eq_false_iff_ne] at h
    obtain ⟨⟨⟨⟨h1, h2⟩, h3⟩, h6⟩, h7⟩ := h
    obtain ⟨i1, i2⟩ := ih h7
    refine ⟨fun d hd => ?_, fun a b hab => ?_⟩
    · rcases List.mem_cons.mp hd with rfl | hd
      · exact ⟨h1, fun hq => hq.elim h2 h3⟩
      · exact i1 d hd
    · cases a with
      | cons d a =>
        simp only [List.cons_append, List.cons.injEq] at hab
        exact i2 a b hab.2
      | nil =>
        rw [List.nil_append] at hab
        subst hab
        refine ⟨?_, ?_, ?_⟩
        · rintro ⟨t, ht⟩
          simp only [List.cons_append, List.cons.injEq, List.nil_append] at ht
          rcases h6 with h6 | h6
          · exact h6 ht.1.symm
          · exact h6.1 (by rw [← ht.2]; rfl)
        · rintro ⟨t, ht⟩
          simp only [List.cons_append, List.cons.injEq, List.nil_append] at ht
          rcases h6 with h6 | h6
          · exact h6 ht.1.symm
          · exact h6.2 (by rw [← ht.2]; rfl)
        · rw [hm]; exact id

/-- A test for templates whose names are all `h-name`. -/
def slotsCheck : List Slot → Bool
  | [] => true
  | .plain w :: ps => !w.isEmpty && rawCheck w && (match ps with | .plain _ :: _ => false | _ => true) && slotsCheck ps
  | .quoted w :: ps => w.all (fun c => c != '"' && c != '\\' && c != '(') && slotsCheck ps
  | .name a :: ps => decide (a = hName) && slotsCheck ps

theorem slotsCheck_sound {m : Mode} (hm : m.remarks = .none) (hp : m.python = false) : ∀ {ps : List Slot}, slotsCheck ps = true →
    SlotsOk m ps ∧ ∀ a, .name a ∈ ps → a = hName
  | [], _ => ⟨trivial, by simp⟩
  | .plain w :: ps, h => by
    simp only [slotsCheck, Bool.and_eq_true, Bool.not_eq_true', List.isEmpty_eq_false_iff] at h
    obtain ⟨⟨⟨h1, h2⟩, h3⟩, h4⟩ := h
    obtain ⟨i1, i2⟩ := slotsCheck_sound hm hp h4
    refine ⟨⟨⟨h1, (rawCheck_spec hm h2).1, (rawCheck_spec hm h2).2⟩, ?_, i1⟩, by simpa using i2⟩
    rintro u qs rfl
    cases h3
  | .quoted w :: ps, h => by
    simp only [slotsCheck, Bool.and_eq_true, List.all_eq_true, bne_iff_ne] at h
    obtain ⟨i1, i2⟩ := slotsCheck_sound hm hp h.2
    exact ⟨⟨hp, fun c hc => ⟨(h.1 c hc).1.1, (h.1 c hc).1.2, (h.1 c hc).2⟩, i1⟩, by simpa using i2⟩
  | .name a :: ps, h => by
    simp only [slotsCheck, Bool.and_eq_true, decide_eq_true_eq] at h
    obtain ⟨i1, i2⟩ := slotsCheck_sound hm hp h.2
    refine ⟨⟨h.1 ▸ free_hName, i1⟩, fun b hb => ?_⟩
    rcases List.mem_cons.1 hb with hb | hb
    · injection hb with hb; exact hb.trans h.1
    · exact i2 b hb

/-- The pieces of `h-begin` behind its definition. -/
def hBeginSlots : List Slot :=
  [.plain (lit "\n#ifndef "),
   .name hName,
   .plain (lit "_H\n#define "),
   .name hName,
   .plain (lit "_H\n\n#ifdef  "),
   .name hName,
   .plain (lit "_IMPLEMENT\n#define "),
   .name hName,
   .plain (lit "_EXT\n#define "),
   .name hName,
   .plain (lit "_INIT( ... ) \\\n\t= __VA_ARGS__\n\n#ifdef __cplusplus\n#define "),
   .name hName,
   .plain (lit "_EXT_C \\\n\textern "),
   .quoted ['C'],
   .plain (lit "\n#else\n#define "),
   .name hName,
   .plain (lit "_EXT_C \\\n\textern\n#endif\n\n#define "),
   .name hName,
   .plain (lit "_VAR( decl ) \\\n\tdecl\n#define "),
   .name hName,
   .plain (lit "_VAR_INIT( decl, ... ) \\\n\tdecl = __VA_ARGS__\n\n#ifdef __cplusplus\n#define "),
   .name hName,
   .plain (lit "_VAR_C( decl ) \\\n\textern "),
   .quoted ['C'],
   .plain (lit " decl; decl\n#define "),
   .name hName,
   .plain (lit "_VAR_C_INIT( decl, ... ) \\\n\textern "),
   .quoted ['C'],
   .plain (lit " decl; decl = __VA_ARGS__\n#else\n#define "),
   .name hName,
   .plain (lit "_VAR_C( decl ) \\\n\tdecl\n#define "),
   .name hName,
   .plain (lit "_VAR_C_INIT( decl, ... ) \\\n\tdecl = __VA_ARGS__\n#endif\n\n#define "),
   .name hName,
   .plain (lit "_INL\n\n#else  /* "),
   .name hName,
   .plain (lit "_IMPLEMENT */\n#define "),
   .name hName,
   .plain (lit "_EXT \\\n\textern\n#define "),
   .name hName,
   .plain (lit "_INIT( ... )\n\n#ifdef __cplusplus\n#define "),
   .name hName,
   .plain (lit "_EXT_C \\\n\textern "),
   .quoted ['C'],
   .plain (lit "\n#else\n#define "),
   .name hName,
   .plain (lit "_EXT_C \\\n\textern\n#endif\n\n#define "),
   .name hName,
   .plain (lit "_VAR( decl ) \\\n\textern decl\n#define "),
   .name hName,
   .plain (lit "_VAR_INIT( decl, ... ) \\\n\textern decl\n\n#ifdef __cplusplus\n#define "),
   .name hName,
   .plain (lit "_VAR_C( decl ) \\\n\textern "),
   .quoted ['C'],
   .plain (lit " decl\n#define "),
   .name hName,
   .plain (lit "_VAR_C_INIT( decl, ... ) \\\n\textern "),
   .quoted ['C'],
   .plain (lit " decl\n#else\n#define "),
   .name hName,
   .plain (lit "_VAR_C( decl ) \\\n\textern decl\n#define "),
   .name hName,
   .plain (lit "_VAR_C_INIT( decl, ... ) \\\n\textern decl\n#endif\n\n#if __GNUC__ && !__GNUC_STDC_INLINE__\n#define "),
   .name hName,
   .plain (lit "_INL \\\n\textern inline\n#else\n#define "),
   .name hName,
   .plain (lit "_INL \\\n\tinline\n#endif\n\n#endif /* "),
   .name hName,
   .plain (lit "_IMPLEMENT */\n")]

theorem hBegin_written : hBeginBody = written hBeginSlots := by decide +kernel

theorem hBegin_checked : slotsCheck hBeginSlots = true := by decide +kernel

theorem hBegin_first : ∃ ps, hBeginSlots = .plain (lit "\n#ifndef ") :: ps := ⟨_, rfl⟩

theorem hBegin_last : ∃ ps w, hBeginSlots = ps ++ [.plain (w ++ ['\n'])] := ⟨hBeginSlots.take 68, lit "_IMPLEMENT */", rfl⟩

theorem hBegin_guard : ∃ w ps, hBeginSlots = [.plain (lit "\n#ifndef "), .name hName, .plain (lit "_H\n#define "), .name hName, .plain (lit "_H\n" ++ w)] ++ ps :=
  ⟨lit "\n#ifdef  ", hBeginSlots.drop 5, rfl⟩

attribute [local irreducible] hBeginBody hBeginSlots

theorem putArgs_completed {n : Str} : ∀ {ps : List Slot}, (∀ a, .name a ∈ ps → a = hName) → putArgs [(hName, n)] ps = completed (fun _ => n) ps
  | [], _ => rfl
  | .plain _ :: ps, h => by simp [putArgs, completed, putArgs_completed (ps := ps) (fun a ha => h a (List.mem_cons_of_mem _ ha))]
  | .quoted _ :: ps, h => by simp [putArgs, completed, putArgs_completed (ps := ps) (fun a ha => h a (List.mem_cons_of_mem _ ha))]
  | .name a :: ps, h => by
    have := h a (List.mem_cons_self ..)
    subst this
    simp [putArgs, completed, putArgs_completed (ps := ps) (fun a ha => h a (List.mem_cons_of_mem _ ha))]

theorem header_pieces {qs : List Slot} (hc : slotsCheck qs = true) (n : Str) : substitute [(hName, n)] (written qs) = completed (fun _ => n) qs := by
  obtain ⟨h1, h2⟩ := slotsCheck_sound (m := ⟨false, .none⟩) rfl rfl hc
  have hok : NamesOk [(hName, n)] := by intro q hq; simp at hq; subst hq; exact name_noParens free_hName.name
  rw [C103_substitute hok h1, putArgs_completed h2]

/-- The beginning of the header, piece by piece. -/
theorem headerBegin_pieces (n : Str) : headerBegin n = completed (fun _ => n) hBeginSlots := by
  unfold headerBegin
  rw [hBegin_written, header_pieces hBegin_checked]


/-! ## The call -/

theorem putArgs_other {p n : Str} (hp : p ≠ hName) : ∀ {ps : List Slot}, (∀ a, .name a ∈ ps → a = hName) → putArgs [(p, n)] ps = written ps
  | [], _ => rfl
  | .plain _ :: ps, h => by simp [putArgs, written, putArgs_other hp (ps := ps) (fun a ha => h a (List.mem_cons_of_mem _ ha))]
  | .quoted _ :: ps, h => by simp [putArgs, written, putArgs_other hp (ps := ps) (fun a ha => h a (List.mem_cons_of_mem _ ha))]
  | .name a :: ps, h => by
    have := h a (List.mem_cons_self ..)
    subst this
    simp [putArgs, written, putArgs_other hp (ps := ps) (fun a ha => h a (List.mem_cons_of_mem _ ha)), hp]

/-- The parameter of `h-begin` and `implement`. -/
def hParam : Str := ['n', 'a', 'm', 'e']

theorem hParam_ok (n : Str) : NamesOk [(hParam, n)] := by
  intro q hq
  simp only [List.mem_singleton] at hq
  subst hq
  exact (by decide : '(' ∉ hParam ∧ ')' ∉ hParam)

/-- The definition at the beginning of the text, with the argument. -/
def hBeginHead (n r : Str) : Str :=
  '(' :: '$' :: 's' :: 'e' :: 't' :: ' ' :: (hName ++ ' ' :: '(' :: '$' :: 'u' :: 'p' :: 'p' :: 'e' :: 'r' :: ' ' :: (n ++ ')' :: ')' :: r))

theorem hBegin_start (n r : Str) : substitute [(hParam, n)] (lit "\n($set h-name ($upper ($name)))" ++ r) =
    '\n' :: hBeginHead n (substitute [(hParam, n)] r) := by
  kernel_rfl

section
variable {qs : List Slot} (hc : slotsCheck qs = true)
include hc

theorem hBegin_substituted (n : Str) : substitute [(hParam, n)] (lit "\n($set h-name ($upper ($name)))" ++ written qs) =
    '\n' :: hBeginHead n (written qs) := by
  obtain ⟨h2, h3⟩ := slotsCheck_sound (m := ⟨false, .none⟩) rfl rfl hc
  rw [hBegin_start, C103_substitute (hParam_ok n) h2, putArgs_other (by decide) h3]

end

/-- What `h-begin` is read as, `qs` being the pieces behind its definition. -/
def hBeginExpr (qs : List Slot) (n : Str) : ExprText :=
  .chars ['\n'] (.set (.one hName) (.app (.name false [] ['u', 'p', 'p', 'e', 'r']) (.pos (.name false [] n) .nil) .nil) (slotsExpr qs))

theorem name_upper : Yupp.IsName ['u', 'p', 'p', 'e', 'r'] :=
  ⟨'u', ['p', 'p', 'e', 'r'], rfl, .inl (by decide), by intro x hx; unfold NameChar NameStart; revert x hx; decide⟩

theorem upper_reads {m : Mode} {n : Str} (hn : Yupp.IsName n) (r : Str) :
    Reads m (.body (.app (.name false [] ['u', 'p', 'p', 'e', 'r']) (.pos (.name false [] n) .nil) .nil))
      ('(' :: '$' :: 'u' :: 'p' :: 'p' :: 'e' :: 'r' :: ' ' :: (n ++ ')' :: r)) r := by
  have hname := hn
  obtain ⟨k, t, hkt, hk1, -⟩ := hn
  have hk : ¬ GapChar k ∧ k ≠ '?' ∧ k ≠ '\\' := by
    refine ⟨(nameChar_plain (.inl hk1)).2.1, ?_, ?_⟩ <;> (rintro rfl; revert hk1; unfold NameStart; decide)
  have h0 : Reads m (.form (.name false [] ['u', 'p', 'p', 'e', 'r'])) ('u' :: 'p' :: 'p' :: 'e' :: 'r' :: ' ' :: (n ++ ')' :: r)) (n ++ ')' :: r) := by
    rw [hkt]
    exact form_space (.name (t := ['u', 'p', 'p', 'e', 'r']) (.plain name_upper) (ended_space _)) hk.1 hk.2.1
  exact .app (g := []) isGap_nil (.inr (by simp [NoKeyword])) h0
    (.arg (notNamed_of (by rw [hkt]; simp [hk.2.2])) (form_shut (.name (.plain hname) (ended_close r))) .argsEnd)

theorem hBegin_reads {qs : List Slot} (hc : slotsCheck qs = true) {m : Mode} (hm : m.remarks = .none) (hp : m.python = false) {n : Str}
    (hn : Yupp.IsName n) : Reads m (.text .file 0 0 (hBeginExpr qs n)) ('\n' :: hBeginHead n (written qs)) [] := by
  obtain ⟨h2, -⟩ := slotsCheck_sound hm hp hc
  refine ahead_chars (w := ['\n']) (plainOk_of_check m (by simp) (by decide)) rfl ?_ (fun sq d => ?_)
  · intro c hc
    obtain rfl : '(' = c := by injection hc
    exact .inl rfl
  · have h := Reads.textSet (m := m) (k := .file) (sq := sq) (pth := d) (g1 := [' ']) (g2 := [' ']) isGap_space (.one free_hName.name) isGap_space
      (form_shut (.former (upper_reads hn (')' :: written qs)))) .plain (.inl (noName_cons (by unfold NameChar NameStart; decide) _))
      (pieces_reads h2 sq d)
    exact h

theorem hBegin_unmarked {qs : List Slot} (hc : slotsCheck qs = true) {n : Str} (hn : Yupp.IsName n) :
    Unmarked [(hParam, n)] ('\n' :: hBeginHead n (written qs)) := by
  obtain ⟨h2, h3⟩ := slotsCheck_sound (m := ⟨false, .none⟩) rfl rfl hc
  have hb : Unmarked [(hParam, n)] (written qs) := by
    refine written_unmarked (hParam_ok n) h2 ?_
    intro p hp h
    simp only [List.mem_singleton] at hp
    subst hp
    exact absurd (h3 _ h) (by decide : hParam ≠ hName)
  intro p hp a b hab
  simp only [List.mem_singleton] at hp
  subst hp
  refine hb _ (List.mem_singleton.2 rfl) |> fun k => ?_
  have hin : ('(' :: '$' :: (hParam ++ [')'])) <:+: '\n' :: hBeginHead n (written qs) := ⟨a, b, by rw [hab]; simp⟩
  have h4 := infix_past (a := ['\n']) (by decide) hin
  unfold hBeginHead at h4
  rw [List.infix_cons_iff] at h4
  rcases h4 with h4 | h4
  · obtain ⟨_, h4⟩ := h4
    simp [hParam] at h4
  have h5 := infix_past (a := '$' :: 's' :: 'e' :: 't' :: ' ' :: (hName ++ [' '])) (by decide) (by simpa using h4)
  rw [List.infix_cons_iff] at h5
  rcases h5 with h5 | h5
  · obtain ⟨_, h5⟩ := h5
    simp [hParam] at h5
  have h6 : ('(' :: '$' :: (hParam ++ [')'])) <:+: written qs := by
    refine infix_past (a := '$' :: 'u' :: 'p' :: 'p' :: 'e' :: 'r' :: ' ' :: (n ++ [')', ')'])) ?_ (by simpa using h5)
    simp [(name_noParens hn).1]
  obtain ⟨x, y, hxy⟩ := h6
  exact k x y (by rw [← hxy]; simp)

theorem capital_of {P : Char → Prop} (hP : ∀ c ∈ capitalLetters, P c) {n u : Str} (h : EachChar Capital n u) (hn : ∀ c ∈ n, P c) : ∀ c ∈ u, P c := by
  induction h with
  | nil => simpa using hn
  | @cons c d t v hcd _ ih =>
    intro x hx
    rcases List.mem_cons.1 hx with rfl | hx
    · rcases hcd with ⟨i, -, hi⟩ | ⟨-, rfl⟩
      · exact hP _ (List.mem_of_getElem? hi)
      · exact hn _ (List.mem_cons_self ..)
    · exact ih (fun c hc => hn c (List.mem_cons_of_mem _ hc)) x hx

theorem nameChar_facts {c : Char} (h : NameChar c) : c.toNat < 128 ∧ isLineBreak c = false ∧ blankChar c = false := by
  have key : ∀ k : Fin 256, NameChar (Char.ofNat k.val) → (Char.ofNat k.val).toNat < 128 ∧ isLineBreak (Char.ofNat k.val) = false ∧
      blankChar (Char.ofNat k.val) = false := by
    unfold NameChar NameStart; decide +kernel
  have hlt : c.toNat < 256 := by
    have h1 : ∀ d : Char, c ≤ d → c.toNat ≤ d.toNat := fun d h => UInt32.le_iff_toNat_le.1 h
    rcases h with (h | h | h) | h | h
    · exact Nat.lt_of_le_of_lt (h1 _ h.2) (by decide)
    · exact Nat.lt_of_le_of_lt (h1 _ h.2) (by decide)
    · subst h; decide
    · exact Nat.lt_of_le_of_lt (h1 _ h.2) (by decide)
    · subst h; decide
  have := key ⟨c.toNat, hlt⟩
  simp only [Char.ofNat_toNat] at this
  exact this h

/-- A name in capital letters is a text of one line. -/
theorem capital_oneLine {n u : Str} (hn : Yupp.IsName n) (h : EachChar Capital n u) : OneLine u := by
  have hu : ∀ c ∈ u, isLineBreak c = false ∧ blankChar c = false :=
    capital_of (by decide) h (fun c hc => (nameChar_facts (isName_chars hn c hc)).2)
  exact ⟨fun c hc hx => Bool.eq_false_iff.1 (hu c hc).1 (isLineBreak_iff.2 hx), fun c hc => (hu c (List.mem_of_mem_head? hc)).2⟩

/-- A macro that defines the name of the header and gives the pieces `qs`, not in an indented line. -/
theorem header_begins {qs : List Slot} (hc : slotsCheck qs = true) (hfirst : ∃ ps, qs = .plain (lit "\n#ifndef ") :: ps)
    (hlast : ∃ ps w, qs = ps ++ [.plain (w ++ ['\n'])]) (e : EEnv) (x : BExt) (fn : Node) (text decl : Src) (c0 : Option Src) (args : List Node) (v : Node) (n : Str)
    (loc : Option Loc) (s s1 s2 : ESt) (hf : Evaluates e fn s (.mclosure text [(hParam, .bound)] decl c0) s1) (htext : text.txt = lit "\n($set h-name ($upper ($name)))" ++ written qs)
    (ha : Args e args s1 [v] s2) (hv : Value v) (hvn : v ≠ .none) (hvt : ArgText v n) (hn : Yupp.IsName n) (hb : Bare e s2 n)
    (hup : Standard e x (lit "upper")) (hub : Unbound (lit "upper") s2)
    (hsk : (modeOf e.pe).remarks = .none) (hpy : e.pe.outputPython = false) :
    ∃ s3 u, s3.env = s2.env ∧ EachChar Capital n u ∧
      ∀ ind cut rest o, (∀ c i, ind ≠ .str (c :: i)) → Generates e (.str []) false rest (push s3 [(hName, .pstr u)]) o →
        Generates e ind cut (.apply fn args [] loc :: rest) s (o.after ('\n' :: fragment e.cfg (substitute [(hName, u)] (written qs)) true)).leave := by
  have hsub : substitute ([hParam].zip [n]) text.txt = '\n' :: hBeginHead n (written qs) := by rw [htext]; exact hBegin_substituted hc n
  have hmp : (modeOf e.pe).python = false := by simp [modeOf, hpy]
  obtain ⟨nodes, s3, hx, hs3, hd, -, -⟩ := C82_macro e fn text decl c0 [hParam] args [v] [n] loc s s1 s2 hf ha (by simp) rfl (by simp) (by decide)
    (by simpa using hv) (by simpa using hvn) (.cons hvt .nil) (hParam_ok n) (by rw [hsub]; exact hBegin_unmarked hc hn)
    (by rw [hsub]; exact hBegin_reads hc hsk hmp hn) (by rw [hsub]; simp) (by simp [hpy])
  have henv : s3.env = s2.env := by rw [hs3]; rfl
  have hscr : s3.p.scripts = s2.p.scripts := by rw [hs3]; rfl
  obtain ⟨w, i, ms, rfl, hw, hi, hx1⟩ := text_chars hx
  obtain ⟨lv, y, ks, rfl, hlv, hy, hx2⟩ := text_set hx1
  obtain ⟨b, rfl, hbt⟩ := target_one hlv
  obtain ⟨g, ns, l, rfl, hg, hns⟩ := tree_app hy
  obtain ⟨f, rfl, hft⟩ := tree_name0 hg
  obtain ⟨a, ns', rfl, hta, hns⟩ := args_pos hns
  obtain rfl := args_nil hns
  obtain ⟨z, rfl, hzt⟩ := tree_name0 hta
  have hne : hName ≠ n := by rintro rfl; exact hb.noHyphen (by decide)
  have hz : Bare e (push s3 [(hName, .bound)]) z.txt := by
    rw [hzt]
    exact ⟨by rw [lookup_push_none (by simpa using hne), henv]; exact hb.unbound, by change e.builtin s3.p.scripts n = none; rw [hscr]; exact hb.notBuiltin,
      hb.notSpecial, hb.noHyphen⟩
  have hun : Unbound (lit "upper") (push s3 [(hName, .bound)]) := by
    unfold Unbound
    rw [lookup_push_none (by decide), henv]
    exact hub
  obtain ⟨u, hu, hcap⟩ := C86_letters (l := f.loc) (loc := l) (.inr (.inl ⟨rfl, rfl⟩)) hup hun
    (.one (bare_eval hz) (by simp) (by simp) (.nil _)) rfl (by rw [hzt]; exact fun c hc => (nameChar_facts (isName_chars hn c hc)).1)
  rw [hzt] at hcap
  refine ⟨s3, u, henv, hcap, fun ind cut rest o hind ho => ?_⟩
  refine (hd ⟨_, List.mem_cons_of_mem _ (List.mem_cons_self ..), _, _, rfl⟩ ind cut rest _).2 ?_
  have hput : ∀ xs, putIn ind xs = xs := by
    intro xs
    unfold putIn
    split
    · next c i => exact absurd rfl (hind c i)
    · rfl
  rw [hput]
  obtain rfl : i = .str [] := indented_det hi (.line (a := []) (b := []) (c := '\n') (.inl rfl) (by intro c hc; cases hc))
  have hset : Evaluates e (.set (.one b) (.apply (.var false [] f) [.var false [] z] [] l)) s3 (.env [(hName, .pstr u)]) s3 := by
    have := evaluates_set (e := e) (lval := .one b) (s := s3) (v := .pstr u) (s1 := push s3 [(hName, .bound)])
      (ast := .apply (.var false [] f) [.var false [] z] [] l) (by simp [lvalNames]) (by
        simp [LVal.isOutput, hbt, hName, lit]) (by
        have := hu
        rw [show lit "upper" = f.txt from hft.symm] at this
        simp only [lvalNames, List.map_cons, List.map_nil, hbt]
        exact this)
    simpa [bindings, hbt, pop, push] using this
  have hone := capital_oneLine hn hcap
  have hlook : Stands e (push s3 [(hName, .pstr u)]) hName u :=
    .value (v := .pstr u) (by rw [lookup_push]; simp [Frame.get]) (.pstr _) (by simp)
  let val : Str → Option Str := fun a => if a ∈ [hName] then some u else none
  have hval : ∀ a t, val a = some t → a = hName ∧ t = u := by
    intro a t h
    simp only [val, List.mem_singleton] at h
    split at h
    · next h1 => injection h with h; exact ⟨h1, h.symm⟩
    · cases h
  have hnames := (slotsCheck_sound (m := ⟨false, .none⟩) rfl rfl hc).2
  have hfill : Filled e.cfg val false (.str []) true (slotsExpr qs) (fragment e.cfg (substitute [(hName, u)] (written qs)) true) := by
    obtain ⟨ps, hps⟩ := hfirst
    rw [header_pieces hc, hps]
    obtain ⟨j, hj⟩ := indented_total false (lit "\n#ifndef ")
    have h1 := Filled.chars (cfg := e.cfg) (val := val) (ind := .str []) (cut := true) hj
      (C103_lines (cfg := e.cfg) (f := false) (ind := indentBehind (.str []) j) (val := val) (fun a t h => by rw [(hval a t h).2]; exact hone)
        (pieces_replaced (val := fun _ => u) (names := [hName]) (ps := ps)
          (fun a h => List.mem_singleton.2 (hnames a (by rw [hps]; exact List.mem_cons_of_mem _ h)))))
    have h2 : fragment e.cfg (lit "\n#ifndef ") true ++ completed (fun _ => u) ps =
        fragment e.cfg (completed (fun _ => u) (.plain (lit "\n#ifndef ") :: ps)) true := by
      unfold fragment
      split
      · rfl
      · rfl
    rw [← h2]
    exact h1
  have hlead : Leads false (.str []) true (slotsExpr qs) (.str []) false := by
    obtain ⟨ps, w, hps⟩ := hlast
    rw [hps]
    exact slots_lead ps w _ _ _
  have hrest := C104_then (e := e) (s := push s3 [(hName, .pstr u)]) (fun a t h => by obtain ⟨rfl, rfl⟩ := hval a t h; exact hlook) hfill hlead hx2 ho
  have hdef := Generates.definition (ind := .str []) (cut := false) ⟨(by rintro ⟨_, _, _, h⟩; cases h), by simp⟩ hset
    (xs := ks ++ rest) (by
      obtain ⟨ps, hps⟩ := hfirst
      rw [hps] at hx2
      obtain ⟨_, _, _, rfl, -⟩ := text_chars hx2
      simp) hrest
  have hall := Generates.plain (e := e) (ind := ind) (cut := false) (w := w) (i := .str []) (c := false) (xs := _) hdef
  have hleave : ∀ (p : Yield) (t : Str), p.leave.after t = (p.after t).leave := by intro p t; cases p <;> rfl
  rw [hw, hleave, after_after] at hall
  simpa [fragment] using hall

/-- **C104.** `($h-begin name)`, not in an indented line: the header begins, with the name in capital letters in all places,
    and the name of the header stays defined for what follows. -/
theorem C104_h_begin (e : EEnv) (x : BExt) (fn : Node) (text decl : Src) (c0 : Option Src) (args : List Node) (v : Node) (n : Str)
    (loc : Option Loc) (s s1 s2 : ESt) (hf : Evaluates e fn s (.mclosure text [(hParam, .bound)] decl c0) s1) (htext : text.txt = hBeginText)
    (ha : Args e args s1 [v] s2) (hv : Value v) (hvn : v ≠ .none) (hvt : ArgText v n) (hn : Yupp.IsName n) (hb : Bare e s2 n)
    (hup : Standard e x (lit "upper")) (hub : Unbound (lit "upper") s2)
    (hsk : (modeOf e.pe).remarks = .none) (hpy : e.pe.outputPython = false) :
    ∃ s3 u, s3.env = s2.env ∧ EachChar Capital n u ∧
      ∀ ind cut rest o, (∀ c i, ind ≠ .str (c :: i)) → Generates e (.str []) false rest (push s3 [(hName, .pstr u)]) o →
        Generates e ind cut (.apply fn args [] loc :: rest) s (o.after ('\n' :: fragment e.cfg (headerBegin u) true)).leave := by
  unfold headerBegin
  rw [hBegin_written]
  exact header_begins hBegin_checked hBegin_first hBegin_last e x fn text decl c0 args v n loc s s1 s2 hf
    (by rw [htext, ← hBegin_written]; rfl) ha hv hvn hvt hn hb hup hub hsk hpy

/-! ## `implement` -/

/-- What `implement` is read as. -/
def implementExpr (n : Str) : ExprText :=
  .chars ('\n' :: lit "#define ") (.expr (.app (.name false [] ['u', 'p', 'p', 'e', 'r']) (.pos (.name false [] n) .nil) .nil) (.chars (lit "_IMPLEMENT\n") .nil))

/-- The text of `implement`, with the argument. -/
def implementWith (n : Str) : Str :=
  ('\n' :: lit "#define ") ++ '(' :: '$' :: 'u' :: 'p' :: 'p' :: 'e' :: 'r' :: ' ' :: (n ++ ')' :: lit "_IMPLEMENT\n")

theorem implement_start (n : Str) : substitute [(hParam, n)] implementText =
    ('\n' :: lit "#define ") ++ '(' :: '$' :: 'u' :: 'p' :: 'p' :: 'e' :: 'r' :: ' ' :: (n ++ ')' :: substitute [(hParam, n)] (lit "_IMPLEMENT\n")) := by
  kernel_rfl

theorem implement_substituted (n : Str) : substitute [(hParam, n)] implementText = implementWith n := by
  rw [implement_start]; rfl

theorem implement_reads {m : Mode} (hm : m.remarks ≠ .python) {n : Str} (hn : Yupp.IsName n) :
    Reads m (.text .file 0 0 (implementExpr n)) (implementWith n) [] := by
  refine ahead_chars (w := '\n' :: lit "#define ") (plainOk_hash hm (by simp) (by decide)) rfl ?_ (fun sq d => ?_)
  · intro c hc
    obtain rfl : '(' = c := by injection hc
    exact .inl rfl
  · refine .textExpr (upper_reads hn _) ⟨_, rfl⟩ (by simp [NoDirective]) ?_
    have := ahead_chars (m := m) (sq := sq) (d := d) (w := lit "_IMPLEMENT\n") (s := []) (r := []) (xs := .nil)
      (plainOk_of_check m (by decide) (by decide)) rfl (by intro c hc; cases hc) (fun _ _ => .textEnd .file)
    rwa [List.append_nil] at this

theorem implement_unmarked {n : Str} (hn : Yupp.IsName n) : Unmarked [(hParam, n)] (implementWith n) := by
  intro p hp a b hab
  simp only [List.mem_singleton] at hp
  subst hp
  have hin : ('(' :: '$' :: (hParam ++ [')'])) <:+: implementWith n := ⟨a, b, by rw [hab]; simp⟩
  have h5 := infix_past (a := '\n' :: lit "#define ") (by decide) hin
  rw [List.infix_cons_iff] at h5
  rcases h5 with h5 | h5
  · obtain ⟨_, h5⟩ := h5
    simp [hParam] at h5
  have h6 : ('(' :: '$' :: (hParam ++ [')'])) <:+: [] := by
    refine infix_past (a := '$' :: 'u' :: 'p' :: 'p' :: 'e' :: 'r' :: ' ' :: (n ++ ')' :: lit "_IMPLEMENT\n")) ?_ (by simpa using h5)
    have : '(' ∉ lit "_IMPLEMENT\n" := by decide
    simp [(name_noParens hn).1, this]
  simp [List.infix_nil] at h6

/-- **C104.** `($implement name)`: the macro that tells the header to define its variables, with the name in capital letters. -/
theorem C104_implement (e : EEnv) (x : BExt) (fn : Node) (text decl : Src) (c0 : Option Src) (args : List Node) (v : Node) (n : Str)
    (loc : Option Loc) (s s1 s2 : ESt) (hf : Evaluates e fn s (.mclosure text [(hParam, .bound)] decl c0) s1) (htext : text.txt = implementText)
    (ha : Args e args s1 [v] s2) (hv : Value v) (hvn : v ≠ .none) (hvt : ArgText v n) (hn : Yupp.IsName n) (hb : Bare e s2 n)
    (hup : Standard e x (lit "upper")) (hub : Unbound (lit "upper") s2) (hsk : (modeOf e.pe).remarks ≠ .python)
    (hk : e.pe.outputPython = true → e.pe.inputFile ≠ natStr s2.p.world.inclusion.length) :
    ∃ s3 u, s3.env = s2.env ∧ EachChar Capital n u ∧
      (∃ y, Evaluates e (.apply fn args [] loc) s y s3 ∧ y.text? = some (lit "\n#define " ++ u ++ lit "_IMPLEMENT\n")) ∧
      ∀ ind cut rest o, Generates e .no false rest s3 o →
        Generates e ind cut (.apply fn args [] loc :: rest) s (o.after (blockAt e.cfg ind (lit "\n#define " ++ u ++ lit "_IMPLEMENT\n"))) := by
  have hsub : substitute ([hParam].zip [n]) text.txt = implementWith n := by rw [htext]; exact implement_substituted n
  obtain ⟨nodes, s3, hx, hs3, -, -, hd⟩ := C82_macro e fn text decl c0 [hParam] args [v] [n] loc s s1 s2 hf ha (by simp) rfl (by simp) (by decide)
    (by simpa using hv) (by simpa using hvn) (.cons hvt .nil) (hParam_ok n) (by rw [hsub]; exact implement_unmarked hn)
    (by rw [hsub]; exact implement_reads hsk hn) (by rw [hsub]; simp [implementWith]) hk
  have henv : s3.env = s2.env := by rw [hs3]; rfl
  have hscr : s3.p.scripts = s2.p.scripts := by rw [hs3]; rfl
  obtain ⟨w, i, ms, rfl, hw, hi, hx1⟩ := text_chars hx
  obtain ⟨y, ks, rfl, hy, hx2⟩ := text_expr hx1
  obtain ⟨w', i', ms, rfl, hw', hi', hx3⟩ := text_chars hx2
  obtain rfl := text_nil hx3
  obtain ⟨g, ns, l, rfl, hg, hns⟩ := tree_app hy
  obtain ⟨f, rfl, hft⟩ := tree_name0 hg
  obtain ⟨a, ns', rfl, hta, hns⟩ := args_pos hns
  obtain rfl := args_nil hns
  obtain ⟨z, rfl, hzt⟩ := tree_name0 hta
  have hz : Bare e s3 z.txt := by
    rw [hzt]
    exact ⟨by rw [henv]; exact hb.unbound, by rw [hscr]; exact hb.notBuiltin, hb.notSpecial, hb.noHyphen⟩
  have hun : Unbound (lit "upper") s3 := by unfold Unbound; rw [henv]; exact hub
  obtain ⟨u, hu, hcap⟩ := C86_letters (l := f.loc) (loc := l) (.inr (.inl ⟨rfl, rfl⟩)) hup hun
    (.one (bare_eval hz) (by simp) (by simp) (.nil _)) rfl (by rw [hzt]; exact fun c hc => (nameChar_facts (isName_chars hn c hc)).1)
  rw [hzt] at hcap
  have hone := capital_oneLine hn hcap
  rw [show lit "upper" = f.txt from hft.symm] at hu
  have hsame := hd (by
    intro q hq
    simp only [List.mem_cons, List.not_mem_nil, or_false] at hq
    rcases hq with rfl | rfl | rfl <;> (rintro ⟨_, _, h⟩; cases h)) (by simp)
  refine ⟨s3, u, henv, hcap, filled_call hsame ?_⟩
  have h1 : Generates e .no false [.plain w' i' false] s3 ((Yield.text [] s3).after (fragment e.cfg w'.txt (false || false))) := .plain .nil
  have h2 := Generates.item (ind := indentBehind (.str []) i) (cut := false) (x := .apply (.var false [] f) [.var false [] z] [] l)
    ⟨(by rintro ⟨_, _, _, h⟩; cases h), by simp⟩ hu (data_item (.pstr u) (by simp)) (data_final (.pstr u)) h1
  have h3 : itemText e (indentBehind (.str []) i) (.apply (.var false [] f) [.var false [] z] [] l) (.pstr u) = u := by
    have : itemText e (indentBehind (.str []) i) (.apply (.var false [] f) [.var false [] z] [] l) (.pstr u) =
        blockAt e.cfg (indentBehind (.str []) i) u := by
      cases indentBehind (.str []) i <;> rfl
    rw [this, block_line _ _ hone]
  have h4 := Generates.plain (e := e) (ind := .str []) (cut := false) (w := w) (i := i) (c := false) h2
  rw [h3, hw, hw', after_after, after_after] at h4
  have h5 : fragment e.cfg ('\n' :: lit "#define ") (false || false) ++ u ++ fragment e.cfg (lit "_IMPLEMENT\n") (false || false) =
      lit "\n#define " ++ u ++ lit "_IMPLEMENT\n" := by
    have : lit "\n#define " = '\n' :: lit "#define " := by decide
    simp [fragment, this]
  rw [h5] at h4
  simpa [Yield.after] using h4

/-! ## The guard -/

/-- **C104.** The beginning of the header tests and defines the guard. -/
theorem C104_guard (n : Str) : ∃ r, headerBegin n = lit "\n#ifndef " ++ n ++ lit "_H\n#define " ++ n ++ lit "_H\n" ++ r := by
  obtain ⟨w, ps, hps⟩ := hBegin_guard
  rw [headerBegin_pieces, hps]
  exact ⟨w ++ completed (fun _ => n) ps, by simp [completed]⟩

/-- A template read as C, the names standing behind the beginning of a line. -/
def slotsConds (st : Str × Option Nat) : List Slot → Option (Str × Option Nat)
  | [] => some st
  | .plain w :: ps => slotsConds (w.foldl condStep st) ps
  | .quoted w :: ps => slotsConds (('"' :: (w ++ ['"'])).foldl condStep st) ps
  | .name _ :: ps => if st.1.length = 7 then slotsConds st ps else none

theorem slotsConds_sound {n : Str} (hn : '\n' ∉ n) : ∀ {ps : List Slot} {st st' : Str × Option Nat}, slotsConds st ps = some st' →
    (completed (fun _ => n) ps).foldl condStep st = st'
  | [], st, st', h => by simpa [slotsConds, completed] using h
  | .plain w :: ps, st, st', h => by
    rw [completed, List.foldl_append]
    exact slotsConds_sound hn h
  | .quoted w :: ps, st, st', h => by
    have : completed (fun _ => n) (.quoted w :: ps) = ('"' :: (w ++ ['"'])) ++ completed (fun _ => n) ps := by simp [completed]
    rw [this, List.foldl_append]
    exact slotsConds_sound hn h
  | .name a :: ps, st, st', h => by
    rw [completed, List.foldl_append]
    unfold slotsConds at h
    split at h
    · next hl =>
      have : ∀ k : Str, '\n' ∉ k → k.foldl condStep st = st := by
        intro k
        induction k with
        | nil => intro _; rfl
        | cons c k ih =>
          intro hk
          simp only [List.mem_cons, not_or] at hk
          have hc : condStep st c = st := by
            obtain ⟨l, d⟩ := st
            simp only [condStep]
            rw [if_neg (Ne.symm hk.1), if_pos hl]
          rw [List.foldl_cons, hc]
          exact ih hk.2
      rw [this n hn]
      exact slotsConds_sound hn h
    · cases h

theorem hBegin_conds (d : Nat) : slotsConds ([], some d) hBeginSlots = some ([], some (d + 1)) := by kernel_rfl

theorem hEnd_conds (d : Nat) : slotsConds ([], some (d + 1)) hEndSlots = some ([], some d) := by kernel_rfl

theorem headerBegin_hash (n : Str) : ∃ r, headerBegin n = '\n' :: '#' :: r := by
  obtain ⟨ps, hps⟩ := hBegin_first
  rw [headerBegin_pieces, hps]
  exact ⟨lit "ifndef " ++ completed (fun _ => n) ps, rfl⟩

theorem conds_strip {r : Str} {d d' : Nat} (h : Conditionals d ('\n' :: '#' :: r) d') : Conditionals d (lstrip ('\n' :: '#' :: r)) d' := by
  rw [show lstrip ('\n' :: '#' :: r) = '#' :: r from rfl]
  exact h

/-- **C104.** The conditionals are balanced: the beginning of the header leaves one more open, the end closes one. -/
theorem C104_balanced {n : Str} (hn : '\n' ∉ n) (cfg : Config) (b : Bool) (d : Nat) :
    Conditionals d (fragment cfg (headerBegin n) b) (d + 1) ∧ Conditionals (d + 1) (headerEnd n) d := by
  have h1 : Conditionals d (headerBegin n) (d + 1) := by
    unfold Conditionals
    rw [headerBegin_pieces]
    exact slotsConds_sound hn (hBegin_conds d)
  refine ⟨?_, ?_⟩
  · unfold fragment
    split
    · obtain ⟨r, hr⟩ := headerBegin_hash n
      rw [hr] at h1 ⊢
      exact conds_strip h1
    · exact h1
  · unfold Conditionals
    rw [← hEnd_completed]
    exact slotsConds_sound hn (hEnd_conds d)

/-- **C104.** So they are in a whole header, if they are in what it encloses. -/
theorem C104_header {n : Str} (hn : '\n' ∉ n) {d : Nat} {t : Str} (ht : Conditionals (d + 1) t (d + 1)) :
    Conditionals d (headerBegin n ++ (t ++ headerEnd n)) d := by
  have h1 := (C104_balanced hn { trimAppIndent := false } false d).1
  have h2 := (C104_balanced hn { trimAppIndent := false } false d).2
  unfold Conditionals at *
  rw [List.foldl_append, show headerBegin n = fragment { trimAppIndent := false } (headerBegin n) false by simp [fragment], h1, List.foldl_append, ht, h2]

/-! ## The lines of the file -/

attribute [local semireducible] hBeginBody hBeginSlots

set_option maxRecDepth 100000 in
/-- **C104.** The macros are those of the file `lib/h.yu`. -/
theorem C104_library : DefinesMacro hBeginLines (lit "h-begin") [hParam] hBeginText ∧ DefinesMacro implementLines (lit "implement") [hParam] implementText :=
  ⟨definesMacro_of (by decide +kernel), definesMacro_of (by decide +kernel)⟩

/-! Examples. -/

/-- A surrounding where `upper` is the built-in and other names are free. -/
def upperEnv (x : BExt) : EEnv := { stdEnv x { inputFile := ['a'] } with builtin := fun _ a => if a = lit "upper" then some .fn else none }

theorem name_foo : Yupp.IsName (lit "foo") :=
  ⟨'f', ['o', 'o'], rfl, .inl (by decide), by intro x hx; unfold NameChar NameStart; revert x hx; decide⟩

theorem capital_foo {u : Str} (h : EachChar Capital (lit "foo") u) : u = lit "FOO" := by
  have key : ∀ {c d : Char} (k : Nat), smallLetters[k]? = some c → Capital c d → smallLetters.idxOf c = k → capitalLetters[k]? = some d := by
    intro c d k hk h hi
    rcases h with ⟨i, h1, h2⟩ | ⟨h1, -⟩
    · have hlt : i < smallLetters.length := (List.getElem?_eq_some_iff.1 h1).1
      have hnd : smallLetters.Nodup := by decide
      have : i = k := by
        exact (List.getElem?_inj hlt hnd).1 (h1.trans hk.symm)
      rw [← this]; exact h2
    · exact absurd (List.mem_of_getElem? hk) h1
  cases h with
  | cons h1 h =>
  cases h with
  | cons h2 h =>
  cases h with
  | cons h3 h =>
  cases h
  have e1 := key 5 rfl h1 (by decide)
  have e2 := key 14 rfl h2 (by decide)
  have e3 := key 14 rfl h3 (by decide)
  injection e1 with e1; injection e2 with e2; injection e3 with e3
  subst e1; subst e2; subst e3
  rfl

/-- The scope with the macros `h-begin`, `extern` and `implement`. -/
def hScope : Scopes := [[(lit "h-begin", .mclosure ⟨hBeginText, none⟩ [(hParam, .bound)] ⟨[], none⟩ none),
  (lit "extern", .mclosure ⟨lit "($h-name)_EXT", none⟩ [] ⟨[], none⟩ none),
  (lit "implement", .mclosure ⟨implementText, none⟩ [(hParam, .bound)] ⟨[], none⟩ none)]]

attribute [local irreducible] hBeginBody hBeginSlots hBeginText

/-- `($h-begin foo)($extern)`: the header `FOO` and, in it, `FOO_EXT`. -/
example (x : BExt) (p : PSt) (out : Option Str) (rept : Bool) (seen : List Node) :
    ∃ s', Generates (upperEnv x) .none false
      [.apply (.var false [] ⟨lit "h-begin", none⟩) [.var false [] ⟨lit "foo", none⟩] [] none, .apply (.var false [] ⟨lit "extern", none⟩) [] [] none]
      ⟨hScope, p, out, rept, seen⟩
      (.text ('\n' :: fragment (upperEnv x).cfg (headerBegin (lit "FOO")) true ++ lit "FOO_EXT") s') := by
  have hbare : Bare (upperEnv x) ⟨hScope, p, out, rept, seen⟩ (lit "foo") := ⟨by rfl, by rfl, by decide, by decide⟩
  obtain ⟨s3, u, henv, hu, h⟩ := C104_h_begin (upperEnv x) x (.var false [] ⟨lit "h-begin", none⟩) ⟨hBeginText, none⟩ ⟨[], none⟩ none
    [.var false [] ⟨lit "foo", none⟩] (.atom ⟨lit "foo", none⟩) (lit "foo") none ⟨hScope, p, out, rept, seen⟩ ⟨hScope, p, out, rept, seen⟩
    ⟨hScope, p, out, rept, seen⟩ (evaluates_iff.2 (var_value (by rfl) (by simp))) rfl
    (.one (bare_eval hbare) (by simp) (by simp) (.nil _)) (.atom _) (by simp) (.atom _) name_foo hbare
    ⟨fun _ => rfl, fun _ _ _ => rfl⟩ (by rfl) rfl rfl
  rw [capital_foo hu] at h
  obtain ⟨s4, henv4, -, h4⟩ := C103_suffix (upperEnv x) (.var false [] ⟨lit "extern", none⟩) ⟨lit "($h-name)_EXT", none⟩ ⟨[], none⟩ none [] none
    (push s3 [(hName, .pstr (lit "FOO"))]) (push s3 [(hName, .pstr (lit "FOO"))]) (push s3 [(hName, .pstr (lit "FOO"))])
    (evaluates_iff.2 (var_value (by rw [lookup_push_none (by decide), henv]; rfl) (by simp))) (a := hName) (w := lit "_EXT") rfl free_hName
    (plainOk_of_check _ (by decide) (by decide)) (.nil _) (by simp [upperEnv, stdEnv]) (lit "FOO")
    (.value (v := .pstr (lit "FOO")) (by rw [lookup_push]; rfl) (.pstr _) (by simp)) oneLine_foo
  have h5 := h .none false _ _ (by simp) (h4 (.str []) false [] _ .nil)
  rw [block_line _ _ (t := lit "FOO" ++ lit "_EXT") ⟨by decide, fun c hc => by obtain rfl : 'F' = c := (by simpa [lit] using hc); decide⟩] at h5
  exact ⟨_, by simpa [Yield.after, Yield.leave, lit] using h5⟩

end Yupp
