import Verif.Props.Macro
import Verif.Props.Builtin
import Verif.Lemmas.Print
import Verif.Model.Stdlib
import Verif.Spec.StdMacro
import Verif.Lemmas.Trees
import Verif.Props.StdlibText
/-!
# C83 — `$def` and `$undef` of the library
-/

namespace Yupp

open Spec

variable {m : Mode}

/-! ## Reading -/

theorem ended_of {c : Char} {r : Str} (h : ¬ NameChar c) (h1 : c ≠ '.' ∧ c ≠ ':' ∧ c ≠ '"' ∧ c ≠ '\'') : Ended (c :: r) := by
  refine ⟨⟨?_, ?_⟩, ?_⟩
  · intro d hd; cases hd; exact h
  · intro d x t hd hc; cases hd; exact absurd hc h1.1
  · intro d hd; cases hd; exact h1.2

theorem ended_close (r : Str) : Ended (')' :: r) := ended_of (by unfold NameChar NameStart; decide) (by decide)
theorem ended_space (r : Str) : Ended (' ' :: r) := ended_of (by unfold NameChar NameStart; decide) (by decide)

/-- A former in front of `)`. -/
theorem form_shut {x : Expr} {s r : Str} (h : Reads m (.former x) s (')' :: r)) : Reads m (.form x) s (')' :: r) :=
  .one (g := []) h isGap_nil (noGap_close r) (by simp)

/-- A former in front of a space and something else. -/
theorem form_space {x : Expr} {s r : Str} {c : Char} (h : Reads m (.former x) s (' ' :: c :: r)) (hc : ¬ GapChar c) (hq : c ≠ '?') :
    Reads m (.form x) s (c :: r) :=
  .one (g := [' ']) h isGap_space (noGap_cons hc r) (by simpa using hq)

theorem nameChar_plain {c : Char} (h : NameChar c) : Admissible c ∧ ¬ GapChar c ∧ c ≠ '"' ∧ c ≠ '\'' ∧ c ≠ '#' ∧ c ≠ '/' ∧ c ≠ '(' ∧ c ≠ ')' ∧ isLineBreak c = false := by
  have key : ∀ n : Fin 256, NameChar (Char.ofNat n.val) → Admissible (Char.ofNat n.val) ∧ ¬ GapChar (Char.ofNat n.val) ∧ Char.ofNat n.val ≠ '"' ∧
      Char.ofNat n.val ≠ '\'' ∧ Char.ofNat n.val ≠ '#' ∧ Char.ofNat n.val ≠ '/' ∧ Char.ofNat n.val ≠ '(' ∧ Char.ofNat n.val ≠ ')' ∧
      isLineBreak (Char.ofNat n.val) = false := by
    unfold NameChar NameStart Admissible GapChar
    decide +kernel
  have hlt : c.toNat < 256 := by
    unfold NameChar NameStart at h
    simp only [Char.le_def, UInt32.le_iff_toNat_le] at h
    rcases h with (h | h | rfl) | h | rfl
    · have : c.val.toNat ≤ 122 := h.2
      exact Nat.lt_of_le_of_lt this (by decide)
    · have : c.val.toNat ≤ 90 := h.2
      exact Nat.lt_of_le_of_lt this (by decide)
    · decide
    · have : c.val.toNat ≤ 57 := h.2
      exact Nat.lt_of_le_of_lt this (by decide)
    · decide
  have := key ⟨c.toNat, hlt⟩
  rw [Char.ofNat_toNat] at this
  exact this h

theorem isName_chars {a : Str} (h : IsName a) : ∀ c ∈ a, NameChar c := by
  obtain ⟨c, t, rfl, h1, h2⟩ := h
  intro d hd
  rcases List.mem_cons.1 hd with rfl | hd
  · exact .inl h1
  · exact h2 d hd

theorem plainCheck_name {a : Str} (h : ∀ c ∈ a, NameChar c) : plainCheck a = true := by
  induction a with
  | nil => rfl
  | cons c a ih =>
    obtain ⟨h1, -, h2, h3, h4, h5, h6, -, -⟩ := nameChar_plain (h c (by simp))
    unfold plainCheck
    have h1 : decide (c = '\t' ∨ c = '\n' ∨ c = '\r' ∨ (' ' ≤ c ∧ c ≤ 'ÿ')) = true := decide_eq_true h1
    rw [h1, ih (fun d hd => h d (by simp [hd]))]
    simp [h2, h3, h4, h5, h6]

theorem walk_name {a : Str} (h : ∀ c ∈ a, NameChar c) (d : Nat) : walk true d a = some d := by
  induction a with
  | nil => rfl
  | cons c a ih =>
    obtain ⟨-, -, -, -, -, -, h6, h7, -⟩ := nameChar_plain (h c (by simp))
    unfold walk
    rw [if_neg (by simp)]
    unfold opened
    rw [if_neg h6, if_neg h7]
    exact ih (fun d hd => h d (by simp [hd]))

/-- What `$def` and `$undef` are replaced by: a definition and a line. -/
def switchText (a : Str) (d : Char) (w gap : Str) : Str :=
  '(' :: '$' :: 's' :: 'e' :: 't' :: ([' '] ++ (a ++ ([' '] ++ d :: ')' :: '\n' :: '(' :: '$' :: ([] ++ 'u' :: 'n' :: 'q' :: ' ' :: '"' :: ('#' :: w ++
    '"' :: ')' :: (gap ++ a))))))

def switchExpr (a : Str) (n : Int) (w gap : Str) : ExprText :=
  .set (.one a) (.int n) (.chars ['\n'] (.expr (.app (.name false [] ['u', 'n', 'q']) (.pos (.str ('"' :: ('#' :: w ++ ['"']))) .nil) .nil)
    (.chars (gap ++ a) .nil)))

theorem switch_reads {a : Str} (ha : IsName a) {d : Char} {n : Int} (hd : (d = '0' ∧ n = 0) ∨ (d = '1' ∧ n = 1)) {w : Str}
    (hw : ∀ c ∈ w, NameStart c) {gap : Str} (hg : gap = [' '] ∨ gap = [' ', ' ']) :
    Reads m (.text .file 0 0 (switchExpr a n w gap)) (switchText a d w gap) [] := by
  have hchars : ∀ c ∈ a, NameChar c := isName_chars ha
  have hdig : ∀ r, Reads m (.form (.int n)) (d :: ')' :: r) (')' :: r) := by
    intro r
    refine form_shut ?_
    have := printInt_reads (m := m) n (ended_close r)
    have h0 : printInt 0 = ['0'] := by decide +kernel
    have h1 : printInt 1 = ['1'] := by decide +kernel
    rcases hd with ⟨rfl, rfl⟩ | ⟨rfl, rfl⟩
    · rwa [h0] at this
    · rwa [h1] at this
  have htail : ∀ sq, Reads m (.text .file sq 0 (.chars (gap ++ a) .nil)) (gap ++ a) [] := by
    intro sq
    have hgc : plainCheck (gap ++ a) = true := by
      have := plainCheck_name hchars
      rcases hg with rfl | rfl <;> simp [plainCheck, this]
    have hwk : walk true 0 (gap ++ a) = some 0 := by
      have := walk_name hchars 0
      rcases hg with rfl | rfl <;> simp [walk, opened, this]
    have := chars_reads (top := true) (s := []) (r := []) (xs := .nil) (sq := sq) (plainOk_of_check m (by rcases hg with rfl | rfl <;> simp) hgc) rfl
      (by intro c hc; cases hc) hwk (fun _ => .textEnd .file)
    rw [List.append_nil] at this
    exact this
  have hlit : ∀ r, Reads m (.form (.str ('"' :: ('#' :: w ++ ['"'])))) ('"' :: ('#' :: w ++ '"' :: ')' :: r)) (')' :: r) := by
    intro r
    refine form_shut (.literal (.inl rfl) (.char (by decide) (by decide) (by decide) ?_) (ended_close r))
    clear hdig htail
    induction w with
    | nil => exact .nil
    | cons c w ih =>
      obtain ⟨-, h2, h3, -⟩ := nameChar_plain (.inl (hw c (by simp)))
      refine .char h3 ?_ ?_ (ih (fun d hd => hw d (by simp [hd])))
      · rintro rfl; have := hw _ (List.mem_cons_self ..); revert this; unfold NameStart; decide
      · rintro rfl; exact h2 (.inr (.inr (.inl rfl)))
  refine .textSet isGap_space (.one ha) isGap_space (hdig _) .plain (.inl (noName_cons (by unfold NameChar NameStart; decide) _)) ?_
  refine chars_reads (top := true) (w := ['\n']) (plainOk_of_check m (by simp) (by decide)) rfl ?_ rfl (fun sq => ?_)
  · intro c hc; cases hc; exact .inl rfl
  refine .textExpr (s' := gap ++ a) ?_ ?_ ?_ ?_
  · refine .app (g := []) isGap_nil (.inr ?_) (form_space (.name (t := ['u', 'n', 'q']) (.plain ?_) (ended_space _)) ?_ ?_) (.arg ?_ (hlit _) .argsEnd)
    · simp [NoKeyword]
    · exact ⟨'u', ['n', 'q'], rfl, .inl (by decide), by intro x hx; unfold NameChar NameStart; revert x hx; decide⟩
    · unfold GapChar; decide
    · decide
    · intro b g r h; cases h
  · exact ⟨_, rfl⟩
  · simp [NoDirective]
  · exact htail sq

/-! ## The pieces -/

theorem append_last {a a' b b' : Str} {c c' : Char} (h : a ++ c :: b = a' ++ c' :: b') :
    c' ∈ b ∨ c ∈ b' ∨ (a = a' ∧ c = c' ∧ b = b') := by
  rcases List.append_eq_append_iff.1 h with ⟨as, h1, h2⟩ | ⟨bs, h1, h2⟩
  · cases as with
    | nil => simp at h1 h2; exact .inr (.inr ⟨h1.symm, h2.1, h2.2⟩)
    | cons d as => simp at h2; exact .inl (by rw [h2.2]; simp)
  · cases bs with
    | nil => simp at h1 h2; exact .inr (.inr ⟨h1, h2.1.symm, h2.2.symm⟩)
    | cons d bs => simp at h2; exact .inr (.inl (by rw [h2.2]; simp))

theorem blank_notEnd {c : Char} (h : c = ' ' ∨ c = '\t') : ¬ LineEnd c := by
  rcases h with rfl | rfl <;> (unfold LineEnd; decide)

theorem blank_gap {c : Char} (h : c = ' ' ∨ c = '\t') : GapChar c := by
  rcases h with rfl | rfl <;> (unfold GapChar; decide)

theorem lineEnd_gap {c : Char} (h : LineEnd c) : GapChar c := by
  rcases h with rfl | rfl <;> (unfold GapChar; decide)

/-- The indent is determined by the text. -/
theorem indented_det {f : Bool} {w : Str} {i j : Indent} (h : Indented f w i) (h' : Indented f w j) : i = j := by
  cases h with
  | first hf hb =>
    cases h' with
    | first => rfl
    | inside hf' => rw [hf] at hf'; cases hf'
    | @line a b c hc => exact absurd hc (blank_notEnd (hb c (by simp)))
    | @text a b c hc => exact absurd (blank_gap (hb c (by simp))) hc
  | inside hf hb =>
    cases h' with
    | first hf' => rw [hf] at hf'; cases hf'
    | inside => rfl
    | @line a b c hc => exact absurd hc (blank_notEnd (hb c (by simp)))
    | @text a b c hc => exact absurd (blank_gap (hb c (by simp))) hc
  | @line a b c hc hb =>
    generalize hw : a ++ c :: b = w at h'
    cases h' with
    | first _ hb' => subst hw; exact absurd hc (blank_notEnd (hb' c (by simp)))
    | inside _ hb' => subst hw; exact absurd hc (blank_notEnd (hb' c (by simp)))
    | @line a' b' c' hc' hb' =>
      rcases append_last hw with h | h | ⟨-, -, h⟩
      · exact absurd hc' (blank_notEnd (hb _ h))
      · exact absurd hc (blank_notEnd (hb' _ h))
      · rw [h]
    | @text a' b' c' hc' hb' =>
      rcases append_last hw with h | h | ⟨-, h, -⟩
      · exact absurd (blank_gap (hb _ h)) hc'
      · exact absurd hc (hb' _ h)
      · rw [← h] at hc'; exact absurd (lineEnd_gap hc) hc'
  | @text a b c hc hb =>
    generalize hw : a ++ c :: b = w at h'
    cases h' with
    | first _ hb' => subst hw; exact absurd (blank_gap (hb' c (by simp))) hc
    | inside _ hb' => subst hw; exact absurd (blank_gap (hb' c (by simp))) hc
    | @line a' b' c' hc' hb' =>
      rcases append_last hw with h | h | ⟨-, h, -⟩
      · exact absurd hc' (hb _ h)
      · exact absurd (blank_gap (hb' _ h)) hc
      · rw [h] at hc; exact absurd (lineEnd_gap hc') hc
    | text => rfl

theorem evaluates_set {e : EEnv} {lval : LVal} {ast v : Node} {s s1 : ESt} (hn : (lvalNames lval).Nodup) (ho : lval.isOutput = false)
    (hv : Evaluates e ast (push s ((lvalNames lval).map (fun a => (a, .bound)))) v s1) :
    Evaluates e (.set lval ast) s (.env (bindings lval v)) (pop s1) := by
  obtain ⟨ha, -⟩ := evalAssign_eq hn hv
  rw [evaluates_iff, ev_at]
  change evalSet e (ev e) lval ast s = _
  unfold evalSet
  rw [ho]
  simp only [Bool.false_eq_true, if_false]
  rw [em_bind_ok ha]; rfl

/-- A word in the first column is not moved. -/
theorem reindent_word (cfg : Config) (i : Str) {w : Str} (hw : w = ['#', 'd', 'e', 'f', 'i', 'n', 'e'] ∨ w = ['#', 'u', 'n', 'd', 'e', 'f']) :
    reindent cfg i w = w := by
  unfold reindent trim trimWithBrowse
  rcases hw with rfl | rfl <;> cases cfg.browse <;> cases cfg.trimAppIndent <;> rfl

theorem switch_pieces {a : Str} (ha : IsName a) {n : Int} {w gap : Str} (hg : gap = [' '] ∨ gap = [' ', ' ']) {nodes : List Node}
    (h : TextTrees true (switchExpr a n w gap) nodes) :
    ∃ (b p q : Src) (l loc : Option Loc) (lw : Src), b.txt = a ∧ p.txt = ['\n'] ∧ q.txt = gap ++ a ∧ lw.txt = '"' :: ('#' :: w ++ ['"']) ∧
      nodes = [.set (.one b) (.int n), .plain p (.str []) false, fnCall ['u', 'n', 'q'] l loc [.str lw], .plain q .no false] := by
  obtain ⟨v, k, ms, rfl, h1, h2, h3⟩ := text_set h
  obtain ⟨b, rfl, hb⟩ := target_one h1
  cases tree_int h2
  obtain ⟨p, i1, ms, rfl, hp, hi1, h4⟩ := text_chars h3
  obtain ⟨y, ms, rfl, hy, h5⟩ := text_expr h4
  obtain ⟨q, i2, ms, rfl, hq, hi2, h6⟩ := text_chars h5
  cases text_nil h6
  obtain ⟨g, ns, loc, rfl, hg1, hg2⟩ := tree_app hy
  obtain ⟨u, rfl, hu⟩ := tree_name0 hg1
  obtain ⟨n1, ns, rfl, hn1, hg3⟩ := args_pos hg2
  cases args_nil hg3
  obtain ⟨lw, rfl, hlw⟩ := tree_str hn1
  have e1 : i1 = .str [] := indented_det hi1 (Indented.line (a := []) (b := []) (c := '\n') (.inl rfl) (by intro c hc; cases hc))
  have e2 : i2 = .no := by
    obtain ⟨c, t, rfl, hc, ht⟩ := ha
    refine indented_det hi2 (Indented.text (a := gap) (b := t) (c := c) (nameChar_plain (.inl hc)).2.1 ?_)
    intro x hx hl
    exact (nameChar_plain (ht x hx)).2.1 (lineEnd_gap hl)
  subst e1 e2
  refine ⟨b, p, q, u.loc, loc, lw, hb, hp, hq, hlw, ?_⟩
  cases u
  cases hu
  rfl

/-! ## C83 -/

theorem putIn_switch {b p q : Src} {x : Node} {n : Int} {a gap : Str} (hp : p.txt = ['\n']) (hq : q.txt = gap ++ a)
    (ha : IsName a) (hg : gap = [' '] ∨ gap = [' ', ' ']) (hx : ¬ IsPlain x) (ind : Indent) :
    ∃ p' q' : Src, p'.txt = '\n' :: marginOf ind ∧ q'.txt = gap ++ a ∧
      putIn ind [.set (.one b) (.int n), .plain p (.str []) false, x, .plain q .no false] =
        [.set (.one b) (.int n), .plain p' (.str (marginOf ind)) false, x, .plain q' .no false] := by
  have hbr : ∀ i : Str, ∀ t : Str, (∀ c ∈ t, isLineBreak c = false) → afterLines i t = t := by
    intro i t
    induction t with
    | nil => intro _; rfl
    | cons c t ih =>
      intro h
      have hc := h c (by simp)
      have ht := ih (fun d hd => h d (by simp [hd]))
      unfold afterLines
      split
      · cases ‹_ :: _ = _›
      · rename_i h1
        cases h1
        exact absurd hc (by decide)
      · rename_i h1
        cases h1
        rw [if_neg (fun h => by rw [isLineBreak_iff.2 h.1] at hc; cases hc), ht]
  have hbq : ∀ c ∈ gap ++ a, isLineBreak c = false := by
    intro c hc
    rcases List.mem_append.1 hc with hc | hc
    · rcases hg with rfl | rfl <;> (simp at hc; subst hc; decide)
    · exact (nameChar_plain (isName_chars ha c hc)).2.2.2.2.2.2.2.2
  match ind with
  | .no => exact ⟨p, q, hp, hq, rfl⟩
  | .none => exact ⟨p, q, hp, hq, rfl⟩
  | .str [] => exact ⟨p, q, hp, hq, rfl⟩
  | .str (c :: i) =>
    refine ⟨⟨afterLines (c :: i) p.txt, none⟩, ⟨afterLines (c :: i) q.txt, none⟩, ?_, ?_, ?_⟩
    · rw [hp]
      simp [afterLines, lineEnds, marginOf]
    · rw [hq]
      exact hbr _ _ hbq
    · simp only [putIn, atIndent, List.map_cons, List.map_nil, List.append_nil, marginOf]
      cases x <;> first | rfl | exact absurd ⟨_, _, _, rfl⟩ hx

theorem switch_generates {e : EEnv} {x : BExt} (hs : Standard e x (lit "unq")) {a : Str} (ha : IsName a) {n : Int} {w gap : Str}
    (hw : '#' :: w = ['#', 'd', 'e', 'f', 'i', 'n', 'e'] ∨ '#' :: w = ['#', 'u', 'n', 'd', 'e', 'f'])
    (hg : gap = [' '] ∨ gap = [' ', ' ']) {nodes : List Node} (h : TextTrees true (switchExpr a n w gap) nodes) {s : ESt}
    (hu : Unbound (lit "unq") s) (ha1 : a ≠ lit "unq") (ha2 : a ≠ lit "__OUTPUT_FILE__") (ind : Indent) (rest : List Node) (o : Yield)
    (ho : Generates e .no false rest (push s [(a, .int n)]) o) :
    Generates e ind false (putIn ind nodes ++ rest) s (o.after (lineBreak e.cfg ind ++ ('#' :: w ++ (gap ++ a)))).leave := by
  obtain ⟨b, p, q, l, loc, lw, hb, hp, hq, hlw, rfl⟩ := switch_pieces ha hg h
  have hcall : ¬ IsPlain (fnCall ['u', 'n', 'q'] l loc [.str lw]) := by rintro ⟨_, _, _, h⟩; cases h
  obtain ⟨p', q', hp', hq', he⟩ := putIn_switch (b := b) (x := fnCall ['u', 'n', 'q'] l loc [.str lw]) (n := n) hp hq ha hg hcall ind
  rw [he]
  have hset : Evaluates e (.set (.one b) (.int n)) s (.env [(a, .int n)]) s := by
    have := evaluates_set (e := e) (lval := .one b) (ast := .int n) (v := .int n) (s := s) (s1 := push s [(b.txt, .bound)]) (by simp [lvalNames])
      (by simp [LVal.isOutput, hb, ha2]) ⟨1, rfl⟩
    rw [← hb]
    exact this
  have hunq : Evaluates e (fnCall ['u', 'n', 'q'] l loc [.str lw]) (push s [(a, .int n)]) (.pstr ('#' :: w)) (push s [(a, .int n)]) := by
    have hargs : Args e [.str lw] (push s [(a, .int n)]) [.str lw] (push s [(a, .int n)]) :=
      .one (evaluates_iff.2 (ev_value e (.str _) _)) (by simp) (by simp) (.nil _)
    have hub : Unbound (lit "unq") (push s [(a, .int n)]) := by
      unfold Unbound push
      have : Frame.get [(a, Node.int n)] (lit "unq") = none := by simp [Frame.get, ha1]
      simp only [Scopes.lookup, this]
      exact hu
    have := ev_call (l := l) (loc := loc) hs hub hargs rfl (call_q x (.str lw) _).2.2
    have hval : bUnq x (.str lw) = '#' :: w := by
      unfold bUnq
      simp only [Node.text?, hlw]
      rw [if_pos (by simp)]
      have := literal_quoted (q := '"') (.inl rfl) x.literal ('#' :: w) (by rcases hw with h | h <;> (rw [h]; decide))
      have henc : escEncode ('#' :: w) = '#' :: w := by rcases hw with h | h <;> (rw [h]; decide)
      rw [henc] at this
      simp only [List.cons_append] at this ⊢
      rw [this]; rfl
    rw [hval] at this
    exact this
  have hlast : Generates e .no false (.plain q' .no false :: rest) (push s [(a, .int n)]) (o.after (gap ++ a)) := by
    have := Generates.plain (e := e) (ind := .no) (cut := false) (w := q') (i := .no) (c := false) (o := o) (s := push s [(a, .int n)]) (xs := rest) ho
    rwa [show fragment e.cfg q'.txt (false || false) = gap ++ a by simp [fragment, hq']] at this
  have hmid := fun i => Generates.item (e := e) (ind := .str i) (cut := false) ⟨hcall, by intro h; cases h⟩ hunq
    (.value (by simp) (by simp) (by simp) (by simp) (by simp) (by simp)) (.pstr _) hlast
  have hmid : ∀ i, Generates e (.str i) false (fnCall ['u', 'n', 'q'] l loc [.str lw] :: .plain q' .no false :: rest) (push s [(a, .int n)])
      (o.after ('#' :: w ++ (gap ++ a))) := by
    intro i
    have := hmid i
    rw [show itemText e (.str i) (fnCall ['u', 'n', 'q'] l loc [.str lw]) (.pstr ('#' :: w)) = '#' :: w from reindent_word e.cfg i hw] at this
    have ho' : (o.after (gap ++ a)).after ('#' :: w) = o.after ('#' :: w ++ (gap ++ a)) := by
      cases o <;> simp [Yield.after]
    rwa [ho'] at this
  have hfirst := Generates.plain (e := e) (ind := ind) (cut := atLineStart ind) (w := p') (c := false)
    (i := .str (marginOf ind)) (hmid (marginOf ind))
  have hfrag : fragment e.cfg p'.txt (atLineStart ind || false) = lineBreak e.cfg ind := by
    rw [hp']
    unfold fragment lineBreak
    cases ind <;> simp [atLineStart, marginOf]
    rfl
  rw [hfrag] at hfirst
  have hoo : (o.after ('#' :: w ++ (gap ++ a))).after (lineBreak e.cfg ind) = o.after (lineBreak e.cfg ind ++ ('#' :: w ++ (gap ++ a))) := by
    cases o <;> simp [Yield.after]
  rw [hoo] at hfirst
  exact .definition ⟨(by rintro ⟨_, _, _, h⟩; cases h), (by intro h; cases h)⟩ hset (by simp) hfirst

theorem infix_past {m a r : Str} (ha : '(' ∉ a) (h : ('(' :: m) <:+: a ++ r) : ('(' :: m) <:+: r := by
  induction a with
  | nil => exact h
  | cons c a ih =>
    simp only [List.mem_cons, not_or] at ha
    rw [List.cons_append, List.infix_cons_iff] at h
    rcases h with h | h
    · obtain ⟨_, h⟩ := h
      simp only [List.cons_append, List.cons.injEq] at h
      exact absurd h.1 ha.1
    · exact ih ha.2 h

theorem switch_unmarked {a : Str} (ha : '(' ∉ a) {d : Char} (hd : d = '0' ∨ d = '1') {w gap : Str} (hw : '(' ∉ w)
    (hg : gap = [' '] ∨ gap = [' ', ' ']) {y : Str} : Unmarked [(['n', 'a', 'm', 'e'], y)] (switchText a d w gap) := by
  intro p hp b c h
  simp only [List.mem_singleton] at hp
  subst hp
  have h : ['(', '$', 'n', 'a', 'm', 'e', ')'] <:+: switchText a d w gap := ⟨b, c, by rw [h]; simp⟩
  unfold switchText at h
  simp only [List.cons_append, List.nil_append] at h
  rw [List.infix_cons_iff] at h
  rcases h with ⟨_, h⟩ | h
  · cases h
  have h := infix_past (a := ['$', 's', 'e', 't', ' ']) (by decide) h
  have h := infix_past ha h
  have h := infix_past (a := [' ', d, ')', '\n']) (by rcases hd with rfl | rfl <;> decide) h
  rw [List.infix_cons_iff] at h
  rcases h with ⟨_, h⟩ | h
  · cases h
  have h := infix_past (a := ['$', 'u', 'n', 'q', ' ', '"', '#']) (by decide) h
  have h := infix_past hw h
  have h := infix_past (a := ['"', ')']) (by decide) h
  have h := infix_past (a := gap) (by rcases hg with rfl | rfl <;> decide) h
  have h : ['(', '$', 'n', 'a', 'm', 'e', ')'] <:+: a ++ [] := by rwa [List.append_nil]
  have h := infix_past ha h
  rw [List.infix_nil] at h
  cases h

theorem def_text (a : Str) : substitute [(['n', 'a', 'm', 'e'], a)] defBody = switchText a '1' ['d', 'e', 'f', 'i', 'n', 'e'] [' '] := by
  have h : [' '] ++ a = [' '] ++ (a ++ []) := by rw [List.append_nil]
  unfold switchText
  rw [h]
  rfl

theorem undef_text (a : Str) : substitute [(['n', 'a', 'm', 'e'], a)] undefBody = switchText a '0' ['u', 'n', 'd', 'e', 'f'] [' ', ' '] := by
  have h : [' ', ' '] ++ a = [' ', ' '] ++ (a ++ []) := by rw [List.append_nil]
  unfold switchText
  rw [h]
  rfl

theorem switch_call (e : EEnv) (x : BExt) (hs : Standard e x (lit "unq")) (fn : Node) (text decl : Src) (c0 : Option Src) (args : List Node)
    (v : Node) (a : Str) (loc : Option Loc) (s s1 s2 : ESt) (d : Char) (n : Int) (w gap : Str)
    (hd : (d = '0' ∧ n = 0) ∨ (d = '1' ∧ n = 1))
    (hw : w = ['d', 'e', 'f', 'i', 'n', 'e'] ∨ w = ['u', 'n', 'd', 'e', 'f']) (hg : gap = [' '] ∨ gap = [' ', ' '])
    (hf : Evaluates e fn s (.mclosure text [(['n', 'a', 'm', 'e'], .bound)] decl c0) s1)
    (htext : substitute [(['n', 'a', 'm', 'e'], a)] text.txt = switchText a d w gap)
    (harg : Args e args s1 [v] s2) (hv : Value v) (hn : v ≠ .none) (ht : ArgText v a) (ha : IsName a)
    (ha1 : a ≠ lit "unq") (ha2 : a ≠ lit "__OUTPUT_FILE__") (hu : Unbound (lit "unq") s2)
    (hk : e.pe.outputPython = true → e.pe.inputFile ≠ natStr s2.p.world.inclusion.length) :
    ∃ s3, s3 = (record s2 (switchText a d w gap) decl.loc ((callOf fn).bind (·.loc))).2 ∧
      ∀ ind cut rest o, Generates e .no false rest (push s3 [(a, .int n)]) o →
        Generates e ind cut (.apply fn args [] loc :: rest) s
          (o.after (lineBreak e.cfg ind ++ ('#' :: w ++ (gap ++ a)))).leave := by
  have hpar : '(' ∉ a := fun h => (nameChar_plain (isName_chars ha _ h)).2.2.2.2.2.2.1 rfl
  have hsub : substitute ([['n', 'a', 'm', 'e']].zip [a]) text.txt = switchText a d w gap := htext
  have hmac := C82_macro e fn text decl c0 [['n', 'a', 'm', 'e']] args [v] [a] loc s s1 s2 hf harg (by simp) rfl (by simp)
    (by decide) (by simpa using hv) (by simpa using hn) (.cons ht .nil)
    (by intro p hp; simp at hp; subst hp; exact (by decide : ('(' ∉ (['n', 'a', 'm', 'e'] : Str) ∧ ')' ∉ (['n', 'a', 'm', 'e'] : Str))))
    (by rw [hsub]; exact switch_unmarked hpar (by rcases hd with ⟨h, -⟩ | ⟨h, -⟩ <;> simp [h]) (by rcases hw with h | h <;> (rw [h]; decide)) hg)
    (xs := switchExpr a n w gap)
    (by
      rw [hsub]
      refine switch_reads ha hd ?_ hg
      rcases hw with rfl | rfl <;> (unfold NameStart; decide))
    (by rw [hsub]; simp [switchText]) hk
  rw [hsub] at hmac
  obtain ⟨nodes, s3, h1, h2, h3, -, -⟩ := hmac
  refine ⟨s3, h2, fun ind cut rest o ho => ?_⟩
  have hdef : ∃ y ∈ nodes, Defines y := by
    obtain ⟨b, p, q, l, lc, lw, -, -, -, -, rfl⟩ := switch_pieces ha hg h1
    exact ⟨_, List.mem_cons_self .., _, _, rfl⟩
  refine (h3 hdef ind cut rest _).2 ?_
  refine switch_generates hs ha (by rcases hw with rfl | rfl <;> simp) hg h1 ?_ ha1 ha2 ind rest o ho
  subst h2
  exact hu

/-- **C83**. `($def A)`, with the name of the library for the macro: in place of the call there is a line `#define A`, and
    what follows the call finds `A` bound to 1. -/
theorem C83_def (e : EEnv) (x : BExt) (hs : Standard e x (lit "unq")) (fn : Node) (text decl : Src) (c0 : Option Src) (args : List Node)
    (v : Node) (a : Str) (loc : Option Loc) (s s1 s2 : ESt)
    (hf : Evaluates e fn s (.mclosure text [(lit "name", .bound)] decl c0) s1) (htext : text.txt = defBody)
    (harg : Args e args s1 [v] s2) (hv : Value v) (hn : v ≠ .none) (ht : ArgText v a) (ha : IsName a)
    (ha1 : a ≠ lit "unq") (ha2 : a ≠ lit "__OUTPUT_FILE__") (hu : Unbound (lit "unq") s2)
    (hk : e.pe.outputPython = true → e.pe.inputFile ≠ natStr s2.p.world.inclusion.length) :
    ∃ s3, s3 = (record s2 (substitute [(lit "name", a)] defBody) decl.loc ((callOf fn).bind (·.loc))).2 ∧
      ∀ ind cut rest o, Generates e .no false rest (push s3 [(a, .int 1)]) o →
        Generates e ind cut (.apply fn args [] loc :: rest) s
          (o.after (lineBreak e.cfg ind ++ (lit "#define " ++ a))).leave := by
  have hsub := def_text a
  rw [show lit "name" = ['n', 'a', 'm', 'e'] by decide, hsub]
  exact switch_call e x hs fn text decl c0 args v a loc s s1 s2 '1' 1 _ _ (.inr ⟨rfl, rfl⟩) (.inl rfl) (.inl rfl) hf (by rw [htext, hsub])
    harg hv hn ht ha ha1 ha2 hu hk

/-- **C83**. `($undef A)`: in place of the call there is a line `#undef  A`, and what follows the call finds `A` bound to 0. -/
theorem C83_undef (e : EEnv) (x : BExt) (hs : Standard e x (lit "unq")) (fn : Node) (text decl : Src) (c0 : Option Src) (args : List Node)
    (v : Node) (a : Str) (loc : Option Loc) (s s1 s2 : ESt)
    (hf : Evaluates e fn s (.mclosure text [(lit "name", .bound)] decl c0) s1) (htext : text.txt = undefBody)
    (harg : Args e args s1 [v] s2) (hv : Value v) (hn : v ≠ .none) (ht : ArgText v a) (ha : IsName a)
    (ha1 : a ≠ lit "unq") (ha2 : a ≠ lit "__OUTPUT_FILE__") (hu : Unbound (lit "unq") s2)
    (hk : e.pe.outputPython = true → e.pe.inputFile ≠ natStr s2.p.world.inclusion.length) :
    ∃ s3, s3 = (record s2 (substitute [(lit "name", a)] undefBody) decl.loc ((callOf fn).bind (·.loc))).2 ∧
      ∀ ind cut rest o, Generates e .no false rest (push s3 [(a, .int 0)]) o →
        Generates e ind cut (.apply fn args [] loc :: rest) s
          (o.after (lineBreak e.cfg ind ++ (lit "#undef  " ++ a))).leave := by
  have hsub := undef_text a
  rw [show lit "name" = ['n', 'a', 'm', 'e'] by decide, hsub]
  exact switch_call e x hs fn text decl c0 args v a loc s s1 s2 '0' 0 _ _ (.inl ⟨rfl, rfl⟩) (.inr rfl) (.inr rfl) hf (by rw [htext, hsub])
    harg hv hn ht ha ha1 ha2 hu hk

/-! A name that has a value already -/

theorem natStr_chars (n : Nat) : natStr n ≠ [] ∧ ∀ c ∈ natStr n, c.isDigit = true := by
  have he : natStr n = Nat.toDigits 10 n := Nat.toList_repr
  rw [he]
  exact ⟨Nat.toDigits_ne_nil, fun c hc => Nat.isDigit_of_mem_toDigits (by omega) (by omega) hc⟩

theorem int_chars (k : Int) : ∃ c t, (toString k).toList = c :: t ∧ ∀ d ∈ c :: t, d = '-' ∨ d.isDigit = true := by
  cases k with
  | ofNat n =>
    have h := natStr_chars n
    have he : (toString (Int.ofNat n)).toList = natStr n := rfl
    rw [he]
    cases hc : natStr n with
    | nil => exact absurd hc h.1
    | cons c t => exact ⟨c, t, rfl, fun d hd => .inr (h.2 d (hc ▸ hd))⟩
  | negSucc n =>
    have h := natStr_chars (n + 1)
    have he : (toString (Int.negSucc n)).toList = '-' :: natStr (n + 1) := by
      change ("-" ++ toString (n + 1)).toList = _
      rw [String.toList_append]; rfl
    rw [he]
    refine ⟨_, _, rfl, fun d hd => ?_⟩
    rcases List.mem_cons.1 hd with rfl | hd
    · exact .inl rfl
    · exact .inr (h.2 d hd)

/-- `($set` must be followed by a name or by `(`. -/
theorem set_needs_name {e : PEnv} {t : Str} {c : Char} (hc : ¬ NameStart c) (hg : ¬ GapChar c) (hp : c ≠ '(') (n : Nat) (key : Str) (st : PSt) {d : Decl}
    (hfind : st.world.find key = some (d, '(' :: '$' :: 's' :: 'e' :: 't' :: ' ' :: c :: t)) (hk : e.outputPython = true → e.inputFile ≠ key) :
    (P e (n + 2)).parse key st = .err := by
  change psParse e (P e (n + 1)) key st = .err
  unfold psParse
  have hget : PM.get st = .ok (st, st) := rfl
  rw [pm_bind_ok hget, hfind]
  dsimp only
  rw [if_neg (by intro ho; simp only [Bool.and_eq_true, decide_eq_true_eq] at ho; exact hk ho.2 ho.1)]
  unfold psRun
  rw [if_neg (by simp)]
  have hgap : isGap c = false := by
    cases h : isGap c
    · rfl
    · exact absurd ((isGap_iff c).1 h) hg
  have hlet : isLetter c = false := by
    cases h : isLetter c
    · rfl
    · exact absurd ((isLetter_iff c).1 h) hc
  have hset : psSet (P e n) ⟨'(' :: '$' :: 's' :: 'e' :: 't' :: ' ' :: c :: t, some ⟨key, 0⟩⟩ = PM.err := by
    unfold psSet
    rw [if_pos (by rfl)]
    have h1 : (psGap ((⟨'(' :: '$' :: 's' :: 'e' :: 't' :: ' ' :: c :: t, some ⟨key, 0⟩⟩ : Src).drop kSet.length)).txt = c :: t := by
      rw [psGap_append (g := [' ']) (r := c :: t) rfl isGap_space (noGap_cons hg t)]; rfl
    generalize psGap ((⟨'(' :: '$' :: 's' :: 'e' :: 't' :: ' ' :: c :: t, some ⟨key, 0⟩⟩ : Src).drop kSet.length) = r at h1
    have h2 : psBinding (P e n) r = PM.err := by
      unfold psBinding
      rw [if_neg (by simp [Src.at, Src.starts, List.isPrefixOf, h1, Ne.symm hp])]
      have : psAtom r = (r.drop 0, none) := by
        unfold psAtom
        simp [h1, atomLen, hlet]
      rw [this]
      rfl
    rw [h2]; rfl
  have htext : (P e (n + 1)).text .eof { sou := ⟨'(' :: '$' :: 's' :: 'e' :: 't' :: ' ' :: c :: t, some ⟨key, 0⟩⟩ } = PM.err := by
    change psText e (P e n) _ _ = _
    unfold psText psTextLeg
    simp only [hset]
    rfl
  rw [htext]; rfl

/-- **C83**. A name that has a number for its value already, as after `($def A)`: its number is put into the text of the macro, and the
    call fails. -/
theorem C83_bound (e : EEnv) (fn : Node) (text decl : Src) (c0 : Option Src) (args : List Node)
    (k : Int) (loc : Option Loc) (s s1 s2 : ESt)
    (hf : Evaluates e fn s (.mclosure text [(lit "name", .bound)] decl c0) s1) (htext : text.txt = defBody ∨ text.txt = undefBody)
    (harg : Args e args s1 [.int k] s2)
    (hk : e.pe.outputPython = true → e.pe.inputFile ≠ natStr s2.p.world.inclusion.length) :
    Raises e (.apply fn args [] loc) s := by
  obtain ⟨c, t, hct, hch⟩ := int_chars k
  have hdig : ∀ d : Char, (d = '-' ∨ d.isDigit = true) → ¬ NameStart d ∧ ¬ GapChar d ∧ d ≠ '(' := by
    intro d hd
    rcases hd with rfl | hd
    · unfold NameStart GapChar; decide
    · refine ⟨?_, ?_, ?_⟩
      · unfold NameStart
        simp only [Char.isDigit, Bool.and_eq_true, decide_eq_true_eq, ge_iff_le, UInt32.le_iff_toNat_le] at hd
        simp only [Char.le_def, UInt32.le_iff_toNat_le]
        rintro (h | h | rfl)
        · have h1 : 97 ≤ d.val.toNat := h.1
          have h2 : d.val.toNat ≤ 57 := hd.2
          omega
        · have h1 : 65 ≤ d.val.toNat := h.1
          have h2 : d.val.toNat ≤ 57 := hd.2
          omega
        · revert hd; decide
      · rintro (rfl | rfl | rfl | rfl) <;> (revert hd; decide)
      · rintro rfl; revert hd; decide
  have hpar : '(' ∉ (toString k).toList := by
    rw [hct]
    intro h
    exact (hdig _ (hch _ h)).2.2 rfl
  have key : ∀ (d : Char) (w gap : Str), (d = '0' ∨ d = '1') → '(' ∉ w → (gap = [' '] ∨ gap = [' ', ' ']) →
      substitute [(['n', 'a', 'm', 'e'], (toString k).toList)] text.txt = switchText (toString k).toList d w gap →
      Raises e (.apply fn args [] loc) s := by
    intro d w gap hd hw hg hsub
    have hsub : substitute ([['n', 'a', 'm', 'e']].zip [(toString k).toList]) text.txt = switchText (toString k).toList d w gap := hsub
    have hexp := C33_expansion e fn text decl c0 [['n', 'a', 'm', 'e']] args [.int k] [(toString k).toList] loc s s1 s2 hf harg (by simp) rfl (by simp)
      (by decide) (by simp; exact .int k) (by simp) (.cons (.int k) .nil)
      (by intro p hp; simp at hp; subst hp; exact (by decide : ('(' ∉ (['n', 'a', 'm', 'e'] : Str) ∧ ')' ∉ (['n', 'a', 'm', 'e'] : Str))))
      (by rw [hsub]; exact switch_unmarked hpar hd hw hg)
    rw [hexp.2, hsub, raises_iff, ev_at]
    change evalEval e (parsers e.pe) (ev e) _ _ _ s2 = _
    unfold evalEval
    have hval : ev e (.pstr (switchText (toString k).toList d w gap)) s2 = .ok (.pstr (switchText (toString k).toList d w gap), s2) :=
      ev_value e (.pstr _) s2
    have ht : SourceOf e.pe.unq (.pstr (switchText (toString k).toList d w gap)) (switchText (toString k).toList d w gap) :=
      .code (.pstr _) (fun _ h => by cases h)
    rw [em_bind_ok hval, (source_text (textExt e s2) ht).1]
    simp only [Bool.not_true, Bool.false_eq_true, if_false]
    rw [em_bind, em_get]
    simp only [(source_text (textExt e s2) ht).2]
    have hreg : register (some decl) (if [['n', 'a', 'm', 'e']].length = 1 then callOf fn else none) (switchText (toString k).toList d w gap) s2 =
      .ok (record s2 (switchText (toString k).toList d w gap) decl.loc ((callOf fn).bind (·.loc))) := rfl
    rw [em_bind_ok hreg]
    generalize htx : switchText (toString k).toList d w gap = tx
    have htx : ∃ r, tx = '(' :: '$' :: 's' :: 'e' :: 't' :: ' ' :: c :: r := by
      rw [← htx]
      unfold switchText
      rw [hct]
      exact ⟨_, rfl⟩
    obtain ⟨r, htx⟩ := htx
    have hfind : ∃ dc, (record s2 tx decl.loc ((callOf fn).bind (·.loc))).2.p.world.find (record s2 tx decl.loc ((callOf fn).bind (·.loc))).1 = some (dc, tx) := by
      simp [World.find, record]
    obtain ⟨dc, hfind⟩ := hfind
    have hc := hdig c (hch c (by simp))
    have hperr : (parsers e.pe).parse (record s2 tx decl.loc ((callOf fn).bind (·.loc))).1
        (record s2 tx decl.loc ((callOf fn).bind (·.loc))).2.p = .err := by
      obtain ⟨m, hm⟩ := parsers_lim e.pe (record s2 tx decl.loc ((callOf fn).bind (·.loc))).1
        (record s2 tx decl.loc ((callOf fn).bind (·.loc))).2.p
      rw [← hm (m + 2) (by omega)]
      exact set_needs_name hc.1 hc.2.1 hc.2.2 m _ _ (hfind.trans (by rw [htx])) hk
    have hpar : EM.parse ((parsers e.pe).parse (record s2 tx decl.loc ((callOf fn).bind (·.loc))).1)
        (record s2 tx decl.loc ((callOf fn).bind (·.loc))).2 = .err := by
      unfold EM.parse
      rw [hperr]
    exact em_bind_err hpar
  rcases htext with h | h
  · exact key '1' ['d', 'e', 'f', 'i', 'n', 'e'] _ (.inr rfl) (by decide) (.inl rfl) (by rw [h]; exact def_text _)
  · exact key '0' ['u', 'n', 'd', 'e', 'f'] _ (.inl rfl) (by decide) (.inr rfl) (by rw [h]; exact undef_text _)

/-- A macro with this name, the parameter `name` and this text. -/
def isDefinition (name body : Str) : Node → Bool
  | .macro v [p] t => decide (v.txt = name) && decide (p.txt = lit "name") && decide (t.txt = body)
  | _ => false

theorem isDefinition_sound {name body : Str} {d : Node} (h : isDefinition name body d = true) :
    ∃ v p t, d = .macro v [p] t ∧ v.txt = name ∧ p.txt = lit "name" ∧ t.txt = body := by
  unfold isDefinition at h
  split at h
  · simp only [Bool.and_eq_true, decide_eq_true_eq] at h
    exact ⟨_, _, _, rfl, h.1.1, h.1.2, h.2⟩
  · cases h

/-- Two lines of the library. -/
def twoLines (i : Nat) : Str := (stdlibLines[i]?.getD []) ++ '\n' :: (stdlibLines[i + 1]?.getD [])

set_option maxRecDepth 100000 in
theorem def_parsed : parsedAlone 100 (twoLines 60) (isDefinition (lit "def") defBody) = true := by decide +kernel

set_option maxRecDepth 100000 in
theorem undef_parsed : parsedAlone 100 (twoLines 66) (isDefinition (lit "undef") undefBody) = true := by decide +kernel

/-- **C83**. The macros that the theorems are about are those of the library file: two lines of it, parsed, are one such definition. -/
theorem C83_library :
    (∃ i l1 l2 n v p t st, stdlibLines[i]? = some l1 ∧ stdlibLines[i + 1]? = some l2 ∧
      (P { inputFile := ['a'] } n).parse ['a'] (PSt.start { inputFile := ['a'] } none (l1 ++ '\n' :: l2)) = .ok ([.macro v [p] t], st) ∧
      v.txt = lit "def" ∧ p.txt = lit "name" ∧ t.txt = defBody) ∧
    (∃ i l1 l2 n v p t st, stdlibLines[i]? = some l1 ∧ stdlibLines[i + 1]? = some l2 ∧
      (P { inputFile := ['a'] } n).parse ['a'] (PSt.start { inputFile := ['a'] } none (l1 ++ '\n' :: l2)) = .ok ([.macro v [p] t], st) ∧
      v.txt = lit "undef" ∧ p.txt = lit "name" ∧ t.txt = undefBody) := by
  obtain ⟨d1, p1, h1, k1⟩ := parsedAlone_sound def_parsed
  obtain ⟨d2, p2, h2, k2⟩ := parsedAlone_sound undef_parsed
  obtain ⟨v, p, t, rfl, hv, hp, ht⟩ := isDefinition_sound k1
  obtain ⟨v', p', t', rfl, hv', hp', ht'⟩ := isDefinition_sound k2
  exact ⟨⟨60, _, _, 100, v, p, t, p1, rfl, rfl, h1, hv, hp, ht⟩, ⟨66, _, _, 100, v', p', t', p2, rfl, rfl, h2, hv', hp', ht'⟩⟩

/-! An example: `($def X)` at the beginning of a line indented by two blanks, in front of a text. -/

example (e : EEnv) (x : BExt) (hs : Standard e x (lit "unq")) (hc : e.cfg.trimAppIndent = true) (decl m : Src) (s : ESt)
    (hm : Scopes.lookup s.env m.txt = some (.mclosure ⟨defBody, none⟩ [(['n', 'a', 'm', 'e'], .bound)] decl none))
    (hu : Unbound (lit "unq") s) (hk : e.pe.outputPython = false) (w : Src) :
    ∃ s', Generates e (.str [' ', ' ']) false [.apply (.var false [] m) [.atom ⟨['X'], none⟩] [] none, .plain w .none false] s
      (.text (lit "#define X" ++ w.txt) s') := by
  have hf : Evaluates e (.var false [] m) s (.mclosure ⟨defBody, none⟩ [(['n', 'a', 'm', 'e'], .bound)] decl none) s :=
    ⟨1, by change evalVar e false [] m s = _; unfold evalVar; rw [hm]; rfl⟩
  obtain ⟨s3, -, h⟩ := C83_def e x hs _ _ decl none [.atom ⟨['X'], none⟩] (.atom ⟨['X'], none⟩) ['X'] none s s s hf rfl
    (.one (evaluates_iff.2 (ev_value e (.atom _) s)) (by simp) (by simp) (.nil s)) (.atom _) (by simp) (.atom _)
    ⟨'X', [], rfl, by unfold NameStart; decide, by simp⟩ (by decide) (by decide) hu (by simp [hk])
  have := h (.str [' ', ' ']) false [.plain w .none false] _ (.plain (.nil ..))
  refine ⟨pop (push s3 [(['X'], .int 1)]), ?_⟩
  have hb : lineBreak e.cfg (.str [' ', ' ']) = [] := by
    unfold lineBreak
    rw [if_pos ⟨hc, rfl⟩]; rfl
  rw [hb] at this
  have hfr : fragment e.cfg w.txt (false || false) = w.txt := by simp [fragment]
  rw [hfr] at this
  have hy : (((Yield.text [] (push s3 [(['X'], .int 1)])).after w.txt).after ([] ++ (lit "#define " ++ ['X']))).leave =
      .text (lit "#define X" ++ w.txt) (pop (push s3 [(['X'], .int 1)])) := by
    simp only [Yield.after, Yield.leave, List.append_nil, List.nil_append]
    rfl
  rw [hy] at this
  exact this

end Yupp
