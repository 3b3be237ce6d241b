import Verif.Props.Feature
import Verif.Lemmas.Lines
/-!
# C59 — Definitions evaluated in an indented text
-/

namespace Yupp

open Spec

/-- What `add_indent` joins. -/
def indentParts (s : Str) : List Str :=
  match s.getLast? with
  | some c => if c == '\n' || c == '\r' then splitKeep s ++ [[]] else splitKeep s
  | none => splitKeep s

theorem joinStr_cons (i c : Str) {ls : List Str} (h : ls ≠ []) : joinStr i (c :: ls) = c ++ i ++ joinStr i ls := by
  cases ls with
  | nil => exact absurd rfl h
  | cons => rfl

theorem joinStr_head (i : Str) (c : Char) (l : Str) (ls : List Str) : joinStr i ((c :: l) :: ls) = c :: joinStr i (l :: ls) := by
  cases ls <;> rfl

theorem indentParts_ne_nil {s : Str} (h : s ≠ []) : indentParts s ≠ [] := by
  have : splitKeep s ≠ [] := fun h' => h (splitKeep_eq_nil h')
  unfold indentParts
  split
  · split
    · simp
    · exact this
  · exact this

theorem indentParts_line {l : Str} {t : Str} (ht : t ≠ []) {s : Str} (hs : s = l ++ t) (hk : splitKeep s = l :: splitKeep t) :
    indentParts s = l :: indentParts t := by
  have : s.getLast? = t.getLast? := by
    rw [hs, List.getLast?_append]
    cases h : t.getLast? with
    | none => exact absurd (List.getLast?_eq_none_iff.1 h) ht
    | some => rfl
  unfold indentParts
  rw [this, hk]
  cases t.getLast? with
  | none => rfl
  | some c => simp only []; split <;> rfl

theorem indentParts_char {c : Char} {l t : Str} {ls : List Str} (hp : splitKeep t = l :: ls)
    (hk : splitKeep (c :: t) = (c :: l) :: ls) : ∃ ms, indentParts t = l :: ms ∧ indentParts (c :: t) = (c :: l) :: ms := by
  have ht : t ≠ [] := by rintro rfl; cases hp
  have : (c :: t).getLast? = t.getLast? := by
    cases t with
    | nil => exact absurd rfl ht
    | cons => rfl
  unfold indentParts
  rw [this, hk, hp]
  cases t.getLast? with
  | none => exact ⟨ls, rfl, rfl⟩
  | some d => simp only []; split <;> exact ⟨_, rfl, rfl⟩

theorem isLineBreak_iff {c : Char} : isLineBreak c = true ↔ c ∈ lineEnds := by
  have key : ∀ d : Char, c = d ↔ c.toNat = d.toNat := fun d =>
    ⟨fun h => by rw [h], fun h => Char.ext (UInt32.toNat_inj.1 h)⟩
  simp only [isLineBreak, lineEnds, List.mem_cons, List.not_mem_nil, or_false, key, Bool.or_eq_true, Bool.and_eq_true, decide_eq_true_eq, beq_iff_eq]
  simp only [show '\n'.toNat = 10 from rfl, show '\x0b'.toNat = 11 from rfl, show '\x0c'.toNat = 12 from rfl, show '\r'.toNat = 13 from rfl,
    show '\x1c'.toNat = 28 from rfl, show '\x1d'.toNat = 29 from rfl, show '\x1e'.toNat = 30 from rfl, show '\u0085'.toNat = 0x85 from rfl,
    show '\u2028'.toNat = 0x2028 from rfl, show '\u2029'.toNat = 0x2029 from rfl]
  omega

theorem join_indentParts (i s : Str) : joinStr i (indentParts s) = afterLines i s := by
  fun_induction afterLines i s with
  | case1 => rfl
  | case2 t ih =>
    by_cases ht : t = []
    · subst ht; simp [indentParts, splitKeep, joinStr, afterLines]
    · rw [indentParts_line (s := '\r' :: '\n' :: t) (l := ['\r', '\n']) ht rfl (splitKeep.eq_2 t), joinStr_cons _ _ (indentParts_ne_nil ht), ih]
      rfl
  | case3 c t hn h ih =>
    have hk : splitKeep (c :: t) = [c] :: splitKeep t := by
      rw [splitKeep.eq_3 _ _ (by intro t' h1 h2; exact hn t' h1 h2), if_pos (isLineBreak_iff.2 h.1)]
    by_cases ht : t = []
    · subst ht
      have : c = '\n' ∨ c = '\r' := by
        rcases h.2 with h | h | h
        · exact .inl h
        · exact .inr h
        · exact absurd rfl h
      rcases this with rfl | rfl <;> simp [indentParts, splitKeep, joinStr, afterLines, isLineBreak]
    · rw [indentParts_line (s := c :: t) (l := [c]) ht rfl hk, joinStr_cons _ _ (indentParts_ne_nil ht), ih]
      rfl
  | case4 c t hn h ih =>
    by_cases hb : isLineBreak c = true
    · have ht : t = [] := by
        rw [not_and] at h
        have := h (isLineBreak_iff.1 hb)
        rw [not_or, not_or] at this
        exact Classical.not_not.1 this.2.2
      subst ht
      have h1 : c ≠ '\n' := fun h' => h ⟨isLineBreak_iff.1 hb, .inl h'⟩
      have h2 : c ≠ '\r' := fun h' => h ⟨isLineBreak_iff.1 hb, .inr (.inl h')⟩
      have hk : splitKeep [c] = [[c]] := by
        rw [splitKeep.eq_3 _ _ (by intro t' h1 h2; exact hn t' h1 h2), if_pos hb]; rfl
      simp [indentParts, hk, h1, h2, joinStr, afterLines]
    · cases hp : splitKeep t with
      | nil =>
        have ht := splitKeep_eq_nil hp
        subst ht
        have h1 : c ≠ '\n' := fun h' => hb (by subst h'; decide)
        have h2 : c ≠ '\r' := fun h' => hb (by subst h'; decide)
        have hk : splitKeep [c] = [[c]] := by
          rw [splitKeep.eq_3 _ _ (by intro t' h1 h2; exact hn t' h1 h2), if_neg hb]; rfl
        simp [indentParts, hk, h1, h2, joinStr, afterLines]
      | cons l ls =>
        have hk : splitKeep (c :: t) = (c :: l) :: ls := by
          rw [splitKeep.eq_3 _ _ (by intro t' h1 h2; exact hn t' h1 h2), if_neg hb, hp]
        obtain ⟨ms, h3, h4⟩ := indentParts_char hp hk
        rw [h4, joinStr_head, ← h3, ih]

theorem addIndents_eq {i : Str} (hi : i ≠ []) (xs : List Node) : addIndents (.str i) xs = atIndent i xs := by
  have : addIndents (.str i) xs = xs.map (fun x => match x with
    | .plain s ind tr => addIndent i s ind tr
    | x => x) := by
    cases i with
    | nil => exact absurd rfl hi
    | cons => rfl
  rw [this]
  unfold atIndent
  apply List.map_congr_left
  intro x _
  cases x with
  | plain s ind tr =>
    cases ind with
    | none => rfl
    | str j =>
      show Node.plain { txt := joinStr i (indentParts s.txt) } (.str (i ++ j)) tr = _
      rw [join_indentParts]
    | no =>
      show Node.plain { txt := joinStr i (indentParts s.txt) } .no tr = _
      rw [join_indentParts]
  | _ => rfl

/-- **C59**. A text with definitions, evaluated at the indent `i`: as `C59_definitions` says, with every line of its plain text
    moved to the right by `i`. -/
theorem C59_definitions_indented (e : EEnv) (ast v w : Node) (decl call : Option Src) (t i : Str) (xs rest : List Node) (s s1 s2 s3 : ESt)
    (hi : i ≠ [])
    (hv : Evaluates e ast s v s1) (ht : SourceOf e.pe.unq v t)
    (hp : Parses e (record s1 t (decl.bind (·.loc)) (call.bind (·.loc))).1 (record s1 t (decl.bind (·.loc)) (call.bind (·.loc))).2 xs s2)
    (hd : ∃ x ∈ xs, Defines x) (hw : Evaluates e (.t (atIndent i xs ++ rest) (.str i)) s2 w s3) (htw : IsText w) :
    ∃ w', IsText w' ∧ (∀ x, strOf x w' = strOf x w) ∧ Evaluates e (.t (.eval ast decl call :: rest) (.str i)) s w' s3 := by
  have hev := ev_eval hv ht hp
  have hany : xs.any Node.isSet = true := by
    rw [List.any_eq_true]
    obtain ⟨x, hx, lval, a, rfl⟩ := hd
    exact ⟨_, hx, rfl⟩
  have hne : xs.isEmpty = false := by
    obtain ⟨x, hx, _⟩ := hd
    cases xs with
    | nil => cases hx
    | cons => rfl
  rw [hne, hany] at hev
  simp only [Bool.false_eq_true, if_false, if_true] at hev
  have hev : ev e (.eval ast decl call) s = .ok (.embed (.t xs (.str [])), s2) := hev
  have hT : evalT (ev e) (.str i) 0 false (.eval ast decl call :: rest) s = .ok ([w], s3) := by
    simp only [evalT, Bool.false_eq_true, if_false]
    rw [em_bind_ok hev]
    simp only [pieceOf]
    rw [addIndents_eq hi, em_bind_ok (evaluates_iff.1 hw)]
    cases htw <;> rfl
  have hterm : isTerm w = true := by cases htw <;> rfl
  have hfin : ∃ w', IsText w' ∧ (∀ x, strOf x w' = strOf x w) ∧ finishT e (.str i) [w] s3 = .ok (w', s3) := by
    unfold finishT
    have : areTerms [w] = true := by unfold areTerms; rw [hterm]; rfl
    rw [this]
    simp only [if_true]
    by_cases hb : e.cfg.browse = true
    · rw [if_pos hb]
      refine ⟨_, .result _, fun x => ?_, rfl⟩
      cases htw <;> rfl
    · rw [if_neg hb]
      refine ⟨_, .pstr _, fun x => ?_, rfl⟩
      cases htw <;> simp [plainStr, plainStrs, strOf]
  obtain ⟨w', h1, h2, h3⟩ := hfin
  refine ⟨w', h1, h2, ?_⟩
  rw [evaluates_iff, ev_at]
  change (evalT (ev e) (.str i) 0 false (.eval ast decl call :: rest) >>= fun ys => finishT e (.str i) ys) s = _
  rw [em_bind_ok hT, h3]

/-- The hypotheses hold: a text with a definition at the indent of two spaces. -/
example : atIndent [' ', ' '] [.plain ⟨['a', '\n'], none⟩ (.str []) false, .set (.one ⟨['x'], none⟩) (.int 5)] =
    [.plain ⟨['a', '\n', ' ', ' '], none⟩ (.str [' ', ' ']) false, .set (.one ⟨['x'], none⟩) (.int 5)] := rfl

end Yupp
