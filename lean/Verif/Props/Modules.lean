import Verif.Lemmas.Modules
import Verif.Props.Generate
/-!
# C99 — A program made of several files
-/

namespace Yupp

open Spec (Generates Yield Form Item Final atLineStart Reports push pop behindModule)

/-! ## What is read -/

theorem knows_start (e : PEnv) (input : Option Str) (s : Str) (hnull : e.inputFile ≠ ['<', 'n', 'u', 'l', 'l', '>']) :
    Knows (PSt.start e input s) [e.inputFile, ['<', 'n', 'u', 'l', 'l', '>']] := by
  constructor
  · intro k
    simp only [PSt.start, World.find, List.find?, List.mem_cons, List.not_mem_nil, or_false]
    by_cases h1 : e.inputFile = k
    · simp [h1]
    · by_cases h2 : lit "<null>" = k
      · simp [← h2, show lit "<null>" = ['<', 'n', 'u', 'l', 'l', '>'] from rfl]
        split <;> rfl
      · have : k ≠ ['<', 'n', 'u', 'l', 'l', '>'] := fun h => h2 h.symm
        have b1 : (e.inputFile == k) = false := by simpa using h1
        have b2 : (lit "<null>" == k) = false := by simpa using h2
        simp [b1, b2, this, Ne.symm h1]
  · refine ⟨.path (some []), ?_⟩
    have : ¬ e.inputFile = lit "<null>" := hnull
    simp [PSt.start, World.find, List.find?, this]

/-- **C99**. A source text with imports is parsed: its pieces are its own and, in the places of the imports, those of the
    files imported, each between two marks; a library that was read before brings none. -/
theorem C99_file (e : PEnv) (input : Option Str) {xs : List SourcePart} {s : Str} {r : Expanded} {known : List Str}
    (hS : Source (modeOf e) xs s) (hE : Expands (modeOf e) e [e.inputFile, ['<', 'n', 'u', 'l', 'l', '>']] xs r known)
    (hne : s ≠ []) (hcr : '\r' ∉ s) (hnull : e.inputFile ≠ ['<', 'n', 'u', 'l', 'l', '>'])
    (hm : e.outputPython = true → ¬ MagicFirst e.word s ∧ ¬ MagicSecond e.word s) :
    ∃ nodes st, ModuleTrees true r nodes ∧ (∀ k, (st.world.find k).isSome = true ↔ k ∈ known) ∧ st.shrink = 0 ∧ st.scripts = [] ∧
      ∃ N, ∀ n, N ≤ n → (P e n).parse e.inputFile (PSt.start e input s) = .ok (nodes, st) := by
  obtain ⟨src', nodes, st, h1, -, h3, h4, N, h5⟩ := source_modules hE s hS { sou := { txt := s, loc := some ⟨e.inputFile, 0⟩ } }
    (PSt.start e input s) rfl (fun _ => rfl) (knows_start e input s hnull) (by simp)
  refine ⟨nodes, st, h4, h1.files, h3.1, h3.2.1, N + 2, fun n hn => ?_⟩
  obtain ⟨m, rfl⟩ : ∃ m, n = m + 2 := ⟨n - 2, by omega⟩
  change psParse e (P e (m + 1)) e.inputFile _ = _
  have hu := C12_no_cr_id s hcr
  have hfind : (PSt.start e input s).world.find e.inputFile = some (.path input, s) := by
    simp [PSt.start, World.find, hu]
  unfold psParse
  have hget : PM.get (PSt.start e input s) = .ok (PSt.start e input s, PSt.start e input s) := rfl
  rw [pm_bind_ok hget, hfind]
  have hrun : psRun (P e (m + 1)) { txt := s, loc := some ⟨e.inputFile, 0⟩ } [] (PSt.start e input s) = .ok (nodes, st) := by
    unfold psRun
    rw [if_neg (by simpa using hne)]
    have h6 := h5 m (by omega)
    change (P e (m + 1)).text .eof _ _ = _ at h6
    rw [pm_bind_ok h6]
    cases nodes <;> rfl
  cases s with
  | nil => exact absurd rfl hne
  | cons c s =>
    dsimp only
    split
    · rename_i ho
      simp only [decide_true, Bool.true_and] at ho
      have := psHeader_neither e.word { txt := c :: s, loc := some ⟨e.inputFile, 0⟩ } hcr (hm ho).1 (hm ho).2
      rw [this]
      exact hrun
    · exact hrun

/-- **C99**. The translation of a source text with imports reports what these pieces come to. -/
theorem C99_program (e : EEnv) (readable : Node → Str) (input : Option Str) (seen : List Node) {xs : List SourcePart} {src : Str}
    {r : Expanded} {known : List Str} (hS : Source (modeOf e.pe) xs src)
    (hE : Expands (modeOf e.pe) e.pe [e.pe.inputFile, ['<', 'n', 'u', 'l', 'l', '>']] xs r known)
    (hne : src ≠ []) (hcr : '\r' ∉ src) (hnull : e.pe.inputFile ≠ ['<', 'n', 'u', 'l', 'l', '>'])
    (hm : e.pe.outputPython = true → ¬ MagicFirst e.pe.word src ∧ ¬ MagicSecond e.pe.word src) :
    ∃ nodes st, ModuleTrees true r nodes ∧ (∀ k, (st.world.find k).isSome = true ↔ k ∈ known) ∧
      (∀ o, Generates e (.str []) false nodes { p := st, seen := seen } o →
        ∃ run, Translates e readable input seen src run ∧ Reports o run) ∧
      ∀ run, Translates e readable input seen src run →
        ∃ o, Generates e (.str []) false nodes { p := st, seen := seen } o ∧ Reports o run := by
  obtain ⟨nodes, st, h1, h2, -, -, N, hp⟩ := C99_file e.pe input hS hE hne hcr hnull hm
  exact ⟨nodes, st, h1, h2, fun o ho => run_made hp (textMade_of (generates_made ho)), fun run hrun => made_run hp hrun⟩

/-! ## Marks -/

variable {e : EEnv}

theorem mark_evaluates {m : Node} (hm : m = .importBegin ∨ m = .importEnd) (s : ESt) : Evaluates e m s m s := by
  rcases hm with rfl | rfl <;> exact ⟨1, rfl⟩

theorem mark_value {m v : Node} (hm : m = .importBegin ∨ m = .importEnd) {s s' : ESt} (h : Evaluates e m s v s') : v = m ∧ s' = s := by
  have h1 := evaluates_iff.1 h
  rw [evaluates_iff.1 (mark_evaluates (e := e) hm s)] at h1
  injection h1 with h1
  injection h1 with h1 h2
  exact ⟨h1.symm, h2.symm⟩

theorem mark_raises {m : Node} (hm : m = .importBegin ∨ m = .importEnd) {s : ESt} (h : Raises e m s) : False := by
  have h1 := raises_iff.1 h
  rw [evaluates_iff.1 (mark_evaluates (e := e) hm s)] at h1
  cases h1

/-- A mark adds nothing to the text; white space behind it is not removed. -/
theorem generates_mark {m : Node} (hm : m = .importBegin ∨ m = .importEnd) {ind : Indent} {cut : Bool} {xs : List Node} {s : ESt} {o : Yield} :
    Generates e ind cut (m :: xs) s o ↔ Generates e ind false xs s o := by
  have hF : Form m := by rcases hm with rfl | rfl <;> exact ⟨(by rintro ⟨_, _, _, h⟩; cases h), by simp⟩
  constructor
  · intro h
    cases h with
    | plain => rcases hm with h | h <;> cases h
    | comment => rcases hm with h | h <;> cases h
    | nothing _ h1 _ h2 => obtain ⟨-, rfl⟩ := mark_value hm h1; exact h2
    | item _ h1 h2 _ _ => obtain ⟨rfl, -⟩ := mark_value hm h1; rcases hm with rfl | rfl <;> cases h2 <;> contradiction
    | waits _ h1 h2 _ _ => obtain ⟨rfl, -⟩ := mark_value hm h1; rcases hm with rfl | rfl <;> cases h2 <;> contradiction
    | definition _ h1 => have := (mark_value hm h1).1; rcases hm with rfl | rfl <;> cases this
    | lastDefinition _ h1 => have := (mark_value hm h1).1; rcases hm with rfl | rfl <;> cases this
    | block _ h1 => have := (mark_value hm h1).1; rcases hm with rfl | rfl <;> cases this
    | skip _ h1 => have := (mark_value hm h1).1; rcases hm with rfl | rfl <;> cases this
    | fails _ h1 => exact (mark_raises hm h1).elim
  · intro h
    exact .nothing hF (mark_evaluates hm s) (.inr hm) h

/-- Whether white space is to be removed makes no difference if no plain text comes next. -/
theorem generates_cut {ind : Indent} {c c' : Bool} {xs : List Node} (hx : NotPlainFirst xs) {s : ESt} {o : Yield}
    (h : Generates e ind c xs s o) : Generates e ind c' xs s o := by
  cases h with
  | nil => exact .nil
  | plain => exact absurd rfl (hx _ _ _ _)
  | comment h => exact .comment h
  | nothing h1 h2 h3 h4 => exact .nothing h1 h2 h3 h4
  | item h1 h2 h3 h4 h5 => exact .item h1 h2 h3 h4 h5
  | waits h1 h2 h3 h4 h5 => exact .waits h1 h2 h3 h4 h5
  | definition h1 h2 h3 h4 => exact .definition h1 h2 h3 h4
  | lastDefinition h1 h2 => exact .lastDefinition h1 h2
  | block h1 h2 h3 => exact .block h1 h2 h3
  | skip h1 h2 h3 => exact .skip h1 h2 h3
  | fails h1 h2 => exact .fails h1 h2

theorem generates_plain {ind : Indent} {cut : Bool} {w : Src} {i : Indent} {c : Bool} {zs : List Node} {s : ESt} {o : Yield} :
    Generates e ind cut (.plain w i c :: zs) s o ↔
      ∃ o', o = o'.after (Spec.fragment e.cfg w.txt (cut || c)) ∧ Generates e (Spec.indentBehind ind i) false zs s o' := by
  constructor
  · intro hg
    cases hg with
    | plain hg => exact ⟨_, rfl, hg⟩
    | nothing h | item h | waits h | definition h | lastDefinition h | block h | skip h | fails h => exact absurd ⟨_, _, _, rfl⟩ h.1
  · rintro ⟨o', rfl, hg⟩
    exact .plain hg

theorem generates_comment {ind : Indent} {cut : Bool} {zs : List Node} {s : ESt} {o : Yield} :
    Generates e ind cut (.comment :: zs) s o ↔ Generates e ind (atLineStart ind) zs s o := by
  constructor
  · intro hg
    cases hg with
    | comment hg => exact hg
    | nothing h | item h | waits h | definition h | lastDefinition h | block h | skip h | fails h => exact absurd rfl h.2
  · intro hg
    exact .comment hg

/-- A definition is a definition: it is worth names or nothing. -/
theorem definition_value {x v : Node} (hx : (∃ l y, x = .set l y) ∨ ∃ a as b, x = .macro a as b) {s s' : ESt}
    (h : Evaluates e x s v s') : v = .none ∨ ∃ f, v = .env f := by
  have h1 := evaluates_iff.1 h
  rcases hx with ⟨l, y, rfl⟩ | ⟨a, as, b, rfl⟩
  · rw [ev_at] at h1
    change evalSet e (ev e) l y s = _ at h1
    unfold evalSet at h1
    split at h1
    · left
      rw [em_bind] at h1
      cases h2 : ev e y s with
      | timeout => rw [h2] at h1; cases h1
      | err => rw [h2] at h1; cases h1
      | ok p =>
        rw [h2] at h1
        dsimp only at h1
        rw [em_bind] at h1
        cases h3 : setOutput e p.1 p.2 with
        | timeout => rw [h3] at h1; cases h1
        | err => rw [h3] at h1; cases h1
        | ok q =>
          rw [h3] at h1
          cases h1
          rfl
    · right
      rw [em_bind] at h1
      cases h2 : evalAssign (ev e) l y s with
      | timeout => rw [h2] at h1; cases h1
      | err => rw [h2] at h1; cases h1
      | ok p =>
        rw [h2] at h1
        cases h1
        exact ⟨_, rfl⟩
  · right
    rw [ev_at] at h1
    cases h1
    exact ⟨_, rfl⟩

/-- The end of a module of definitions can be left out. -/
theorem generates_end {xs : List Node} : ∀ (ys : List Node), (∀ y ∈ ys, DefPiece y) → ∀ (ind : Indent) (cut : Bool) (s : ESt) (o : Yield),
    ((ys = [] ∧ cut = false) ∨ EndsPlain ys ∨ NotPlainFirst xs) →
    (Generates e ind cut (ys ++ .importEnd :: xs) s o ↔ Generates e ind cut (ys ++ xs) s o) := by
  intro ys
  induction ys with
  | nil =>
    intro _ ind cut s o h
    rw [List.nil_append, List.nil_append, generates_mark (.inr rfl)]
    rcases h with ⟨-, rfl⟩ | ⟨zs, z, h, -⟩ | h
    · exact Iff.rfl
    · simp at h
    · exact ⟨generates_cut h, generates_cut h⟩
  | cons y ys ih =>
    intro hy ind cut s o h
    have hys : ∀ z ∈ ys, DefPiece z := fun z hz => hy z (List.mem_cons_of_mem _ hz)
    -- what is required of the rest, for a piece behind which white space stays, and for any piece
    have h0 : ((∃ w i c, y = .plain w i c) ∨ y = .importBegin ∨ y = .importEnd) →
        ((ys = [] ∧ false = false) ∨ EndsPlain ys ∨ NotPlainFirst xs) := by
      intro _
      rcases h with ⟨h, -⟩ | ⟨zs, z, h, h'⟩ | h
      · cases h
      · cases zs with
        | nil => simp only [List.nil_append, List.cons.injEq] at h; exact .inl ⟨h.2, rfl⟩
        | cons z' zs => simp only [List.cons_append, List.cons.injEq] at h; exact .inr (.inl ⟨zs, z, h.2, h'⟩)
      · exact .inr (.inr h)
    have h1 : ¬ ((∃ w i c, y = .plain w i c) ∨ y = .importBegin ∨ y = .importEnd) → ∀ c : Bool,
        ((ys = [] ∧ c = false) ∨ EndsPlain ys ∨ NotPlainFirst xs) := by
      intro hn c
      rcases h with ⟨h, -⟩ | ⟨zs, z, h, h'⟩ | h
      · cases h
      · cases zs with
        | nil =>
          simp only [List.nil_append, List.cons.injEq] at h
          rw [← h.1] at h'
          exact absurd h' hn
        | cons z' zs => simp only [List.cons_append, List.cons.injEq] at h; exact .inr (.inl ⟨zs, z, h.2, h'⟩)
      · exact .inr (.inr h)
    have hdef : (∃ l z, y = .set l z) ∨ (∃ a as b, y = .macro a as b) →
        (Generates e ind cut (y :: (ys ++ .importEnd :: xs)) s o ↔ Generates e ind cut (y :: (ys ++ xs)) s o) := by
      intro hd
      have hF : Form y := by
        rcases hd with ⟨_, _, rfl⟩ | ⟨_, _, _, rfl⟩ <;> exact ⟨(by rintro ⟨_, _, _, h⟩; cases h), by simp⟩
      have hn : ¬ ((∃ w i c, y = .plain w i c) ∨ y = .importBegin ∨ y = .importEnd) := by
        rcases hd with ⟨_, _, rfl⟩ | ⟨_, _, _, rfl⟩ <;> simp
      have no : ∀ {v : Node} {s1 : ESt}, Evaluates e y s v s1 → ∀ {P : Prop}, (v ≠ .none) → (∀ f, v ≠ .env f) → P := by
        intro v s1 hv P h2 h3
        rcases definition_value hd hv with h4 | ⟨f, h4⟩
        · exact absurd h4 h2
        · exact absurd h4 (h3 f)
      constructor
      · intro hg
        generalize hzs : ys ++ .importEnd :: xs = zs at hg
        cases hg with
        | plain => exact absurd (.inl ⟨_, _, _, rfl⟩) hn
        | comment => exact absurd rfl hF.2
        | nothing a1 a2 a3 a4 => subst hzs; exact .nothing a1 a2 a3 ((ih hys _ _ _ _ (h1 hn _)).1 a4)
        | item a1 a2 a3 => exact no a2 (by rintro rfl; cases a3; contradiction) (by rintro f rfl; cases a3 with | value _ _ _ _ h => exact h f rfl)
        | waits a1 a2 a3 => exact no a2 (by rintro rfl; cases a3; contradiction) (by rintro f rfl; cases a3 with | value _ _ _ _ h => exact h f rfl)
        | definition a1 a2 a3 a4 =>
          subst hzs
          have a5 := (ih hys _ _ _ _ (h1 hn _)).1 a4
          by_cases hx : ys ++ xs = []
          · rw [hx] at a5 ⊢
            cases a5
            exact .lastDefinition a1 a2
          · exact .definition a1 a2 hx a5
        | block a1 a2 => exact no a2 (by simp) (by simp)
        | skip a1 a2 => exact no a2 (by simp) (by simp)
        | fails a1 a2 => exact .fails a1 a2
        | lastDefinition => simp_all
      · intro hg
        generalize hzs : ys ++ xs = zs at hg
        cases hg with
        | plain => exact absurd (.inl ⟨_, _, _, rfl⟩) hn
        | comment => exact absurd rfl hF.2
        | nothing a1 a2 a3 a4 => subst hzs; exact .nothing a1 a2 a3 ((ih hys _ _ _ _ (h1 hn _)).2 a4)
        | item a1 a2 a3 => exact no a2 (by rintro rfl; cases a3; contradiction) (by rintro f rfl; cases a3 with | value _ _ _ _ h => exact h f rfl)
        | waits a1 a2 a3 => exact no a2 (by rintro rfl; cases a3; contradiction) (by rintro f rfl; cases a3 with | value _ _ _ _ h => exact h f rfl)
        | definition a1 a2 a3 a4 =>
          subst hzs
          exact .definition a1 a2 (by simp) ((ih hys _ _ _ _ (h1 hn _)).2 a4)
        | @lastDefinition _ _ _ f _ s1 a1 a2 =>
          have a5 := (ih hys ind (atLineStart ind) (push s1 f) _ (h1 hn _)).2 (by rw [hzs]; exact .nil)
          exact .definition a1 a2 (by simp) a5
        | block a1 a2 => exact no a2 (by simp) (by simp)
        | skip a1 a2 => exact no a2 (by simp) (by simp)
        | fails a1 a2 => exact .fails a1 a2
    rw [List.cons_append, List.cons_append]
    cases hy y List.mem_cons_self with
    | plain w i c =>
      have h2 := h0 (.inl ⟨_, _, _, rfl⟩)
      constructor
      · intro hg
        obtain ⟨o', rfl, hg'⟩ := generates_plain.1 hg
        exact .plain ((ih hys _ _ _ _ h2).1 hg')
      · intro hg
        obtain ⟨o', rfl, hg'⟩ := generates_plain.1 hg
        exact .plain ((ih hys _ _ _ _ h2).2 hg')
    | comment =>
      have h2 := h1 (by simp) (atLineStart ind)
      rw [generates_comment, generates_comment]
      exact ih hys _ _ _ _ h2
    | set l x => exact hdef (.inl ⟨_, _, rfl⟩)
    | macro_ a as b => exact hdef (.inr ⟨_, _, _, rfl⟩)
    | opens =>
      rw [generates_mark (.inl rfl), generates_mark (.inl rfl)]
      exact ih hys _ _ _ _ (h0 (.inr (.inl rfl)))
    | closes =>
      rw [generates_mark (.inr rfl), generates_mark (.inr rfl)]
      exact ih hys _ _ _ _ (h0 (.inr (.inr rfl)))

/-- **C99**. Importing definitions is writing them here: what the pieces of the module and the rest of the text come to is
    the same without the marks, wherever the white space about them is not in question. -/
theorem C99_inline (e : EEnv) (ind : Indent) (cut : Bool) (ys xs : List Node) (s : ESt) (o : Yield)
    (hd : ∀ y ∈ ys, DefPiece y) (hb : cut = false ∨ (ys ≠ [] ∧ NotPlainFirst ys)) (he : EndsPlain ys ∨ NotPlainFirst xs) :
    Generates e ind cut (.importBegin :: (ys ++ .importEnd :: xs)) s o ↔ Generates e ind cut (ys ++ xs) s o := by
  rw [generates_mark (.inl rfl), generates_end ys hd ind false s o (.inr he)]
  rcases hb with rfl | ⟨h1, h2⟩
  · exact Iff.rfl
  · have : NotPlainFirst (ys ++ xs) := by
      intro w i c zs h
      cases ys with
      | nil => exact h1 rfl
      | cons y ys =>
        rw [List.cons_append, List.cons.injEq] at h
        exact h2 w i c ys (by rw [h.1])
    exact ⟨generates_cut this, generates_cut this⟩

/-- **C99**. The pieces of a module of definitions. -/
theorem C99_definitions {f : Bool} {q : Expanded} {ms : List Node} (h : ModuleTrees f q ms) (hd : q.Definitions) :
    ∀ n ∈ ms, DefPiece n := by
  induction h with
  | nil => intro n hn; cases hn
  | chars _ _ ih =>
    intro n hn
    rcases List.mem_cons.1 hn with rfl | hn
    · exact .plain _ _ _
    · exact ih hd n hn
  | @piece f x n r ns ht _ ih =>
    intro n' hn
    rcases List.mem_cons.1 hn with rfl | hn
    · cases ht <;> first | (exact False.elim hd) | constructor
    · refine ih ?_ n' hn
      cases ht <;> rename_i h <;> cases h <;> first | (exact False.elim hd) | exact hd
  | empty _ _ _ ih => exact ih hd.2
  | module _ _ _ ih1 ih2 =>
    intro n hn
    rcases List.mem_cons.1 hn with rfl | hn
    · exact .opens
    · rcases List.mem_append.1 hn with hn | hn
      · exact ih1 hd.1 n hn
      · rcases List.mem_cons.1 hn with rfl | hn
        · exact .closes
        · exact ih2 hd.2 n hn

/-! ## Concrete cases -/

/-- A character with which nothing begins is plain text of a file. -/
theorem plainAt_quiet (m : Mode) {c : Char} (s : Str) (ha : Admissible c)
    (hq : c ≠ '(' ∧ ¬ QuoteMark c ∧ c ≠ '/' ∧ c ≠ '#' ∧ ¬ PrefixChar c) : PlainAt m .file 0 0 c s := by
  refine ⟨ha, fun r hr => (by cases hr), fun hf => hq.1 (starts_head_eq hf), fun hf => hq.1 (starts_head_eq hf), fun hl => ?_, fun hr => ?_⟩
  · obtain ⟨p, q, t, hpp, hqq, he⟩ := literal_quote hl
    cases p with
    | nil => cases he; exact hq.2.1 hqq
    | cons d p => cases he; exact hq.2.2.2.2 (prefix_chars hpp _ List.mem_cons_self)
  · revert hr
    cases m.remarks with
    | none => exact id
    | c => rintro (h | h) <;> exact hq.2.2.1 (starts_head_eq h)
    | python => exact fun h => hq.2.2.2.1 (starts_head_eq h)

theorem plainRun_quiet (m : Mode) {w : Str} (s : Str) (ha : ∀ c ∈ w, Admissible c)
    (hq : ∀ c ∈ w, c ≠ '(' ∧ ¬ QuoteMark c ∧ c ≠ '/' ∧ c ≠ '#' ∧ ¬ PrefixChar c) : PlainRun m w s := by
  rintro a c b rfl
  exact plainAt_quiet m _ (ha c (by simp)) (hq c (by simp))

/-- The library `m.yu`: `($macro a()b)` and a line end. -/
def sampleLib : Str := ['(', '$', 'm', 'a', 'c', 'r', 'o', ' ', 'a', '(', ')', 'b', ')', '\n']

/-- A program: `($import m)`, a line with `y`, and `($import m)` again. -/
def sampleMain : Str := ['(', '$', 'i', 'm', 'p', 'o', 'r', 't', ' ', 'm', ')', '\n', 'y', '\n', '(', '$', 'i', 'm', 'p', 'o', 'r', 't', ' ', 'm', ')']

theorem sampleLib_source (m : Mode) : Source m [.piece (.macro ['a'] [] ['b'] .nil), .chars ['\n']] sampleLib := by
  refine Source.piece (s' := ['\n']) (OnePiece.defMacro (g1 := [' ']) (g2 := []) (g3 := []) (t := []) ?_ (isName_letter (by decide)) ?_ ?_ ?_ ?_ ?_) ?_
  · intro c hc; simp at hc; subst hc; decide
  · intro c hc; cases hc
  · intro c hc; cases hc
  · exact .nil
  · exact .char (by decide) (by decide) .nil
  · intro c hc; simp at hc; subst hc; unfold Admissible; decide
  · refine Source.chars (w := ['\n']) (s := []) (by simp) (plainRun_quiet m [] ?_ ?_) rfl .done
    · intro c hc; simp at hc; subst hc; unfold Admissible; decide
    · intro c hc; simp at hc; subst hc; unfold QuoteMark PrefixChar; decide

theorem sampleMain_source (m : Mode) : Source m [.lib ['m'], .chars ['\n', 'y', '\n'], .lib ['m']] sampleMain := by
  have hg : IsGap [' '] := by intro c hc; simp at hc; subst hc; decide
  have h0 : IsGap [] := by intro c hc; cases hc
  refine Source.lib (g1 := [' ']) (g2 := []) hg (isName_letter (by decide)) h0 .plain ?_
  refine Source.chars (w := ['\n', 'y', '\n']) (by simp) (plainRun_quiet m _ ?_ ?_) rfl ?_
  · intro c hc; simp at hc; rcases hc with rfl | rfl | rfl <;> (unfold Admissible; decide)
  · intro c hc; simp at hc; rcases hc with rfl | rfl | rfl <;> (unfold QuoteMark PrefixChar; decide)
  · exact Source.lib (g1 := [' ']) (g2 := []) hg (isName_letter (by decide)) h0 .plain .done

/-- The library is read once: its second import brings nothing. -/
theorem sampleMain_expands (m : Mode) (e : PEnv) (hin : e.inputFile ≠ ['m', '.', 'y', 'u'])
    (hlib : e.readLib ['m', '.', 'y', 'u'] = some (['/', 'm'], sampleLib)) :
    Expands m e [e.inputFile, ['<', 'n', 'u', 'l', 'l', '>']] [.lib ['m'], .chars ['\n', 'y', '\n'], .lib ['m']]
      (.module (.piece (.macro ['a'] [] ['b'] .nil) (.chars ['\n'] .nil)) (.chars ['\n', 'y', '\n'] .nil))
      [['m', '.', 'y', 'u'], e.inputFile, ['<', 'n', 'u', 'l', 'l', '>']] := by
  refine .lib ?_ hlib (ys := [.piece (.macro ['a'] [] ['b'] .nil), .chars ['\n']]) ?_ (.piece (.chars .nil)) (.chars (.again ?_ .nil))
  · simp [hin.symm]
  · have : unifyEol sampleLib = sampleLib := C12_no_cr_id _ (by decide)
    rw [this]
    exact sampleLib_source m
  · simp

example : (Expanded.module (.piece (.macro ['a'] [] ['b'] .nil) (.chars ['\n'] .nil)) (.chars ['\n', 'y', '\n'] .nil)).Definitions :=
  ⟨trivial, trivial⟩

theorem moduleTrees_chars {f : Bool} {w : Str} {r : Expanded} {ns : List Node} (h : ModuleTrees f (.chars w r) ns) :
    ∃ (u : Src) (i : Indent) (ns' : List Node), u.txt = w ∧ Indented f w i ∧ ModuleTrees false r ns' ∧ ns = .plain u i false :: ns' := by
  generalize hx : Expanded.chars w r = x at h
  cases h <;> cases hx
  exact ⟨_, _, _, rfl, by assumption, by assumption, rfl⟩

theorem textTrees_macro {f : Bool} {a : Str} {as : List Str} {b : Str} {n : Node} (h : TextTrees f (.macro a as b .nil) [n]) :
    ∃ (a' : Src) (as' : List Src) (b' : Src), n = .macro a' as' b' ∧ a'.txt = a ∧ as'.map (·.txt) = as ∧ b'.txt = b := by
  generalize hx : ExprText.macro a as b .nil = x at h
  generalize hy : [n] = ns at h
  cases h <;> cases hx
  cases hy
  exact ⟨_, _, _, rfl, rfl, rfl, rfl⟩

/-- The translation of the program ends: the text is that of the main file, the library left none. -/
example (e : EEnv) (readable : Node → Str) (seen : List Node) (ho : e.pe.outputPython = false) (hc : e.cfg.trimAppIndent = true)
    (h0 : e.pe.inputFile = ['p']) (hlib : e.pe.readLib ['m', '.', 'y', 'u'] = some (['/', 'm'], sampleLib)) :
    ∃ run s, Translates e readable none seen sampleMain run ∧ Reports (.text ['\n', 'y', '\n'] s) run := by
  obtain ⟨nodes, st, h1, -, h3, -⟩ := C99_program e readable none seen (sampleMain_source _)
    (sampleMain_expands _ e.pe (by rw [h0]; decide) hlib) (by decide) (by decide) (by rw [h0]; decide) (by rw [ho]; intro h; cases h)
  obtain ⟨w1, w2, i1, i2, a, b, rfl, e1, e2⟩ : ∃ (w1 w2 : Src) (i1 i2 : Indent) (a b : Src),
      nodes = [.importBegin, .macro a [] b, .plain w1 i1 false, .importEnd, .plain w2 i2 false] ∧ w1.txt = ['\n'] ∧ w2.txt = ['\n', 'y', '\n'] := by
    cases h1 with
    | empty h => cases h
    | module h _ h' =>
      obtain ⟨w2, i2, ns, e2, -, hn, rfl⟩ := moduleTrees_chars h'
      cases hn
      cases h with
      | piece ht hr =>
        obtain ⟨w1, i1, ns, e1, -, hn, rfl⟩ := moduleTrees_chars hr
        cases hn
        obtain ⟨a, as, b, rfl, -, has, -⟩ := textTrees_macro ht
        have : as = [] := by simpa using has
        subst this
        exact ⟨w1, w2, i1, i2, a, b, rfl, e1, e2⟩
  have hd : Evaluates e (.macro a [] b) { p := st, seen := seen } (.env [(a.txt, .mclosure b [] a none)]) { p := st, seen := seen } := ⟨1, rfl⟩
  have g1 : Generates e (Spec.indentBehind (.str []) i1) false [.importEnd, .plain w2 i2 false]
      (push { p := st, seen := seen } [(a.txt, .mclosure b [] a none)]) _ := (generates_mark (.inr rfl)).2 (.plain .nil)
  have g2 := Generates.plain (e := e) (ind := .str []) (cut := true) (c := false) (w := w1) g1
  have g3 := Generates.definition (ind := .str []) (cut := false) ⟨(by rintro ⟨_, _, _, h⟩; cases h), by simp⟩ hd (by simp) g2
  have g4 := (generates_mark (e := e) (cut := false) (.inl rfl)).2 g3
  obtain ⟨run, h5, h6⟩ := h3 _ g4
  refine ⟨run, pop (push { p := st, seen := seen } [(a.txt, .mclosure b [] a none)]), h5, ?_⟩
  have ew : lstrip ['\n'] = [] := by decide
  simpa [Yield.leave, Yield.after, Spec.fragment, hc, e1, e2, ew, atLineStart] using h6

end Yupp
