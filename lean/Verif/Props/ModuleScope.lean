import Verif.Props.Modules
import Verif.Props.Effects
import Verif.Props.Stdlib
import Verif.Lemmas.StdText
/-!
# C100 — What a module of definitions brings
-/

namespace Yupp

open Spec (Generates Yield Form Item Final atLineStart Reports push pop behindModule fragment indentBehind Avoids emits lvalNames
  Choice Binary DefineFn EndOfLine)

variable {e : EEnv}

/-! ## The text and the scopes it leaves -/

theorem after_after (o : Yield) (t u : Str) : (o.after u).after t = o.after (t ++ u) := by cases o <;> simp [Yield.after]
theorem after_nil (o : Yield) : o.after [] = o := by cases o <;> simp [Yield.after]
theorem after_leave (o : Yield) (t : Str) : (o.after t).leave = o.leave.after t := by cases o <;> rfl

theorem defPiece_cases {y : Node} (h : DefPiece y) : (∃ w i c, y = .plain w i c) ∨ y = .comment ∨ (y = .importBegin ∨ y = .importEnd) ∨
    ((∃ l x, y = .set l x) ∨ ∃ a as b, y = .macro a as b) := by
  cases h <;> simp

theorem definition_form {y : Node} (h : (∃ l x, y = .set l x) ∨ ∃ a as b, y = .macro a as b) : Form y := by
  rcases h with ⟨_, _, rfl⟩ | ⟨_, _, _, rfl⟩ <;> exact ⟨(by rintro ⟨_, _, _, h⟩; cases h), by simp⟩

/-- A definition with more pieces behind it. -/
theorem generates_definition {y : Node} (hd : (∃ l x, y = .set l x) ∨ ∃ a as b, y = .macro a as b) {ind : Indent} {cut : Bool}
    {zs : List Node} (hz : zs ≠ []) {s : ESt} {o : Yield} :
    Generates e ind cut (y :: zs) s o ↔
      (∃ f s1 o', Evaluates e y s (.env f) s1 ∧ Generates e ind (atLineStart ind) zs (push s1 f) o' ∧ o = o'.leave) ∨
      (∃ s1, Evaluates e y s .none s1 ∧ Generates e ind false zs s1 o) ∨ (o = .fails ∧ Raises e y s) := by
  have hF := definition_form hd
  have no : ∀ {v : Node} {s1 : ESt}, Evaluates e y s v s1 → ∀ {P : Prop}, (v ≠ .none) → (∀ f, v ≠ .env f) → P := by
    intro v s1 hv P h2 h3
    rcases definition_value hd hv with h4 | ⟨f, h4⟩
    · exact absurd h4 h2
    · exact absurd h4 (h3 f)
  constructor
  · intro hg
    cases hg with
    | plain => exact absurd ⟨_, _, _, rfl⟩ hF.1
    | comment => exact absurd rfl hF.2
    | nothing a1 a2 a3 a4 =>
      rcases definition_value hd a2 with rfl | ⟨f, rfl⟩
      · exact .inr (.inl ⟨_, a2, a4⟩)
      · rcases a3 with h | h | h <;> cases h
    | item a1 a2 a3 => exact no a2 (by rintro rfl; cases a3; contradiction) (by rintro f rfl; cases a3 with | value _ _ _ _ h => exact h f rfl)
    | waits a1 a2 a3 => exact no a2 (by rintro rfl; cases a3; contradiction) (by rintro f rfl; cases a3 with | value _ _ _ _ h => exact h f rfl)
    | definition a1 a2 a3 a4 => exact .inl ⟨_, _, _, a2, a4, rfl⟩
    | lastDefinition => exact absurd rfl hz
    | block a1 a2 => exact no a2 (by simp) (by simp)
    | skip a1 a2 => exact no a2 (by simp) (by simp)
    | fails a1 a2 => exact .inr (.inr ⟨rfl, a2⟩)
  · rintro (⟨f, s1, o', h1, h2, rfl⟩ | ⟨s1, h1, h2⟩ | ⟨rfl, h⟩)
    · exact .definition hF h1 hz h2
    · exact .nothing hF h1 (.inl rfl) h2
    · exact .fails hF h

/-- **C100.** What is generated from a text that begins with definitions: either all of them are entered, and the rest of the
    text is dealt with in the state they leave, or one of them raises, those before it having been entered. -/
theorem C100_scope (e : EEnv) : ∀ (ys xs : List Node), (∀ y ∈ ys, DefPiece y) → xs ≠ [] → ∀ (ind : Indent) (cut : Bool) (s : ESt) (o : Yield),
    Generates e ind cut (ys ++ xs) s o ↔
      (∃ ind' cut' t n s' o', Enters (Evaluates e) e.cfg ind cut ys s ind' cut' t n s' ∧ Generates e ind' cut' xs s' o' ∧
        o = (leaveAll n o').after t) ∨
      (o = .fails ∧ ∃ as y bs ind' cut' t n s', ys = as ++ y :: bs ∧ Enters (Evaluates e) e.cfg ind cut as s ind' cut' t n s' ∧
        Form y ∧ Raises e y s') := by
  intro ys xs hd hx
  induction ys with
  | nil =>
    intro ind cut s o
    constructor
    · intro h
      exact .inl ⟨_, _, [], 0, s, o, .nil, h, by rw [leaveAll, after_nil]⟩
    · rintro (⟨ind', cut', t, n, s', o', h1, h2, rfl⟩ | ⟨-, as, y, bs, _, _, _, _, _, h, -⟩)
      · cases h1
        rwa [leaveAll, after_nil]
      · simp at h
  | cons y ys ih =>
    intro ind cut s o
    have ih := ih (fun z hz => hd z (List.mem_cons_of_mem _ hz))
    have hne : ys ++ xs ≠ [] := by simp [hx]
    -- one more piece in front
    have fwd : ∀ {ind1 : Indent} {cut1 : Bool} {s1 : ESt} {o1 : Yield} (u : Str) (k : Nat),
        (∀ {zs ind' cut' t n s'}, Enters (Evaluates e) e.cfg ind1 cut1 zs s1 ind' cut' t n s' →
          Enters (Evaluates e) e.cfg ind cut (y :: zs) s ind' cut' (u ++ t) (n + k) s') →
        Generates e ind1 cut1 (ys ++ xs) s1 o1 →
        (∃ ind' cut' t n s' o', Enters (Evaluates e) e.cfg ind cut (y :: ys) s ind' cut' t (n + k) s' ∧ Generates e ind' cut' xs s' o' ∧
          ∃ t', t = u ++ t' ∧ o1 = (leaveAll n o').after t') ∨
        (o1 = .fails ∧ ∃ as z bs ind' cut' t n s', y :: ys = as ++ z :: bs ∧ Enters (Evaluates e) e.cfg ind cut as s ind' cut' t n s' ∧
          Form z ∧ Raises e z s') := by
      intro ind1 cut1 s1 o1 u k hE hg
      rcases (ih ind1 cut1 s1 o1).1 hg with ⟨ind', cut', t, n, s', o', h1, h2, h3⟩ | ⟨h0, as, z, bs, ind', cut', t, n, s', h1, h2, h3, h4⟩
      · exact .inl ⟨ind', cut', u ++ t, n, s', o', hE h1, h2, t, rfl, h3⟩
      · exact .inr ⟨h0, y :: as, z, bs, ind', cut', _, _, s', by rw [h1, List.cons_append], hE h2, h3, h4⟩
    rw [List.cons_append]
    have split : ∀ {as : List Node} {z : Node} {bs : List Node}, y :: ys = as ++ z :: bs →
        (as = [] ∧ y = z ∧ ys = bs) ∨ ∃ as', as = y :: as' ∧ ys = as' ++ z :: bs := by
      intro as z bs h
      cases as with
      | nil => simp only [List.nil_append, List.cons.injEq] at h; exact .inl ⟨rfl, h.1, h.2⟩
      | cons a as => simp only [List.cons_append, List.cons.injEq] at h; exact .inr ⟨as, by rw [h.1], h.2⟩
    rcases defPiece_cases (hd y List.mem_cons_self) with ⟨w, i, c, rfl⟩ | rfl | hm | hdef
    · constructor
      · intro hg
        obtain ⟨o1, rfl, hg'⟩ := generates_plain.1 hg
        rcases fwd (fragment e.cfg w.txt (cut || c)) 0 (fun h => .plain h) hg' with
          ⟨ind', cut', t, n, s', o', h1, h2, t', rfl, rfl⟩ | ⟨rfl, h⟩
        · exact .inl ⟨ind', cut', _, n, s', o', h1, h2, by rw [after_after]⟩
        · exact .inr ⟨rfl, h⟩
      · rintro (⟨ind', cut', t, n, s', o', h1, h2, rfl⟩ | ⟨rfl, as, z, bs, ind', cut', t, n, s', h, h1, h2, h3⟩)
        · cases h1 with
          | plain h1 =>
            rw [← after_after]
            exact .plain ((ih _ _ _ _).2 (.inl ⟨_, _, _, _, _, _, h1, h2, rfl⟩))
          | mark h => rcases h with h | h <;> cases h
          | names _ h => obtain ⟨n, hn⟩ := h; cases n <;> cases hn
          | output _ h => obtain ⟨n, hn⟩ := h; cases n <;> cases hn
        · rcases split h with ⟨-, rfl, -⟩ | ⟨as', rfl, hys⟩
          · exact absurd ⟨_, _, _, rfl⟩ h2.1
          · cases h1 with
            | plain h1 => exact Generates.plain (o := .fails) ((ih _ _ _ _).2 (.inr ⟨rfl, _, _, _, _, _, _, _, _, hys, h1, h2, h3⟩))
            | mark h => rcases h with h | h <;> cases h
            | names _ h => obtain ⟨n, hn⟩ := h; cases n <;> cases hn
            | output _ h => obtain ⟨n, hn⟩ := h; cases n <;> cases hn
    · rw [generates_comment]
      constructor
      · intro hg
        rcases fwd [] 0 (fun h => .comment h) hg with ⟨ind', cut', t, n, s', o', h1, h2, t', rfl, rfl⟩ | h
        · exact .inl ⟨ind', cut', _, n, s', o', h1, h2, rfl⟩
        · exact .inr h
      · rintro (⟨ind', cut', t, n, s', o', h1, h2, rfl⟩ | ⟨rfl, as, z, bs, ind', cut', t, n, s', h, h1, h2, h3⟩)
        · cases h1 with
          | comment h1 => exact (ih _ _ _ _).2 (.inl ⟨_, _, _, _, _, _, h1, h2, rfl⟩)
          | mark h => rcases h with h | h <;> cases h
          | names _ h => obtain ⟨n, hn⟩ := h; cases n <;> cases hn
          | output _ h => obtain ⟨n, hn⟩ := h; cases n <;> cases hn
        · rcases split h with ⟨-, rfl, -⟩ | ⟨as', rfl, hys⟩
          · exact absurd rfl h2.2
          · cases h1 with
            | comment h1 => exact (ih _ _ _ _).2 (.inr ⟨rfl, _, _, _, _, _, _, _, _, hys, h1, h2, h3⟩)
            | mark h => rcases h with h | h <;> cases h
            | names _ h => obtain ⟨n, hn⟩ := h; cases n <;> cases hn
            | output _ h => obtain ⟨n, hn⟩ := h; cases n <;> cases hn
    · rw [generates_mark hm]
      have inv : ∀ {zs ind' cut' t n s'}, Enters (Evaluates e) e.cfg ind cut (y :: zs) s ind' cut' t n s' →
          Enters (Evaluates e) e.cfg ind false zs s ind' cut' t n s' := by
        intro zs ind' cut' t n s' h
        cases h with
        | plain => rcases hm with h | h <;> cases h
        | comment => rcases hm with h | h <;> cases h
        | mark _ h => exact h
        | names _ h => obtain ⟨h, -⟩ := mark_value hm h; rcases hm with rfl | rfl <;> cases h
        | output _ h => obtain ⟨h, -⟩ := mark_value hm h; rcases hm with rfl | rfl <;> cases h
      constructor
      · intro hg
        rcases fwd [] 0 (fun h => .mark hm h) hg with ⟨ind', cut', t, n, s', o', h1, h2, t', rfl, rfl⟩ | h
        · exact .inl ⟨ind', cut', _, n, s', o', h1, h2, rfl⟩
        · exact .inr h
      · rintro (⟨ind', cut', t, n, s', o', h1, h2, rfl⟩ | ⟨rfl, as, z, bs, ind', cut', t, n, s', h, h1, h2, h3⟩)
        · exact (ih _ _ _ _).2 (.inl ⟨_, _, _, _, _, _, inv h1, h2, rfl⟩)
        · rcases split h with ⟨rfl, rfl, -⟩ | ⟨as', rfl, hys⟩
          · exact (mark_raises hm h3).elim
          · exact (ih _ _ _ _).2 (.inr ⟨rfl, _, _, _, _, _, _, _, _, hys, inv h1, h2, h3⟩)
    · have inv : ∀ {zs ind' cut' t n s'}, Enters (Evaluates e) e.cfg ind cut (y :: zs) s ind' cut' t n s' →
          (∃ f s1 m, n = m + 1 ∧ Evaluates e y s (.env f) s1 ∧ Enters (Evaluates e) e.cfg ind (atLineStart ind) zs (push s1 f) ind' cut' t m s') ∨
          (∃ s1, Evaluates e y s .none s1 ∧ Enters (Evaluates e) e.cfg ind false zs s1 ind' cut' t n s') := by
        intro zs ind' cut' t n s' h
        cases h with
        | plain => rcases hdef with ⟨_, _, h⟩ | ⟨_, _, _, h⟩ <;> cases h
        | comment => rcases hdef with ⟨_, _, h⟩ | ⟨_, _, _, h⟩ <;> cases h
        | mark h => rcases hdef with ⟨_, _, rfl⟩ | ⟨_, _, _, rfl⟩ <;> rcases h with h | h <;> cases h
        | names _ h1 h2 => exact .inl ⟨_, _, _, rfl, h1, h2⟩
        | output _ h1 h2 => exact .inr ⟨_, h1, h2⟩
      have hDP := hd y List.mem_cons_self
      rw [generates_definition hdef hne]
      constructor
      · rintro (⟨f, s1, o1, h0, hg, rfl⟩ | ⟨s1, h0, hg⟩ | ⟨rfl, h⟩)
        · rcases fwd [] 1 (fun h => .names hDP h0 h) hg with ⟨ind', cut', t, n, s', o', h1, h2, t', rfl, rfl⟩ | ⟨rfl, h⟩
          · exact .inl ⟨ind', cut', _, n + 1, s', o', h1, h2, by rw [after_leave]; rfl⟩
          · exact .inr ⟨rfl, h⟩
        · rcases fwd [] 0 (fun h => .output hDP h0 h) hg with ⟨ind', cut', t, n, s', o', h1, h2, t', rfl, rfl⟩ | h
          · exact .inl ⟨ind', cut', _, n, s', o', h1, h2, rfl⟩
          · exact .inr h
        · exact .inr ⟨rfl, [], y, ys, ind, cut, [], 0, s, rfl, .nil, definition_form hdef, h⟩
      · rintro (⟨ind', cut', t, n, s', o', h1, h2, rfl⟩ | ⟨rfl, as, z, bs, ind', cut', t, n, s', h, h1, h2, h3⟩)
        · rcases inv h1 with ⟨f, s1, m, rfl, h3, h4⟩ | ⟨s1, h3, h4⟩
          · exact .inl ⟨f, s1, _, h3, (ih _ _ _ _).2 (.inl ⟨_, _, _, _, _, _, h4, h2, rfl⟩), by rw [after_leave]; rfl⟩
          · exact .inr (.inl ⟨s1, h3, (ih _ _ _ _).2 (.inl ⟨_, _, _, _, _, _, h4, h2, rfl⟩)⟩)
        · rcases split h with ⟨rfl, rfl, -⟩ | ⟨as', rfl, hys⟩
          · cases h1
            exact .inr (.inr ⟨rfl, h3⟩)
          · rcases inv h1 with ⟨f, s1, m, rfl, h4, h5⟩ | ⟨s1, h4, h5⟩
            · exact .inl ⟨f, s1, .fails, h4, (ih _ _ _ _).2 (.inr ⟨rfl, _, _, _, _, _, _, _, _, hys, h5, h2, h3⟩), rfl⟩
            · exact .inr (.inl ⟨s1, h4, (ih _ _ _ _).2 (.inr ⟨rfl, _, _, _, _, _, _, _, _, hys, h5, h2, h3⟩)⟩)

/-! ## The names -/

theorem get_isSome {f : Frame} {a : Str} : (Frame.get f a).isSome = true ↔ a ∈ f.map (·.1) := by
  unfold Frame.get
  simp

theorem set_names {f : Frame} {k a : Str} {v : Node} : a ∈ (Frame.set f k v).map (·.1) ↔ a ∈ f.map (·.1) ∨ a = k := by
  unfold Frame.set Frame.del
  simp only [List.map_append, List.mem_append, List.map_cons, List.map_nil, List.mem_singleton, List.mem_map, List.mem_filter]
  by_cases h : a = k
  · simp [h]
  · constructor
    · rintro (⟨p, hp, rfl⟩ | h')
      · exact .inl ⟨p, hp.1, rfl⟩
      · exact absurd h' h
    · rintro (⟨p, hp, rfl⟩ | h')
      · exact .inl ⟨p, ⟨hp, by simpa using h⟩, rfl⟩
      · exact absurd h' h

theorem foldl_names {α : Type} (as : List α) (k : α → Str) (v : α → Node) (f : Frame) (a : Str) :
    a ∈ (as.foldl (fun f b => Frame.set f (k b) (v b)) f).map (·.1) ↔ a ∈ f.map (·.1) ∨ a ∈ as.map k := by
  induction as generalizing f with
  | nil => simp
  | cons b as ih => rw [List.foldl_cons, ih, set_names, List.map_cons, List.mem_cons, or_assoc]

theorem assignMany_names (as : List Src) (vs : List Node) (f : Frame) (a : Str) :
    a ∈ (assignMany f as vs).map (·.1) ↔ a ∈ f.map (·.1) ∨ a ∈ as.map (·.txt) := by
  induction as generalizing f vs with
  | nil => simp [assignMany]
  | cons b as ih => cases vs <;> rw [assignMany, ih, set_names, List.map_cons, List.mem_cons, or_assoc]

theorem assign_names (l : LVal) (v : Node) (f : Frame) (a : Str) : a ∈ (assign f l v).map (·.1) ↔ a ∈ f.map (·.1) ∨ a ∈ lvalNames l := by
  cases l with
  | one b => rw [assign, set_names]; simp [lvalNames]
  | many as =>
    unfold assign
    dsimp only
    split
    · exact assignMany_names _ _ _ _
    · exact foldl_names as (·.txt) (fun _ => v) f a

theorem lval_frame_names (l : LVal) (a : Str) : a ∈ l.frame.map (·.1) ↔ a ∈ lvalNames l := by
  cases l with
  | one b => simp [LVal.frame, lvalNames]
  | many as =>
    unfold LVal.frame Frame.ofList
    rw [foldl_names (as.map fun a => (a.txt, Node.bound)) (·.1) (·.2)]
    simp [lvalNames]

/-- What `($set ..)` is worth: the names with a value assigned to them. -/
theorem set_value {l : LVal} {x : Node} {s s1 : ESt} {f : Frame} (h : Evaluates e (.set l x) s (.env f) s1) :
    (∀ b, l = .one b → b.txt ≠ lit "__OUTPUT_FILE__") ∧ ∃ g v, f = assign g l v ∧ g.map (·.1) = l.frame.map (·.1) := by
  have h1 := evaluates_iff.1 h
  rw [ev_at] at h1
  change evalSet e (ev e) l x s = _ at h1
  unfold evalSet at h1
  split at h1
  · rw [em_bind] at h1
    cases h2 : ev e x s with
    | timeout => rw [h2] at h1; cases h1
    | err => rw [h2] at h1; cases h1
    | ok p =>
      rw [h2] at h1
      dsimp only at h1
      rw [em_bind] at h1
      cases h3 : setOutput e p.1 p.2 with
      | timeout => rw [h3] at h1; cases h1
      | err => rw [h3] at h1; cases h1
      | ok q => rw [h3] at h1; cases h1
  · next ho =>
    refine ⟨?_, ?_⟩
    · rintro b rfl hb
      exact ho (by simp [LVal.isOutput, hb])
    rw [em_bind] at h1
    cases h2 : evalAssign (ev e) l x s with
    | timeout => rw [h2] at h1; cases h1
    | err => rw [h2] at h1; cases h1
    | ok p =>
      rw [h2] at h1
      cases h1
      unfold evalAssign at h2
      rw [em_bind] at h2
      cases h3 : EM.inFrame l.frame (ev e x) s with
      | timeout => rw [h3] at h2; cases h2
      | err => rw [h3] at h2; cases h2
      | ok q =>
        obtain ⟨⟨v, g⟩, s2⟩ := q
        rw [h3] at h2
        cases h2
        obtain ⟨s3, h4, h5, -⟩ := inFrame_inv h3
        have h6 := C95_scopes (evaluates_iff.2 h4)
        refine ⟨g, v, rfl, ?_⟩
        generalize hE : ({ s with env := l.frame :: s.env } : ESt).env = E at h6
        generalize hG : s3.env = G at h6
        rw [h5] at hG
        cases h6 with
        | nil => cases hE
        | cons h _ => cases hE; cases hG; exact h.names

/-- `($set a ..)` is worth one name. -/
theorem set_single {a : Src} {x : Node} {s s1 : ESt} {f : Frame} (h : Evaluates e (.set (.one a) x) s (.env f) s1) : ∃ v, f = [(a.txt, v)] := by
  obtain ⟨-, g, v, rfl, hg⟩ := set_value h
  refine ⟨v, ?_⟩
  match g, hg with
  | [(k, w)], hg =>
    simp only [List.map_cons, List.map_nil, LVal.frame, List.cons.injEq, and_true] at hg
    subst hg
    simp [assign, Frame.set, Frame.del]

/-- A definition binds its names and no others. -/
theorem definition_binds {y : Node} (hy : DefPiece y) {s s1 : ESt} {f : Frame} (h : Evaluates e y s (.env f) s1) (a : Str) :
    (Frame.get f a).isSome = true ↔ Binds y a := by
  rw [get_isSome]
  cases hy with
  | plain => have h1 := evaluates_iff.1 h; rw [ev_at] at h1; cases h1
  | comment => have h1 := evaluates_iff.1 h; rw [ev_at] at h1; cases h1
  | opens => have h1 := evaluates_iff.1 h; rw [ev_at] at h1; cases h1
  | closes => have h1 := evaluates_iff.1 h; rw [ev_at] at h1; cases h1
  | macro_ m ps b =>
    have h1 := evaluates_iff.1 h
    rw [ev_at] at h1
    cases h1
    constructor
    · intro h
      simp only [List.map_cons, List.map_nil, List.mem_singleton] at h
      subst h
      exact .macro_
    · intro h
      cases h
      simp
  | set l x =>
    obtain ⟨ho, g, v, rfl, hg⟩ := set_value h
    rw [assign_names, hg, lval_frame_names, or_self]
    exact ⟨fun h => .set ho h, fun h => by cases h; assumption⟩

theorem lookup_push {s : ESt} {f : Frame} {a : Str} :
    Scopes.lookup (push s f).env a = match Frame.get f a with | some v => some v | none => Scopes.lookup s.env a := by
  change Scopes.lookup (f :: s.env) a = _
  rw [Scopes.lookup]
  cases Frame.get f a <;> rfl

/-- While nothing is emitted, a definition leaves the scopes as they are. -/
theorem quiet_env {y v : Node} {s s1 : ESt} (h : Avoids e emits y s v s1) : s1.env = s.env := C95_no_emit h

/-- **C100.** A name that the definitions do not define means what it meant before. -/
theorem C100_others {ind ind' : Indent} {cut cut' : Bool} {ys : List Node} {s s' : ESt} {t : Str} {n : Nat}
    (h : Enters (Avoids e emits) e.cfg ind cut ys s ind' cut' t n s') {a : Str} (ha : ∀ y ∈ ys, ¬ Binds y a) :
    Scopes.lookup s'.env a = Scopes.lookup s.env a := by
  induction h with
  | nil => rfl
  | plain _ ih | comment _ ih | mark _ _ ih => exact ih fun y hy => ha y (List.mem_cons_of_mem _ hy)
  | names hy h1 _ ih =>
    rw [ih fun y hy => ha y (List.mem_cons_of_mem _ hy), lookup_push]
    have := definition_binds hy (C95_avoids h1) a
    have hn := ha _ List.mem_cons_self
    cases hg : Frame.get _ a with
    | none => dsimp only; rw [quiet_env h1]
    | some v => rw [hg] at this; exact absurd (this.1 rfl) hn
  | output _ h1 _ ih => rw [ih fun y hy => ha y (List.mem_cons_of_mem _ hy), quiet_env h1]

/-- **C100.** A name means what its last definition gave it, in the state the definitions before it left. -/
theorem C100_names {ind ind' : Indent} {cut cut' : Bool} {ys : List Node} {s s' : ESt} {t : Str} {n : Nat}
    (h : Enters (Avoids e emits) e.cfg ind cut ys s ind' cut' t n s') {as bs : List Node} {y : Node} {a : Str} (hys : ys = as ++ y :: bs)
    (hy : Binds y a) (hb : ∀ z ∈ bs, ¬ Binds z a) :
    ∃ ind1 cut1 t1 n1 s1 f s2 v, Enters (Avoids e emits) e.cfg ind cut as s ind1 cut1 t1 n1 s1 ∧ Evaluates e y s1 (.env f) s2 ∧
      Frame.get f a = some v ∧ Scopes.lookup s'.env a = some v := by
  induction h generalizing as with
  | nil => simp at hys
  | plain h ih =>
    cases as with
    | nil => cases hys; cases hy
    | cons z as =>
      cases hys
      obtain ⟨ind1, cut1, t1, n1, s1, f, s2, v, h1, h2⟩ := ih rfl
      exact ⟨_, _, _, _, _, f, s2, v, .plain h1, h2⟩
  | comment h ih =>
    cases as with
    | nil => cases hys; cases hy
    | cons z as =>
      cases hys
      obtain ⟨ind1, cut1, t1, n1, s1, f, s2, v, h1, h2⟩ := ih rfl
      exact ⟨_, _, _, _, _, f, s2, v, .comment h1, h2⟩
  | mark hm h ih =>
    cases as with
    | nil => cases hys; rcases hm with rfl | rfl <;> cases hy
    | cons z as =>
      cases hys
      obtain ⟨ind1, cut1, t1, n1, s1, f, s2, v, h1, h2⟩ := ih rfl
      exact ⟨_, _, _, _, _, f, s2, v, .mark hm h1, h2⟩
  | @names _ _ y' f _ _ s1 _ _ _ _ _ hD h0 h ih =>
    cases as with
    | nil =>
      cases hys
      have hs := (definition_binds hD (C95_avoids h0) a).2 hy
      obtain ⟨v, hv⟩ := Option.isSome_iff_exists.1 hs
      refine ⟨_, _, _, _, _, f, s1, v, .nil, C95_avoids h0, hv, ?_⟩
      rw [C100_others h hb, lookup_push, hv]
    | cons z as =>
      cases hys
      obtain ⟨ind1, cut1, t1, n1, s1, f, s2, v, h1, h2⟩ := ih rfl
      exact ⟨_, _, _, _, _, f, s2, v, .names hD h0 h1, h2⟩
  | output hD h0 h ih =>
    cases as with
    | nil =>
      cases hys
      have h1 := evaluates_iff.1 (C95_avoids h0)
      cases hy with
      | macro_ => rw [ev_at] at h1; cases h1
      | @set l x _ ho ha =>
        rw [ev_at] at h1
        change evalSet e (ev e) l x _ = _ at h1
        unfold evalSet at h1
        split at h1
        · next hi =>
          cases l with
          | one b => exact absurd (by simpa [LVal.isOutput] using hi) (ho b rfl)
          | many as => cases hi
        · rw [em_bind] at h1
          cases h2 : evalAssign (ev e) l x _ with
          | timeout => rw [h2] at h1; cases h1
          | err => rw [h2] at h1; cases h1
          | ok p => rw [h2] at h1; cases h1
    | cons z as =>
      cases hys
      obtain ⟨ind1, cut1, t1, n1, s1, f, s2, v, h1, h2⟩ := ih rfl
      exact ⟨_, _, _, _, _, f, s2, v, .output hD h0 h1, h2⟩

/-- What is entered without anything being emitted is entered. -/
theorem enters_quiet {ind ind' : Indent} {cut cut' : Bool} {ys : List Node} {s s' : ESt} {t : Str} {n : Nat}
    (h : Enters (Avoids e emits) e.cfg ind cut ys s ind' cut' t n s') : Enters (Evaluates e) e.cfg ind cut ys s ind' cut' t n s' := by
  induction h with
  | nil => exact .nil
  | plain _ ih => exact .plain ih
  | comment _ ih => exact .comment ih
  | mark h _ ih => exact .mark h ih
  | names h1 h2 _ ih => exact .names h1 (C95_avoids h2) ih
  | output h1 h2 _ ih => exact .output h1 (C95_avoids h2) ih

/-! ## The library -/

theorem singleNames_cons {y : Node} {ys : List Node} {ns : List Str} :
    singleNames (y :: ys) = some ns ↔ ∃ a b, ownNames y = some a ∧ singleNames ys = some b ∧ ns = a ++ b := by
  rw [singleNames]
  cases ownNames y <;> cases singleNames ys <;> simp [eq_comm]

theorem own_binds {y : Node} {as : List Str} {a : Str} (h : ownNames y = some as) (hb : Binds y a) : as = [a] := by
  cases hb with
  | macro_ => cases h; rfl
  | @set l x _ _ ha =>
    cases l with
    | many as => cases h
    | one b =>
      cases h
      simp only [lvalNames, List.mem_singleton] at ha
      rw [ha]

theorem single_split : ∀ {as : List Node} {y : Node} {bs : List Node} {ns : List Str} {a : Str}, singleNames (as ++ y :: bs) = some ns → Binds y a →
    ∃ n1 n2, ns = n1 ++ a :: n2 ∧ singleNames as = some n1 ∧ singleNames bs = some n2 := by
  intro as
  induction as with
  | nil =>
    intro y bs ns a h hy
    obtain ⟨a', b, h1, h2, rfl⟩ := singleNames_cons.1 h
    rw [own_binds h1 hy]
    exact ⟨[], b, rfl, rfl, h2⟩
  | cons z as ih =>
    intro y bs ns a h hy
    obtain ⟨a', b, h1, h2, rfl⟩ := singleNames_cons.1 h
    obtain ⟨n1, n2, rfl, h3, h4⟩ := ih h2 hy
    exact ⟨a' ++ n1, n2, by simp, singleNames_cons.2 ⟨_, _, h1, h3, rfl⟩, h4⟩

theorem single_mem {ys : List Node} {ns : List Str} (h : singleNames ys = some ns) {y : Node} (hy : y ∈ ys) {a : Str} (hb : Binds y a) : a ∈ ns := by
  obtain ⟨as, bs, rfl⟩ := List.append_of_mem hy
  obtain ⟨n1, n2, rfl, -, -⟩ := single_split h hb
  simp

theorem get_single {k : Str} {v w : Node} (h : Frame.get [(k, v)] k = some w) : v = w := by simpa [Frame.get] using h

theorem std_later {a : Str} {n1 n2 : List Str} (h : stdNames = n1 ++ a :: n2) (k : Nat) (hk : stdNames[k]? = some a) : n2 = stdNames.drop (k + 1) := by
  have h1 : n1.length = k := by
    have h2 : stdNames[n1.length]? = some a := by rw [h]; simp
    have hl : k < stdNames.length := by
      rcases Nat.lt_or_ge k stdNames.length with h | h
      · exact h
      · rw [List.getElem?_eq_none h] at hk; cases hk
    have hnd : stdNames.Nodup := by decide +kernel
    exact ((List.getElem?_inj hl hnd).1 (hk.trans h2.symm)).symm
  rw [← h1, h]
  simp

theorem stdNames_nodup : stdNames.Nodup := by decide +kernel

section
variable {ys : List Node} (hys : StdPieces ys) {ind ind' : Indent} {cut cut' : Bool} {s s' : ESt} {t : Str} {n : Nat}
  (hE : Enters (Avoids e emits) e.cfg ind cut ys s ind' cut' t n s')
include hys hE

/-- A definition of the library and its value behind the library. -/
theorem std_value {d : Node} (hd : d ∈ ys) {a : Str} (hb : Binds d a) :
    ∃ as ind1 cut1 t1 n1 s1 f s2 v, (∃ bs n1 n2, ys = as ++ d :: bs ∧ stdNames = n1 ++ a :: n2 ∧ singleNames as = some n1 ∧ singleNames bs = some n2) ∧
      (∀ y ∈ as, y ∈ ys) ∧
      Enters (Avoids e emits) e.cfg ind cut as s ind1 cut1 t1 n1 s1 ∧ Evaluates e d s1 (.env f) s2 ∧ Frame.get f a = some v ∧
      Scopes.lookup s'.env a = some v := by
  obtain ⟨as, bs, rfl⟩ := List.append_of_mem hd
  obtain ⟨n1, n2, hn, h1, h2⟩ := single_split hys.names hb
  have hnd := stdNames_nodup
  rw [hn] at hnd
  obtain ⟨ind1, cut1, t1, k, s1, f, s2, v, a1, a2, a3, a4⟩ := C100_names hE rfl hb (by
    intro z hz hzb
    have := single_mem h2 hz hzb
    simp only [List.nodup_append, List.nodup_cons] at hnd
    exact hnd.2.1.1 this)
  exact ⟨as, ind1, cut1, t1, k, s1, f, s2, v, ⟨bs, n1, n2, rfl, hn, h1, h2⟩, (fun y hy => List.mem_append_left _ hy), a1, a2, a3, a4⟩

/-- **C100.** The library leaves all other names as they were. -/
theorem C100_stdlib_others {a : Str} (ha : a ∉ stdNames) : Scopes.lookup s'.env a = Scopes.lookup s.env a :=
  C100_others hE fun _ hy hb => ha (single_mem hys.names hy hb)

omit hE in
theorem before_others {as : List Node} (hs : ∀ y ∈ as, y ∈ ys) {ind1 : Indent} {cut1 : Bool} {t1 : Str} {n1 : Nat} {s1 : ESt}
    (h : Enters (Avoids e emits) e.cfg ind cut as s ind1 cut1 t1 n1 s1) {a : Str} (ha : a ∉ stdNames) :
    Scopes.lookup s1.env a = Scopes.lookup s.env a :=
  C100_others h fun y hy hb => ha (single_mem hys.names (hs y hy) hb)

theorem choice_behind {first second a : Str} (ho : a ≠ lit "__OUTPUT_FILE__") {d : Node} (hd : d ∈ ys) (hch : Choice first second a d) :
    ∃ s1 v, Evaluates e d s1 (.env [(a, v)]) s1 ∧ Scopes.lookup s'.env a = some v ∧ v ≠ .bound := by
  have hb : Binds d a := by
    cases hch
    exact .set (by rintro b ⟨⟩; exact ho) (by simp [lvalNames])
  obtain ⟨as, ind1, cut1, t1, k, s1, f, s2, v, -, -, -, h1, h2, h3⟩ := std_value hys hE hd hb
  cases hch with
  | mk hc ht hf hc' =>
    obtain ⟨d, -, -, h⟩ := choice_defined (e := e) hc ht hf hc' ho s1
    obtain ⟨h4, rfl⟩ := evaluates_det h1 (evaluates_iff.2 h)
    cases h4
    obtain rfl := get_single h2
    exact ⟨s2, _, h1, h3, by simp⟩

/-- **C100.** Behind the library, `$if` chooses between its legs. -/
theorem C100_if {z z2 : ESt} (hz : Scopes.lookup z.env (lit "if") = Scopes.lookup s'.env (lit "if")) {i : Src} (hi : i.txt = lit "if")
    {args legs : List Node} {c : Node} {loc : Option Loc} (ha : Spec.Args e args z (c :: legs) z2) (hc : Spec.Data c)
    (hl : ∀ v ∈ legs, Spec.Leg v) (hn : legs.length ≤ 2) :
    ∃ v, Evaluates e (.apply (.var false [] i) args [] loc) z v z2 ∧ Spec.Chosen c legs[0]? legs[1]? v := by
  obtain ⟨d, hd, hch⟩ := hys.choice
  obtain ⟨s1, v, h1, h2, h3⟩ := choice_behind hys hE (by decide) hd hch
  exact C76_if hch (by decide) h1 (evaluates_iff.2 (var_value (by rw [hi, hz, h2]) h3)) ha hc hl hn

/-- **C100.** Behind the library, `$unless` chooses the other way round. -/
theorem C100_unless {z z2 : ESt} (hz : Scopes.lookup z.env (lit "unless") = Scopes.lookup s'.env (lit "unless")) {i : Src}
    (hi : i.txt = lit "unless") {args legs : List Node} {c : Node} {loc : Option Loc} (ha : Spec.Args e args z (c :: legs) z2)
    (hc : Spec.Data c) (hl : ∀ v ∈ legs, Spec.Leg v) (hn : legs.length ≤ 2) :
    ∃ v, Evaluates e (.apply (.var false [] i) args [] loc) z v z2 ∧ Spec.Chosen c legs[1]? legs[0]? v := by
  obtain ⟨d, hd, hch⟩ := hys.unless'
  obtain ⟨s1, v, h1, h2, h3⟩ := choice_behind hys hE (by decide) hd hch
  exact C76_unless hch (by decide) h1 (evaluates_iff.2 (var_value (by rw [hi, hz, h2]) h3)) ha hc hl hn

/-- **C100.** Behind the library, `$BIN` reads binary digits, if `$atoi` was not redefined before the import. -/
theorem C100_bin {x : BExt} (hs : Spec.Standard e x (lit "atoi")) (hu : Spec.Unbound (lit "atoi") s)
    {z z2 : ESt} (hz : Scopes.lookup z.env (lit "BIN") = Scopes.lookup s'.env (lit "BIN")) {i : Src} (hi : i.txt = lit "BIN")
    {args : List Node} {w : Node} {u : Str} {loc : Option Loc} (ha : Spec.Args e args z [w] z2) (hw : w.text? = some u)
    (hc : ∀ c ∈ u, c.toNat < 128 ∧ c ≠ '_') :
    (∀ v, Spec.Written 2 u v → Evaluates e (.apply (.var false [] i) args [] loc) z (.int v) z2) ∧
    ((∀ v, ¬ Spec.Written 2 u v) → Raises e (.apply (.var false [] i) args [] loc) z) := by
  obtain ⟨d, hd, hbin⟩ := hys.binary
  have hb : Binds d (lit "BIN") := by
    cases hbin with
    | mk hn => rw [← hn]; exact .set (by rintro b ⟨⟩; rw [hn]; decide) (by simp [lvalNames])
  obtain ⟨as, ind1, cut1, t1, k, s1, f, s2, v, -, hsub, hE1, h1, h2, h3⟩ := std_value hys hE hd hb
  have hu1 : Spec.Unbound (lit "atoi") s1 := (before_others hys hsub hE1 (by decide +kernel)).trans hu
  obtain ⟨hf, hv⟩ : f = [(lit "BIN", v)] ∧ v ≠ .bound := by
    cases hbin with
    | @mk n b f' b' loc hn hb1 hf' hb2 =>
      have h4 := binary_defined (e := e) (loc := loc) hb1 hf' hb2 hn (s := s1) (v := .fn) ⟨hu1, hs.table _⟩ rfl
      obtain ⟨h5, rfl⟩ := evaluates_det h1 (evaluates_iff.2 h4)
      cases h5
      rw [hn] at h2 ⊢
      obtain rfl := get_single h2
      exact ⟨rfl, by simp⟩
  subst hf
  exact C76_binary hs hu1 hbin h1 (evaluates_iff.2 (var_value (by rw [hi, hz, h3]) hv)) ha hw hc

/-- **C100.** Behind the library, the names of its macros stand for their texts. -/
theorem C100_macro {a b : Str} {ps : List Str} (hm : (a, ps, b) ∈ stdMacros) :
    ∃ text decl : Src, text.txt = b ∧ decl.txt = a ∧
      Scopes.lookup s'.env a = some (.mclosure text (Frame.ofList (ps.map (fun p => (p, Node.bound)))) decl none) := by
  obtain ⟨d, hd, hmac⟩ := hys.macros _ hm
  dsimp only at hmac
  cases hmac with
  | @mk m qs t ha hps hb =>
    obtain ⟨as, ind1, cut1, t1, k, s1, f, s2, v, -, -, -, h1, h2, h3⟩ := std_value hys hE hd .macro_
    obtain ⟨h4, -⟩ := evaluates_det h1 ⟨1, rfl⟩
    cases h4
    obtain rfl := get_single h2
    subst ha hps hb
    refine ⟨t, m, rfl, rfl, ?_⟩
    rw [h3, List.map_map]
    rfl

/-- **C100.** Behind the library, `$define` gives one logical line, if the names it uses were not defined before the import. -/
theorem C100_define {x : BExt} (hj : Spec.Standard e x (lit "join")) (hc : Spec.Standard e x (lit "split")) (hq : Spec.Standard e x (lit "unq"))
    (hn : Spec.Standard e x (lit "not"))
    (hfree : ∀ a ∈ [lit "join", lit "split", lit "unq", lit "not", lit "isatom", lit "EOL"], Scopes.lookup s.env a = none)
    (htab : ∀ scripts, e.builtin scripts (lit "isatom") = none ∧ e.builtin scripts (lit "EOL") = none)
    {z z2 : ESt} (hz : Scopes.lookup z.env (lit "define") = Scopes.lookup s'.env (lit "define")) {i : Src} (hi : i.txt = lit "define")
    {args : List Node} {a b : Node} {loc : Option Loc} (ha : Spec.Args e args z [a, b] z2)
    (hda : Spec.Data a) (hdb : Spec.Data b) (hna : a ≠ .none) (hnb : b ≠ .none) :
    ∃ lines u, Evaluates e (.apply (.var false [] i) args [] loc) z (.pstr u) z2 ∧
      (∀ p q, u = p ++ '\n' :: q → ∃ p', p = p' ++ [' ', '\\']) ∧
      Spec.Joined [' ', '\\', '\n'] lines u ∧
      Spec.Joined ['\n'] lines (Spec.directive e.cfg (Spec.shown e.cfg e.repr a) (Spec.shown e.cfg e.repr b)) := by
  obtain ⟨d, hd, hdef⟩ := hys.define
  have hb : Binds d (lit "define") := by
    cases hdef with
    | mk hn => rw [← hn]; exact .set (by rintro b ⟨⟩; rw [hn]; decide) (by simp [lvalNames])
  obtain ⟨as, ind1, cut1, t1, k, s1, f, s2, v, hnames, hsub, hE1, h1, h2, h3⟩ := std_value hys hE hd hb
  have free1 : ∀ a ∈ [lit "join", lit "split", lit "unq", lit "not", lit "isatom", lit "EOL"], a ∉ stdNames := by decide +kernel
  -- the line break is defined before
  obtain ⟨d0, hd0, heol⟩ := hys.endOfLine
  have hb0 : Binds d0 (lit "__EOL__") := by
    cases heol with
    | mk hn => rw [← hn]; exact .set (by rintro b ⟨⟩; rw [hn]; decide) (by simp [lvalNames])
  have hin : d0 ∈ as := by
    obtain ⟨bs, n1, n2, rfl, hn1, -, hbs⟩ := hnames
    have hn2 := std_later hn1 7 (by decide +kernel)
    rcases List.mem_append.1 hd0 with h | h
    · exact h
    · rcases List.mem_cons.1 h with rfl | h
      · exfalso
        cases hdef with
        | mk hn =>
          cases hb0 with
          | set _ ha =>
            simp only [lvalNames, List.mem_singleton] at ha
            rw [hn] at ha
            exact absurd ha (by decide)
      · exfalso
        have := single_mem hbs h hb0
        rw [hn2] at this
        exact absurd this (by decide +kernel)
  have later : ∀ zs, (∃ ws, as = ws ++ d0 :: zs) → ∀ y ∈ zs, ¬ Binds y (lit "__EOL__") := by
    rintro zs ⟨ws, rfl⟩ y hy hyb
    obtain ⟨bs, n1, n2, rfl, hn1, -, hbs⟩ := hnames
    have h6 := hys.names
    rw [List.append_assoc, List.cons_append] at h6
    obtain ⟨m1, m2, e1, -, e2⟩ := single_split h6 hb0
    have hnd := stdNames_nodup
    rw [e1] at hnd
    simp only [List.nodup_append, List.nodup_cons] at hnd
    exact hnd.2.1.1 (single_mem e2 (List.mem_append_left _ hy) hyb)
  obtain ⟨as0, bs0, has⟩ := List.append_of_mem hin
  obtain ⟨ind2, cut2, t2, k2, s3, f0, s4, wv, hE2, h4, h5, h6⟩ := C100_names hE1 has hb0 (later bs0 ⟨as0, has⟩)
  have free : ∀ a ∈ [lit "join", lit "split", lit "unq", lit "not", lit "isatom", lit "EOL"],
      Scopes.lookup s1.env a = none ∧ Scopes.lookup s3.env a = none := by
    intro a ha
    refine ⟨(before_others hys hsub hE1 (free1 a ha)).trans (hfree a ha), (before_others hys (fun y hy => hsub y ?_) hE2 (free1 a ha)).trans (hfree a ha)⟩
    rw [has]
    exact List.mem_append_left _ hy
  obtain ⟨w, h7, hw, hwp⟩ := C93_eol_default e x hn d0 s3 heol (free _ (by simp)).2 ⟨(free _ (by simp)).2, (htab _).1⟩
    ⟨(free _ (by simp)).2, (htab _).2, by decide, by decide⟩
  obtain ⟨h8, rfl⟩ := evaluates_det h4 h7
  cases h8
  obtain rfl := get_single h5
  obtain ⟨b1, b2, c, j, p', q', l2, l3, l4, l6, u, u1, -, -, -, -, -, -, -, -, h9⟩ := define_stored (e := e) hj hc hq hdef
    (free _ (by simp)).1 (free _ (by simp)).1 (free _ (by simp)).1 h6 hw hwp
  obtain ⟨h10, rfl⟩ := evaluates_det h1 (evaluates_iff.2 h9)
  cases h10
  obtain rfl := get_single h2
  exact C93_one_line e x hj hc hq d _ w s2 s2 hdef h1 (free _ (by simp)).1 (free _ (by simp)).1 (free _ (by simp)).1 h6 hw hwp _ _ _ _ loc _ _ _
    (evaluates_iff.2 (var_value (by rw [hi, hz, h3]) (by simp))) ha hda hdb hna hnb

end

/-! ## A program that imports the library -/

theorem std_read (e : PEnv) (input : Option Str) {xs : List SourcePart} {s path text : Str} {r : Expanded} {known : List Str}
    (hS : Source (modeOf e) (.lib ['s', 't', 'd', 'l', 'i', 'b'] :: xs) s)
    (hlib : e.readLib stdKey = some (path, text)) (htext : unifyEol text = stdText)
    (hE : Expands (modeOf e) e [stdKey, e.inputFile, ['<', 'n', 'u', 'l', 'l', '>']] xs r known)
    (hcr : '\r' ∉ s) (hnull : e.inputFile ≠ ['<', 'n', 'u', 'l', 'l', '>']) (hin : e.inputFile ≠ stdKey)
    (hm : e.outputPython = true → ¬ MagicFirst e.word s ∧ ¬ MagicSecond e.word s) :
    ∃ o ns st, ModuleTrees false r ns ∧
      ∃ N, ∀ n, N ≤ n → (P e n).parse e.inputFile (PSt.start e input s) = .ok (.importBegin :: (stdTree o ++ .importEnd :: ns), st) := by
  have hK := knows_start e input s hnull
  obtain ⟨src0, o, hread⟩ := std_text e (loaded (PSt.start e input s) stdKey path text true)
  obtain ⟨ys, hys⟩ : ∃ ys, ys = stdTree o := ⟨_, rfl⟩
  rw [← hys] at hread
  have hyne : ys ≠ [] := by
    rw [hys]
    unfold stdTree
    simp
  have main : ∃ src' ns st, ModuleTrees false r ns ∧
      GivesAt e (fun p => psText e p .eof { sou := { txt := s, loc := some ⟨e.inputFile, 0⟩ } }) (PSt.start e input s)
        (src', .importBegin :: (ys ++ .importEnd :: ns)) st := by
    obtain ⟨s0, hs0⟩ : ∃ s0, s = s0 := ⟨s, rfl⟩
    have hS' : Source (modeOf e) (.lib ['s', 't', 'd', 'l', 'i', 'b'] :: xs) s0 := hs0 ▸ hS
    cases hS' with
    | lib g1 hn g2 hc hS =>
      have hnot : stdKey ∉ [e.inputFile, ['<', 'n', 'u', 'l', 'l', '>']] := by
        simp only [List.mem_cons, List.not_mem_nil, or_false, not_or]
        exact ⟨fun h => hin h.symm, by decide⟩
      have h1 : importSource e stdKey true (PSt.start e input s) = .ok (stdKey, loaded (PSt.start e input s) stdKey path text true) := by
        unfold importSource
        have : ((PSt.start e input s).world.find stdKey).isSome = false := by
          rw [Bool.eq_false_iff]; exact fun h => hnot ((hK.files _).1 h)
        rw [this, hlib]
        rfl
      have h2 := parse_file (find_loaded (PSt.start e input s) stdKey path text true) (fun _ => hin) (by rw [htext]; exact hread)
      obtain ⟨src1, a1, a2⟩ := import_lib g1 hn g2 hc (src := { txt := s, loc := some ⟨e.inputFile, 0⟩ }) hs0 h1 h2
      obtain ⟨src', ns, st', b1, b2, b3, b4, b5⟩ := source_modules hE _ hS { sou := src1, ast := encloseImport ys, gen := none }
        (loaded (PSt.start e input s) stdKey path text true) a1 (fun _ => rfl) (hK.loaded (by decide)) (by simp)
      have he : encloseImport ys = .importBegin :: (ys ++ [.importEnd]) := by
        cases ys with
        | nil => exact absurd rfl hyne
        | cons y ys => rfl
      rw [he] at b4
      refine ⟨src', ns, st', b4, text_leg_at (t := { sou := { txt := s, loc := some ⟨e.inputFile, 0⟩ } }) a2 ?_⟩
      have : Node.importBegin :: (ys ++ .importEnd :: ns) = encloseImport ys ++ ns := by rw [he]; simp
      rw [this]
      exact b5
  obtain ⟨src', ns, st, h4, N, h5⟩ := main
  refine ⟨o, ns, st, h4, N + 2, fun n hn => ?_⟩
  rw [← hys]
  obtain ⟨m, rfl⟩ : ∃ m, n = m + 2 := ⟨n - 2, by omega⟩
  change psParse e (P e (m + 1)) e.inputFile _ = _
  have hu := C12_no_cr_id s hcr
  have hfind : (PSt.start e input s).world.find e.inputFile = some (.path input, s) := by
    simp [PSt.start, World.find, hu]
  unfold psParse
  have hget : PM.get (PSt.start e input s) = .ok (PSt.start e input s, PSt.start e input s) := rfl
  rw [pm_bind_ok hget, hfind]
  have hne : s ≠ [] := by
    rintro rfl
    cases hS
  have hrun : psRun (P e (m + 1)) { txt := s, loc := some ⟨e.inputFile, 0⟩ } [] (PSt.start e input s) =
      .ok (.importBegin :: (ys ++ .importEnd :: ns), st) := by
    unfold psRun
    rw [if_neg (by simpa using hne)]
    have h6 := h5 m (by omega)
    change (P e (m + 1)).text .eof _ _ = _ at h6
    rw [pm_bind_ok h6]
    rfl
  cases s with
  | nil => exact absurd rfl hne
  | cons c s =>
    dsimp only
    split
    · rename_i ho
      simp only [decide_true, Bool.true_and] at ho
      have := psHeader_neither e.word { txt := c :: s, loc := some ⟨e.inputFile, 0⟩ } hcr (hm ho).1 (hm ho).2
      rw [this]
      exact hrun
    · exact hrun

/-- A source text that begins with the import of the library is read: a mark, the pieces of the library, a mark, and the
    pieces of the rest. -/
theorem C100_read (e : PEnv) (input : Option Str) {xs : List SourcePart} {s path text : Str} {r : Expanded} {known : List Str}
    (hS : Source (modeOf e) (.lib ['s', 't', 'd', 'l', 'i', 'b'] :: xs) s)
    (hlib : e.readLib stdKey = some (path, text)) (htext : unifyEol text = stdText)
    (hE : Expands (modeOf e) e [stdKey, e.inputFile, ['<', 'n', 'u', 'l', 'l', '>']] xs r known)
    (hcr : '\r' ∉ s) (hnull : e.inputFile ≠ ['<', 'n', 'u', 'l', 'l', '>']) (hin : e.inputFile ≠ stdKey)
    (hm : e.outputPython = true → ¬ MagicFirst e.word s ∧ ¬ MagicSecond e.word s) :
    ∃ ys ns st, StdPieces ys ∧ ModuleTrees false r ns ∧
      ∃ N, ∀ n, N ≤ n → (P e n).parse e.inputFile (PSt.start e input s) = .ok (.importBegin :: (ys ++ .importEnd :: ns), st) := by
  obtain ⟨o, ns, st, h⟩ := std_read e input hS hlib htext hE hcr hnull hin hm
  exact ⟨_, ns, st, stdTree_is o, h⟩

/-- **C100**. A program that begins with the import of the library: the definitions of the library are entered, then the
    rest is generated with them in scope; or a definition raises, and so does the program. -/
theorem C100_program (e : EEnv) (readable : Node → Str) (input : Option Str) (seen : List Node) {xs : List SourcePart}
    {src path text : Str} {r : Expanded} {known : List Str}
    (hS : Source (modeOf e.pe) (.lib ['s', 't', 'd', 'l', 'i', 'b'] :: xs) src)
    (hlib : e.pe.readLib stdKey = some (path, text)) (htext : unifyEol text = stdText)
    (hE : Expands (modeOf e.pe) e.pe [stdKey, e.pe.inputFile, ['<', 'n', 'u', 'l', 'l', '>']] xs r known)
    (hcr : '\r' ∉ src) (hnull : e.pe.inputFile ≠ ['<', 'n', 'u', 'l', 'l', '>']) (hin : e.pe.inputFile ≠ stdKey)
    (hm : e.pe.outputPython = true → ¬ MagicFirst e.pe.word src ∧ ¬ MagicSecond e.pe.word src) :
    ∃ ys ns st, StdPieces ys ∧ ModuleTrees false r ns ∧
      (∀ ind' cut' t n s' o, Enters (Evaluates e) e.cfg (.str []) false ys { p := st, seen := seen } ind' cut' t n s' →
        Generates e ind' false ns s' o →
        ∃ run, Translates e readable input seen src run ∧ Reports ((leaveAll n o).after t) run) ∧
      ∀ run, Translates e readable input seen src run →
        (∃ ind' cut' t n s' o, Enters (Evaluates e) e.cfg (.str []) false ys { p := st, seen := seen } ind' cut' t n s' ∧
          Generates e ind' false ns s' o ∧ Reports ((leaveAll n o).after t) run) ∨
        (Reports .fails run ∧ ∃ as y bs ind' cut' t n s', ys = as ++ y :: bs ∧
          Enters (Evaluates e) e.cfg (.str []) false as { p := st, seen := seen } ind' cut' t n s' ∧ Raises e y s') := by
  obtain ⟨ys, ns, st, h1, h2, N, hp⟩ := C100_read e.pe input hS hlib htext hE hcr hnull hin hm
  have scope := fun o => C100_scope e ys (.importEnd :: ns) h1.defs (by simp) (.str []) false { p := st, seen := seen } o
  refine ⟨ys, ns, st, h1, h2, fun ind' cut' t n s' o hs ho => ?_, fun run hrun => ?_⟩
  · have := (generates_mark (e := e) (m := .importBegin) (cut := false) (.inl rfl)).2
      ((scope _).2 (.inl ⟨_, cut', t, n, s', o, hs, (generates_mark (.inr rfl)).2 ho, rfl⟩))
    exact run_made hp (textMade_of (generates_made this))
  · obtain ⟨o, ho, hr⟩ := made_run hp hrun
    rcases (scope o).1 ((generates_mark (.inl rfl)).1 ho) with ⟨ind', cut', t, n, s', o', hs, hg, rfl⟩ | ⟨rfl, as, y, bs, ind', cut', t, n, s', e1, hs, -, hy⟩
    · exact .inl ⟨ind', cut', t, n, s', o', hs, (generates_mark (.inr rfl)).1 hg, hr⟩
    · exact .inr ⟨hr, as, y, bs, ind', cut', t, n, s', e1, hs, hy⟩

end Yupp
