import Verif.Lemmas.Keep
import Verif.Lemmas.Parse
import Verif.Lemmas.White
/-!
# The trees the parser makes

They hold nothing that only the evaluator makes: the parts of a parsed tree are fragments of the source and blank
indents.
-/

namespace Yupp

/-- A part of a parsed tree whose fragments are `ys`. -/
def ParsedLeaf (ys : List Src) : Leaf → Prop
  | .src y => y ∈ ys ∨ y.loc = none
  | .ind i => i.all isSpace = true
  | .res _ => False
  | .at l => ∃ y ∈ ys, ∃ l', y.loc = some l' ∧ l'.file = l.file
  | .lost => ∃ y ∈ ys, y.loc = none ∧ ¬ Unplaced y.txt

def Parsed (n : Node) : Prop := ∀ l ∈ n.leaves, ParsedLeaf n.srcs l

def Indent.Blank (i : Indent) : Prop := ∀ l ∈ i.leaves, ParsedLeaf [] l

def ParsedL (xs : List Node) : Prop := ∀ x ∈ xs, Parsed x
def ParsedN (xs : List (Src × Node)) : Prop := ∀ x ∈ xs, Parsed x.2
def ParsedB (xs : List Bound) : Prop := ∀ x ∈ xs, ∀ d, x.2.2 = some d → Parsed d
def ParsedO (r : Src × Option Node) : Prop := ∀ x, r.2 = some x → Parsed x

theorem ParsedLeaf.mono {ys zs : List Src} {l : Leaf} (h : ParsedLeaf ys l) (hs : ∀ y ∈ ys, y ∈ zs) : ParsedLeaf zs l := by
  cases l with
  | src y => exact h.imp_left (hs y)
  | ind i => exact h
  | res r => exact h
  | «at» l => obtain ⟨y, hy, h⟩ := h; exact ⟨y, hs y hy, h⟩
  | lost => obtain ⟨y, hy, h⟩ := h; exact ⟨y, hs y hy, h⟩

theorem rawL_leaves : ∀ {xs : List Node} (_ : ParsedL xs), ∀ l ∈ leavesL xs, ParsedLeaf (srcsList xs) l
  | [], _, l, hl => by cases hl
  | x :: xs, h, l, hl => by
    rw [leavesL] at hl
    rcases List.mem_append.mp hl with hl | hl
    · exact (h x (by simp) l hl).mono (by intro y hy; simp [srcsList, hy])
    · exact (rawL_leaves (fun y hy => h y (List.mem_cons_of_mem _ hy)) l hl).mono (by intro y hy; simp [srcsList, hy])

theorem rawN_leaves : ∀ {xs : List (Src × Node)} (_ : ParsedN xs), ∀ l ∈ leavesN xs, ParsedLeaf (srcsNamed xs) l
  | [], _, l, hl => by cases hl
  | (a, x) :: xs, h, l, hl => by
    rw [leavesN] at hl
    rcases List.mem_cons.mp hl with rfl | hl
    · simp [ParsedLeaf, srcsNamed]
    rcases List.mem_append.mp hl with hl | hl
    · exact (h (a, x) (by simp) l hl).mono (by intro y hy; simp [srcsNamed, hy])
    · exact (rawN_leaves (fun y hy => h y (List.mem_cons_of_mem _ hy)) l hl).mono (by intro y hy; simp [srcsNamed, hy])

theorem rawB_leaves : ∀ {xs : List Bound} (_ : ParsedB xs), ∀ l ∈ leavesB xs, ParsedLeaf (srcsBound xs) l
  | [], _, l, hl => by cases hl
  | (late, a, some d) :: xs, h, l, hl => by
    rw [leavesB] at hl
    simp only [List.mem_cons, List.mem_append, List.mem_map] at hl
    rcases hl with rfl | ⟨y, hy, rfl⟩ | hl | hl
    · simp [ParsedLeaf, srcsBound]
    · simp [ParsedLeaf, srcsBound, hy]
    · exact (h (late, a, some d) (List.mem_cons_self ..) d rfl l hl).mono (by intro y hy; simp [srcsBound, hy])
    · exact (rawB_leaves (fun y hy => h y (List.mem_cons_of_mem _ hy)) l hl).mono (by intro y hy; simp [srcsBound, hy])
  | (late, a, none) :: xs, h, l, hl => by
    rw [leavesB] at hl
    simp only [List.mem_cons, List.mem_append, List.mem_map] at hl
    rcases hl with rfl | ⟨y, hy, rfl⟩ | hl
    · simp [ParsedLeaf, srcsBound]
    · simp [ParsedLeaf, srcsBound, hy]
    · exact (rawB_leaves (fun y hy => h y (List.mem_cons_of_mem _ hy)) l hl).mono (by intro y hy; simp [srcsBound, hy])

theorem Parsed.set {lval x} (h : Parsed x) : Parsed (.set lval x) := by
  intro l hl
  simp only [Node.leaves, List.mem_append, List.mem_map] at hl
  rcases hl with ⟨y, hy, rfl⟩ | hl
  · simp [ParsedLeaf, Node.srcs, hy]
  · exact (h l hl).mono (by intro y hy; simp [Node.srcs, hy])

theorem Parsed.letn {lval x y} (h : Parsed x) (h' : Parsed y) : Parsed (.letn lval x y) := by
  intro l hl
  simp only [Node.leaves, List.mem_append, List.mem_map] at hl
  rcases hl with ⟨y, hy, rfl⟩ | hl | hl
  · simp [ParsedLeaf, Node.srcs, hy]
  · exact (h l hl).mono (by intro y hy; simp [Node.srcs, hy])
  · exact (h' l hl).mono (by intro y hy; simp [Node.srcs, hy])

theorem Parsed.macro {name pars text} (hn : ¬ Unplaced name.txt) (ht : text.loc = none) : Parsed (.macro name pars text) := by
  intro l hl
  simp only [Node.leaves, List.mem_append, List.mem_cons, List.mem_map] at hl
  rcases hl with hl | rfl | rfl | ⟨y, hy, rfl⟩
  · unfold declLeaf at hl
    split at hl
    · next l' hl' => cases List.mem_singleton.mp hl; exact ⟨name, List.mem_cons_self .., l', hl', rfl⟩
    · next hl' => cases List.mem_singleton.mp hl; exact ⟨name, List.mem_cons_self .., hl', hn⟩
  · exact .inl (List.mem_cons_self ..)
  · exact .inr ht
  · exact .inl (List.mem_cons_of_mem _ hy)

theorem psAtom_placed {s r a : Src} (h : psAtom s = (r, some a)) : ¬ Unplaced a.txt := by
  unfold psAtom at h
  cases ht : s.txt with
  | nil => rw [ht] at h; simp [atomLen] at h
  | cons c t =>
    rw [ht] at h
    simp only [atomLen] at h
    split at h
    · next hc =>
      simp only [Prod.mk.injEq] at h
      obtain ⟨-, h⟩ := h
      rw [if_neg (by omega)] at h
      cases h
      simp only [Src.take, ht, Nat.add_comm 1, List.take_succ_cons]
      intro hu
      generalize List.take _ t = u at hu
      revert hc
      cases hu with
      | dots => decide
      | literal hq => rcases hq with rfl | rfl <;> decide
    · simp at h

theorem Parsed.emit {late reg a x} (h : Parsed x) : Parsed (.emit late reg a x) := by
  intro l hl
  simp only [Node.leaves, List.mem_append, List.mem_cons, List.mem_map] at hl
  rcases hl with rfl | ⟨y, hy, rfl⟩ | hl
  · simp [ParsedLeaf, Node.srcs]
  · simp [ParsedLeaf, Node.srcs, hy]
  · exact (h l hl).mono (by intro y hy; simp [Node.srcs, hy])

theorem Parsed.lambdaVar {late reg a x} (h : Parsed x) : Parsed (.lambdaVar late reg a x) := by
  intro l hl
  simp only [Node.leaves, List.mem_append, List.mem_cons, List.mem_map] at hl
  rcases hl with rfl | ⟨y, hy, rfl⟩ | hl
  · simp [ParsedLeaf, Node.srcs]
  · simp [ParsedLeaf, Node.srcs, hy]
  · exact (h l hl).mono (by intro y hy; simp [Node.srcs, hy])

theorem Parsed.lambda {b x} (hb : ParsedB b) (h : Parsed x) : Parsed (.lambda b x) := by
  intro l hl
  simp only [Node.leaves, List.mem_append] at hl
  rcases hl with hl | hl
  · exact (rawB_leaves hb l hl).mono (by intro y hy; simp [Node.srcs, hy])
  · exact (h l hl).mono (by intro y hy; simp [Node.srcs, hy])

theorem Parsed.apply {f args named loc} (hf : Parsed f) (ha : ParsedL args) (hn : ParsedN named) : Parsed (.apply f args named loc) := by
  intro l hl
  simp only [Node.leaves, List.mem_append] at hl
  rcases hl with hl | hl | hl
  · exact (hf l hl).mono (by intro y hy; simp [Node.srcs, hy])
  · exact (rawL_leaves ha l hl).mono (by intro y hy; simp [Node.srcs, hy])
  · exact (rawN_leaves hn l hl).mono (by intro y hy; simp [Node.srcs, hy])

theorem Parsed.cond {c x y} (hc : Parsed c) (h : Parsed x) (h' : Parsed y) : Parsed (.cond c x y) := by
  intro l hl
  simp only [Node.leaves, List.mem_append] at hl
  rcases hl with hl | hl | hl
  · exact (hc l hl).mono (by intro y hy; simp [Node.srcs, hy])
  · exact (h l hl).mono (by intro y hy; simp [Node.srcs, hy])
  · exact (h' l hl).mono (by intro y hy; simp [Node.srcs, hy])

theorem Parsed.text {xs} (h : ParsedL xs) : Parsed (.text xs) := rawL_leaves h
theorem Parsed.list {xs} (h : ParsedL xs) : Parsed (.list xs) := rawL_leaves h
theorem Parsed.infix {x loc} (h : Parsed x) : Parsed (.infix x loc) := h
theorem Parsed.eval {f args named txt} {loc : Option Loc} (h : Parsed (.apply f args named (loc.map (fun l => { l with pos := l.pos + 1 })))) :
    Parsed (.eval (.apply f args named (loc.map (fun l => { l with pos := l.pos + 1 })))
      (some { txt := txt, loc := loc.map (fun l => { l with pos := l.pos + 2 }) }) none) := by
  intro l hl
  simp only [Node.leaves, List.mem_append] at hl
  rcases hl with hl | hl | hl
  · cases loc with
    | none =>
      cases List.mem_singleton.mp hl
      exact ⟨_, List.mem_cons_self .., rfl, by intro hu; cases hu with | literal hq => revert hq; decide⟩
    | some l0 =>
      cases List.mem_singleton.mp hl
      exact ⟨_, List.mem_cons_self .., _, rfl, rfl⟩
  · cases hl
  · exact h l (by simpa [Node.leaves] using hl)
theorem Parsed.embed {x} (h : Parsed x) : Parsed (.embed x) := h
theorem Parsed.none : Parsed .none := by intro l hl; cases hl
theorem Parsed.str {s} : Parsed (.str s) := by intro l hl; cases List.mem_singleton.mp hl; simp [ParsedLeaf, Node.srcs]
theorem Parsed.remark {s} : Parsed (.remark s) := by intro l hl; cases List.mem_singleton.mp hl; simp [ParsedLeaf, Node.srcs]
theorem Parsed.var {l r a} : Parsed (.var l r a) := by
  intro l hl
  simp only [Node.leaves, List.mem_cons, List.mem_map] at hl
  rcases hl with rfl | ⟨y, hy, rfl⟩ <;> simp_all [ParsedLeaf, Node.srcs]
theorem Parsed.plain {s i tr} (h : i.Blank) : Parsed (.plain s i tr) := by
  intro l hl
  simp only [Node.leaves, List.mem_cons] at hl
  rcases hl with rfl | hl
  · simp [ParsedLeaf, Node.srcs]
  · exact (h l hl).mono (by intro y hy; cases hy)

theorem ParsedL.nil : ParsedL [] := by intro x hx; cases hx
theorem ParsedL.append {xs ys} (h : ParsedL xs) (h' : ParsedL ys) : ParsedL (xs ++ ys) := by
  intro x hx
  rcases List.mem_append.mp hx with hx | hx
  · exact h x hx
  · exact h' x hx
theorem ParsedL.one {x} (h : Parsed x) : ParsedL [x] := by intro y hy; cases List.mem_singleton.mp hy; exact h
theorem ParsedN.snoc {xs a x} (h : ParsedN xs) (h' : Parsed x) : ParsedN (xs ++ [(a, x)]) := by
  intro y hy
  rcases List.mem_append.mp hy with hy | hy
  · exact h y hy
  · cases List.mem_singleton.mp hy; exact h'
theorem ParsedB.snoc {xs : List Bound} {l a d} (h : ParsedB xs) (h' : ∀ x, d = some x → Parsed x) : ParsedB (xs ++ [(l, a, d)]) := by
  intro y hy
  rcases List.mem_append.mp hy with hy | hy
  · exact h y hy
  · cases List.mem_singleton.mp hy; exact h'
theorem ParsedO.nothing {s : Src} : ParsedO (s, .none) := by intro x hx; cases hx
theorem ParsedO.some {s : Src} {x : Node} (h : Parsed x) : ParsedO (s, some x) := by intro y hy; cases hy; exact h

/-! ## Through the rules -/

/-- What the result of a rule satisfies. -/
def PM.Post (m : PM α) (Q : α → Prop) : Prop := ∀ st a st', m st = .ok (a, st') → Q a

namespace PM
theorem post_pure {a : α} {Q : α → Prop} (h : Q a) : Post (Pure.pure a) Q := by
  intro st b st' hm; cases hm; exact h
theorem post_err {Q : α → Prop} : Post PM.err Q := by intro st b st' hm; cases hm
theorem post_timeout {Q : α → Prop} : Post PM.timeout Q := by intro st b st' hm; cases hm
theorem post_any {m : PM α} : Post m (fun _ => True) := fun _ _ _ _ => trivial
theorem post_bind {m : PM α} {f : α → PM β} {Q : α → Prop} {R : β → Prop} (h : Post m Q) (hf : ∀ a, Q a → Post (f a) R) :
    Post (m >>= f) R := by
  intro st b st' hm
  change PM.bind m f st = _ at hm
  unfold PM.bind at hm
  split at hm
  · next a s1 h1 => exact hf a (h _ _ _ h1) _ _ _ hm
  · cases hm
  · cases hm
end PM

open PM (post_pure post_err post_timeout post_any post_bind)

theorem post_orElse {r : PM (Src × Option α)} {f : Src → PM (Src × Option α)} {Q : Src × Option α → Prop} (h : r.Post Q)
    (hf : ∀ s, (f s).Post Q) : (orElse r f).Post Q := by
  unfold orElse
  refine post_bind h (fun a ha => ?_)
  obtain ⟨s, leg⟩ := a
  cases leg with
  | some x => exact post_pure ha
  | none => exact hf s

structure Parsers.Parsed (p : Parsers) : Prop where
  form : ∀ s, (p.form s).Post ParsedO
  args : ∀ fn s args named, ParsedL args → ParsedN named → (p.args fn s args named).Post (fun r => ParsedL r.2.1 ∧ ParsedN r.2.2)
  items : ∀ s lst, ParsedL lst → (p.items s lst).Post (fun r => ParsedL r.2)
  bounds : ∀ s b late, ParsedB b → (p.bounds s b late).Post (fun r => ParsedB r.2)
  text : ∀ stop t, ParsedL t.ast → (∀ g, t.gen = some g → g.indent.Blank) → (p.text stop t).Post (fun r => ParsedL r.2)
  parse : ∀ key, (p.parse key).Post ParsedL

/-- Goes through a rule. -/
macro "posts" : tactic => `(tactic| repeat' (first
  | exact post_err
  | exact post_timeout
  | exact post_pure ParsedO.nothing
  | split))

variable {p : Parsers} {e : PEnv}

theorem psQuoted_parsed (s : Src) : (psQuoted s).Post ParsedO := by
  unfold psQuoted noMatch
  dsimp only
  posts <;> exact post_pure (ParsedO.some Parsed.str)

theorem psQuote_parsed (s : Src) : (psQuote e s).Post ParsedO := by
  unfold psQuote
  posts
  all_goals first | exact psQuoted_parsed _ | exact post_pure (ParsedO.some Parsed.str)

theorem psNumber_parsed (s : Src) : (psNumber e s).Post ParsedO := by
  unfold psNumber noMatch
  dsimp only
  posts
  all_goals exact post_pure (ParsedO.some (by intro l hl; cases hl))

theorem psValue_parsed (s : Src) : (psValue e s).Post ParsedO := post_orElse (psQuote_parsed s) psNumber_parsed

theorem psComment_parsed (s : Src) : (psComment s).Post ParsedO := by
  unfold psComment noMatch
  dsimp only
  posts
  all_goals exact post_pure (ParsedO.some (by intro l hl; cases hl))

theorem psRemark_parsed (s : Src) : (psRemark e s).Post ParsedO := by
  unfold psRemark noMatch
  posts
  all_goals exact post_pure (ParsedO.some Parsed.remark)

theorem psBinding_parsed (h : p.Parsed) (s : Src) : (psBinding p s).Post (fun r => Parsed r.2.2) := by
  unfold psBinding
  refine post_bind post_any (fun a _ => ?_)
  obtain ⟨s, lval⟩ := a
  refine post_bind (h.form _) (fun a ha => ?_)
  obtain ⟨s, leg⟩ := a
  cases leg with
  | none => exact post_err
  | some x => exact post_pure (ha x rfl)

theorem psSet_parsed (h : p.Parsed) (s : Src) : (psSet p s).Post ParsedO := by
  unfold psSet noMatch
  split
  · refine post_bind (psBinding_parsed h _) (fun a ha => post_bind post_any (fun _ _ => post_pure (ParsedO.some (Parsed.set ha))))
  · posts

theorem psLet_parsed (h : p.Parsed) (s : Src) : (psLet p s).Post ParsedO := by
  unfold psLet noMatch
  split
  · refine post_bind (psBinding_parsed h _) (fun a ha => post_bind (h.form _) (fun b hb => ?_))
    obtain ⟨s, leg⟩ := b
    cases leg with
    | none => exact post_err
    | some y => exact post_bind post_any (fun _ _ => post_pure (ParsedO.some (Parsed.letn ha (hb y rfl))))
  · posts

theorem psMacro_parsed (s : Src) : (psMacro s).Post ParsedO := by
  unfold psMacro noMatch
  split
  · split
    · posts
    · next ha =>
      dsimp only
      split
      · refine post_bind post_any (fun a _ => ?_)
        obtain ⟨s, pars⟩ := a
        dsimp only
        split
        · exact post_pure (ParsedO.some (Parsed.macro (psAtom_placed ha) rfl))
        · posts
      · posts
  · posts

theorem psEmit_parsed (h : p.Parsed) (s : Src) : (psEmit p s).Post ParsedO := by
  unfold psEmit noMatch
  split
  · refine post_bind post_any (fun a _ => ?_)
    obtain ⟨s, v⟩ := a
    cases v with
    | none => exact post_err
    | some v =>
      obtain ⟨late, reg, a⟩ := v
      refine post_bind (h.form _) (fun b hb => post_bind post_any (fun _ _ => post_pure (ParsedO.some (Parsed.emit ?_))))
      obtain ⟨s, leg⟩ := b
      cases leg with
      | none => exact Parsed.none
      | some x => exact hb x rfl
  · posts

theorem text_parsed (h : p.Parsed) (stop : Stop) (s : Src) : (p.text stop { sou := s }).Post (fun r => ParsedL r.2) :=
  h.text _ _ ParsedL.nil (by intro g hg; cases hg)

theorem psCode_parsed (h : p.Parsed) (s : Src) : (psCode p s).Post ParsedO := by
  have hm : ∀ stop s, (do
      let (s, ast) ← p.text stop { sou := s }
      pure (s, some (.text ast)) : PM (Src × Option Node)).Post ParsedO := fun stop s =>
    post_bind (text_parsed h stop s) (fun a ha => post_pure (ParsedO.some (Parsed.text ha)))
  unfold psCode noMatch
  dsimp only
  posts
  all_goals exact hm _ _

theorem psInfix_parsed (h : p.Parsed) (s : Src) : (psInfix p s).Post ParsedO := by
  unfold psInfix noMatch
  posts
  all_goals exact post_bind (text_parsed h _ _) (fun a ha => post_pure (ParsedO.some (Parsed.infix (Parsed.text ha))))

theorem raw_embed {c : Bool} {x : Node} (h : Parsed x) : ParsedL [if c then .embed x else x] := by
  cases c
  · exact ParsedL.one h
  · exact ParsedL.one (Parsed.embed h)

theorem psItems_parsed (h : p.Parsed) (s : Src) (lst : List Node) (hl : ParsedL lst) : (psItems p s lst).Post (fun r => ParsedL r.2) := by
  unfold psItems
  dsimp only
  split
  · exact post_pure hl
  · refine post_bind (h.form _) (fun a ha => ?_)
    obtain ⟨s, leg⟩ := a
    cases leg with
    | none => exact post_err
    | some x => exact h.items _ _ (hl.append (raw_embed (ha x rfl)))

theorem psList_parsed (h : p.Parsed) (s : Src) : (psList p s).Post ParsedO := by
  unfold psList noMatch
  posts
  exact post_bind (h.items _ _ ParsedL.nil) (fun a ha => post_pure (ParsedO.some (Parsed.list ha)))

theorem psArgs_parsed (h : p.Parsed) (fn : Option Src) (s : Src) (a : List Node) (b : List (Src × Node)) (ha : ParsedL a) (hb : ParsedN b) :
    (psArgs p fn s a b).Post (fun r => ParsedL r.2.1 ∧ ParsedN r.2.2) := by
  unfold psArgs
  dsimp only
  split
  · split
    · exact post_pure ⟨ha, hb⟩
    · refine post_bind (h.form _) (fun c hc => ?_)
      obtain ⟨s, leg⟩ := c
      cases leg with
      | none => exact post_err
      | some x => exact h.args _ _ _ _ ha (hb.snoc (hc x rfl))
  · refine post_bind (h.form _) (fun c hc => ?_)
    obtain ⟨s, leg⟩ := c
    cases leg with
    | some x => exact h.args _ _ _ _ (ha.append (raw_embed (hc x rfl))) hb
    | none =>
      dsimp only
      split
      · exact post_err
      · exact post_pure ⟨ha, hb⟩

theorem psApplication_parsed (h : p.Parsed) (s : Src) : (psApplication p s).Post ParsedO := by
  unfold psApplication noMatch
  dsimp only
  split
  · posts
  split
  · posts
  split
  · exact psCode_parsed h s
  split
  · exact psEmit_parsed h s
  split
  · exact psInfix_parsed h s
  refine post_bind (h.form _) (fun c hc => ?_)
  obtain ⟨s, leg⟩ := c
  cases leg with
  | none => exact post_err
  | some f =>
    refine post_bind (h.args _ _ _ _ ParsedL.nil (by intro x hx; cases hx)) (fun a ha => ?_)
    have := fun loc => Parsed.apply (loc := loc) (hc f rfl) ha.1 ha.2
    split
    · split
      · exact post_pure (ParsedO.some (Parsed.eval (this _)))
      · exact post_pure (ParsedO.some (this _))
    · exact post_err

theorem psLForm_parsed (h : p.Parsed) (s : Src) : (psLForm p s).Post ParsedO :=
  post_orElse (psCode_parsed h s) fun s => post_orElse (psInfix_parsed h s) fun s => post_orElse (psLet_parsed h s) fun s =>
    post_orElse (psApplication_parsed h s) fun s => psList_parsed h s

theorem psBounds_parsed (h : p.Parsed) (s : Src) (b : List Bound) (l : List Src) (hb : ParsedB b) :
    (psBounds p s b l).Post (fun r => ParsedB r.2) := by
  unfold psBounds
  split
  · split
    · split
      · exact h.bounds _ _ _ (hb.snoc (by intro x hx; cases hx))
      · exact post_err
    · split
      · exact post_err
      · refine post_bind (Q := fun r => ParsedO r) ?_ (fun a ha => ?_)
        · split
          · refine post_bind (h.form _) (fun a ha => ?_)
            obtain ⟨s, leg⟩ := a
            cases leg with
            | none => exact post_err
            | some x => exact post_pure ha
          · exact post_pure ParsedO.nothing
        · obtain ⟨s, d⟩ := a
          dsimp only
          split
          · exact h.bounds _ _ _ hb
          · split
            · exact h.bounds _ _ _ (hb.snoc ha)
            · exact post_err
  · exact post_pure hb

theorem psLambda_parsed (h : p.Parsed) (s : Src) : (psLambda p s).Post ParsedO := by
  unfold psLambda noMatch
  split
  · split
    · refine post_bind post_any (fun a _ => ?_)
      obtain ⟨s, v⟩ := a
      cases v with
      | none => exact post_err
      | some v =>
        obtain ⟨late, reg, a⟩ := v
        dsimp only
        split
        · refine post_bind (psLForm_parsed h _) (fun a ha => ?_)
          obtain ⟨s, leg⟩ := a
          cases leg with
          | none => exact post_err
          | some x => exact post_pure (ParsedO.some (Parsed.lambdaVar (ha x rfl)))
        · exact post_err
    · refine post_bind (psBounds_parsed h _ _ _ (by intro x hx; cases hx)) (fun b hb => ?_)
      obtain ⟨s, b⟩ := b
      refine post_bind (psLForm_parsed h _) (fun a ha => ?_)
      obtain ⟨s, leg⟩ := a
      cases leg with
      | none => exact post_err
      | some x => exact post_pure (ParsedO.some (Parsed.lambda hb (ha x rfl)))
  · posts

theorem psFormer_parsed (h : p.Parsed) (s : Src) : (psFormer e p s).Post ParsedO :=
  post_orElse (psValue_parsed s) fun s => post_orElse (post_bind post_any (fun a _ => post_pure (by
    obtain ⟨s, v⟩ := a
    cases v with
    | none => exact ParsedO.nothing
    | some v => obtain ⟨a, b, c⟩ := v; exact ParsedO.some Parsed.var))) fun s =>
  post_orElse (psLambda_parsed h s) fun s => psLForm_parsed h s

theorem psForm_parsed (h : p.Parsed) (s : Src) : (psForm e p s).Post ParsedO := by
  unfold psForm noMatch
  refine post_bind (psFormer_parsed h s) (fun a ha => ?_)
  obtain ⟨s, leg⟩ := a
  cases leg with
  | none => exact post_pure ParsedO.nothing
  | some x =>
    dsimp only
    split
    · refine post_bind (psFormer_parsed h _) (fun c hc => ?_)
      obtain ⟨s, leg⟩ := c
      cases leg with
      | none => exact post_err
      | some c =>
        dsimp only
        split
        · refine post_bind (h.form _) (fun d hd => ?_)
          obtain ⟨s, leg⟩ := d
          cases leg with
          | none => exact post_err
          | some d => exact post_pure (ParsedO.some (Parsed.cond (hc _ rfl) (ha _ rfl) (hd _ rfl)))
        · exact post_pure (ParsedO.some (Parsed.cond (hc _ rfl) (ha _ rfl) Parsed.none))
    · exact post_pure ha

/-- What a rule of a text gives. -/
def ParsedT (r : Src × Option (List Node)) : Prop := ∀ x, r.2 = some x → ParsedL x

theorem encloseImport_parsed {xs : List Node} (h : ParsedL xs) : ParsedL (encloseImport xs) := by
  unfold encloseImport
  split
  · exact ParsedL.nil
  · intro x hx
    simp only [List.cons_append, List.mem_cons, List.mem_append, List.not_mem_nil, or_false] at hx
    rcases hx with rfl | hx | rfl
    · intro l hl; cases hl
    · exact h x hx
    · intro l hl; cases hl

theorem psImport_parsed (h : p.Parsed) (s : Src) : (psImport e p s).Post ParsedT := by
  unfold psImport noMatch
  split
  · refine post_bind (Q := fun r => ParsedL r.2) ?_ (fun a ha => post_bind post_any (fun _ _ => post_pure (by
      intro x hx; cases hx; exact ha)))
    split
    · exact post_bind post_any (fun _ _ => post_bind (h.parse _) (fun a ha => post_pure (encloseImport_parsed ha)))
    · refine post_bind post_any (fun a _ => ?_)
      obtain ⟨s, leg⟩ := a
      dsimp only
      split
      · split
        · exact post_bind post_any (fun _ _ => post_pure ParsedL.nil)
        · exact post_bind post_any (fun _ _ => post_bind (h.parse _) (fun a ha => post_pure (encloseImport_parsed ha)))
      · refine post_bind post_any (fun a _ => ?_)
        obtain ⟨s, leg⟩ := a
        dsimp only
        split
        · exact post_bind post_any (fun _ _ => post_bind (h.parse _) (fun a ha => post_pure ha))
        · exact post_err
  · exact post_pure (by intro x hx; cases hx)

theorem one_parsed {m : PM (Src × Option Node)} (h : m.Post ParsedO) : (do
    let (s, leg) ← m
    pure (s, leg.map ([·])) : PM (Src × Option (List Node))).Post ParsedT := by
  refine post_bind h (fun a ha => post_pure ?_)
  obtain ⟨s, leg⟩ := a
  intro x hx
  cases leg with
  | none => cases hx
  | some y => cases hx; exact ParsedL.one (ha y rfl)

theorem psTextLeg_parsed (h : p.Parsed) (s : Src) : (psTextLeg e p s).Post ParsedT := by
  unfold psTextLeg
  dsimp only
  refine post_orElse (one_parsed (psSet_parsed h s)) fun s => ?_
  refine post_orElse (one_parsed (psLet_parsed h s)) fun s => ?_
  refine post_orElse (psImport_parsed h s) fun s => ?_
  refine post_orElse (one_parsed (psMacro_parsed s)) fun s => ?_
  refine post_orElse (one_parsed (psComment_parsed s)) fun s => ?_
  refine post_orElse (one_parsed (psApplication_parsed h s)) fun s => ?_
  refine post_orElse (one_parsed (psQuote_parsed s)) fun s => ?_
  exact one_parsed (psRemark_parsed s)

theorem indentStep_blank {i : Indent} (h : i.Blank) (c : Char) : (indentStep i c).Blank := by
  unfold indentStep
  split
  · intro l hl
    cases List.mem_singleton.mp hl
    exact rfl
  · split
    · next hb =>
      split
      · next i =>
        intro l hl
        cases List.mem_singleton.mp hl
        have := h (.ind i) (by simp [Indent.leaves])
        simp only [ParsedLeaf, List.all_append, List.all_cons, List.all_nil, Bool.and_true, Bool.and_eq_true] at this ⊢
        exact ⟨this, blank_space hb⟩
      · exact h
    · intro l hl; cases hl

theorem plainStep_parsed {t t' : TextSt} (h : plainStep t = some t') (ha : ParsedL t.ast) (hg : ∀ g, t.gen = some g → g.indent.Blank) :
    ParsedL t'.ast ∧ ∀ g, t'.gen = some g → g.indent.Blank := by
  unfold plainStep at h
  have key : ∀ (q : Gen × List Node), ParsedL q.2 → q.1.indent.Blank → (match t.sou.txt with
      | [] => none
      | c :: _ =>
        if !isAny c then none
        else
          let indent := indentStep q.1.indent c
          some { sou := t.sou.drop 1
                 ast := q.2 ++ [.plain (q.1.start.take (q.1.i + 1)) indent false]
                 sq := depthStep '[' ']' t.sq c
                 pth := depthStep '(' ')' t.pth c
                 gen := some ⟨q.1.start, q.1.i + 1, indent⟩ : TextSt }) = some t' →
      ParsedL t'.ast ∧ ∀ g, t'.gen = some g → g.indent.Blank := by
    intro q h1 h2 hq
    split at hq
    · cases hq
    · split at hq
      · cases hq
      · cases hq
        refine ⟨h1.append (ParsedL.one (Parsed.plain (indentStep_blank h2 _))), ?_⟩
        intro g hg
        cases hg
        exact indentStep_blank h2 _
  cases hgen : t.gen with
  | some g =>
    rw [hgen] at h
    refine key (g, t.ast.dropLast) ?_ (hg g hgen) h
    intro x hx
    exact ha x (List.dropLast_subset _ hx)
  | none =>
    rw [hgen] at h
    refine key (⟨t.sou, 0, if t.ast.isEmpty then .str [] else .none⟩, t.ast) ha ?_ h
    intro l hl
    dsimp only at hl
    split at hl
    · cases List.mem_singleton.mp hl; exact rfl
    · cases hl

theorem psText_parsed (h : p.Parsed) (stop : Stop) (t : TextSt) (ha : ParsedL t.ast) (hg : ∀ g, t.gen = some g → g.indent.Blank) :
    (psText e p stop t).Post (fun r => ParsedL r.2) := by
  unfold psText
  refine post_bind (psTextLeg_parsed h _) (fun a hx => ?_)
  obtain ⟨s, leg⟩ := a
  cases leg with
  | some xs => exact h.text _ _ (ha.append (hx xs rfl)) (by intro g hg; cases hg)
  | none =>
    dsimp only
    split
    · exact post_pure ha
    · refine post_bind (Q := fun t' => ParsedL t'.ast ∧ ∀ g, t'.gen = some g → g.indent.Blank) ?_ (fun t' ht => h.text _ _ ht.1 ht.2)
      intro st a st' hm
      cases hp : plainStep { t with sou := s } with
      | none => rw [hp] at hm; cases hm
      | some t' => rw [hp] at hm; cases hm; exact plainStep_parsed hp ha hg

theorem psRun_parsed (h : p.Parsed) (s : Src) (hd : List Node) (hh : ParsedL hd) : (psRun p s hd).Post ParsedL := by
  unfold psRun
  split
  · exact post_err
  · refine post_bind (text_parsed h _ _) (fun a ha => post_pure ?_)
    split
    · exact ParsedL.nil
    · exact hh.append ha

theorem headerLoop_parsed (word : Char → Bool) : ∀ n s hd r, ParsedL hd → headerLoop word n s hd = some r → ParsedL r.2.1 := by
  intro n
  induction n with
  | zero => intro s hd r _ h; cases h
  | succ n ih =>
    intro s hd r hh h
    have two : ∀ a b, ParsedL (hd ++ [.remark a, .remark b]) := fun a b =>
      hh.append (by intro x hx; simp only [List.mem_cons, List.not_mem_nil, or_false] at hx; rcases hx with rfl | rfl <;> exact Parsed.remark)
    unfold headerLoop at h
    dsimp only at h
    split at h
    · split at h
      · cases h; exact hh
      · split at h
        · cases h; exact two _ _
        · cases h; exact two _ _
      · split at h
        · exact ih _ _ _ (two _ _) h
        · refine ih _ _ _ (hh.append ?_) h
          intro x hx; simp only [List.mem_cons, List.not_mem_nil, or_false] at hx
          rcases hx with rfl | rfl
          · exact Parsed.remark
          · exact Parsed.none
    · cases h

theorem psHeader_parsed {word : Char → Bool} {s : Src} {r} (h : psHeader word s = some r) : ParsedL r.2.1 := by
  unfold psHeader at h
  split at h <;> exact headerLoop_parsed _ _ _ _ _ ParsedL.nil h

theorem psParse_parsed (h : p.Parsed) (key : Str) : (psParse e p key).Post ParsedL := by
  unfold psParse
  refine post_bind post_any (fun st _ => ?_)
  split
  · exact post_err
  · exact post_pure ParsedL.nil
  · dsimp only
    split
    · split
      · next hd => exact post_bind post_any (fun _ _ => psRun_parsed h _ _ (psHeader_parsed hd))
      · exact psRun_parsed h _ _ ParsedL.nil
    · exact psRun_parsed h _ _ ParsedL.nil

theorem Parsers.Parsed.step (h : p.Parsed) : (p.step e).Parsed where
  form := psForm_parsed h
  args := psArgs_parsed h
  items := psItems_parsed h
  bounds := psBounds_parsed h
  text := psText_parsed h
  parse := psParse_parsed h

theorem P_parsed (e : PEnv) : ∀ n, (P e n).Parsed
  | 0 => ⟨fun _ => post_timeout, fun _ _ _ _ _ _ => post_timeout, fun _ _ _ => post_timeout, fun _ _ _ _ => post_timeout,
      fun _ _ _ _ => post_timeout, fun _ => post_timeout⟩
  | n + 1 => (P_parsed e n).step

end Yupp
