import Verif.Model.Parse
/-!
# More nesting does not change a result

If the parser with `n` levels returns a tree or raises an exception, so does the one with more levels.
-/

namespace Yupp

/-- `m'` agrees with `m` unless `m` gives up. -/
def PM.Le (m m' : PM α) : Prop := ∀ st, m st = .timeout ∨ m st = m' st

namespace PM

theorem le_refl (m : PM α) : Le m m := fun _ => .inr rfl

theorem le_timeout (m : PM α) : Le PM.timeout m := fun _ => .inl rfl

theorem le_bind {m m' : PM α} {f f' : α → PM β} (h : Le m m') (hf : ∀ a, Le (f a) (f' a)) :
    Le (m >>= f) (m' >>= f') := by
  intro st
  change PM.bind m f st = .timeout ∨ PM.bind m f st = PM.bind m' f' st
  unfold PM.bind
  rcases h st with h | h
  · rw [h]; exact .inl rfl
  · rw [← h]
    cases m st with
    | ok r => exact hf r.1 r.2
    | err => exact .inr rfl
    | timeout => exact .inl rfl

end PM

structure Parsers.Le (p q : Parsers) : Prop where
  form : ∀ s, (p.form s).Le (q.form s)
  args : ∀ a b c d, (p.args a b c d).Le (q.args a b c d)
  items : ∀ a b, (p.items a b).Le (q.items a b)
  bounds : ∀ a b c, (p.bounds a b c).Le (q.bounds a b c)
  text : ∀ a b, (p.text a b).Le (q.text a b)
  parse : ∀ a, (p.parse a).Le (q.parse a)

/-- Goes through a rule: same branches on both sides, recursive calls by hypothesis. -/
macro "mono " h:ident : tactic => `(tactic| repeat' (first
  | exact PM.le_refl _
  | exact ($h).form _
  | exact ($h).args _ _ _ _
  | exact ($h).items _ _
  | exact ($h).bounds _ _ _
  | exact ($h).text _ _
  | exact ($h).parse _
  | assumption
  | refine PM.le_bind ?_ (fun a => ?_)
  | split))

variable {p q : Parsers} {e : PEnv}

theorem orElse_le {r r' : PM (Src × Option α)} {f f' : Src → PM (Src × Option α)} (h : r.Le r')
    (hf : ∀ s, (f s).Le (f' s)) : (orElse r f).Le (orElse r' f') := by
  unfold orElse
  refine PM.le_bind h (fun a => ?_)
  obtain ⟨s, leg⟩ := a
  cases leg with
  | some x => exact PM.le_refl _
  | none => exact hf s

theorem psBinding_le (h : p.Le q) (s : Src) : (psBinding p s).Le (psBinding q s) := by
  unfold psBinding
  mono h

theorem psSet_le (h : p.Le q) (s : Src) : (psSet p s).Le (psSet q s) := by
  have := psBinding_le h
  unfold psSet
  split
  · refine PM.le_bind (this _) (fun a => ?_)
    mono h
  · mono h

theorem psLet_le (h : p.Le q) (s : Src) : (psLet p s).Le (psLet q s) := by
  have := psBinding_le h
  unfold psLet
  split
  · refine PM.le_bind (this _) (fun a => ?_)
    mono h
  · mono h

theorem psEmit_le (h : p.Le q) (s : Src) : (psEmit p s).Le (psEmit q s) := by
  unfold psEmit
  mono h

theorem psCode_le (h : p.Le q) (s : Src) : (psCode p s).Le (psCode q s) := by
  unfold psCode
  dsimp only
  mono h

theorem psInfix_le (h : p.Le q) (s : Src) : (psInfix p s).Le (psInfix q s) := by
  unfold psInfix
  mono h

theorem psItems_le (h : p.Le q) (s : Src) (l : List Node) : (psItems p s l).Le (psItems q s l) := by
  unfold psItems
  dsimp only
  mono h

theorem psList_le (h : p.Le q) (s : Src) : (psList p s).Le (psList q s) := by
  unfold psList
  mono h

theorem psArgs_le (h : p.Le q) (fn : Option Src) (s : Src) (a : List Node) (b : List (Src × Node)) :
    (psArgs p fn s a b).Le (psArgs q fn s a b) := by
  unfold psArgs
  dsimp only
  mono h

theorem psApplication_le (h : p.Le q) (s : Src) : (psApplication p s).Le (psApplication q s) := by
  unfold psApplication
  dsimp only
  split
  · exact PM.le_refl _
  split
  · exact PM.le_refl _
  split
  · exact psCode_le h s
  split
  · exact psEmit_le h s
  split
  · exact psInfix_le h s
  mono h

theorem psLForm_le (h : p.Le q) (s : Src) : (psLForm p s).Le (psLForm q s) :=
  orElse_le (psCode_le h s) fun s => orElse_le (psInfix_le h s) fun s => orElse_le (psLet_le h s) fun s =>
    orElse_le (psApplication_le h s) fun s => psList_le h s

theorem psBounds_le (h : p.Le q) (s : Src) (b : List Bound) (l : List Src) :
    (psBounds p s b l).Le (psBounds q s b l) := by
  unfold psBounds
  mono h

theorem psLambda_le (h : p.Le q) (s : Src) : (psLambda p s).Le (psLambda q s) := by
  unfold psLambda
  split
  · split
    · refine PM.le_bind (PM.le_refl _) (fun a => ?_)
      split
      split
      · exact PM.le_refl _
      · dsimp only
        split
        · refine PM.le_bind (psLForm_le h _) (fun a => ?_)
          mono h
        · exact PM.le_refl _
    · refine PM.le_bind (psBounds_le h _ _ _) (fun a => ?_)
      split
      refine PM.le_bind (psLForm_le h _) (fun a => ?_)
      mono h
  · mono h

theorem psFormer_le (h : p.Le q) (s : Src) : (psFormer e p s).Le (psFormer e q s) :=
  orElse_le (PM.le_refl _) fun _ => orElse_le (PM.le_refl _) fun s => orElse_le (psLambda_le h s) fun s =>
    psLForm_le h s

theorem psForm_le (h : p.Le q) (s : Src) : (psForm e p s).Le (psForm e q s) := by
  unfold psForm
  refine PM.le_bind (psFormer_le h s) (fun a => ?_)
  split
  split
  · exact PM.le_refl _
  · dsimp only
    split
    · refine PM.le_bind (psFormer_le h _) (fun a => ?_)
      mono h
    · exact PM.le_refl _

theorem psImport_le (h : p.Le q) (s : Src) : (psImport e p s).Le (psImport e q s) := by
  have := psInfix_le h
  unfold psImport
  split
  · refine PM.le_bind ?_ (fun a => PM.le_refl _)
    split
    · mono h
    · refine PM.le_bind (PM.le_refl _) (fun a => ?_)
      split
      split
      · dsimp only
        mono h
      · refine PM.le_bind (this _) (fun a => ?_)
        mono h
  · exact PM.le_refl _

theorem psTextLeg_le (h : p.Le q) (s : Src) : (psTextLeg e p s).Le (psTextLeg e q s) := by
  unfold psTextLeg
  dsimp only
  refine orElse_le (PM.le_bind (psSet_le h s) fun _ => PM.le_refl _) fun s => ?_
  refine orElse_le (PM.le_bind (psLet_le h s) fun _ => PM.le_refl _) fun s => ?_
  refine orElse_le (psImport_le h s) fun s => ?_
  refine orElse_le (PM.le_refl _) fun s => ?_
  refine orElse_le (PM.le_refl _) fun s => ?_
  refine orElse_le (PM.le_bind (psApplication_le h s) fun _ => PM.le_refl _) fun s => ?_
  exact PM.le_refl _

theorem psText_le (h : p.Le q) (stop : Stop) (t : TextSt) : (psText e p stop t).Le (psText e q stop t) := by
  unfold psText
  refine PM.le_bind (psTextLeg_le h _) (fun a => ?_)
  mono h

theorem psRun_le (h : p.Le q) (s : Src) (hd : List Node) : (psRun p s hd).Le (psRun q s hd) := by
  unfold psRun
  mono h

theorem psParse_le (h : p.Le q) (key : Str) : (psParse e p key).Le (psParse e q key) := by
  have := psRun_le h
  unfold psParse
  refine PM.le_bind (PM.le_refl _) (fun st => ?_)
  split
  · exact PM.le_refl _
  · exact PM.le_refl _
  · dsimp only
    split
    · split
      · exact PM.le_bind (PM.le_refl _) (fun _ => this _ _)
      · exact this _ _
    · exact this _ _

theorem Parsers.Le.step (h : p.Le q) : (p.step e).Le (q.step e) where
  form := psForm_le h
  args := psArgs_le h
  items := psItems_le h
  bounds := psBounds_le h
  text := psText_le h
  parse := psParse_le h

theorem Parsers.bot_le (q : Parsers) : Parsers.bot.Le q :=
  ⟨fun _ => PM.le_timeout _, fun _ _ _ _ => PM.le_timeout _, fun _ _ => PM.le_timeout _,
    fun _ _ _ => PM.le_timeout _, fun _ _ => PM.le_timeout _, fun _ => PM.le_timeout _⟩

theorem P_succ_le (e : PEnv) : ∀ n, (P e n).Le (P e (n + 1))
  | 0 => Parsers.bot_le _
  | n + 1 => (P_succ_le e n).step

theorem PM.Le.trans {a b c : PM α} (h1 : a.Le b) (h2 : b.Le c) : a.Le c := by
  intro st
  rcases h1 st with h | h
  · exact .inl h
  · rw [h]; exact h2 st

theorem Parsers.Le.trans {a b c : Parsers} (h1 : a.Le b) (h2 : b.Le c) : a.Le c :=
  ⟨fun _ => (h1.form _).trans (h2.form _), fun _ _ _ _ => (h1.args _ _ _ _).trans (h2.args _ _ _ _),
    fun _ _ => (h1.items _ _).trans (h2.items _ _), fun _ _ _ => (h1.bounds _ _ _).trans (h2.bounds _ _ _),
    fun _ _ => (h1.text _ _).trans (h2.text _ _), fun _ => (h1.parse _).trans (h2.parse _)⟩

theorem P_le (e : PEnv) {m n : Nat} (h : m ≤ n) : (P e m).Le (P e n) := by
  induction h with
  | refl => exact ⟨fun _ => PM.le_refl _, fun _ _ _ _ => PM.le_refl _, fun _ _ => PM.le_refl _,
      fun _ _ _ => PM.le_refl _, fun _ _ => PM.le_refl _, fun _ => PM.le_refl _⟩
  | step _ ih => exact ih.trans (P_succ_le e _)

end Yupp
