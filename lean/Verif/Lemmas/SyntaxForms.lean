import Verif.Lemmas.Syntax
/-!
# Reading written expressions: the rules of the grammar
-/

namespace Yupp

variable {e : PEnv}

theorem head_gap {g s : Str} {d : Char} (hg : IsGap g) (hd : ¬ GapChar d) (hs : s.head? ≠ some d) :
    (g ++ s).head? ≠ some d := by
  cases g with
  | nil => exact hs
  | cons c g =>
    intro h
    simp only [List.cons_append, List.head?_cons, Option.some.injEq] at h
    subst h
    exact hd (hg _ List.mem_cons_self)

theorem no_pre {g s k : Str} {c : Char} (hg : IsGap g) (hc : ¬ GapChar c) (h : g ≠ [] ∨ ¬ (c :: k) <+: s) :
    ¬ (c :: k) <+: (g ++ s) := by
  cases g with
  | nil =>
    rcases h with h | h
    · exact absurd rfl h
    · exact h
  | cons d g =>
    intro hp
    rw [List.cons_append] at hp
    rw [(pre_cons.mp hp).1] at hc
    exact hc (hg _ List.mem_cons_self)

theorem no_pre_head {s k : Str} {c : Char} (h : s.head? ≠ some c) : ¬ (c :: k) <+: s := by
  intro hp
  cases s with
  | nil => exact absurd (List.prefix_nil.mp hp) (by simp)
  | cons d s => exact h (by rw [(pre_cons.mp hp).1]; rfl)

/-- The parts of a body that begins with `($`. -/
theorem starts_dollar {s : Src} {t k : Str} (hs : s.txt = '(' :: '$' :: t) (h : ¬ k <+: t) :
    s.starts ('(' :: '$' :: k) = false := by
  refine starts_not ?_
  rw [hs]
  intro hp
  exact h (pre_cons.mp (pre_cons.mp hp).2).2

theorem Gives.asList {r : Parsers → PM (Src × Option Node)} {s : Src} {n : Node} (h : Gives e r (s, some n)) :
    Gives e (fun p => Yupp.asList (r p)) (s, some [n]) := by
  unfold Yupp.asList
  exact Gives.bind h (Gives.pure _)

theorem leg_let {src : Src} (hd : NoDirective src.txt) {s : Src} {n : Node} (h : Gives e (fun p => psLet p src) (s, some n)) :
    Gives e (fun p => psTextLeg e p src) (s, some [n]) := by
  refine Gives.of_eq (h.asList.orElse (next := fun p s => orElse (psImport e p s) fun s =>
    orElse (asList (psMacro s)) fun s => orElse (asList (psComment s)) fun s =>
    orElse (asList (psApplication p s)) fun s => orElse (asList (psQuote e s)) fun s => asList (psRemark e s))) (fun p => ?_)
  have h1 : psSet p src = noMatch src := by
    unfold psSet; rw [show src.starts kSet = false from starts_not hd.1]; rfl
  rw [textLeg_eq, h1, asList_noMatch]

theorem leg_app {src : Src} (hd : NoDirective src.txt) (hl : src.starts kLet = false) {s : Src} {n : Node}
    (h : Gives e (fun p => psApplication p src) (s, some n)) :
    Gives e (fun p => psTextLeg e p src) (s, some [n]) := by
  refine Gives.of_eq (h.asList.orElse (next := fun p s => orElse (asList (psQuote e s)) fun s => asList (psRemark e s)))
    (fun p => ?_)
  have h1 : psSet p src = noMatch src := by
    unfold psSet; rw [show src.starts kSet = false from starts_not hd.1]; rfl
  have h2 : psLet p src = noMatch src := by
    unfold psLet; rw [hl]; rfl
  have h3 : psImport e p src = noMatch src := by
    unfold psImport; rw [show src.starts kImport = false from starts_not hd.2.1]; rfl
  have h4 : psMacro src = noMatch src := by
    unfold psMacro; rw [show src.starts kMacro = false from starts_not hd.2.2.1]; rfl
  have h5 : psComment src = noMatch src := by
    unfold psComment; rw [show src.starts kComment = false from starts_not hd.2.2.2]; rfl
  rw [textLeg_eq, h1, asList_noMatch, h2, asList_noMatch, h3, noMatch_orElse, h4, asList_noMatch, h5, asList_noMatch]

theorem body_of {s : Src} {t : Str} (hs : s.txt = '(' :: t) (h1 : t.head? ≠ some '`')
    (h2 : s.starts kQuote = false) {s' : Src} {n : Node} {u : Str} (hu : s.txt = u)
    (hl : ['(', '$'] <+: u → NoDirective s.txt → Gives e (fun p => psTextLeg e p s) (s', some [n]))
    (h : Gives e (fun p => psLForm p s) (s', some n)) :
    Gives e (fun p => psFormer e p s) (s', some n) ∧ Gives e (fun p => psLForm p s) (s', some n) ∧
    (['(', '$'] <+: u → NoDirective u → Gives e (fun p => psTextLeg e p s) (s', some [n])) :=
  ⟨h.of_eq (psFormer_paren hs h1 h2), h, fun h1 h2 => hl h1 (hu ▸ h2)⟩

theorem means_former {x : Expr} {s r : Str} (h : Means e (.body x) s r) : Means e (.former x) s r := by
  intro src hs
  obtain ⟨src', n, h1, h2, h3, -⟩ := h src hs
  exact ⟨src', n, h1, h2, h3⟩

theorem means_one {x : Expr} {s g r : Str} (h : Means e (.former x) s (g ++ r)) (hg : IsGap g) (hr : NoGap r)
    (hq : r.head? ≠ some '?') : Means e (.form x) s r := by
  intro src hs
  obtain ⟨src', n, h1, h2, h3⟩ := h src hs
  have h4 : (psGap src').txt = r := gap_of h1 hg hr
  refine ⟨psGap src', n, h4, h2, ?_⟩
  unfold psForm
  refine Gives.bind h3 ?_
  refine Gives.of_eq (Gives.pure _) (fun p => ?_)
  dsimp only
  rw [at_false (by rw [h4]; exact hq)]
  rfl

theorem noGap_question (t : Str) : NoGap ('?' :: t) := noGap_cons (by decide) t
theorem noGap_bar (t : Str) : NoGap ('|' :: t) := noGap_cons (by decide) t

theorem means_cond {c x y : Expr} {s g1 g2 g3 g4 s2 s3 r : Str}
    (h1 : Means e (.former x) s (g1 ++ '?' :: (g2 ++ s2))) (h2 : Means e (.former c) s2 (g3 ++ '|' :: (g4 ++ s3)))
    (h3 : Means e (.form y) s3 r) (hg1 : IsGap g1) (hg2 : IsGap g2) (hg3 : IsGap g3) (hg4 : IsGap g4)
    (b2 : Begins s2) (b3 : Begins s3) : Means e (.form (.cond c x y)) s r := by
  intro src hs
  obtain ⟨src1, nx, a1, tx, gx⟩ := h1 src hs
  have a2 : (psGap src1).txt = '?' :: (g2 ++ s2) := gap_of a1 hg1 (noGap_question _)
  have a3 : ((psGap src1).drop 1).txt = g2 ++ s2 := by rw [Src.drop_txt, a2]; rfl
  obtain ⟨src2, nc, a4, tc, gc⟩ := h2 (psGap ((psGap src1).drop 1)) (gap_of a3 hg2 b2.noGap)
  have a5 : (psGap src2).txt = '|' :: (g4 ++ s3) := gap_of a4 hg3 (noGap_bar _)
  have a6 : ((psGap src2).drop 1).txt = g4 ++ s3 := by rw [Src.drop_txt, a5]; rfl
  obtain ⟨src3, ny, a7, ty, gy⟩ := h3 (psGap ((psGap src2).drop 1)) (gap_of a6 hg4 b3.noGap)
  refine ⟨src3, .cond nc nx ny, a7, .cond tc tx ty, ?_⟩
  unfold psForm
  refine Gives.bind gx ?_
  dsimp only
  simp only [at_true a2, if_true]
  refine Gives.bind gc ?_
  dsimp only
  simp only [at_true a5, if_true]
  refine Gives.bind gy.form ?_
  exact Gives.pure _

theorem means_when {c x : Expr} {s g1 g2 g3 s2 r : Str} (h1 : Means e (.former x) s (g1 ++ '?' :: (g2 ++ s2)))
    (h2 : Means e (.former c) s2 (g3 ++ r)) (hg1 : IsGap g1) (hg2 : IsGap g2) (hg3 : IsGap g3) (hr : NoGap r)
    (hb : r.head? ≠ some '|') (b2 : Begins s2) : Means e (.form (.when c x)) s r := by
  intro src hs
  obtain ⟨src1, nx, a1, tx, gx⟩ := h1 src hs
  have a2 : (psGap src1).txt = '?' :: (g2 ++ s2) := gap_of a1 hg1 (noGap_question _)
  have a3 : ((psGap src1).drop 1).txt = g2 ++ s2 := by rw [Src.drop_txt, a2]; rfl
  obtain ⟨src2, nc, a4, tc, gc⟩ := h2 (psGap ((psGap src1).drop 1)) (gap_of a3 hg2 b2.noGap)
  have a5 : (psGap src2).txt = r := gap_of a4 hg3 hr
  refine ⟨psGap src2, .cond nc nx .none, a5, .when tc tx, ?_⟩
  unfold psForm
  refine Gives.bind gx ?_
  dsimp only
  simp only [at_true a2, if_true]
  refine Gives.bind gc ?_
  dsimp only
  simp only [at_false (show (psGap src2).txt.head? ≠ some '|' by rw [a5]; exact hb), Bool.false_eq_true, if_false]
  exact Gives.pure _

/-! ## Lists -/

theorem means_itemsEnd {r : Str} : Means e (.items .nil) (')' :: r) r := by
  intro src acc hs
  refine ⟨src.drop 1, [], by rw [Src.drop_txt, hs]; rfl, .nil, ?_⟩
  refine Gives.of_eq (Gives.pure _) (fun p => ?_)
  unfold psItems
  rw [at_true hs, List.append_nil]
  rfl

theorem itemsNoGap {xs : ExprArgs} {s : Str} (h : BeginsFor (.items xs) s) : NoGap s := by
  rcases h with h | h | h
  · exact h.noGap
  · intro c hc; rw [h] at hc; cases Option.some.inj hc; decide
  · intro c hc; rw [h] at hc; cases Option.some.inj hc; decide

theorem argsNoGap {fn : Option Str} {xs : ExprArgs} {ys : ExprNamed} {s : Str} (h : BeginsFor (.args fn xs ys) s) : NoGap s :=
  itemsNoGap (xs := xs) h

theorem means_item {x : Expr} {xs : ExprArgs} {s s' r : Str} (h1 : Means e (.form x) s s')
    (h2 : Means e (.items xs) s' r) (b1 : Begins s) (b2 : BeginsFor (.items xs) s') :
    Means e (.items (.pos x xs)) s r := by
  intro src acc hs
  obtain ⟨src1, n, a1, t1, g1⟩ := h1 src hs
  obtain ⟨src2, ns, a2, t2, g2⟩ := h2 (psGap src1) (acc ++ [n]) (by
    rw [gap_same (by rw [a1]; exact itemsNoGap b2), a1])
  refine ⟨src2, n :: ns, a2, .pos t1 t2, ?_⟩
  unfold psItems
  simp only [at_false (show src.txt.head? ≠ some ')' by rw [hs]; exact b1.ne _ (by decide)),
    at_false (show src.txt.head? ≠ some '*' by rw [hs]; exact b1.ne _ (by decide)), Bool.false_eq_true, if_false]
  refine Gives.bind g1.form ?_
  dsimp only
  have := g2.items
  rw [List.append_assoc] at this
  exact this

theorem means_itemEmbed {x : Expr} {xs : ExprArgs} {g s s' r : Str} (hg : IsGap g) (h1 : Means e (.form x) s s')
    (h2 : Means e (.items xs) s' r) (b1 : Begins s) (b2 : BeginsFor (.items xs) s') :
    Means e (.items (.embed x xs)) ('*' :: (g ++ s)) r := by
  intro src acc hs
  have a0 : (src.drop 1).txt = g ++ s := by rw [Src.drop_txt, hs]; rfl
  obtain ⟨src1, n, a1, t1, g1⟩ := h1 (psGap (src.drop 1)) (gap_of a0 hg b1.noGap)
  obtain ⟨src2, ns, a2, t2, g2⟩ := h2 (psGap src1) (acc ++ [.embed n]) (by
    rw [gap_same (by rw [a1]; exact itemsNoGap b2), a1])
  refine ⟨src2, .embed n :: ns, a2, .embed t1 t2, ?_⟩
  unfold psItems
  simp only [at_false (show src.txt.head? ≠ some ')' by rw [hs]; simp), at_true hs, Bool.false_eq_true, if_false,
    if_true]
  refine Gives.bind g1.form ?_
  dsimp only
  have := g2.items
  rw [List.append_assoc] at this
  exact this

theorem means_list {xs : ExprArgs} {g s r : Str} (hg : IsGap g) (h : Means e (.items xs) s r)
    (b : BeginsFor (.items xs) s) : Means e (.body (.list xs)) ('(' :: (g ++ s)) r := by
  intro src hs
  have a0 : (src.drop 1).txt = g ++ s := by rw [Src.drop_txt, hs]; rfl
  obtain ⟨src1, ns, a1, t1, g1⟩ := h (psGap (src.drop 1)) [] (gap_of a0 hg (itemsNoGap b))
  refine ⟨src1, .list ns, a1, .list t1, ?_⟩
  have hd : ∀ c, ¬ StartChar c → c ≠ ')' → c ≠ '*' → ¬ GapChar c → (g ++ s).head? ≠ some c := by
    intro c h1 h2 h3 h4
    refine head_gap hg h4 ?_
    rcases b with b | b | b
    · exact b.ne c h1
    · rw [b]; exact fun h => h2 (Option.some.inj h).symm
    · rw [b]; exact fun h => h3 (Option.some.inj h).symm
  have hdol := hd '$' (by decide) (by decide) (by decide) (by decide)
  refine body_of hs (hd '`' (by decide) (by decide) (by decide) (by decide)) (starts_second hs hdol) hs ?_ ?_
  · intro hp
    rw [← hs] at hp
    have := starts_second (k := []) hs hdol
    rw [show src.starts ['(', '$'] = true from List.isPrefixOf_iff_prefix.mpr hp] at this
    cases this
  refine Gives.of_eq (g := fun p => psList p src) ?_ (fun p => ?_)
  · unfold psList
    simp only [at_true hs, if_true]
    refine Gives.bind g1.items ?_
    exact Gives.pure _
  · rw [psLForm_paren hs (starts_second hs hdol) (starts_second hs hdol)]
    have hl : psLet p src = noMatch src := by
      unfold psLet
      rw [show src.starts kLet = false from starts_second hs hdol]
      rfl
    have ha : psApplication p src = noMatch src := by
      unfold psApplication
      rw [show src.starts kApply = false from starts_second hs hdol]
      rfl
    rw [hl, noMatch_orElse, ha, noMatch_orElse]

/-! ## Arguments -/

theorem argName_none {s : Src} (h : s.txt.head? ≠ some '\\') : argName s = none := by
  unfold argName
  rw [at_false h]
  rfl

/-- Splits off the white space at the start. -/
theorem split_gap (t : Str) : ∃ g r, t = g ++ r ∧ IsGap g ∧ NoGap r := by
  induction t with
  | nil => exact ⟨[], [], rfl, isGap_nil, fun _ h => by cases h⟩
  | cons c t ih =>
    by_cases hc : GapChar c
    · obtain ⟨g, r, rfl, hg, hr⟩ := ih
      refine ⟨c :: g, r, rfl, ?_, hr⟩
      intro x hx
      rcases List.mem_cons.mp hx with rfl | hx
      · exact hc
      · exact hg x hx
    · exact ⟨[], c :: t, rfl, isGap_nil, noGap_cons hc t⟩

/-- Splits off the name characters at the start. -/
theorem split_name (t : Str) : ∃ w r, t = w ++ r ∧ (∀ x ∈ w, NameChar x) ∧ NoName r := by
  induction t with
  | nil => exact ⟨[], [], rfl, (fun _ h => by cases h), (fun _ h => by cases h)⟩
  | cons c t ih =>
    by_cases hc : NameChar c
    · obtain ⟨w, r, rfl, hw, hr⟩ := ih
      refine ⟨c :: w, r, rfl, ?_, hr⟩
      intro x hx
      rcases List.mem_cons.mp hx with rfl | hx
      · exact hc
      · exact hw x hx
    · exact ⟨[], c :: t, rfl, (fun _ h => by cases h), noName_cons hc t⟩

theorem argName_notNamed {s : Src} (h : NotNamed s.txt) : argName s = none := by
  by_cases hb : s.txt.head? = some '\\'
  · cases ht : s.txt with
    | nil => rw [ht] at hb; cases hb
    | cons c t =>
      rw [ht] at hb h
      simp only [List.head?_cons, Option.some.injEq] at hb
      subst hb
      have h1 : (s.drop 1).txt = t := by rw [Src.drop_txt, ht]; rfl
      unfold argName
      rw [at_true ht, if_pos rfl]
      by_cases hn : ∀ c, (s.drop 1).txt.head? = some c → ¬ NameStart c
      · rw [psAtom_none_of hn]
      · cases t with
        | nil => exfalso; refine hn (fun c hc => ?_); rw [h1] at hc; cases hc
        | cons c t =>
          have hc : NameStart c := by
            refine Classical.byContradiction (fun hc => hn ?_)
            intro d hd
            rw [h1] at hd
            simp only [List.head?_cons, Option.some.injEq] at hd
            exact hd ▸ hc
          obtain ⟨w, r, rfl, hw, hr⟩ := split_name t
          obtain ⟨g, r, rfl, hg, hrg⟩ := split_gap r
          have ha : IsName (c :: w) := ⟨c, w, rfl, hc, hw⟩
          have h1' : (s.drop 1).txt = (c :: w) ++ (g ++ r) := h1
          have hdot := h (c :: w) g r rfl ha hg hr hrg
          rw [psAtom_append h1' ha hr]
          dsimp only
          have h2 : (psGap ((s.drop 1).drop (c :: w).length)).txt = r :=
            gap_of (Src.drop_pre _ _ _ h1') hg hrg
          rw [show (psGap ((s.drop 1).drop (c :: w).length)).at '.' = true by rw [at_eq, h2, hdot]; rfl]
          rfl
  · exact argName_none hb

theorem argName_some_of {s : Src} {a g r : Str} (hs : s.txt = '\\' :: (a ++ (g ++ r))) (ha : IsName a)
    (hg : IsGap g) (hn : NoName (g ++ r)) (hr : NoGap r) (hd : r.head? ≠ some '.') :
    ∃ look name, argName s = some (look, name) ∧ look.txt = r ∧ name.txt = a := by
  have h1 : (s.drop 1).txt = a ++ (g ++ r) := by rw [Src.drop_txt, hs]; rfl
  have h2 : (psGap ((s.drop 1).drop a.length)).txt = r := gap_of (Src.drop_pre _ _ _ h1) hg hr
  refine ⟨psGap ((s.drop 1).drop a.length), (s.drop 1).take a.length, ?_, h2, Src.take_pre _ _ _ h1⟩
  unfold argName
  rw [at_true hs, if_pos rfl, psAtom_append h1 ha hn]
  dsimp only
  rw [at_false (by rw [h2]; exact hd)]
  rfl

/-- Where no expression begins, none is read. -/
theorem form_close {s : Src} {t : Str} (hs : s.txt = ')' :: t) : Gives e (fun p => psForm e p s) (s, none) := by
  have hh : s.txt.head? = some ')' := by rw [hs]; rfl
  have hne : ∀ c, c ≠ ')' → s.txt.head? ≠ some c := by
    intro c hc h; rw [hh] at h; exact hc (Option.some.inj h).symm
  have hf : ∀ p, psFormer e p s = noMatch s := by
    intro p
    have hq : psQuote e s = noMatch s := psQuote_none (cStrLen_none (hne _ (by decide)) (hne _ (by decide)))
      (by rw [hs]; rfl) (starts_head (hne _ (by decide))) (starts_head (hne _ (by decide)))
    have hn : psNumber e s = noMatch s := psNumber_none (fun c hc => by
      rw [hh] at hc; cases Option.some.inj hc; decide)
    have hv : psVar s = noMatch s := psVar_none (hne _ (by decide)) (fun c hc => by
      rw [hh] at hc; cases Option.some.inj hc; unfold NameStart; decide)
    have hl : psLambda p s = noMatch s := psLambda_none (hne _ (by decide))
    have hc : psCode p s = noMatch s := by
      unfold psCode
      rw [at_false (hne _ (by decide)), at_false (hne _ (by decide)),
        show s.starts kCode = false from starts_head (hne _ (by decide)),
        show s.starts kComma = false from starts_head (hne _ (by decide))]
      rfl
    have hi : psInfix p s = noMatch s := by
      unfold psInfix
      rw [at_false (hne _ (by decide)), show s.starts kInfix = false from starts_head (hne _ (by decide))]
      rfl
    have hlet : psLet p s = noMatch s := by
      unfold psLet
      rw [show s.starts kLet = false from starts_head (hne _ (by decide))]
      rfl
    have ha : psApplication p s = noMatch s := by
      unfold psApplication
      rw [show s.starts kApply = false from starts_head (hne _ (by decide))]
      rfl
    have hli : psList p s = noMatch s := by
      unfold psList
      rw [at_false (hne _ (by decide))]
      rfl
    unfold psFormer psValue
    rw [hq, noMatch_orElse, hn, noMatch_orElse, hv]
    change orElse (psLambda p s) (fun s => psLForm p s) = _
    rw [hl, noMatch_orElse]
    unfold psLForm
    rw [hc, noMatch_orElse, hi, noMatch_orElse, hlet, noMatch_orElse, ha, noMatch_orElse, hli]
  refine Gives.of_eq (Gives.pure _) (fun p => ?_)
  unfold psForm
  rw [hf]
  rfl

theorem means_argsEnd {fn : Option Str} {r : Str} : Means e (.args fn .nil .nil) (')' :: r) r := by
  intro src f as ms hs hf
  have hg : psGap src = src := gap_same (by rw [hs]; exact noGap_close _)
  refine ⟨src, [], [], by rw [hg, hs], .nil, .nil, ?_⟩
  unfold psArgs
  simp only [hg, argName_none (show src.txt.head? ≠ some '\\' by rw [hs]; simp),
    at_false (show src.txt.head? ≠ some '*' by rw [hs]; simp), Bool.false_eq_true, if_false]
  refine Gives.bind (form_close hs).form ?_
  simp only [List.append_nil]
  exact Gives.pure _

theorem noGap_backslash (t : Str) : NoGap ('\\' :: t) := noGap_cons (by decide) t

theorem noName_gap_close {g : Str} (hg : IsGap g) (r : Str) : NoName (g ++ ')' :: r) :=
  noName_gap hg (.inr (noName_cons (by decide) r))

theorem means_argsTag {a g r : Str} (ha : IsName a) (hg : IsGap g) :
    Means e (.args (some a) .nil .nil) ('\\' :: (a ++ (g ++ ')' :: r))) r := by
  intro src f as ms hs hf
  have hgs : psGap src = src := gap_same (by rw [hs]; exact noGap_backslash _)
  obtain ⟨look, name, h1, h2, h3⟩ := argName_some_of hs ha hg (noName_gap_close hg r) (noGap_close r) (by simp)
  refine ⟨look, [], [], by rw [gap_same (by rw [h2]; exact noGap_close r), h2], .nil, .nil, ?_⟩
  refine Gives.of_eq (Gives.pure _) (fun p => ?_)
  unfold psArgs
  simp only [hgs, h1, h3, hf, if_true, List.append_nil]

theorem means_arg {fn : Option Str} {x : Expr} {xs : ExprArgs} {ys : ExprNamed} {s s' r : Str} (hn : NotNamed s)
    (h1 : Means e (.form x) s s') (h2 : Means e (.args fn xs ys) s' r) (b1 : Begins s) :
    Means e (.args fn (.pos x xs) ys) s r := by
  intro src f as ms hs hf
  have hgs : psGap src = src := gap_same (by rw [hs]; exact b1.noGap)
  obtain ⟨src1, n, a1, t1, g1⟩ := h1 src hs
  obtain ⟨src2, ns, ms', a2, t2, t3, g2⟩ := h2 src1 f (as ++ [n]) ms a1 hf
  refine ⟨src2, n :: ns, ms', a2, .pos t1 t2, t3, ?_⟩
  unfold psArgs
  simp only [hgs, argName_notNamed (show NotNamed src.txt by rw [hs]; exact hn),
    at_false (show src.txt.head? ≠ some '*' by rw [hs]; exact b1.ne _ (by decide)), Bool.false_eq_true, if_false]
  refine Gives.bind g1.form ?_
  have := g2.args
  rw [List.append_assoc] at this
  exact this

theorem means_argEmbed {fn : Option Str} {x : Expr} {xs : ExprArgs} {ys : ExprNamed} {g s s' r : Str} (hg : IsGap g)
    (h1 : Means e (.form x) s s') (h2 : Means e (.args fn xs ys) s' r) (b1 : Begins s) :
    Means e (.args fn (.embed x xs) ys) ('*' :: (g ++ s)) r := by
  intro src f as ms hs hf
  have hgs : psGap src = src := gap_same (by rw [hs]; exact noGap_cons (by decide) _)
  have a0 : (src.drop 1).txt = g ++ s := by rw [Src.drop_txt, hs]; rfl
  obtain ⟨src1, n, a1, t1, g1⟩ := h1 (psGap (src.drop 1)) (gap_of a0 hg b1.noGap)
  obtain ⟨src2, ns, ms', a2, t2, t3, g2⟩ := h2 src1 f (as ++ [.embed n]) ms a1 hf
  refine ⟨src2, .embed n :: ns, ms', a2, .embed t1 t2, t3, ?_⟩
  unfold psArgs
  simp only [hgs, argName_none (show src.txt.head? ≠ some '\\' by rw [hs]; simp), at_true hs, if_true]
  refine Gives.bind g1.form ?_
  have := g2.args
  rw [List.append_assoc] at this
  exact this

theorem means_argNamed {fn : Option Str} {a : Str} {x : Expr} {xs : ExprArgs} {ys : ExprNamed} {g s s' r : Str} (ha : IsName a)
    (hfn : fn ≠ some a) (hg : IsGap g) (hn : NoName (g ++ s)) (h1 : Means e (.form x) s s')
    (h2 : Means e (.args fn xs ys) s' r) (b1 : Begins s) :
    Means e (.args fn xs (.cons a x ys)) ('\\' :: (a ++ (g ++ s))) r := by
  intro src f as ms hs hf
  have hgs : psGap src = src := gap_same (by rw [hs]; exact noGap_backslash _)
  obtain ⟨look, name, k1, k2, k3⟩ := argName_some_of hs ha hg hn b1.noGap (b1.ne _ (by decide))
  obtain ⟨src1, n, a1, t1, g1⟩ := h1 (psGap look) (by rw [gap_same (by rw [k2]; exact b1.noGap), k2])
  obtain ⟨src2, ns, ms', a2, t2, t3, g2⟩ := h2 src1 f as (ms ++ [(name, n)]) a1 hf
  subst k3
  refine ⟨src2, ns, (name, n) :: ms', a2, t2, .cons t1 t3, ?_⟩
  unfold psArgs
  simp only [hgs, k1, hf, hfn, if_false]
  refine Gives.bind g1.form ?_
  have := g2.args
  rw [List.append_assoc] at this
  exact this

/-! ## Applications -/

/-- The name of a function that is a name. -/
def nodeName : Node → Option Src
  | .var _ _ a => some a
  | _ => none

theorem tree_fname {x : Expr} {n : Node} (h : Tree x n) : (nodeName n).map (·.txt) = x.fname := by
  cases h <;> rfl

theorem app_eq {src : Src} (p : Parsers) (ev : Bool) (h1 : src.starts kApply = true) (h2 : src.starts kQuote = false)
    (h3 : src.starts kCode = false) (h4 : src.starts kEmit = false) (h5 : src.starts kInfix = false)
    (h6 : (src.drop 2).at '$' = ev) :
    psApplication p src = (do
      let (s, func) ← p.form (psGap (if ev then (src.drop 2).drop 1 else src.drop 2))
      match func with
      | none => PM.err
      | some f => do
        let (s, args, named) ← p.args (nodeName f) s [] []
        if (psGap s).at ')' then
          pure ((psGap s).drop 1, some (if ev then
            .eval (Node.apply f args named (src.loc.map (fun l => { l with pos := l.pos + 1 })))
              (some { txt := lit "<string>", loc := src.loc.map (fun l => { l with pos := l.pos + 2 }) }) none
            else Node.apply f args named (src.loc.map (fun l => { l with pos := l.pos + 1 }))))
        else PM.err) := by
  unfold psApplication
  rw [h1, h2, h3, h4, h5]
  simp only [Bool.not_true, Bool.false_eq_true, if_false, h6]
  rfl

theorem app_gives {src : Src} {f : Expr} {xs : ExprArgs} {ys : ExprNamed} {s s' r : Str} (ev : Bool)
    (h : ∀ p, psApplication p src = (do
      let (s, func) ← p.form (psGap (if ev then (src.drop 2).drop 1 else src.drop 2))
      match func with
      | none => PM.err
      | some f => do
        let (s, args, named) ← p.args (nodeName f) s [] []
        if (psGap s).at ')' then
          pure ((psGap s).drop 1, some (if ev then
            .eval (Node.apply f args named (src.loc.map (fun l => { l with pos := l.pos + 1 })))
              (some { txt := lit "<string>", loc := src.loc.map (fun l => { l with pos := l.pos + 2 }) }) none
            else Node.apply f args named (src.loc.map (fun l => { l with pos := l.pos + 1 }))))
        else PM.err))
    (hs : (psGap (if ev then (src.drop 2).drop 1 else src.drop 2)).txt = s) (hf : Means e (.form f) s s')
    (ha : Means e (.args f.fname xs ys) s' r) :
    ∃ src' n, src'.txt = r ∧ Tree (if ev then .eval f xs ys else .app f xs ys) n ∧
      Gives e (fun p => psApplication p src) (src', some n) := by
  obtain ⟨src1, n, a1, t1, g1⟩ := hf _ hs
  obtain ⟨src2, ns, ms, a2, t2, t3, g2⟩ := ha src1 (nodeName n) [] [] a1 (tree_fname t1)
  refine ⟨(psGap src2).drop 1, if ev then
            .eval (Node.apply n ns ms (src.loc.map (fun l => { l with pos := l.pos + 1 })))
              (some { txt := lit "<string>", loc := src.loc.map (fun l => { l with pos := l.pos + 2 }) }) none
            else Node.apply n ns ms (src.loc.map (fun l => { l with pos := l.pos + 1 })),
    by rw [Src.drop_txt, a2]; rfl, ?_, ?_⟩
  · cases ev with
    | true => exact .eval t1 t2 t3
    | false => exact .app t1 t2 t3
  · refine Gives.of_eq ?_ h
    refine Gives.bind g1.form ?_
    refine Gives.bind g2.args ?_
    refine Gives.of_eq (Gives.pure _) (fun p => ?_)
    simp only [at_true a2, if_true, List.nil_append]

theorem app_text {f : Expr} {xs : ExprArgs} {ys : ExprNamed} {g s s' r : Str} (hg : IsGap g) (hk : g ≠ [] ∨ NoKeyword s)
    (h1 : Means e (.form f) s s') (h2 : Means e (.args f.fname xs ys) s' r) (b1 : Begins s) {src : Src}
    (hs : src.txt = '(' :: '$' :: (g ++ s)) :
    ∃ src' n, src'.txt = r ∧ Tree (.app f xs ys) n ∧ Gives e (fun p => psApplication p src) (src', some n) := by
  have kq : src.starts kQuote = false := starts_dollar hs (no_pre hg (by decide) (hk.imp id (·.1)))
  have kc : src.starts kCode = false := starts_dollar hs (no_pre hg (by decide) (hk.imp id (·.2.1)))
  have ke : src.starts kEmit = false := starts_dollar hs (no_pre hg (by decide) (hk.imp id (·.2.2.1)))
  have ki : src.starts kInfix = false := starts_dollar hs (no_pre hg (by decide) (hk.imp id (·.2.2.2.2)))
  have a0 : (src.drop 2).txt = g ++ s := by rw [Src.drop_txt, hs]; rfl
  have kd : (src.drop 2).at '$' = false :=
    at_false (by rw [a0]; exact head_gap hg (by decide) (b1.ne _ (by decide)))
  exact app_gives (src := src) false
    (fun p => app_eq p false (starts_pre (t := g ++ s) hs) kq kc ke ki kd) (gap_of a0 hg b1.noGap) h1 h2

theorem means_app {f : Expr} {xs : ExprArgs} {ys : ExprNamed} {g s s' r : Str} (hg : IsGap g) (hk : g ≠ [] ∨ NoKeyword s)
    (h1 : Means e (.form f) s s') (h2 : Means e (.args f.fname xs ys) s' r) (b1 : Begins s) :
    Means e (.body (.app f xs ys)) ('(' :: '$' :: (g ++ s)) r := by
  intro src hs
  have kq : src.starts kQuote = false := starts_dollar hs (no_pre hg (by decide) (hk.imp id (·.1)))
  have kc : src.starts kCode = false := starts_dollar hs (no_pre hg (by decide) (hk.imp id (·.2.1)))
  have kl : src.starts kLet = false := starts_dollar hs (no_pre hg (by decide) (hk.imp id (·.2.2.2.1)))
  have ki : src.starts kInfix = false := starts_dollar hs (no_pre hg (by decide) (hk.imp id (·.2.2.2.2)))
  obtain ⟨src', n, a1, t1, g1⟩ := app_text hg hk h1 h2 b1 hs
  refine ⟨src', n, a1, t1, body_of hs (by simp) kq hs (fun _ hd => leg_app hd kl g1) ?_⟩
  refine Gives.of_eq (g1.orElse (next := fun p s => psList p s)) (fun p => ?_)
  rw [psLForm_paren hs kc ki]
  have hl : psLet p src = noMatch src := by
    unfold psLet
    rw [kl]
    rfl
  rw [hl, noMatch_orElse]

theorem eval_text {f : Expr} {xs : ExprArgs} {ys : ExprNamed} {g s s' r : Str} (hg : IsGap g)
    (h1 : Means e (.form f) s s') (h2 : Means e (.args f.fname xs ys) s' r) (b1 : Begins s) {src : Src}
    (hs : src.txt = '(' :: '$' :: '$' :: (g ++ s)) :
    ∃ src' n, src'.txt = r ∧ Tree (.eval f xs ys) n ∧ Gives e (fun p => psApplication p src) (src', some n) := by
  have hk : ∀ c k, c ≠ '$' → src.starts ('(' :: '$' :: c :: k) = false := fun c k hc =>
    starts_dollar hs (no_pre_head (by simp [Ne.symm hc]))
  have a0 : (src.drop 2).txt = '$' :: (g ++ s) := by rw [Src.drop_txt, hs]; rfl
  have a1 : ((src.drop 2).drop 1).txt = g ++ s := by rw [Src.drop_txt, a0]; rfl
  exact app_gives (src := src) true
    (fun p => app_eq p true (starts_pre (t := '$' :: (g ++ s)) hs) (hk _ _ (by decide)) (hk _ _ (by decide))
      (hk _ _ (by decide)) (hk _ _ (by decide)) (at_true a0)) (gap_of a1 hg b1.noGap) h1 h2

theorem means_eval {f : Expr} {xs : ExprArgs} {ys : ExprNamed} {g s s' r : Str} (hg : IsGap g)
    (h1 : Means e (.form f) s s') (h2 : Means e (.args f.fname xs ys) s' r) (b1 : Begins s) :
    Means e (.body (.eval f xs ys)) ('(' :: '$' :: '$' :: (g ++ s)) r := by
  intro src hs
  have hk : ∀ c k, c ≠ '$' → src.starts ('(' :: '$' :: c :: k) = false := fun c k hc =>
    starts_dollar hs (no_pre_head (by simp [Ne.symm hc]))
  obtain ⟨src', n, a1, t1, g1⟩ := eval_text hg h1 h2 b1 hs
  refine ⟨src', n, a1, t1, body_of hs (by simp) (hk _ _ (by decide)) hs
    (fun _ hd => leg_app hd (hk _ _ (by decide)) g1) ?_⟩
  refine Gives.of_eq (g1.orElse (next := fun p s => psList p s)) (fun p => ?_)
  rw [psLForm_paren hs (hk _ _ (by decide)) (hk _ _ (by decide))]
  have hl : psLet p src = noMatch src := by
    unfold psLet
    rw [show src.starts kLet = false from hk _ _ (by decide)]
    rfl
  rw [hl, noMatch_orElse]

/-! ## `$let` and `$emit` -/

theorem Gives.closing {tag s r : Str} {src : Src} (hs : src.txt = s) (h : Closing tag s r) :
    ∃ src', src'.txt = r ∧ Gives e (fun _ => closing ('\\' :: tag) src) src' := by
  cases h with
  | plain =>
    refine ⟨src.drop 1, by rw [Src.drop_txt, hs]; rfl, Gives.of_eq (Gives.pure _) (fun p => ?_)⟩
    unfold Yupp.closing
    rw [starts_head (by rw [hs]; simp)]
    simp only [Bool.false_eq_true, if_false, at_true hs, if_true]
  | @tag g r hg =>
    have h1 : (src.drop ('\\' :: tag).length).txt = g ++ ')' :: r := Src.drop_pre _ _ _ hs
    have h2 := gap_of h1 hg (noGap_close r)
    refine ⟨(psGap (src.drop ('\\' :: tag).length)).drop 1, by rw [Src.drop_txt, h2]; rfl,
      Gives.of_eq (Gives.pure _) (fun p => ?_)⟩
    unfold Yupp.closing
    rw [starts_pre (k := '\\' :: tag) hs]
    simp only [if_true, at_true h2]

theorem Closing.noGap {tag s r : Str} (h : Closing tag s r) : NoGap s := by
  cases h with
  | plain => exact noGap_close _
  | tag _ => exact noGap_backslash _

theorem atoms1_names {as : List Str} {t : Str} (h : Names as t) : ∀ (n : Nat) (s : Src) (u : Str) (pars : List Src),
    as ≠ [] → as.length ≤ n → s.txt = t ++ ')' :: u →
    ∃ new s', s'.txt = u ∧ new.map Src.txt = as ∧ atoms1 n s pars = pure (s', pars ++ new) := by
  induction h with
  | nil => intro n s u pars h; exact absurd rfl h
  | @cons a g t as ha hg ht hglue ih =>
    intro n s u pars _ hn hs
    cases n with
    | zero => simp at hn
    | succ n =>
      have hs' : s.txt = a ++ (g ++ (t ++ ')' :: u)) := by rw [hs]; simp
      have hnn : NoName (g ++ (t ++ ')' :: u)) := by
        refine noName_gap hg ?_
        rcases hglue with h | h
        · subst h; exact .inr (noName_cons (by decide) u)
        · exact .inl h
      have h2 : (s.drop a.length).txt = g ++ (t ++ ')' :: u) := Src.drop_pre s _ _ hs'
      have h3 : (psGap (s.drop a.length)).txt = t ++ ')' :: u := gap_of h2 hg (ht.noGap (noGap_close u))
      cases as with
      | nil =>
        cases ht
        refine ⟨[s.take a.length], (psGap (s.drop a.length)).drop 1, by rw [Src.drop_txt, h3]; rfl, ?_, ?_⟩
        · simp only [List.map_cons, List.map_nil, Src.take_pre s _ _ hs']
        · rw [atoms1, psAtom_append hs' ha hnn]
          simp only [at_true h3, if_true]
      | cons b as =>
        obtain ⟨new, s', k1, k2, k3⟩ := ih n (psGap (s.drop a.length)) u (pars ++ [s.take a.length]) (by simp)
          (by simp only [List.length_cons] at hn ⊢; omega) h3
        refine ⟨s.take a.length :: new, s', k1, ?_, ?_⟩
        · simp only [List.map_cons, k2, Src.take_pre s _ _ hs']
        · rw [atoms1, psAtom_append hs' ha hnn]
          dsimp only
          have hx : (psGap (s.drop a.length)).at ')' = false := by
            refine at_false ?_
            rw [h3]
            cases ht with
            | cons hb _ _ _ =>
              obtain ⟨c, w, rfl, hc, -⟩ := hb
              simp only [List.cons_append, List.head?_cons]
              intro h
              cases Option.some.inj h
              exact absurd (show NameChar ')' from .inl hc) (by decide)
          rw [hx, k3]
          simp only [Bool.false_eq_true, if_false, List.append_assoc, List.cons_append, List.nil_append]

theorem Gives.binding {t : Target} {x : Expr} {u g s s' : Str} (ht : WrittenTarget t u) (hg : IsGap g)
    (hx : Means e (.form x) s s') (b : Begins s) (hn : NoName (g ++ s) ∨ (∃ as, t = .many as)) {src : Src}
    (hs : src.txt = u ++ (g ++ s)) :
    ∃ src' v n, src'.txt = s' ∧ TargetTree t v ∧ Tree x n ∧ Gives e (fun p => psBinding p src) (src', v, n) := by
  cases ht with
  | one ha =>
    have hn : NoName (g ++ s) := by
      rcases hn with h | ⟨as, h⟩
      · exact h
      · cases h
    have hp : src.at '(' = false := by
      refine at_false ?_
      obtain ⟨c, w, rfl, hc, -⟩ := ha
      rw [hs]
      simp only [List.cons_append, List.head?_cons]
      intro h
      cases Option.some.inj h
      exact absurd (show NameChar '(' from .inl hc) (by decide)
    obtain ⟨src', n, a1, t1, g1⟩ := hx (psGap (src.drop u.length)) (gap_of (Src.drop_pre _ _ _ hs) hg b.noGap)
    refine ⟨src', .one (src.take u.length), n, a1, ?_, t1, ?_⟩
    · have k := TargetTree.one (a := src.take u.length)
      rw [Src.take_pre _ _ _ hs] at k
      exact k
    · unfold psBinding
      simp only [hp, Bool.false_eq_true, if_false, psAtom_append hs ha hn]
      refine Gives.bind (a := (src.drop u.length, LVal.one (src.take u.length))) (Gives.pure _) ?_
      refine Gives.bind g1.form ?_
      exact Gives.pure _
  | @many as g0 t hg0 hns hne =>
    have hs' : src.txt = '(' :: (g0 ++ (t ++ ')' :: (g ++ s))) := by rw [hs]; simp
    have h1 : (src.drop 1).txt = g0 ++ (t ++ ')' :: (g ++ s)) := by rw [Src.drop_txt, hs']; rfl
    have h2 : (psGap (src.drop 1)).txt = t ++ ')' :: (g ++ s) := gap_of h1 hg0 (hns.noGap (noGap_close _))
    obtain ⟨new, src1, k1, k2, k3⟩ := atoms1_names hns ((psGap (src.drop 1)).txt.length + 1) (psGap (src.drop 1)) _ []
      hne (by rw [h2]; have := names_length hns; simp only [List.length_append]; omega) h2
    subst k2
    obtain ⟨src', n, a1, t1, g1⟩ := hx (psGap src1) (gap_of k1 hg b.noGap)
    refine ⟨src', .many new, n, a1, .many, t1, ?_⟩
    unfold psBinding
    simp only [at_true hs', if_true, k3]
    refine Gives.bind (a := (src1, LVal.many new)) (Gives.pure _) ?_
    refine Gives.bind g1.form ?_
    exact Gives.pure _

theorem WrittenTarget.noGap {t : Target} {u : Str} (h : WrittenTarget t u) (r : Str) : NoGap (u ++ r) := by
  cases h with
  | one ha => exact ha.noGap
  | many _ _ _ => exact noGap_paren _

theorem let_gives {t : Target} {x y : Expr} {g1 g2 u s s' s'' r : Str} (hg1 : IsGap g1) (ht : WrittenTarget t u)
    (hg2 : IsGap g2) (h1 : Means e (.form x) s s') (h2 : Means e (.form y) s' s'') (hc : Closing ['l', 'e', 't'] s'' r)
    (hn : NoName (g2 ++ s) ∨ (∃ as, t = .many as)) (b1 : Begins s) (b2 : Begins s') {src : Src}
    (hs : src.txt = '(' :: '$' :: 'l' :: 'e' :: 't' :: (g1 ++ (u ++ (g2 ++ s)))) :
    ∃ src' n, src'.txt = r ∧ Tree (.letIn t x y) n ∧ Gives e (fun p => psLet p src) (src', some n) := by
  have hlet : src.starts kLet = true := starts_pre (t := g1 ++ (u ++ (g2 ++ s))) hs
  have a0 : (src.drop kLet.length).txt = g1 ++ (u ++ (g2 ++ s)) := by rw [Src.drop_txt, hs]; rfl
  obtain ⟨src1, v, n1, c1, tv, t1, e1⟩ := Gives.binding ht hg2 h1 b1 hn (gap_of a0 hg1 (ht.noGap _))
  obtain ⟨src2, n2, c2, t2, e2⟩ := h2 (psGap src1) (by rw [gap_same (by rw [c1]; exact b2.noGap), c1])
  obtain ⟨src3, c3, e3⟩ := Gives.closing (e := e) (src := psGap src2)
    (by rw [gap_same (by rw [c2]; exact hc.noGap), c2]) hc
  refine ⟨src3, .letn v n1 n2, c3, .letIn tv t1 t2, ?_⟩
  unfold psLet
  simp only [hlet, if_true]
  refine Gives.bind e1 ?_
  refine Gives.bind e2.form ?_
  refine Gives.bind e3 ?_
  exact Gives.pure _

theorem means_letIn {t : Target} {x y : Expr} {g1 g2 u s s' s'' r : Str} (hg1 : IsGap g1) (ht : WrittenTarget t u)
    (hg2 : IsGap g2) (h1 : Means e (.form x) s s') (h2 : Means e (.form y) s' s'') (hc : Closing ['l', 'e', 't'] s'' r)
    (hn : NoName (g2 ++ s) ∨ (∃ as, t = .many as)) (b1 : Begins s) (b2 : Begins s') :
    Means e (.body (.letIn t x y)) ('(' :: '$' :: 'l' :: 'e' :: 't' :: (g1 ++ (u ++ (g2 ++ s)))) r := by
  intro src hs
  have hk : ∀ c k, c ≠ 'l' → src.starts ('(' :: '$' :: c :: k) = false := fun c k hc =>
    starts_dollar hs (no_pre_head (by simp [Ne.symm hc]))
  obtain ⟨src3, n, c3, t1, g⟩ := let_gives hg1 ht hg2 h1 h2 hc hn b1 b2 hs
  refine ⟨src3, n, c3, t1, body_of hs (by simp) (hk _ _ (by decide)) hs (fun _ hd => leg_let hd g) ?_⟩
  exact Gives.of_eq (g.orElse (next := fun p s => orElse (psApplication p s) fun s => psList p s))
    (psLForm_paren hs (hk _ _ (by decide)) (hk _ _ (by decide)))

theorem ends_close {g : Str} (hg : IsGap g) (r : Str) : Ended (g ++ ')' :: r) := by
  have hh : ∀ c, (g ++ ')' :: r).head? = some c → GapChar c ∨ c = ')' := by
    intro c hc
    cases g with
    | nil => exact .inr (by simpa using hc.symm)
    | cons d g =>
      simp only [List.cons_append, List.head?_cons, Option.some.injEq] at hc
      exact .inl (hc ▸ hg _ List.mem_cons_self)
  refine ⟨⟨noName_gap_close hg r, fun c d t h hd => ?_⟩, fun c hc => ?_⟩
  · exfalso
    rcases hh c (by rw [h]; rfl) with h | h
    · rw [hd] at h; exact absurd h (by decide)
    · rw [hd] at h; exact absurd h (by decide)
  · rcases hh c hc with (rfl | rfl | rfl | rfl) | rfl <;> decide

theorem emit_app {src : Src} {t : Str} (hs : src.txt = '(' :: '$' :: 'e' :: 'm' :: 'i' :: 't' :: t) (p : Parsers) :
    psApplication p src = psEmit p src := by
  have hk : ∀ c k, c ≠ 'e' → src.starts ('(' :: '$' :: c :: k) = false := fun c k hc =>
    starts_dollar hs (no_pre_head (by simp [Ne.symm hc]))
  unfold psApplication
  rw [show src.starts kApply = true from starts_pre (k := ['(', '$']) hs,
    show src.starts kQuote = false from hk _ _ (by decide), show src.starts kCode = false from hk _ _ (by decide),
    show src.starts kEmit = true from starts_pre (k := ['(', '$', 'e', 'm', 'i', 't']) hs]
  rfl

theorem emit_lform {src : Src} {t : Str} (hs : src.txt = '(' :: '$' :: 'e' :: 'm' :: 'i' :: 't' :: t) {src' : Src}
    {n : Node} (h : Gives e (fun p => psApplication p src) (src', some n)) :
    Gives e (fun p => psFormer e p src) (src', some n) ∧ Gives e (fun p => psLForm p src) (src', some n) ∧
    (['(', '$'] <+: '(' :: '$' :: 'e' :: 'm' :: 'i' :: 't' :: t →
      NoDirective ('(' :: '$' :: 'e' :: 'm' :: 'i' :: 't' :: t) →
      Gives e (fun p => psTextLeg e p src) (src', some [n])) := by
  have hk : ∀ c k, c ≠ 'e' → src.starts ('(' :: '$' :: c :: k) = false := fun c k hc =>
    starts_dollar hs (no_pre_head (by simp [Ne.symm hc]))
  refine body_of hs (by simp) (hk _ _ (by decide)) hs (fun _ hd => leg_app hd (hk _ _ (by decide)) h) ?_
  refine Gives.of_eq (h.orElse (next := fun p s => psList p s)) (fun p => ?_)
  rw [psLForm_paren hs (hk _ _ (by decide)) (hk _ _ (by decide))]
  have hl : psLet p src = noMatch src := by
    unfold psLet
    rw [show src.starts kLet = false from hk _ _ (by decide)]
    rfl
  rw [hl, noMatch_orElse]

theorem emit_gives {late : Bool} {rs : List Str} {a t g1 g2 r : Str} (hg1 : IsGap g1) (ht : WrittenName late rs a t)
    (hg2 : IsGap g2) {src : Src}
    (hs : src.txt = '(' :: '$' :: 'e' :: 'm' :: 'i' :: 't' :: (g1 ++ (t ++ (g2 ++ ')' :: r)))) :
    ∃ src' n, src'.txt = r ∧ Tree (.emit late rs a) n ∧ Gives e (fun p => psApplication p src) (src', some n) := by
  have a0 : (src.drop kEmit.length).txt = g1 ++ (t ++ (g2 ++ ')' :: r)) := by rw [Src.drop_txt, hs]; rfl
  obtain ⟨src1, rs', a', c1, c2, c3, c4⟩ := psVar_written ht (ends_close hg2 r)
    (gap_of a0 hg1 ht.begins.noGap)
  have c5 := gap_of c1 hg2 (noGap_close r)
  obtain ⟨src2, c6, e3⟩ := Gives.closing (e := e) c5 (.plain (tag := ['e', 'm', 'i', 't']))
  subst c2 c3
  refine ⟨src2, .emit late rs' a' .none, c6, .emit, Gives.of_eq ?_ (emit_app hs)⟩
  unfold psEmit
  simp only [show src.starts kEmit = true from starts_pre (k := ['(', '$', 'e', 'm', 'i', 't']) hs, if_true]
  refine Gives.bind (Gives.const c4) ?_
  refine Gives.bind (form_close c5).form ?_
  refine Gives.bind e3 ?_
  exact Gives.pure _

theorem emitWith_gives {late : Bool} {rs : List Str} {a t g1 g2 s s' r : Str} {f : Expr} (hg1 : IsGap g1)
    (ht : WrittenName late rs a t) (hg2 : IsGap g2) (he : Ended (g2 ++ s)) (h : Means e (.form f) s s')
    (hc : Closing ['e', 'm', 'i', 't'] s' r) (b : Begins s) {src : Src}
    (hs : src.txt = '(' :: '$' :: 'e' :: 'm' :: 'i' :: 't' :: (g1 ++ (t ++ (g2 ++ s)))) :
    ∃ src' n, src'.txt = r ∧ Tree (.emitWith late rs a f) n ∧
      Gives e (fun p => psApplication p src) (src', some n) := by
  have a0 : (src.drop kEmit.length).txt = g1 ++ (t ++ (g2 ++ s)) := by rw [Src.drop_txt, hs]; rfl
  obtain ⟨src1, rs', a', c1, c2, c3, c4⟩ := psVar_written ht he (gap_of a0 hg1 ht.begins.noGap)
  obtain ⟨src2, n, c5, t1, e1⟩ := h (psGap src1) (gap_of c1 hg2 b.noGap)
  obtain ⟨src3, c6, e3⟩ := Gives.closing (e := e) (src := psGap src2)
    (by rw [gap_same (by rw [c5]; exact hc.noGap), c5]) hc
  subst c2 c3
  refine ⟨src3, .emit late rs' a' n, c6, .emitWith t1, Gives.of_eq ?_ (emit_app hs)⟩
  unfold psEmit
  simp only [show src.starts kEmit = true from starts_pre (k := ['(', '$', 'e', 'm', 'i', 't']) hs, if_true]
  refine Gives.bind (Gives.const c4) ?_
  refine Gives.bind e1.form ?_
  refine Gives.bind e3 ?_
  exact Gives.pure _

theorem means_emit {late : Bool} {rs : List Str} {a t g1 g2 r : Str} (hg1 : IsGap g1) (ht : WrittenName late rs a t)
    (hg2 : IsGap g2) : Means e (.body (.emit late rs a))
      ('(' :: '$' :: 'e' :: 'm' :: 'i' :: 't' :: (g1 ++ (t ++ (g2 ++ ')' :: r)))) r := by
  intro src hs
  obtain ⟨src', n, h1, h2, h3⟩ := emit_gives (e := e) hg1 ht hg2 hs
  exact ⟨src', n, h1, h2, emit_lform hs h3⟩

theorem means_emitWith {late : Bool} {rs : List Str} {a t g1 g2 s s' r : Str} {f : Expr} (hg1 : IsGap g1)
    (ht : WrittenName late rs a t) (hg2 : IsGap g2) (he : Ended (g2 ++ s)) (h : Means e (.form f) s s')
    (hc : Closing ['e', 'm', 'i', 't'] s' r) (b : Begins s) : Means e (.body (.emitWith late rs a f))
      ('(' :: '$' :: 'e' :: 'm' :: 'i' :: 't' :: (g1 ++ (t ++ (g2 ++ s)))) r := by
  intro src hs
  obtain ⟨src', n, h1, h2, h3⟩ := emitWith_gives hg1 ht hg2 he h hc b hs
  exact ⟨src', n, h1, h2, emit_lform hs h3⟩

/-! ## Functions -/

theorem psFormer_backslash {s : Src} {t : Str} (hs : s.txt = '\\' :: t) {s' : Src} {n : Node}
    (h : Gives e (fun p => psLambda p s) (s', some n)) : Gives e (fun p => psFormer e p s) (s', some n) := by
  have hh : s.txt.head? = some '\\' := by rw [hs]; rfl
  have hne : ∀ c, c ≠ '\\' → s.txt.head? ≠ some c := by
    intro c hc h; rw [hh] at h; exact hc (Option.some.inj h).symm
  refine Gives.of_eq (h.orElse (next := fun p s => psLForm p s)) (fun p => ?_)
  have hq : psQuote e s = noMatch s := psQuote_none (cStrLen_none (hne _ (by decide)) (hne _ (by decide)))
    (by rw [hs]; rfl) (starts_head (hne _ (by decide))) (starts_head (hne _ (by decide)))
  have hn : psNumber e s = noMatch s := psNumber_none (fun c hc => by
    rw [hh] at hc; cases Option.some.inj hc; decide)
  have hv : psVar s = noMatch s := psVar_none (hne _ (by decide)) (fun c hc => by
    rw [hh] at hc; cases Option.some.inj hc; unfold NameStart; decide)
  unfold psFormer psValue
  rw [hq, noMatch_orElse, hn, noMatch_orElse, hv]
  rfl

theorem means_paramsEnd {r : Str} (hr : r.head? ≠ some '\\') : Means e (.params [] .nil) r r := by
  intro src bs ls hs hl
  refine ⟨src, [], hs, .nil, Gives.of_eq (Gives.pure _) (fun p => ?_)⟩
  unfold psBounds
  rw [at_false (by rw [hs]; exact hr), List.append_nil]
  rfl

/-- After the backslash of a parameter with a name. -/
theorem bounds_named {s : Src} {a t : Str} (hs : s.txt = '\\' :: (a ++ t)) (ha : IsName a) :
    s.at '\\' = true ∧ (s.drop 1).starts ['.', '.', '.'] = false ∧ (s.drop 1).txt = a ++ t := by
  have h1 : (s.drop 1).txt = a ++ t := by rw [Src.drop_txt, hs]; rfl
  refine ⟨at_true hs, ?_, h1⟩
  refine starts_head ?_
  obtain ⟨c, w, rfl, hc, -⟩ := ha
  rw [h1]
  simp only [List.cons_append, List.head?_cons]
  intro h
  exact (nameStart_facts hc).2.2.2.1 (Option.some.inj h)

theorem means_late {a g s r : Str} {l : List Str} {ps : ExprParams} (ha : IsName a) (hg : IsGap g)
    (h : Means e (.params (l ++ [a]) ps) s r) (b : NoGap s) :
    Means e (.params l ps) ('\\' :: (a ++ '.' :: '.' :: (g ++ s))) r := by
  intro src bs ls hs hl
  obtain ⟨h1, h2, h3⟩ := bounds_named hs ha
  have h4 : ((src.drop 1).drop a.length).txt = '.' :: '.' :: (g ++ s) := Src.drop_pre _ _ _ h3
  have h5 : (((src.drop 1).drop a.length).drop 2).txt = g ++ s := by rw [Src.drop_txt, h4]; rfl
  obtain ⟨src', bs', k1, k2, k3⟩ := h (psGap (((src.drop 1).drop a.length).drop 2)) bs (ls ++ [(src.drop 1).take a.length])
    (gap_of h5 hg b) (by rw [List.map_append, hl, List.map_cons, List.map_nil, Src.take_pre _ _ _ h3])
  refine ⟨src', bs', k1, k2, ?_⟩
  unfold psBounds
  simp only [h1, if_true, h2, Bool.false_eq_true, if_false, psAtom_append h3 ha (noName_cons (by decide) _)]
  simp only [at_false (show ((src.drop 1).drop a.length).txt.head? ≠ some ':' by rw [h4]; simp), Bool.false_eq_true,
    if_false]
  refine Gives.bind (a := ((src.drop 1).drop a.length, none)) (Gives.pure _) ?_
  dsimp only
  simp only [starts_pre (k := ['.', '.']) h4, if_true]
  exact k3.bounds

theorem starts_dots {s : Src} {g u : Str} (hs : s.txt = '.' :: (g ++ u)) (hg : IsGap g) (hu : u.head? ≠ some '.') :
    s.starts ['.', '.'] = false := starts_second hs (head_gap hg (by decide) hu)

theorem means_par {a g s r : Str} {l : List Str} {ps : ExprParams} (ha : IsName a) (hg : IsGap g) (b : NoGap s)
    (hd : s.head? ≠ some '.') (h : Means e (.params [] ps) s r) :
    Means e (.params l (.par l a ps)) ('\\' :: (a ++ '.' :: (g ++ s))) r := by
  intro src bs ls hs hl
  obtain ⟨h1, h2, h3⟩ := bounds_named hs ha
  have h4 : ((src.drop 1).drop a.length).txt = '.' :: (g ++ s) := Src.drop_pre _ _ _ h3
  have h5 : (((src.drop 1).drop a.length).drop 1).txt = g ++ s := by rw [Src.drop_txt, h4]; rfl
  obtain ⟨src', bs', k1, k2, k3⟩ := h (psGap (((src.drop 1).drop a.length).drop 1))
    (bs ++ [(ls, (src.drop 1).take a.length, none)]) [] (gap_of h5 hg b) rfl
  subst hl
  refine ⟨src', (ls, (src.drop 1).take a.length, none) :: bs', k1, ?_, ?_⟩
  · have := ParamTrees.par (l := ls) (a := (src.drop 1).take a.length) (by
      rw [Src.take_pre _ _ _ h3]
      rintro rfl
      obtain ⟨c, w, hcw, hc, -⟩ := ha
      cases hcw
      exact absurd (show NameChar '.' from .inl hc) (by decide)) k2
    rw [Src.take_pre _ _ _ h3] at this
    exact this
  · unfold psBounds
    simp only [h1, if_true, h2, Bool.false_eq_true, if_false, psAtom_append h3 ha (noName_cons (by decide) _)]
    simp only [at_false (show ((src.drop 1).drop a.length).txt.head? ≠ some ':' by rw [h4]; simp), Bool.false_eq_true,
      if_false]
    refine Gives.bind (a := ((src.drop 1).drop a.length, none)) (Gives.pure _) ?_
    dsimp only
    simp only [starts_dots h4 hg hd, Bool.false_eq_true, if_false, at_true h4, if_true]
    have := k3.bounds
    rw [List.append_assoc] at this
    exact this

theorem means_dflt {a g t s r : Str} {x : Expr} {l : List Str} {ps : ExprParams} (ha : IsName a) (hg : IsGap g)
    (b : NoGap s) (hd : s.head? ≠ some '.') (hx : Means e (.form x) t ('.' :: (g ++ s)))
    (h : Means e (.params [] ps) s r) :
    Means e (.params l (.dflt l a x ps)) ('\\' :: (a ++ ':' :: t)) r := by
  intro src bs ls hs hl
  obtain ⟨h1, h2, h3⟩ := bounds_named hs ha
  have h4 : ((src.drop 1).drop a.length).txt = ':' :: t := Src.drop_pre _ _ _ h3
  obtain ⟨src1, n, k4, t1, k5⟩ := hx (((src.drop 1).drop a.length).drop 1) (by rw [Src.drop_txt, h4]; rfl)
  have h5 : (src1.drop 1).txt = g ++ s := by rw [Src.drop_txt, k4]; rfl
  obtain ⟨src', bs', k1, k2, k3⟩ := h (psGap (src1.drop 1))
    (bs ++ [(ls, (src.drop 1).take a.length, some n)]) [] (gap_of h5 hg b) rfl
  subst hl
  refine ⟨src', (ls, (src.drop 1).take a.length, some n) :: bs', k1, ?_, ?_⟩
  · have := ParamTrees.dflt (l := ls) (a := (src.drop 1).take a.length) t1 k2
    rw [Src.take_pre _ _ _ h3] at this
    exact this
  · unfold psBounds
    simp only [h1, if_true, h2, Bool.false_eq_true, if_false, psAtom_append h3 ha (noName_colon _), at_true h4]
    refine Gives.bind (a := (src1, some n)) (Gives.bind k5.form (Gives.pure _)) ?_
    dsimp only
    simp only [starts_dots k4 hg hd, Bool.false_eq_true, if_false, at_true k4, if_true]
    have := k3.bounds
    rw [List.append_assoc] at this
    exact this

theorem means_dots {g s r : Str} {ps : ExprParams} (hg : IsGap g) (b : NoGap s) (h : Means e (.params [] ps) s r) :
    Means e (.params [] (.dots ps)) ('\\' :: '.' :: '.' :: '.' :: (g ++ s)) r := by
  intro src bs ls hs hl
  have h1 : (src.drop 1).txt = ['.', '.', '.'] ++ (g ++ s) := by rw [Src.drop_txt, hs]; rfl
  have h4 : (src.drop 4).txt = g ++ s := by rw [Src.drop_txt, hs]; rfl
  obtain ⟨src', bs', k1, k2, k3⟩ := h (psGap (src.drop 4)) (bs ++ [([], { txt := ['.', '.', '.'] }, none)]) []
    (gap_of h4 hg b) rfl
  refine ⟨src', ([], { txt := ['.', '.', '.'] }, none) :: bs', k1, .dots k2, ?_⟩
  have hl' : ls = [] := by simpa using hl
  subst hl'
  unfold psBounds
  simp only [at_true hs, if_true, starts_pre h1, List.isEmpty_nil]
  have := k3.bounds
  rw [List.append_assoc] at this
  exact this

theorem means_fn {ps : ExprParams} {x : Expr} {s s' r : Str} (h1 : Means e (.params [] ps) s s')
    (h2 : Means e (.body x) s' r) (hs : s.head? = some '\\') (hp : (s.drop 1).head? ≠ some '(') :
    Means e (.former (.fn ps x)) s r := by
  intro src hsrc
  obtain ⟨src1, bs, c1, t1, g1⟩ := h1 src [] [] hsrc rfl
  obtain ⟨src2, n, c2, t2, -, g2, -⟩ := h2 src1 c1
  refine ⟨src2, .lambda bs n, c2, .fn t1 t2, ?_⟩
  obtain ⟨t, ht⟩ : ∃ t, s = '\\' :: t := by
    cases s with
    | nil => cases hs
    | cons c t => simp only [List.head?_cons, Option.some.injEq] at hs; exact ⟨t, by rw [hs]⟩
  subst ht
  refine psFormer_backslash hsrc ?_
  unfold psLambda
  simp only [at_true hsrc, if_true, at_false (show (src.drop 1).txt.head? ≠ some '(' by rw [Src.drop_txt, hsrc]; exact hp),
    Bool.false_eq_true, if_false]
  refine Gives.bind g1 ?_
  refine Gives.bind g2 ?_
  exact Gives.pure _

theorem means_fnOf {late : Bool} {rs : List Str} {a t g1 g2 g3 s r : Str} {x : Expr} (ht : WrittenName late rs a t)
    (hg1 : IsGap g1) (hg2 : IsGap g2) (hg3 : IsGap g3) (h : Means e (.body x) s r) (b : NoGap s) :
    Means e (.former (.fnOf late rs a x)) ('\\' :: '(' :: (g1 ++ (t ++ (g2 ++ ')' :: '.' :: (g3 ++ s))))) r := by
  intro src hs
  have a0 : (src.drop 2).txt = g1 ++ (t ++ (g2 ++ ')' :: '.' :: (g3 ++ s))) := by rw [Src.drop_txt, hs]; rfl
  obtain ⟨src1, rs', a', c1, c2, c3, c4⟩ := psVar_written ht (ends_close hg2 _) (gap_of a0 hg1 ht.begins.noGap)
  have c5 := gap_of c1 hg2 (noGap_close _)
  have c6 : ((psGap src1).drop 2).txt = g3 ++ s := by rw [Src.drop_txt, c5]; rfl
  obtain ⟨src2, n, c7, t2, -, e2, -⟩ := h (psGap ((psGap src1).drop 2)) (gap_of c6 hg3 b)
  subst c2 c3
  refine ⟨src2, .lambdaVar late rs' a' n, c7, .fnOf t2, psFormer_backslash hs ?_⟩
  unfold psLambda
  simp only [at_true hs, if_true, at_true (show (src.drop 1).txt = '(' :: (g1 ++ (t ++ (g2 ++ ')' :: '.' :: (g3 ++ s))))
    by rw [Src.drop_txt, hs]; rfl)]
  refine Gives.bind (Gives.const c4) ?_
  dsimp only
  simp only [starts_pre (k := [')', '.']) c5, if_true]
  refine Gives.bind e2 ?_
  exact Gives.pure _

/-! ## The grammar -/

/-- Parameters: where they begin. -/
theorem params_start {mo : Mode} {k : Cat} {s r : Str} (h : Reads mo k s r) : match k with
    | .params l _ => (l = [] → s.head? = some '\\' → (s.drop 1).head? ≠ some '(') ∧ (l ≠ [] → s.head? = some '\\')
    | _ => True := by
  have hn : ∀ {a t : Str}, IsName a → (a ++ t).head? ≠ some '(' := by
    intro a t ha
    obtain ⟨c, w, rfl, hc, -⟩ := ha
    simp only [List.cons_append, List.head?_cons]
    intro h
    exact (nameStart_facts hc).2.2.2.2.2.2.2.1 (Option.some.inj h)
  cases h with
  | paramsEnd h => exact ⟨fun _ h' => absurd h' h, fun h => absurd rfl h⟩
  | late ha _ _ => exact ⟨fun _ _ => hn ha, fun _ => rfl⟩
  | par ha _ _ _ _ => exact ⟨fun _ _ => hn ha, fun _ => rfl⟩
  | dflt ha _ _ _ _ _ => exact ⟨fun _ _ => hn ha, fun _ => rfl⟩
  | dots _ _ _ => exact ⟨fun _ _ => by simp, fun _ => rfl⟩
  | _ => trivial

theorem head_noGap {s : Str} {c : Char} (h : s.head? = some c) (hc : ¬ GapChar c) : NoGap s := by
  intro d hd; rw [h] at hd; cases Option.some.inj hd; exact hc

end Yupp
