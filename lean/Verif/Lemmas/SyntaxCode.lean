import Verif.Lemmas.SyntaxText
import Verif.Lemmas.PyString
/-!
# Reading written texts: the rules of the grammar
-/

namespace Yupp

variable {e : PEnv}

/-! ## Indents -/

theorem blanks_nil : Blanks [] := fun _ h => by cases h

theorem blanks_snoc {w : Str} {c : Char} (hw : Blanks w) (hc : c = ' ' ∨ c = '\t') : Blanks (w ++ [c]) := by
  intro x hx
  rcases List.mem_append.mp hx with hx | hx
  · exact hw x hx
  · cases List.mem_singleton.mp hx; exact hc

theorem Indented.base (b : Bool) : Indented b [] (if b then .str [] else .none) := by
  cases b with
  | true => exact .first rfl blanks_nil
  | false => exact .inside rfl blanks_nil

theorem Indented.step {b : Bool} {w : Str} {i : Indent} (h : Indented b w i) (c : Char) :
    Indented b (w ++ [c]) (indentStep i c) := by
  unfold indentStep
  by_cases he : isEol c = true
  · rw [if_pos he]
    exact .line (b := []) ((isEol_iff c).mp he) blanks_nil
  · rw [if_neg he]
    have he' : ¬ LineEnd c := fun hc => he ((isEol_iff c).mpr hc)
    by_cases hb : isBlank c = true
    · rw [if_pos hb]
      have hc := (isBlank_iff c).mp hb
      cases h with
      | first hf hw => exact .first hf (blanks_snoc hw hc)
      | inside hf hw => exact .inside hf (blanks_snoc hw hc)
      | @line a u d hd hu =>
        rw [List.append_assoc, List.cons_append]
        exact .line hd (blanks_snoc hu hc)
      | @text a u d hd hu =>
        rw [List.append_assoc, List.cons_append]
        refine .text hd (fun x hx => ?_)
        rcases List.mem_append.mp hx with hx | hx
        · exact hu x hx
        · cases List.mem_singleton.mp hx; exact he'
    · rw [if_neg hb]
      refine .text (b := []) ?_ (fun _ h => by cases h)
      intro hg
      have hb' : ¬ (c = ' ' ∨ c = '\t') := fun h => hb ((isBlank_iff c).mpr h)
      unfold GapChar at hg
      unfold LineEnd at he'
      grind

/-! ## Plain text -/

theorem PlainAt.leg {k : TextEnd} {sq pth : Nat} {c : Char} {s : Str} (h : PlainAt (modeOf e) k sq pth c s) {src : Src}
    (hs : src.txt = c :: s) (p : Parsers) : psTextLeg e p src = noMatch src := by
  refine leg_none p ?_ ?_ ?_ ?_ <;> rw [hs]
  · exact h.form
  · exact h.quote
  · exact h.literal
  · exact h.remark

theorem PlainAt.stop {mo : Mode} {k : TextEnd} {sq pth : Nat} {c : Char} {s : Str} (h : PlainAt mo k sq pth c s) {src : Src}
    (hs : src.txt = c :: s) : stopAt (stopOf k) src sq pth = none := by
  cases hx : stopAt (stopOf k) src sq pth with
  | none => rfl
  | some src' => exact absurd (hs ▸ ends_stopAt hx) (h.goesOn _)

theorem plainStep_new {t : TextSt} {c : Char} {s : Str} (hs : t.sou.txt = c :: s) (hc : Admissible c) (hg : t.gen = none) :
    plainStep t = some { sou := t.sou.drop 1
                         ast := t.ast ++ [.plain (t.sou.take 1) (indentStep (if t.ast.isEmpty then .str [] else .none) c) false]
                         sq := depthStep '[' ']' t.sq c
                         pth := depthStep '(' ')' t.pth c
                         gen := some ⟨t.sou, 1, indentStep (if t.ast.isEmpty then .str [] else .none) c⟩ } := by
  unfold plainStep
  simp only [hg, hs, (isAny_iff c).mpr hc, Bool.not_true, Bool.false_eq_true, if_false]

theorem plainStep_gen {t : TextSt} {g : Gen} {c : Char} {s : Str} (hs : t.sou.txt = c :: s) (hc : Admissible c)
    (hg : t.gen = some g) :
    plainStep t = some { sou := t.sou.drop 1
                         ast := t.ast.dropLast ++ [.plain (g.start.take (g.i + 1)) (indentStep g.indent c) false]
                         sq := depthStep '[' ']' t.sq c
                         pth := depthStep '(' ')' t.pth c
                         gen := some ⟨g.start, g.i + 1, indentStep g.indent c⟩ } := by
  unfold plainStep
  simp only [hg, hs, (isAny_iff c).mpr hc, Bool.not_true, Bool.false_eq_true, if_false]

theorem opened_eq (op cl : Char) (d : Nat) (c : Char) : depthStep op cl d c = opened op cl d c := rfl

theorem isEmpty_snoc (l : List Node) (n : Node) : (l ++ [n]).isEmpty = false := by cases l <;> rfl

theorem means_textEnd {k : TextEnd} {sq pth : Nat} {s r : Str} (h : EndsAt k sq pth s r) :
    Means e (.text k sq pth .nil) s r := by
  intro t ht h1 h2 _
  subst h1 h2
  obtain ⟨src', hr, hst⟩ := stopAt_ends h ht
  refine ⟨src', [], hr, .nil, ?_⟩
  rw [List.append_nil]
  exact text_stop (fun p => leg_none_head p (by rw [ht]; exact h.head)) hst

theorem run_starts {mo : Mode} {k : Cat} {s r : Str} (h : Reads mo k s r) :
    ∀ tk sq pth w xs, k = .run tk sq pth w xs → xs.startsPlain = true := by
  induction h with
  | runChar _ _ ih => intro tk sq pth w xs h; cases h; exact ih _ _ _ _ _ rfl
  | runEnd _ _ _ => intro tk sq pth w xs h; cases h; rfl
  | _ => intro tk sq pth w xs h; cases h

theorem means_textChar {k : TextEnd} {sq pth : Nat} {c : Char} {xs : ExprText} {s r : Str}
    (hp : PlainAt (modeOf e) k sq pth c s)
    (h : Means e (.run k (opened '[' ']' sq c) (opened '(' ')' pth c) [c] xs) s r) (hx : xs.startsPlain = true) :
    Means e (.text k sq pth xs) (c :: s) r := by
  intro t ht h1 h2 hg
  subst h1 h2
  have hs1 : (t.sou.drop 1).txt = s := by rw [Src.drop_txt, ht]; rfl
  have htk : (t.sou.take 1).txt = [c] := by
    have := Src.take_pre t.sou [c] s ht
    exact this
  obtain ⟨src', ns, hr, hn, hgv⟩ := h { sou := t.sou.drop 1
                                        ast := t.ast ++ [.plain (t.sou.take 1) (indentStep (if t.ast.isEmpty then .str [] else .none) c) false]
                                        sq := depthStep '[' ']' t.sq c
                                        pth := depthStep '(' ')' t.pth c
                                        gen := some ⟨t.sou, 1, indentStep (if t.ast.isEmpty then .str [] else .none) c⟩ }
    ⟨t.sou, 1, indentStep (if t.ast.isEmpty then .str [] else .none) c⟩ t.ast hs1 rfl rfl rfl rfl htk rfl
    ((Indented.base t.ast.isEmpty).step c)
  exact ⟨src', ns, hr, hn, text_plain (fun p => hp.leg ht p) (hp.stop ht) (plainStep_new ht hp.admissible (hg hx)) hgv⟩

theorem means_runChar {k : TextEnd} {sq pth : Nat} {w : Str} {c : Char} {xs : ExprText} {s r : Str}
    (hp : PlainAt (modeOf e) k sq pth c s)
    (h : Means e (.run k (opened '[' ']' sq c) (opened '(' ')' pth c) (w ++ [c]) xs) s r) :
    Means e (.run k sq pth w xs) (c :: s) r := by
  intro t g pre ht h1 h2 hg hast hw hsou hi
  subst h1 h2
  have hs1 : (t.sou.drop 1).txt = s := by rw [Src.drop_txt, ht]; rfl
  have hdl : t.ast.dropLast = pre := by rw [hast, List.dropLast_concat]
  have hgd : g.start.txt.drop g.i = c :: s := by
    have : (g.start.drop g.i).txt = c :: s := by rw [← hsou]; exact ht
    rw [← this, Src.drop_txt]
  have htk : (g.start.take (g.i + 1)).txt = w ++ [c] := by
    have hw' : g.start.txt.take g.i = w := hw
    change g.start.txt.take (g.i + 1) = w ++ [c]
    rw [← hw', List.take_add, hgd]
    rfl
  obtain ⟨src', ns, hr, hn, hgv⟩ := h { sou := t.sou.drop 1
                                        ast := pre ++ [.plain (g.start.take (g.i + 1)) (indentStep g.indent c) false]
                                        sq := depthStep '[' ']' t.sq c
                                        pth := depthStep '(' ')' t.pth c
                                        gen := some ⟨g.start, g.i + 1, indentStep g.indent c⟩ }
    ⟨g.start, g.i + 1, indentStep g.indent c⟩ pre hs1 rfl rfl rfl rfl htk
    (by rw [hsou, Src.drop_drop]) (hi.step c)
  refine ⟨src', ns, hr, hn, text_plain (fun p => hp.leg ht p) (hp.stop ht) ?_ hgv⟩
  rw [plainStep_gen ht hp.admissible hg, hdl]

theorem means_runEnd {k : TextEnd} {sq pth : Nat} {w : Str} {xs : ExprText} {s r : Str} (hx : xs.startsPlain = false)
    (h : Means e (.text k sq pth xs) s r) : Means e (.run k sq pth w (.chars w xs)) s r := by
  intro t g pre ht h1 h2 hg hast hw hsou hi
  obtain ⟨src', ns, hr, hn, hgv⟩ := h t ht h1 h2 (fun h => by rw [hx] at h; cases h)
  refine ⟨src', .plain (g.start.take g.i) g.indent false :: ns, hr, ?_, ?_⟩
  · subst hw
    refine .chars hi ?_
    rw [hast, isEmpty_snoc] at hn
    exact hn
  · rw [hast, List.append_assoc] at hgv
    exact hgv

/-! ## The pieces of a text -/

/-- The text begins with one piece: `x` puts it in front of the pieces of `s'`. -/
def LegOf (e : PEnv) (x : ExprText → ExprText) (s s' : Str) : Prop :=
  ∀ src : Src, src.txt = s → ∃ src' n, src'.txt = s' ∧ (∀ f xs ns, TextTrees false xs ns → TextTrees f (x xs) (n :: ns)) ∧
    Gives e (fun p => psTextLeg e p src) (src', some [n])

theorem means_piece {k : TextEnd} {sq pth : Nat} {xs ys : ExprText} {s s' r : Str}
    (h1 : ∀ src : Src, src.txt = s → ∃ src' n, src'.txt = s' ∧ (∀ f ns, TextTrees false xs ns → TextTrees f ys (n :: ns)) ∧
      Gives e (fun p => psTextLeg e p src) (src', some [n]))
    (h2 : Means e (.text k sq pth xs) s' r) : Means e (.text k sq pth ys) s r := by
  intro t ht k1 k2 _
  obtain ⟨src1, n, a1, a2, a3⟩ := h1 t.sou ht
  obtain ⟨src2, ns, b1, b2, b3⟩ := h2 { t with sou := src1, ast := t.ast ++ [n], gen := none } a1 k1 k2 (fun _ => rfl)
  refine ⟨src2, n :: ns, b1, a2 _ _ (by rw [isEmpty_snoc] at b2; exact b2), ?_⟩
  simp only [List.append_assoc, List.cons_append, List.nil_append] at b3
  exact text_leg a3 b3

theorem means_leg {k : TextEnd} {sq pth : Nat} {x : ExprText → ExprText} {xs : ExprText} {s s' r : Str} (h1 : LegOf e x s s')
    (h2 : Means e (.text k sq pth xs) s' r) : Means e (.text k sq pth (x xs)) s r := by
  refine means_piece (fun src hs => ?_) h2
  obtain ⟨src', n, a1, a2, a3⟩ := h1 src hs
  exact ⟨src', n, a1, fun f ns h => a2 f xs ns h, a3⟩

theorem leg_textExpr {x : Expr} {s s' : Str} (h0 : ∀ a, x ≠ .str a) (h1 : Means e (.body x) s s') (hs : ['(', '$'] <+: s)
    (hd : NoDirective s) : LegOf e (.expr x) s s' := by
  intro src hsrc
  obtain ⟨src', n, a1, a2, -, -, a3⟩ := h1 src hsrc
  exact ⟨src', n, a1, fun f xs ns h => .expr h0 a2 h, a3 hs hd⟩

theorem means_textExpr {k : TextEnd} {sq pth : Nat} {x : Expr} {xs : ExprText} {s s' r : Str} (h0 : ∀ a, x ≠ .str a)
    (h1 : Means e (.body x) s s') (hs : ['(', '$'] <+: s) (hd : NoDirective s) (h2 : Means e (.text k sq pth xs) s' r) :
    Means e (.text k sq pth (.expr x xs)) s r :=
  means_leg (leg_textExpr h0 h1 hs hd) h2

theorem leg_textSet {t : Target} {x : Expr} {g1 g2 u s s' s'' : Str}
    (hg1 : IsGap g1) (ht : WrittenTarget t u) (hg2 : IsGap g2) (h1 : Means e (.form x) s s')
    (hc : Closing ['s', 'e', 't'] s' s'') (hn : NoName (g2 ++ s) ∨ (∃ as, t = .many as)) (b1 : Begins s) :
    LegOf e (.set t x) ('(' :: '$' :: 's' :: 'e' :: 't' :: (g1 ++ (u ++ (g2 ++ s)))) s'' := by
  intro src hs
  have hset : src.starts kSet = true := starts_pre (t := g1 ++ (u ++ (g2 ++ s))) hs
  have a0 : (src.drop kSet.length).txt = g1 ++ (u ++ (g2 ++ s)) := by rw [Src.drop_txt, hs]; rfl
  obtain ⟨src1, v, n1, c1, tv, t1, e1⟩ := Gives.binding ht hg2 h1 b1 hn (gap_of a0 hg1 (ht.noGap _))
  obtain ⟨src3, c3, e3⟩ := Gives.closing (e := e) (src := psGap src1)
    (by rw [gap_same (by rw [c1]; exact hc.noGap), c1]) hc
  refine ⟨src3, .set v n1, c3, fun f xs ns h => .set tv t1 h, ?_⟩
  have hg : Gives e (fun p => psSet p src) (src3, some (.set v n1)) := by
    unfold psSet
    simp only [hset, if_true]
    refine Gives.bind e1 ?_
    refine Gives.bind e3 ?_
    exact Gives.pure _
  exact Gives.of_eq (hg.asList.orElse (next := fun p s => orElse (asList (psLet p s)) fun s =>
    orElse (psImport e p s) fun s => orElse (asList (psMacro s)) fun s => orElse (asList (psComment s)) fun s =>
    orElse (asList (psApplication p s)) fun s => orElse (asList (psQuote e s)) fun s => asList (psRemark e s)))
    (fun p => textLeg_eq e p src)

theorem means_textSet {k : TextEnd} {sq pth : Nat} {t : Target} {x : Expr} {xs : ExprText} {g1 g2 u s s' s'' r : Str}
    (hg1 : IsGap g1) (ht : WrittenTarget t u) (hg2 : IsGap g2) (h1 : Means e (.form x) s s')
    (hc : Closing ['s', 'e', 't'] s' s'') (hn : NoName (g2 ++ s) ∨ (∃ as, t = .many as)) (b1 : Begins s)
    (h2 : Means e (.text k sq pth xs) s'' r) :
    Means e (.text k sq pth (.set t x xs)) ('(' :: '$' :: 's' :: 'e' :: 't' :: (g1 ++ (u ++ (g2 ++ s)))) r :=
  means_leg (leg_textSet hg1 ht hg2 h1 hc hn b1) h2

theorem drop_len {src : Src} {a s : Str} {n : Nat} (hs : src.txt = a ++ s) (hn : n = a.length) : (src.drop n).txt = s := by
  subst hn; exact Src.drop_pre _ _ _ hs

theorem leg_textMacro {a : Str} {as : List Str} {b : Str} {g1 g2 g3 t s : Str}
    (hg1 : IsGap g1) (ha : IsName a) (hg2 : IsGap g2) (hg3 : IsGap g3) (hp : Names as t) (hb : Balanced b)
    (had : ∀ c ∈ b, Admissible c) :
    LegOf e (.macro a as b) ('(' :: '$' :: 'm' :: 'a' :: 'c' :: 'r' :: 'o' ::
        (g1 ++ (a ++ (g2 ++ '(' :: (g3 ++ (t ++ ')' :: (b ++ ')' :: s))))))) s := by
  intro src hs
  have hs' : src.txt = macroHead g1 a g2 g3 t ++ (b ++ ')' :: s) := by rw [hs]; simp [macroHead]
  obtain ⟨nm, new, k1, k2, k3⟩ := psMacro_head src g1 a g2 g3 t (b ++ ')' :: s) as hg1 ha hg2 hg3 hp hs'
  subst k1 k2
  rw [bodyLen_some (rest := s) ⟨rfl, hb⟩ had] at k3
  dsimp only at k3
  rw [closed_take (rest := s) ⟨rfl, hb⟩] at k3
  refine ⟨src.drop ((macroHead g1 nm.txt g2 g3 t).length + (b.length + 1)), .macro nm new { txt := b }, ?_,
    fun f xs ns h => .macro (b := { txt := b }) h, ?_⟩
  rotate_left
  · refine Gives.of_eq ((Gives.const k3).asList.orElse (next := fun p s => orElse (asList (psComment s)) fun s =>
      orElse (asList (psApplication p s)) fun s => orElse (asList (psQuote e s)) fun s => asList (psRemark e s))) (fun p => ?_)
    rw [textLeg_macro e p src _ hs]
  · refine drop_len (a := macroHead g1 nm.txt g2 g3 t ++ (b ++ [')'])) (s := s) (by rw [hs']; simp) ?_
    simp

theorem means_textMacro {k : TextEnd} {sq pth : Nat} {a : Str} {as : List Str} {b : Str} {xs : ExprText} {g1 g2 g3 t s r : Str}
    (hg1 : IsGap g1) (ha : IsName a) (hg2 : IsGap g2) (hg3 : IsGap g3) (hp : Names as t) (hb : Balanced b)
    (had : ∀ c ∈ b, Admissible c) (h2 : Means e (.text k sq pth xs) s r) :
    Means e (.text k sq pth (.macro a as b xs)) ('(' :: '$' :: 'm' :: 'a' :: 'c' :: 'r' :: 'o' ::
        (g1 ++ (a ++ (g2 ++ '(' :: (g3 ++ (t ++ ')' :: (b ++ ')' :: s))))))) r :=
  means_leg (leg_textMacro hg1 ha hg2 hg3 hp hb had) h2

theorem leg_textComment {b s : Str} (hb : Balanced b)
    (had : ∀ c ∈ b, Admissible c) : LegOf e .comment ('(' :: '$' :: '!' :: (b ++ ')' :: s)) s := by
  intro src hs
  refine ⟨(src.drop 3).drop (b.length + 1), .comment, ?_, fun f xs ns h => .comment h, ?_⟩
  · refine drop_len (a := b ++ [')']) (s := s) ?_ (by simp)
    rw [Src.drop_txt, hs]
    simp
  · have hg : Gives e (fun _ => psComment src) ((src.drop 3).drop (b.length + 1), some .comment) := by
      refine Gives.of_eq (Gives.pure _) (fun p => ?_)
      rw [psComment_eq src (b ++ ')' :: s) hs, bodyLen_some (rest := s) ⟨rfl, hb⟩ had]
    refine Gives.of_eq (hg.asList.orElse (next := fun p s => orElse (asList (psApplication p s)) fun s =>
      orElse (asList (psQuote e s)) fun s => asList (psRemark e s))) (fun p => ?_)
    rw [textLeg_comment e p src (b ++ ')' :: s) hs]

theorem means_textComment {k : TextEnd} {sq pth : Nat} {xs : ExprText} {b s r : Str} (hb : Balanced b)
    (had : ∀ c ∈ b, Admissible c) (h2 : Means e (.text k sq pth xs) s r) :
    Means e (.text k sq pth (.comment xs)) ('(' :: '$' :: '!' :: (b ++ ')' :: s)) r :=
  means_leg (leg_textComment hb had) h2

theorem leg_textQuote {mark b s : Str} (hm : IsQuoteMark mark)
    (hb : Balanced b) (had : ∀ c ∈ b, Admissible c) : LegOf e (.str b) (mark ++ (b ++ ')' :: s)) s := by
  intro src hs
  obtain ⟨x, ⟨hx, -⟩, hq⟩ := psQuote_closed e src mark _ b s hm hs ⟨rfl, hb⟩ had
  refine ⟨src.drop (mark.length + b.length + 1), .str x, ?_, ?_, ?_⟩
  · exact drop_len (a := mark ++ b ++ [')']) (s := s) (by rw [hs]; simp) (by simp [Nat.add_assoc])
  · intro f xs ns h
    subst hx
    exact .str h
  · have hg : Gives e (fun _ => psQuote e src) (src.drop (mark.length + b.length + 1), some (.str x)) :=
      Gives.of_eq (Gives.pure _) (fun p => by rw [hq])
    refine Gives.of_eq (hg.asList.orElse (next := fun p s => asList (psRemark e s))) (fun p => ?_)
    rw [textLeg_quote e p src mark _ hm hs]

theorem means_textQuote {k : TextEnd} {sq pth : Nat} {xs : ExprText} {mark b s r : Str} (hm : IsQuoteMark mark)
    (hb : Balanced b) (had : ∀ c ∈ b, Admissible c) (h2 : Means e (.text k sq pth xs) s r) :
    Means e (.text k sq pth (.str b xs)) (mark ++ (b ++ ')' :: s)) r :=
  means_leg (leg_textQuote hm hb had) h2

/-- Where no form begins, a literal or a comment of the target language is looked for. -/
theorem textLeg_plain (p : Parsers) {s : Src} (h1 : ¬ ['(', '$'] <+: s.txt) :
    psTextLeg e p s = orElse (asList (psQuote e s)) fun s => asList (psRemark e s) := by
  have hk : ∀ k, s.starts ('(' :: '$' :: k) = false := fun k => pre_of (k := ['(', '$']) h1
  have a1 : psSet p s = noMatch s := by unfold psSet; rw [show s.starts kSet = false from hk _]; rfl
  have a2 : psLet p s = noMatch s := by unfold psLet; rw [show s.starts kLet = false from hk _]; rfl
  have a3 : psImport e p s = noMatch s := by unfold psImport; rw [show s.starts kImport = false from hk _]; rfl
  have a4 : psMacro s = noMatch s := by unfold psMacro; rw [show s.starts kMacro = false from hk _]; rfl
  have a5 : psComment s = noMatch s := by unfold psComment; rw [show s.starts kComment = false from hk _]; rfl
  have a6 : psApplication p s = noMatch s := by unfold psApplication; rw [show s.starts kApply = false from hk _]; rfl
  rw [textLeg_eq, a1, asList_noMatch, a2, asList_noMatch, a3, noMatch_orElse, a4, asList_noMatch, a5, asList_noMatch,
    a6, asList_noMatch]

theorem LiteralPrefix.no_form {p : Str} {q : Char} (hp : LiteralPrefix p) (hq : QuoteMark q) (t : Str) :
    ¬ ['(', '$'] <+: p ++ q :: t := by
  refine no_pre_head ?_
  rcases hp with rfl | ⟨u, hu, rfl⟩ | ⟨r, hr, rfl⟩ | ⟨u, r, hu, hr, rfl⟩
  · rcases hq with rfl | rfl <;> simp
  · rcases hu with rfl | rfl <;> simp
  · rcases hr with rfl | rfl <;> simp
  · rcases hu with rfl | rfl <;> simp

theorem TextLiteral.quote {l s : Str} (h : TextLiteral (modeOf e) l s) {src : Src} (hs : src.txt = l ++ s) :
    ¬ ['(', '$'] <+: src.txt ∧ ∃ x, x.txt = l ∧ psQuote e src = pure (src.drop l.length, some (.str x)) := by
  cases h with
  | @c q a _ he hq ha =>
    have he : e.outputPython = false := he
    have hs' : src.txt = q :: (a ++ q :: s) := by rw [hs]; simp
    refine ⟨?_, { txt := src.txt.take (a.length + 2) }, ?_, ?_⟩
    · rw [hs']
      exact LiteralPrefix.no_form (p := []) (.inl rfl) hq _
    · change src.txt.take (a.length + 2) = _
      rw [hs, List.take_left' (by simp)]
    · unfold psQuote
      rw [he, hs', cStrLen_literal hq ha s]
      simp
  | @py p q a _ he hp hq ha hx =>
    have he : e.outputPython = true := he
    have hs' : src.txt = p ++ q :: (a ++ q :: s) := by rw [hs]; simp
    refine ⟨?_, src.take (p.length + (a.length + 2)), ?_, ?_⟩
    · rw [hs']
      exact hp.no_form hq _
    · change src.txt.take _ = _
      rw [hs, List.take_left' (by simp)]
    · unfold psQuote
      rw [he, hs', pyStrLen_literal hp hq ha hx]
      simp
  | @long p q a _ he hp hq ha =>
    have he : e.outputPython = true := he
    have hs' : src.txt = p ++ q :: q :: q :: (a ++ q :: q :: q :: s) := by rw [hs]; simp
    refine ⟨?_, src.take (p.length + (a.length + 6)), ?_, ?_⟩
    · rw [hs']
      exact hp.no_form hq _
    · change src.txt.take _ = _
      rw [hs, List.take_left' (by simp)]
    · unfold psQuote
      rw [he, hs', pyStrLen_long hp hq ha]
      simp
  | @lines p q z a b _ he hp hq ha hz hb =>
    have he : e.outputPython = true := he
    have hs' : src.txt = p ++ q :: (a ++ '\\' :: '\n' :: (b ++ z :: s)) := by rw [hs]; simp
    refine ⟨?_, src.take (p.length + (a.length + b.length + 4)), ?_, ?_⟩
    · rw [hs']
      exact hp.no_form hq _
    · change src.txt.take _ = _
      rw [hs, List.take_left' (by simp; omega)]
    · unfold psQuote
      rw [he, hs', pyStrLen_lines hp hq ha hz hb, if_pos rfl]
      dsimp only
      rw [show (p ++ q :: (a ++ '\\' :: '\n' :: (b ++ [z]))).length = p.length + (a.length + b.length + 4) by simp; omega]

theorem leg_textLiteral {l s : Str} (hl : TextLiteral (modeOf e) l s) : LegOf e (.str l) (l ++ s) s := by
  intro src hs
  obtain ⟨h1, x, hx, hq⟩ := hl.quote hs
  subst hx
  refine ⟨src.drop x.txt.length, .str x, Src.drop_pre _ _ _ hs, fun f xs ns h => .str h, ?_⟩
  have hg : Gives e (fun _ => psQuote e src) (src.drop x.txt.length, some (.str x)) :=
    Gives.of_eq (Gives.pure _) (fun p => by rw [hq])
  refine Gives.of_eq (hg.asList.orElse (next := fun p s => asList (psRemark e s))) (fun p => ?_)
  rw [textLeg_plain p h1]

theorem means_textLiteral {k : TextEnd} {sq pth : Nat} {xs : ExprText} {l s r : Str} (hl : TextLiteral (modeOf e) l s)
    (h2 : Means e (.text k sq pth xs) s r) : Means e (.text k sq pth (.str l xs)) (l ++ s) r :=
  means_leg (leg_textLiteral hl) h2

theorem TextRemark.remark {l s : Str} (h : TextRemark (modeOf e).remarks l s) {src : Src} (hs : src.txt = l ++ s) :
    (∃ c u, src.txt = c :: u ∧ (c = '/' ∨ c = '#')) ∧
      psRemark e src = pure (src.drop l.length, some (.remark (src.take l.length))) := by
  unfold modeOf at h
  unfold psRemark
  cases he : e.skip with
  | none => rw [he] at h; cases h
  | c =>
    rw [he] at h
    cases h with
    | @line w _ h1 h2 =>
      refine ⟨⟨_, _, hs, .inl rfl⟩, ?_⟩
      have : remarkCLen src.txt = .yes (w.length + 2) := by
        rw [hs]
        unfold remarkCLen
        rw [if_pos (by simp)]
        simp only [List.cons_append, List.drop_succ_cons, List.drop_zero, spanLen_line h1 h2]
        congr 1
        omega
      simp only [this, List.length_cons]
    | @block w _ h1 =>
      refine ⟨⟨_, _, hs, .inl rfl⟩, ?_⟩
      have : remarkCLen src.txt = .yes (w.length + 4) := by
        rw [hs]
        unfold remarkCLen
        rw [if_neg (by simp), if_pos (by simp)]
        simp only [List.cons_append, List.drop_succ_cons, List.drop_zero, List.append_assoc, List.nil_append,
          findIdx_block w s h1]
      simp only [this, List.length_cons, List.length_append, List.length_nil]
  | python =>
    rw [he] at h
    cases h with
    | @python w _ h1 h2 =>
      refine ⟨⟨_, _, hs, .inr rfl⟩, ?_⟩
      have : remarkPyLen src.txt = .yes (w.length + 1) := by
        rw [hs]
        unfold remarkPyLen
        simp only [List.cons_append, spanLen_line h1 h2]
        congr 1
        omega
      simp only [this, List.length_cons]

theorem leg_textRemark {l s : Str} (hl : TextRemark (modeOf e).remarks l s) : LegOf e (.remark l) (l ++ s) s := by
  intro src hs
  obtain ⟨⟨c, u, hc, hc'⟩, hq⟩ := hl.remark hs
  have hne : ∀ d, d ≠ '/' → d ≠ '#' → src.txt.head? ≠ some d := by
    intro d h1 h2 h
    rw [hc] at h
    simp only [List.head?_cons, Option.some.injEq] at h
    subst h
    rcases hc' with rfl | rfl
    · exact h1 rfl
    · exact h2 rfl
  have hnq : psQuote e src = noMatch src := by
    refine psQuote_none (cStrLen_none (hne _ (by decide) (by decide)) (hne _ (by decide) (by decide))) ?_
      (starts_head (hne _ (by decide) (by decide))) (starts_head (hne _ (by decide) (by decide)))
    rw [hc]
    rcases hc' with rfl | rfl <;> rfl
  refine ⟨src.drop l.length, .remark (src.take l.length), Src.drop_pre _ _ _ hs, ?_, ?_⟩
  · intro f xs ns h
    have := TextTrees.remark (f := f) (s := src.take l.length) h
    rw [Src.take_pre _ _ _ hs] at this
    exact this
  · have hg : Gives e (fun _ => psRemark e src) (src.drop l.length, some (.remark (src.take l.length))) :=
      Gives.of_eq (Gives.pure _) (fun p => by rw [hq])
    refine Gives.of_eq hg.asList (fun p => ?_)
    rw [textLeg_plain p (no_pre_head (hne _ (by decide) (by decide))), hnq, asList_noMatch]

/-! ## Texts as arguments -/

theorem means_textRemark {k : TextEnd} {sq pth : Nat} {xs : ExprText} {l s r : Str} (hl : TextRemark (modeOf e).remarks l s)
    (h2 : Means e (.text k sq pth xs) s r) : Means e (.text k sq pth (.remark l xs)) (l ++ s) r :=
  means_leg (leg_textRemark hl) h2

theorem text_gives {k : TextEnd} {xs : ExprText} {s r : Str} (h : Means e (.text k 0 0 xs) s r) {src : Src} (hs : src.txt = s) :
    ∃ src' ns, src'.txt = r ∧ TextTrees true xs ns ∧ Gives e (fun p => p.text (stopOf k) { sou := src }) (src', ns) := by
  obtain ⟨src', ns, a1, a2, a3⟩ := h { sou := src } hs rfl rfl (fun _ => rfl)
  exact ⟨src', ns, a1, a2, a3.text⟩

/-- What begins with a bracket, a comma or a brace is a body. -/
theorem psFormer_mark {s : Src} {c : Char} {t : Str} (hs : s.txt = c :: t) (hc : c = '[' ∨ c = ']' ∨ c = ',' ∨ c = '{')
    (p : Parsers) : psFormer e p s = psLForm p s := by
  have hh : s.txt.head? = some c := by rw [hs]; rfl
  have hne : ∀ d, (d ≠ '[' ∧ d ≠ ']' ∧ d ≠ ',' ∧ d ≠ '{') → s.txt.head? ≠ some d := by
    rintro d ⟨h1, h2, h3, h4⟩ h
    rw [hh] at h
    cases Option.some.inj h
    rcases hc with rfl | rfl | rfl | rfl <;> contradiction
  have hq : psQuote e s = noMatch s := psQuote_none (cStrLen_none (hne _ (by decide)) (hne _ (by decide)))
    (by rw [hs]; rcases hc with rfl | rfl | rfl | rfl <;> rfl) (starts_head (hne _ (by decide)))
    (starts_head (hne _ (by decide)))
  have hn : psNumber e s = noMatch s := psNumber_none (fun d hd => by
    rw [hh] at hd; cases Option.some.inj hd; rcases hc with rfl | rfl | rfl | rfl <;> decide)
  have hv : psVar s = noMatch s := psVar_none (hne _ (by decide)) (fun d hd => by
    rw [hh] at hd; cases Option.some.inj hd; rcases hc with rfl | rfl | rfl | rfl <;> (unfold NameStart; decide))
  unfold psFormer psValue
  rw [hq, noMatch_orElse, hn, noMatch_orElse, hv]
  change orElse (psLambda p s) (fun s => psLForm p s) = _
  rw [psLambda_none (hne _ (by decide)), noMatch_orElse]

theorem lform_code {s s' : Src} {n : Node} (h : Gives e (fun p => psCode p s) (s', some n)) :
    Gives e (fun p => psLForm p s) (s', some n) := by
  unfold psLForm
  exact h.orElse

theorem lform_infix {s s' : Src} {n : Node} (hc : ∀ p, psCode p s = noMatch s)
    (h : Gives e (fun p => psInfix p s) (s', some n)) : Gives e (fun p => psLForm p s) (s', some n) := by
  refine Gives.of_eq (h.orElse (next := fun p s => orElse (psLet p s) fun s => orElse (psApplication p s) fun s =>
    psList p s)) (fun p => ?_)
  unfold psLForm
  rw [hc, noMatch_orElse]

theorem body_mark {s : Src} {c : Char} {t u : Str} (hs : s.txt = c :: t) (hu : s.txt = u)
    (hc : c = '[' ∨ c = ']' ∨ c = ',' ∨ c = '{') {s' : Src} {n : Node} (h : Gives e (fun p => psLForm p s) (s', some n)) :
    Gives e (fun p => psFormer e p s) (s', some n) ∧ Gives e (fun p => psLForm p s) (s', some n) ∧
    (['(', '$'] <+: u → NoDirective u → Gives e (fun p => psTextLeg e p s) (s', some [n])) := by
  refine ⟨h.of_eq (psFormer_mark hs hc), h, fun hp => ?_⟩
  exfalso
  rw [← hu, hs] at hp
  have := (pre_cons.mp hp).1
  subst this
  revert hc
  decide

theorem means_square {xs : ExprText} {s r : Str} (h : Means e (.text .square 0 0 xs) s r) :
    Means e (.body (.code xs)) ('[' :: s) r := by
  intro src hs
  obtain ⟨src', ns, a1, a2, a3⟩ := text_gives h (src := src.drop 1) (by rw [Src.drop_txt, hs]; rfl)
  refine ⟨src', .text ns, a1, .code a2, body_mark hs hs (.inl rfl) (lform_code ?_)⟩
  unfold psCode
  simp only [at_false (show src.txt.head? ≠ some ']' by rw [hs]; simp), at_true hs, Bool.false_eq_true, if_false, if_true]
  exact a3.bind (.pure _)

theorem means_comma {xs : ExprText} {s r : Str} (h : Means e (.text .comma 0 0 xs) s r) :
    Means e (.body (.code xs)) (',' :: ',' :: s) r := by
  intro src hs
  obtain ⟨src', ns, a1, a2, a3⟩ := text_gives h (src := src.drop 2) (by rw [Src.drop_txt, hs]; rfl)
  refine ⟨src', .text ns, a1, .code a2, body_mark hs hs (.inr (.inr (.inl rfl))) (lform_code ?_)⟩
  unfold psCode
  simp only [at_false (show src.txt.head? ≠ some ']' by rw [hs]; simp), at_false (show src.txt.head? ≠ some '[' by rw [hs]; simp),
    show src.starts kCode = false from starts_head (by rw [hs]; simp),
    show src.starts kComma = true from starts_pre (t := s) hs, Bool.false_eq_true, if_false, if_true]
  exact a3.bind (.pure _)

theorem means_lines {xs : ExprText} {b s r : Str} {c : Char} (hb : Blanks b) (hc : LineEnd c)
    (h : Means e (.text .lines 0 0 xs) s r) : Means e (.body (.code xs)) (']' :: (b ++ c :: s)) r := by
  intro src hs
  have h1 : (src.drop 1).txt = b ++ c :: s := by rw [Src.drop_txt, hs]; rfl
  have h2 := (psSpace_blanks h1 hb (fun d hd => by
    simp only [List.head?_cons, Option.some.injEq] at hd; subst hd; rcases hc with rfl | rfl <;> rfl)).2
  have h3 := psEol_cons h2 hc
  obtain ⟨src', ns, a1, a2, a3⟩ := text_gives h (src := (psSpace (src.drop 1)).drop 1) (by rw [Src.drop_txt, h2]; rfl)
  refine ⟨src', .text ns, a1, .code a2, body_mark hs hs (.inr (.inl rfl)) (lform_code ?_)⟩
  unfold psCode
  simp only [at_true hs, if_true, h3]
  exact a3.bind (.pure _)

theorem means_bracket {xs : ExprText} {s r : Str} (hb : ∀ b c t, s = b ++ c :: t → Blanks b → ¬ LineEnd c)
    (h : Means e (.text .bracket 0 0 xs) s r) : Means e (.body (.code xs)) (']' :: s) r := by
  intro src hs
  have h1 : (src.drop 1).txt = s := by rw [Src.drop_txt, hs]; rfl
  obtain ⟨b, u, hbu, hbb, hu⟩ := blanks_split s
  have h2 := (psSpace_blanks (h1.trans hbu) hbb hu).2
  have h3 : psEol (psSpace (src.drop 1)) = (psSpace (src.drop 1), none) := by
    refine psEol_no (fun c hc => ?_)
    rw [h2] at hc
    cases u with
    | nil => cases hc
    | cons d u =>
      simp only [List.head?_cons, Option.some.injEq] at hc
      subst hc
      exact hb b d u hbu hbb
  obtain ⟨src', ns, a1, a2, a3⟩ := text_gives h (src := src.drop 1) h1
  refine ⟨src', .text ns, a1, .code a2, body_mark hs hs (.inr (.inl rfl)) (lform_code ?_)⟩
  unfold psCode
  simp only [at_true hs, if_true, h3]
  exact a3.bind (.pure _)

theorem means_code {xs : ExprText} {s r : Str} (h : Means e (.text .paren 0 0 xs) s r) :
    Means e (.body (.code xs)) ('(' :: '$' :: 'c' :: 'o' :: 'd' :: 'e' :: s) r := by
  intro src hs
  obtain ⟨src', ns, a1, a2, a3⟩ := text_gives h (src := src.drop kCode.length) (by rw [Src.drop_txt, hs]; rfl)
  have hk : ∀ c k, c ≠ 'c' → src.starts ('(' :: '$' :: c :: k) = false := fun c k hc =>
    starts_dollar hs (no_pre_head (by simp [Ne.symm hc]))
  have hcode : src.starts kCode = true := starts_pre (t := s) hs
  have hg : Gives e (fun p => psCode p src) (src', some (.text ns)) := by
    unfold psCode
    simp only [at_false (show src.txt.head? ≠ some ']' by rw [hs]; simp),
      at_false (show src.txt.head? ≠ some '[' by rw [hs]; simp), hcode, Bool.false_eq_true, if_false, if_true]
    exact a3.bind (.pure _)
  refine ⟨src', .text ns, a1, .code a2, body_of hs (by simp) (hk _ _ (by decide)) hs (fun _ hd => ?_) (lform_code hg)⟩
  refine leg_app hd (hk _ _ (by decide)) ?_
  refine Gives.of_eq hg (fun p => ?_)
  unfold psApplication
  rw [show src.starts kApply = true from starts_pre (t := 'c' :: 'o' :: 'd' :: 'e' :: s) hs,
    show src.starts kQuote = false from hk _ _ (by decide), hcode]
  rfl

theorem psCode_no {src : Src} (h1 : src.txt.head? ≠ some ']') (h2 : src.txt.head? ≠ some '[') (h3 : src.starts kCode = false)
    (h4 : src.starts kComma = false) (p : Parsers) : psCode p src = noMatch src := by
  unfold psCode
  simp only [at_false h1, at_false h2, h3, h4, Bool.false_eq_true, if_false]

theorem means_brace {xs : ExprText} {s r : Str} (h : Means e (.text .brace 0 0 xs) s r) :
    Means e (.body (.python xs)) ('{' :: s) r := by
  intro src hs
  obtain ⟨src', ns, a1, a2, a3⟩ := text_gives h (src := src.drop 1) (by rw [Src.drop_txt, hs]; rfl)
  refine ⟨src', .infix (.text ns) src.loc, a1, .python a2, body_mark hs hs (.inr (.inr (.inr rfl)))
    (lform_infix (psCode_no (by rw [hs]; simp) (by rw [hs]; simp) (starts_head (by rw [hs]; simp))
      (starts_head (by rw [hs]; simp))) ?_)⟩
  unfold psInfix
  simp only [at_true hs, if_true]
  exact a3.bind (.pure _)

theorem means_python {xs : ExprText} {s r : Str} (h : Means e (.text .paren 0 0 xs) s r) :
    Means e (.body (.python xs)) ('(' :: '$' :: '{' :: '}' :: s) r := by
  intro src hs
  obtain ⟨src', ns, a1, a2, a3⟩ := text_gives h (src := src.drop kInfix.length) (by rw [Src.drop_txt, hs]; rfl)
  have hk : ∀ c k, c ≠ '{' → src.starts ('(' :: '$' :: c :: k) = false := fun c k hc =>
    starts_dollar hs (no_pre_head (by simp [Ne.symm hc]))
  have hin : src.starts kInfix = true := starts_pre (t := s) hs
  have hg : Gives e (fun p => psInfix p src) (src', some (.infix (.text ns)
      (src.loc.map (fun l => { l with pos := l.pos + 1 })))) := by
    unfold psInfix
    simp only [at_false (show src.txt.head? ≠ some '{' by rw [hs]; simp), hin, Bool.false_eq_true, if_false, if_true]
    exact a3.bind (.pure _)
  refine ⟨src', _, a1, .python a2, body_of hs (by simp) (hk _ _ (by decide)) hs (fun _ hd => ?_)
    (lform_infix (psCode_no (by rw [hs]; simp) (by rw [hs]; simp) (hk _ _ (by decide)) (starts_head (by rw [hs]; simp))) hg)⟩
  refine leg_app hd (hk _ _ (by decide)) ?_
  refine Gives.of_eq hg (fun p => ?_)
  unfold psApplication
  rw [show src.starts kApply = true from starts_pre (t := '{' :: '}' :: s) hs,
    show src.starts kQuote = false from hk _ _ (by decide), show src.starts kCode = false from hk _ _ (by decide),
    show src.starts kEmit = false from hk _ _ (by decide), hin]
  rfl

/-! ## All rules -/

theorem body_noGap {x : Expr} {s : Str} (h : BeginsFor (.body x) s) : NoGap s := by
  obtain ⟨c, t, rfl, hc⟩ := h
  refine noGap_cons ?_ t
  rcases hc with rfl | rfl | rfl | rfl | rfl <;> decide

/-- What is written according to the grammar is read. -/
theorem reads_means {k : Cat} {s r : Str} (h : Reads (modeOf e) k s r) : Means e k s r := by
  induction h with
  | one _ hg hr hq ih => exact means_one ih hg hr hq
  | cond h1 h2 h3 g1 g2 g3 g4 i1 i2 i3 => exact means_cond i1 i2 i3 g1 g2 g3 g4 h2.begins h3.begins
  | when h1 h2 g1 g2 g3 hr hb i1 i2 => exact means_when i1 i2 g1 g2 g3 hr hb h2.begins
  | name h hr => exact means_name h hr
  | int hg hb hf hr => exact means_int hg hb hf hr
  | literal hq h hr => exact means_literal hq h hr
  | quote hb ha => exact means_quote (mark := ['(', '`']) (.inl rfl) hb ha
  | quote' hb ha => exact means_quote (mark := ['(', '$', 'q', 'u', 'o', 't', 'e']) (.inr rfl) hb ha
  | fn h1 h2 hs i1 i2 => exact means_fn i1 i2 hs ((params_start h1).1 rfl hs)
  | fnOf ht g1 g2 g3 h i => exact means_fnOf ht g1 g2 g3 i (body_noGap h.begins)
  | former _ ih => exact means_former ih
  | list hg h ih => exact means_list hg ih h.begins
  | app hg hk h1 h2 i1 i2 => exact means_app hg hk i1 i2 h1.begins
  | eval hg h1 h2 i1 i2 => exact means_eval hg i1 i2 h1.begins
  | letIn g1 ht g2 h1 h2 hc hn i1 i2 => exact means_letIn g1 ht g2 i1 i2 hc hn h1.begins h2.begins
  | emit g1 ht g2 => exact means_emit g1 ht g2
  | emitWith g1 ht g2 he h hc i => exact means_emitWith g1 ht g2 he i hc h.begins
  | itemsEnd => exact means_itemsEnd
  | item h1 h2 i1 i2 => exact means_item i1 i2 h1.begins h2.begins
  | itemEmbed hg h1 h2 i1 i2 => exact means_itemEmbed hg i1 i2 h1.begins h2.begins
  | argsEnd => exact means_argsEnd
  | argsTag ha hg => exact means_argsTag ha hg
  | arg hn h1 h2 i1 i2 => exact means_arg hn i1 i2 h1.begins
  | argEmbed hg h1 h2 i1 i2 => exact means_argEmbed hg i1 i2 h1.begins
  | argNamed ha hf hg hn h1 h2 i1 i2 => exact means_argNamed ha hf hg hn i1 i2 h1.begins
  | paramsEnd h => exact means_paramsEnd h
  | late ha hg h i => exact means_late ha hg i (head_noGap ((params_start h).2 (by simp)) (by decide))
  | par ha hg b hd h i => exact means_par ha hg b hd i
  | dflt ha hg b hd hx h i1 i2 => exact means_dflt ha hg b hd i1 i2
  | dots hg b h i => exact means_dots hg b i
  | square _ ih => exact means_square ih
  | code _ ih => exact means_code ih
  | comma _ ih => exact means_comma ih
  | lines hb hc _ ih => exact means_lines hb hc ih
  | bracket hb _ ih => exact means_bracket hb ih
  | brace _ ih => exact means_brace ih
  | python _ ih => exact means_python ih
  | textEnd h => exact means_textEnd h
  | textChar hp h ih => exact means_textChar hp ih (run_starts h _ _ _ _ _ rfl)
  | textExpr h hs hd _ i1 i2 => exact means_textExpr (fun a ha => by subst ha; cases h) i1 hs hd i2
  | textSet g1 ht g2 h1 hc hn _ i1 i2 => exact means_textSet g1 ht g2 i1 hc hn h1.begins i2
  | textMacro g1 ha g2 g3 hp hb had _ ih => exact means_textMacro g1 ha g2 g3 hp hb had ih
  | textComment hb had _ ih => exact means_textComment hb had ih
  | textQuote hb had _ ih => exact means_textQuote (mark := ['(', '`']) (.inl rfl) hb had ih
  | textQuote' hb had _ ih => exact means_textQuote (mark := ['(', '$', 'q', 'u', 'o', 't', 'e']) (.inr rfl) hb had ih
  | textLiteral hl _ ih => exact means_textLiteral hl ih
  | textRemark hl _ ih => exact means_textRemark hl ih
  | runChar hp _ ih => exact means_runChar hp ih
  | runEnd hx _ ih => exact means_runEnd hx ih

end Yupp
