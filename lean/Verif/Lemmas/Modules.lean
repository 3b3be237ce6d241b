import Verif.Spec.Modules
import Verif.Lemmas.SyntaxCode
/-!
# Reading programs made of several files
-/

namespace Yupp


variable {e : PEnv}

/-- The rule ends with that result from `st`, for every sufficient nesting. -/
def ComesTo (e : PEnv) (f : Parsers → PM α) (st : PSt) (r : PRes (α × PSt)) : Prop := ∃ N, ∀ n, N ≤ n → f (P e n) st = r

theorem ComesTo.of_eq {f g : Parsers → PM α} {st : PSt} {r : PRes (α × PSt)} (hg : ComesTo e g st r) (h : ∀ p, f p = g p) : ComesTo e f st r := by
  obtain ⟨N, hN⟩ := hg
  exact ⟨N, fun n hn => by rw [h]; exact hN n hn⟩

theorem ComesTo.step {f : Parsers → PM α} {g : Parsers → PM α} {st : PSt} {r : PRes (α × PSt)} (hg : ComesTo e g st r)
    (h : ∀ p, f (p.step e) = g p) : ComesTo e f st r := by
  obtain ⟨N, hN⟩ := hg
  refine ⟨N + 1, fun n hn => ?_⟩
  cases n with
  | zero => omega
  | succ n =>
    change f ((P e n).step e) st = _
    rw [h]
    exact hN n (by omega)

theorem ComesTo.text {k : Stop} {t : TextSt} {st : PSt} {r : PRes ((Src × List Node) × PSt)} (h : ComesTo e (fun p => psText e p k t) st r) :
    ComesTo e (fun p => p.text k t) st r := h.step (fun _ => rfl)

/-- The rule returns `a` and changes the tables from `st` to `st'`, for every sufficient nesting. -/
def GivesAt (e : PEnv) (f : Parsers → PM α) (st : PSt) (a : α) (st' : PSt) : Prop :=
  ∃ N, ∀ n, N ≤ n → f (P e n) st = .ok (a, st')

theorem Gives.at {f : Parsers → PM α} {a : α} (h : Gives e f a) (st : PSt) : GivesAt e f st a st := by
  obtain ⟨N, h⟩ := h
  exact ⟨N, fun n hn => h n hn st⟩

theorem GivesAt.bind {f : Parsers → PM α} {g : Parsers → α → PM β} {a : α} {b : β} {st st' st'' : PSt} (hf : GivesAt e f st a st')
    (hg : GivesAt e (fun p => g p a) st' b st'') : GivesAt e (fun p => f p >>= g p) st b st'' := by
  obtain ⟨M, hM⟩ := hf
  obtain ⟨N, hN⟩ := hg
  refine ⟨max M N, fun n hn => ?_⟩
  exact (bind_ok (hM n (by omega))).trans (hN n (by omega))

theorem GivesAt.of_eq {f g : Parsers → PM α} {a : α} {st st' : PSt} (hg : GivesAt e g st a st') (h : ∀ p, f p = g p) :
    GivesAt e f st a st' := by
  obtain ⟨N, hN⟩ := hg
  exact ⟨N, fun n hn => by rw [h]; exact hN n hn⟩

theorem GivesAt.step {f : Parsers → PM α} {g : Parsers → PM α} {a : α} {st st' : PSt} (hg : GivesAt e g st a st')
    (h : ∀ p, f (p.step e) = g p) : GivesAt e f st a st' := by
  obtain ⟨N, hN⟩ := hg
  refine ⟨N + 1, fun n hn => ?_⟩
  cases n with
  | zero => omega
  | succ n =>
    change f ((P e n).step e) st = _
    rw [h]
    exact hN n (by omega)

theorem GivesAt.text {k : Stop} {t : TextSt} {a : Src × List Node} {st st' : PSt} (h : GivesAt e (fun p => psText e p k t) st a st') :
    GivesAt e (fun p => p.text k t) st a st' := h.step (fun _ => rfl)

theorem text_leg_at {k : Stop} {t : TextSt} {s : Src} {ns : List Node} {a : Src × List Node} {st st' st'' : PSt}
    (h1 : GivesAt e (fun p => psTextLeg e p t.sou) st (s, some ns) st')
    (h2 : GivesAt e (fun p => psText e p k { t with sou := s, ast := t.ast ++ ns, gen := none }) st' a st'') :
    GivesAt e (fun p => psText e p k t) st a st'' := by
  unfold psText
  exact GivesAt.bind h1 h2.text

theorem text_plain_at {k : Stop} {t t' : TextSt} {st : PSt} {r : PRes ((Src × List Node) × PSt)} (h1 : ∀ p, psTextLeg e p t.sou = noMatch t.sou)
    (h2 : stopAt k t.sou t.sq t.pth = none) (h3 : plainStep t = some t')
    (h4 : ComesTo e (fun p => psText e p k t') st r) : ComesTo e (fun p => psText e p k t) st r := by
  refine ComesTo.of_eq h4.text (fun p => ?_)
  unfold psText
  rw [h1]
  funext st
  rw [pm_bind_ok (show noMatch t.sou st = .ok ((t.sou, none), st) from rfl)]
  simp only [h2]
  rw [show ({ t with sou := t.sou } : TextSt) = t from rfl, h3]
  rfl

/-! ## Plain text -/

theorem PlainAt.eof {m : Mode} {sq pth : Nat} {c : Char} {s : Str} (h : PlainAt m .file 0 0 c s) : PlainAt m .file sq pth c s :=
  ⟨h.admissible, (fun r hr => by cases hr), h.form, h.quote, h.literal, h.remark⟩

/-- A run of plain text that has begun. -/
theorem run_rest {s : Str} : ∀ (b : Str) (t : TextSt) (g : Gen) (pre : List Node) (w : Str), t.sou.txt = b ++ s →
    PlainRun (modeOf e) b s → t.gen = some g → t.ast = pre ++ [.plain (g.start.take g.i) g.indent false] →
    (g.start.take g.i).txt = w → t.sou = g.start.drop g.i → Indented pre.isEmpty w g.indent →
    ∃ t' : TextSt, ∃ x i, t'.sou.txt = s ∧ x.txt = w ++ b ∧ Indented pre.isEmpty x.txt i ∧ t'.ast = pre ++ [.plain x i false] ∧
      ∀ st r, ComesTo e (fun p => psText e p .eof t') st r → ComesTo e (fun p => psText e p .eof t) st r
  | [], t, g, pre, w, ht, _, _, hast, hw, _, hi =>
    ⟨t, g.start.take g.i, g.indent, ht, by rw [hw, List.append_nil], by rw [hw]; exact hi, hast, fun _ _ h => h⟩
  | c :: b, t, g, pre, w, ht, hp, hg, hast, hw, hsou, hi => by
    have hpc := (hp [] c b rfl).eof (sq := t.sq) (pth := t.pth)
    have hs1 : (t.sou.drop 1).txt = b ++ s := by rw [Src.drop_txt, ht]; rfl
    have hdl : t.ast.dropLast = pre := by rw [hast, List.dropLast_concat]
    have hgd : g.start.txt.drop g.i = c :: (b ++ s) := by
      have : (g.start.drop g.i).txt = c :: (b ++ s) := by rw [← hsou]; exact ht
      rw [← this, Src.drop_txt]
    have htk : (g.start.take (g.i + 1)).txt = w ++ [c] := by
      have hw' : g.start.txt.take g.i = w := hw
      change g.start.txt.take (g.i + 1) = w ++ [c]
      rw [← hw', List.take_add, hgd]
      rfl
    obtain ⟨t', x, i, a1, a2, a3, a4, a5⟩ := run_rest b
      { sou := t.sou.drop 1
        ast := pre ++ [.plain (g.start.take (g.i + 1)) (indentStep g.indent c) false]
        sq := depthStep '[' ']' t.sq c
        pth := depthStep '(' ')' t.pth c
        gen := some ⟨g.start, g.i + 1, indentStep g.indent c⟩ }
      ⟨g.start, g.i + 1, indentStep g.indent c⟩ pre (w ++ [c]) hs1
      (fun a d u hu => hp (c :: a) d u (by rw [hu]; rfl)) rfl rfl htk (by rw [hsou, Src.drop_drop]) (hi.step c)
    refine ⟨t', x, i, a1, by rw [a2]; simp, a3, a4, fun st r h => ?_⟩
    refine text_plain_at (fun p => hpc.leg ht p) (hpc.stop (k := .file) ht) ?_ (a5 st r h)
    rw [plainStep_gen ht hpc.admissible hg, hdl]

/-- A run of plain text. -/
theorem run_all {s w : Str} (t : TextSt) (hw : w ≠ []) (ht : t.sou.txt = w ++ s) (hp : PlainRun (modeOf e) w s) (hg : t.gen = none) :
    ∃ t' : TextSt, ∃ x i, t'.sou.txt = s ∧ x.txt = w ∧ Indented t.ast.isEmpty x.txt i ∧ t'.ast = t.ast ++ [.plain x i false] ∧
      ∀ st r, ComesTo e (fun p => psText e p .eof t') st r → ComesTo e (fun p => psText e p .eof t) st r := by
  cases w with
  | nil => exact absurd rfl hw
  | cons c b =>
    have hpc := (hp [] c b rfl).eof (sq := t.sq) (pth := t.pth)
    have hs1 : (t.sou.drop 1).txt = b ++ s := by rw [Src.drop_txt, ht]; rfl
    have htk : (t.sou.take 1).txt = [c] := Src.take_pre t.sou [c] (b ++ s) ht
    obtain ⟨t', x, i, a1, a2, a3, a4, a5⟩ := run_rest b
      { sou := t.sou.drop 1
        ast := t.ast ++ [.plain (t.sou.take 1) (indentStep (if t.ast.isEmpty then .str [] else .none) c) false]
        sq := depthStep '[' ']' t.sq c
        pth := depthStep '(' ')' t.pth c
        gen := some ⟨t.sou, 1, indentStep (if t.ast.isEmpty then .str [] else .none) c⟩ }
      ⟨t.sou, 1, indentStep (if t.ast.isEmpty then .str [] else .none) c⟩ t.ast [c] hs1
      (fun a d u hu => hp (c :: a) d u (by rw [hu]; rfl)) rfl rfl htk rfl ((Indented.base t.ast.isEmpty).step c)
    exact ⟨t', x, i, a1, a2, a3, a4, fun st r h =>
      text_plain_at (fun p => hpc.leg ht p) (hpc.stop (k := .file) ht) (plainStep_new ht hpc.admissible hg) (a5 st r h)⟩

/-! ## Pieces -/

theorem OnePiece.leg {x : ExprText} {s s' : Str} (h : OnePiece (modeOf e) x s s') {src : Src} (hs : src.txt = s) :
    ∃ src' n, src'.txt = s' ∧ TextTrees false x [n] ∧ Gives e (fun p => psTextLeg e p src) (src', some [n]) := by
  have key : ∀ {f : ExprText → ExprText} {s s' : Str}, LegOf e f s s' → src.txt = s →
      ∃ src' n, src'.txt = s' ∧ TextTrees false (f .nil) [n] ∧ Gives e (fun p => psTextLeg e p src) (src', some [n]) := by
    intro f s s' hl hs
    obtain ⟨src', n, a1, a2, a3⟩ := hl src hs
    exact ⟨src', n, a1, a2 _ _ _ .nil, a3⟩
  cases h with
  | expr h hp hd => exact key (leg_textExpr (fun a ha => by subst ha; cases h) (reads_means h) hp hd) hs
  | set g1 ht g2 h hc hn => exact key (leg_textSet g1 ht g2 (reads_means h) hc hn h.begins) hs
  | defMacro g1 ha g2 g3 hp hb had => exact key (leg_textMacro g1 ha g2 g3 hp hb had) hs
  | comment hb had => exact key (leg_textComment hb had) hs
  | quote hb had => exact key (leg_textQuote (mark := ['(', '`']) (.inl rfl) hb had) hs
  | quote' hb had => exact key (leg_textQuote (mark := ['(', '$', 'q', 'u', 'o', 't', 'e']) (.inr rfl) hb had) hs
  | literal hl => exact key (leg_textLiteral hl) hs
  | remark hl => exact key (leg_textRemark hl) hs

/-! ## Imports -/

/-- The files known are those in the table, and the empty text for repeated imports is there. -/
structure Knows (st : PSt) (known : List Str) : Prop where
  files : ∀ k, (st.world.find k).isSome = true ↔ k ∈ known
  null : ∃ d, st.world.find (lit "<null>") = some (d, [])

theorem textLeg_import (p : Parsers) {s : Src} {u : Str} (hs : s.txt = ['(', '$', 'i', 'm', 'p', 'o', 'r', 't'] ++ u) :
    psTextLeg e p s = orElse (psImport e p s) fun s =>
      orElse (asList (psMacro s)) fun s =>
      orElse (asList (psComment s)) fun s =>
      orElse (asList (psApplication p s)) fun s =>
      orElse (asList (psQuote e s)) fun s => asList (psRemark e s) := by
  have h1 : psSet p s = noMatch s := by
    unfold psSet; refine if_neg ?_; unfold Src.starts; rw [hs]; simp [kSet]
  have h2 : psLet p s = noMatch s := by
    unfold psLet; refine if_neg ?_; unfold Src.starts; rw [hs]; simp [kLet]
  rw [textLeg_eq, h1, asList_noMatch, h2, asList_noMatch]

theorem Closing.noName {tag s s' : Str} (h : Closing tag s s') {g : Str} (hg : IsGap g) : NoName (g ++ s) := by
  refine noName_gap hg (.inr ?_)
  cases h with
  | plain => exact noName_cons (by decide) _
  | tag _ => exact noName_backslash _

/-- Reading the text of a file that is in the table. -/
theorem parse_file {key : Str} {st st' : PSt} {d : Decl} {txt : Str} {ms : List Node} {src' : Src}
    (hf : st.world.find key = some (d, txt)) (hk : e.outputPython = true → e.inputFile ≠ key)
    (h : GivesAt e (fun p => psText e p .eof { sou := { txt := txt, loc := some ⟨key, 0⟩ } }) st (src', ms) st') :
    GivesAt e (fun p => p.parse key) st ms st' := by
  refine GivesAt.step (g := fun p => psParse e p key) ?_ (fun _ => rfl)
  have hget : PM.get st = .ok (st, st) := rfl
  cases txt with
  | nil =>
    -- nothing is read, and nothing would be found
    obtain ⟨N, hN⟩ := h
    have h0 := hN N (Nat.le_refl _)
    have h1 : ∀ p, psTextLeg e p { txt := [], loc := some ⟨key, 0⟩ } = noMatch { txt := [], loc := some ⟨key, 0⟩ } :=
      fun p => leg_none_head p (by intro c hc; cases hc)
    obtain ⟨M, hM⟩ := (text_stop (e := e) (k := .eof) (t := { sou := { txt := [], loc := some ⟨key, 0⟩ } })
      (src' := { txt := [], loc := some ⟨key, 0⟩ }) h1 rfl)
    have h2 := hN (max N M) (by omega)
    rw [hM (max N M) (by omega)] at h2
    injection h2 with h2
    injection h2 with h2 h3
    injection h2 with h2 h4
    subst h3 h4
    refine ⟨0, fun n _ => ?_⟩
    change psParse e (P e n) key st = _
    unfold psParse
    rw [pm_bind_ok hget, hf]
    rfl
  | cons c s =>
    obtain ⟨N, hN⟩ := h.text
    refine ⟨N, fun n hn => ?_⟩
    change psParse e (P e n) key st = _
    unfold psParse
    rw [pm_bind_ok hget, hf]
    dsimp only
    rw [if_neg]
    · unfold psRun
      rw [if_neg (by simp)]
      have h5 := hN n hn
      change (P e n).text .eof _ _ = _ at h5
      rw [pm_bind_ok h5]
      cases ms <;> rfl
    · intro h0
      simp only [Bool.and_eq_true, decide_eq_true_eq] at h0
      exact hk h0.2 h0.1

/-- The tables after a file was read. -/
def loaded (st : PSt) (key path text : Str) (once : Bool) : PSt :=
  { st with world := { st.world with source := (key, .path (some path), unifyEol text) :: st.world.source }
            reads := (key, once) :: st.reads }

theorem find_loaded (st : PSt) (key path text : Str) (once : Bool) :
    (loaded st key path text once).world.find key = some (.path (some path), unifyEol text) := by
  simp [loaded, World.find]

theorem find_loaded_ne {st : PSt} {key path text k : Str} {once : Bool} (h : k ≠ key) :
    (loaded st key path text once).world.find k = st.world.find k := by
  unfold loaded World.find
  simp only [List.find?_cons, show (key == k) = false from beq_false_of_ne (Ne.symm h)]

theorem Knows.loaded {st : PSt} {known : List Str} (h : Knows st known) {key path text : Str} {once : Bool}
    (hk : key ≠ lit "<null>") : Knows (loaded st key path text once) (key :: known) := by
  refine ⟨fun k => ?_, ?_⟩
  · by_cases hkk : k = key
    · subst hkk; simp [find_loaded]
    · rw [find_loaded_ne hkk, h.files k]; simp [hkk]
  · obtain ⟨d, hd⟩ := h.null
    exact ⟨d, by rw [find_loaded_ne (Ne.symm hk)]; exact hd⟩

/-- `($import a)`, before and behind what the name stands for. -/
theorem import_lib {a g1 g2 s s' : Str} (hg1 : IsGap g1) (ha : IsName a) (hg2 : IsGap g2)
    (hc : Closing ['i', 'm', 'p', 'o', 'r', 't'] s s') {src : Src}
    (hs : src.txt = '(' :: '$' :: 'i' :: 'm' :: 'p' :: 'o' :: 'r' :: 't' :: (g1 ++ (a ++ (g2 ++ s)))) {st st1 st2 : PSt} {key : Str}
    {ms : List Node} (h1 : importSource e (a ++ ['.', 'y', 'u']) true st = .ok (key, st1)) (h2 : GivesAt e (fun p => p.parse key) st1 ms st2) :
    ∃ src', src'.txt = s' ∧ GivesAt e (fun p => psTextLeg e p src) st (src', some (encloseImport ms)) st2 := by
  have hk : src.starts kImport = true := starts_pre (t := g1 ++ (a ++ (g2 ++ s))) hs
  have a0 : (src.drop kImport.length).txt = g1 ++ (a ++ (g2 ++ s)) := by rw [Src.drop_txt, hs]; rfl
  have a1 : (psGap (src.drop kImport.length)).txt = a ++ (g2 ++ s) := gap_of a0 hg1 ha.noGap
  have a2 := psAtom_append a1 ha (hc.noName hg2)
  have a3 := Src.take_pre _ _ _ a1
  have a4 := Src.drop_pre _ _ _ a1
  obtain ⟨src', b1, b2⟩ := Gives.closing (e := e) (src := psGap ((psGap (src.drop kImport.length)).drop a.length))
    (gap_of a4 hg2 hc.noGap) hc
  refine ⟨src', b1, ?_⟩
  have hg : GivesAt e (fun p => psImport e p src) st (src', some (encloseImport ms)) st2 := by
    unfold psImport
    simp only [hk, if_true, a2]
    refine GivesAt.bind (a := ((psGap (src.drop kImport.length)).drop a.length, encloseImport ms)) (st' := st2) ?_ ?_
    · rw [a3]
      refine GivesAt.bind (f := fun _ => importSource e (a ++ ['.', 'y', 'u']) true) ⟨0, fun _ _ => h1⟩ ?_
      exact GivesAt.bind h2 ((Gives.pure _).at _)
    · refine (Gives.bind b2 ?_).at _
      exact Gives.pure _
  refine GivesAt.of_eq (g := fun p => orElse (psImport e p src) _) ?_ (fun p => textLeg_import p hs)
  unfold Yupp.orElse
  exact GivesAt.bind hg ((Gives.pure _).at _)

/-- `($import "..")`. -/
theorem import_file {q : Char} {l g1 g2 s s' : Str} (hg1 : IsGap g1) (hq : QuoteMark q) (hl : TextLiteral (modeOf e) (q :: l) (g2 ++ s))
    (hg2 : IsGap g2) (hc : Closing ['i', 'm', 'p', 'o', 'r', 't'] s s') {src : Src}
    (hs : src.txt = '(' :: '$' :: 'i' :: 'm' :: 'p' :: 'o' :: 'r' :: 't' :: (g1 ++ (q :: l ++ (g2 ++ s)))) {st st1 st2 : PSt} {key : Str}
    (hpy : lowerStr (splitext (basename (e.unq (q :: l)))).2 ≠ ['.', 'p', 'y'])
    {ms : List Node} (h1 : importSource e (e.unq (q :: l)) false st = .ok (key, st1)) (h2 : GivesAt e (fun p => p.parse key) st1 ms st2) :
    ∃ src', src'.txt = s' ∧ GivesAt e (fun p => psTextLeg e p src) st (src', some (encloseImport ms)) st2 := by
  have hk : src.starts kImport = true := starts_pre (t := g1 ++ (q :: l ++ (g2 ++ s))) hs
  have a0 : (src.drop kImport.length).txt = g1 ++ (q :: l ++ (g2 ++ s)) := by rw [Src.drop_txt, hs]; rfl
  have a1 : (psGap (src.drop kImport.length)).txt = q :: l ++ (g2 ++ s) := by
    refine gap_of a0 hg1 ?_
    rw [List.cons_append]
    rcases hq with rfl | rfl <;> exact noGap_cons (by decide) _
  have a2 : psAtom (psGap (src.drop kImport.length)) = (psGap (src.drop kImport.length), none) := by
    refine psAtom_none_of (fun c hc => ?_)
    rw [a1] at hc
    simp only [List.cons_append, List.head?_cons, Option.some.injEq] at hc
    subst hc
    rcases hq with rfl | rfl <;> (unfold NameStart; decide)
  obtain ⟨-, x, a3, a4⟩ := hl.quote a1
  have a5 := Src.drop_pre _ _ _ a1
  obtain ⟨src', b1, b2⟩ := Gives.closing (e := e) (src := psGap ((psGap (src.drop kImport.length)).drop (q :: l).length))
    (gap_of a5 hg2 hc.noGap) hc
  refine ⟨src', b1, ?_⟩
  have hg : GivesAt e (fun p => psImport e p src) st (src', some (encloseImport ms)) st2 := by
    unfold psImport
    simp only [hk, if_true, a2, a4]
    refine GivesAt.bind (a := ((psGap (src.drop kImport.length)).drop (q :: l).length, encloseImport ms)) (st' := st2) ?_ ?_
    · refine GivesAt.bind (f := fun _ => pure ((psGap (src.drop kImport.length)).drop (q :: l).length, some (Node.str x)))
        ((Gives.pure _).at _) ?_
      dsimp only
      rw [a3]
      simp only [show lit ".py" = ['.', 'p', 'y'] from rfl, if_neg hpy]
      refine GivesAt.bind (f := fun _ => importSource e (e.unq (q :: l)) false) ⟨0, fun _ _ => h1⟩ ?_
      exact GivesAt.bind h2 ((Gives.pure _).at _)
    · refine (Gives.bind b2 ?_).at _
      exact Gives.pure _
  refine GivesAt.of_eq (g := fun p => orElse (psImport e p src) _) ?_ (fun p => textLeg_import p hs)
  unfold Yupp.orElse
  exact GivesAt.bind hg ((Gives.pure _).at _)

/-! ## Whole texts -/

/-- Reading files changes nothing else in the tables. -/
def OnlyFiles (st st' : PSt) : Prop :=
  st'.shrink = st.shrink ∧ st'.scripts = st.scripts ∧ st'.world.inclusion = st.world.inclusion

theorem OnlyFiles.trans {a b c : PSt} (h1 : OnlyFiles a b) (h2 : OnlyFiles b c) : OnlyFiles a c :=
  ⟨h2.1.trans h1.1, h2.2.1.trans h1.2.1, h2.2.2.trans h1.2.2⟩

theorem lib_ne_null {a : Str} : a ++ ['.', 'y', 'u'] ≠ lit "<null>" := by
  intro h
  have h1 : (a ++ ['.', 'y', 'u']).getLast? = some 'u' := by simp
  rw [h] at h1
  revert h1
  decide

theorem enclose_trees {f : Bool} {q r : Expanded} {ms ns : List Node} {pre : List Node} (hf : f = pre.isEmpty)
    (h1 : ModuleTrees true q ms) (h2 : ModuleTrees (pre ++ encloseImport ms).isEmpty r ns) :
    ∃ ns', pre ++ encloseImport ms ++ ns = pre ++ ns' ∧ ModuleTrees f (.module q r) ns' := by
  subst hf
  cases ms with
  | nil =>
    refine ⟨ns, by simp [encloseImport], .empty h1 ?_⟩
    simpa [encloseImport] using h2
  | cons m ms =>
    refine ⟨.importBegin :: (m :: ms ++ .importEnd :: ns), by simp [encloseImport], .module h1 (by simp) ?_⟩
    have : (pre ++ encloseImport (m :: ms)).isEmpty = false := by cases pre <;> rfl
    rwa [this] at h2

/-- What is written according to the grammar, with imports, is read. -/
theorem source_modules {known known' : List Str} {xs : List SourcePart} {r : Expanded} (hE : Expands (modeOf e) e known xs r known') :
    ∀ s, Source (modeOf e) xs s → ∀ (t : TextSt) (st : PSt), t.sou.txt = s → (plainNext xs = true → t.gen = none) →
      Knows st known → e.inputFile ∈ known →
      ∃ src' ns st', Knows st' known' ∧ e.inputFile ∈ known' ∧ OnlyFiles st st' ∧ ModuleTrees t.ast.isEmpty r ns ∧
        GivesAt e (fun p => psText e p .eof t) st (src', t.ast ++ ns) st' := by
  induction hE with
  | nil =>
    intro s hS t st ht hg hK hin
    cases hS
    refine ⟨t.sou, [], st, hK, hin, ⟨rfl, rfl, rfl⟩, .nil, ?_⟩
    rw [List.append_nil]
    refine (text_stop (fun p => leg_none_head p (by rw [ht]; intro c hc; cases hc)) ?_).at _
    simp [stopAt, ht]
  | chars _ ih =>
    intro s hS t st ht hg hK hin
    cases hS with
    | chars hw hp hn hS =>
      obtain ⟨t', x, i, a1, a2, a3, a4, a5⟩ := run_all t hw ht hp (hg rfl)
      obtain ⟨src', ns, st', b1, b2, b3, b4, b5⟩ := ih _ hS t' st a1 (by rw [hn]; intro h; cases h) hK hin
      subst a2
      rw [a4, isEmpty_snoc] at b4
      refine ⟨src', .plain x i false :: ns, st', b1, b2, b3, .chars a3 b4, a5 _ _ ?_⟩
      rw [a4, List.append_assoc] at b5
      exact b5
  | piece _ ih =>
    intro s hS t st ht hg hK hin
    cases hS with
    | piece hp hS =>
      obtain ⟨src1, n, a1, a2, a3⟩ := hp.leg ht
      obtain ⟨src', ns, st', b1, b2, b3, b4, b5⟩ := ih _ hS { t with sou := src1, ast := t.ast ++ [n], gen := none } st a1
        (fun _ => rfl) hK hin
      rw [isEmpty_snoc] at b4
      refine ⟨src', n :: ns, st', b1, b2, b3, .piece a2 b4, text_leg_at (a3.at st) ?_⟩
      rw [List.append_assoc] at b5
      exact b5
  | @again _ _ a _ _ ha _ ih =>
    intro s hS t st ht hg hK hin
    cases hS with
    | lib g1 hn g2 hc hS =>
      obtain ⟨d, hd⟩ := hK.null
      have h1 : importSource e (a ++ ['.', 'y', 'u']) true st = .ok (lit "<null>", st) := by
        unfold importSource
        rw [(hK.files _).2 ha]
        rfl
      have h2 : GivesAt e (fun p => p.parse (lit "<null>")) st [] st := by
        refine GivesAt.step (g := fun p => psParse e p (lit "<null>")) ⟨0, fun n _ => ?_⟩ (fun _ => rfl)
        change psParse e (P e n) (lit "<null>") st = _
        unfold psParse
        rw [pm_bind_ok (show PM.get st = .ok (st, st) from rfl), hd]
        rfl
      obtain ⟨src1, a1, a2⟩ := import_lib g1 hn g2 hc ht h1 h2
      obtain ⟨src', ns, st', b1, b2, b3, b4, b5⟩ := ih _ hS { t with sou := src1, ast := t.ast ++ encloseImport [], gen := none } st a1
        (fun _ => rfl) hK hin
      have he : t.ast ++ encloseImport [] = t.ast := by simp [encloseImport]
      refine ⟨src', ns, st', b1, b2, b3, ?_, text_leg_at a2 ?_⟩
      · rw [he] at b4; exact b4
      · rw [he] at b5 ⊢; exact b5
  | @lib known known1 known2 a path text xs ys q r ha hr hY _ _ ih1 ih2 =>
    intro s hS t st ht hg hK hin
    cases hS with
    | lib g1 hn g2 hc hS =>
      have h1 : importSource e (a ++ ['.', 'y', 'u']) true st = .ok (a ++ ['.', 'y', 'u'], loaded st (a ++ ['.', 'y', 'u']) path text true) := by
        unfold importSource
        have : (st.world.find (a ++ ['.', 'y', 'u'])).isSome = false := by
          rw [Bool.eq_false_iff]; exact fun h => ha ((hK.files _).1 h)
        rw [this, hr]
        rfl
      obtain ⟨src0, ms, st1, c1, c2, c3, c4, c5⟩ := ih1 _ hY { sou := { txt := unifyEol text, loc := some ⟨a ++ ['.', 'y', 'u'], 0⟩ } }
        (loaded st (a ++ ['.', 'y', 'u']) path text true) rfl (fun _ => rfl) (hK.loaded lib_ne_null) (by simp [hin])
      have h2 := parse_file (find_loaded st (a ++ ['.', 'y', 'u']) path text true) (fun _ h => ha (h ▸ hin)) c5
      obtain ⟨src1, a1, a2⟩ := import_lib g1 hn g2 hc ht h1 h2
      obtain ⟨src', ns, st', b1, b2, b3, b4, b5⟩ := ih2 _ hS { t with sou := src1, ast := t.ast ++ encloseImport ms, gen := none } st1 a1
        (fun _ => rfl) c1 c2
      obtain ⟨ns', d1, d2⟩ := enclose_trees rfl c4 b4
      refine ⟨src', ns', st', b1, b2, .trans ⟨rfl, rfl, rfl⟩ (c3.trans b3), d2, text_leg_at a2 ?_⟩
      rw [← d1]
      exact b5
  | @file known known1 known2 l path text xs ys q r hpy hin' hnull hr hY _ _ ih1 ih2 =>
    intro s hS t st ht hg hK hin
    cases hS with
    | @file qm l g1 g2 _ _ _ hg1 hq hl hg2 hc hS =>
      have h1 : importSource e (e.unq (qm :: l)) false st = .ok (e.unq (qm :: l), loaded st (e.unq (qm :: l)) path text false) := by
        unfold importSource
        rw [hr]
        rfl
      obtain ⟨src0, ms, st1, c1, c2, c3, c4, c5⟩ := ih1 _ hY { sou := { txt := unifyEol text, loc := some ⟨e.unq (qm :: l), 0⟩ } }
        (loaded st (e.unq (qm :: l)) path text false) rfl (fun _ => rfl) (hK.loaded hnull) (by simp [hin])
      have h2 := parse_file (find_loaded st (e.unq (qm :: l)) path text false) (fun _ h => hin' h.symm) c5
      obtain ⟨src1, a1, a2⟩ := import_file hg1 hq hl hg2 hc ht hpy h1 h2
      obtain ⟨src', ns, st', b1, b2, b3, b4, b5⟩ := ih2 _ hS { t with sou := src1, ast := t.ast ++ encloseImport ms, gen := none } st1 a1
        (fun _ => rfl) c1 c2
      obtain ⟨ns', d1, d2⟩ := enclose_trees rfl c4 b4
      refine ⟨src', ns', st', b1, b2, .trans ⟨rfl, rfl, rfl⟩ (c3.trans b3), d2, text_leg_at a2 ?_⟩
      rw [← d1]
      exact b5

end Yupp
