import Verif.Spec.Free
import Verif.Lemmas.Eval
import Verif.Lemmas.EvalMono
import Verif.Lemmas.Parse
import Verif.Lemmas.ParseMono
/-!
# Parsing and evaluating texts without macros
-/

namespace Yupp

open Spec

theorem macroFree_tail {c : Char} {t : Str} (h : MacroFree (c :: t)) : MacroFree t := by
  intro a b
  have := h (c :: a) b
  constructor
  · intro ht; exact this.1 (by rw [ht]; rfl)
  · intro ht; exact this.2 (by rw [ht]; rfl)

theorem macroFree_drop {t : Str} (n : Nat) (h : MacroFree t) : MacroFree (t.drop n) := by
  intro a b
  have := h (t.take n ++ a) b
  constructor
  · intro ht; apply this.1; rw [List.append_assoc, List.append_assoc, ← List.append_assoc a, ← ht, List.take_append_drop]
  · intro ht; apply this.2; rw [List.append_assoc, List.append_assoc, ← List.append_assoc a, ← ht, List.take_append_drop]

/-- No mark of the grammar that begins with `($` is there. -/
theorem free_starts {s : Src} (h : MacroFree s.txt) (k : Str) : s.starts ('(' :: '$' :: k) = false := by
  unfold Src.starts
  cases hp : List.isPrefixOf ('(' :: '$' :: k) s.txt with
  | false => rfl
  | true =>
    obtain ⟨r, hr⟩ := List.isPrefixOf_iff_prefix.1 hp
    exact absurd hr.symm (by simpa using (h [] (k ++ r)).1)

theorem free_bquote {s : Src} (h : MacroFree s.txt) : s.starts kBquote = false := by
  unfold Src.starts
  cases hp : List.isPrefixOf kBquote s.txt with
  | false => rfl
  | true =>
    obtain ⟨r, hr⟩ := List.isPrefixOf_iff_prefix.1 hp
    exact absurd hr.symm (by simpa [kBquote] using (h [] r).2)

/-- Nodes made of such a text. -/
inductive Fragment : Node → Prop
  | plain (s i) : Fragment (.plain s i false)
  | str (s) : Fragment (.str s)
  | remark (s) : Fragment (.remark s)

/-- The texts of the nodes. -/
def fragText : Node → Str
  | .plain s _ _ => s.txt
  | .str s => s.txt
  | .remark s => s.txt
  | _ => []

def fragTexts (xs : List Node) : Str := xs.flatMap fragText

theorem fragTexts_append (xs ys : List Node) : fragTexts (xs ++ ys) = fragTexts xs ++ fragTexts ys := by
  simp [fragTexts]

/-- The state of the loop: the nodes hold the text so far. -/
structure TextOK (t : TextSt) : Prop where
  frag : ∀ x ∈ t.ast, Fragment x
  gen : ∀ g, t.gen = some g → ∃ pre i, t.ast = pre ++ [.plain (g.start.take g.i) i false] ∧
    t.sou.txt = g.start.txt.drop g.i ∧ g.i ≤ g.start.txt.length

theorem plainStep_ok {t t' : TextSt} (h : TextOK t) (hs : plainStep t = some t') :
    TextOK t' ∧ fragTexts t'.ast ++ t'.sou.txt = fragTexts t.ast ++ t.sou.txt ∧
    t'.sou.txt = t.sou.txt.drop 1 ∧ t.sou.txt ≠ [] := by
  unfold plainStep at hs
  cases htx : t.sou.txt with
  | nil => simp only [htx] at hs; cases hs
  | cons c r =>
    cases hg : t.gen with
    | none =>
      simp only [hg, htx] at hs
      split at hs
      · cases hs
      · cases hs
        refine ⟨⟨?_, ?_⟩, ?_, by simp [Src.drop, htx], by simp⟩
        · intro x hx
          simp only [List.mem_append, List.mem_singleton] at hx
          rcases hx with hx | rfl
          · exact h.frag x hx
          · exact .plain _ _
        · intro g hg'
          cases hg'
          exact ⟨t.ast, _, rfl, by simp [Src.drop], by simp [htx]⟩
        · simp [fragTexts_append, fragTexts, fragText, Src.take, Src.drop, htx]
    | some g =>
      obtain ⟨pre, i, hast, hsou, hle⟩ := h.gen g hg
      simp only [hg, htx] at hs
      split at hs
      · cases hs
      · cases hs
        have hlt : g.i < g.start.txt.length := by
          have := congrArg List.length hsou
          rw [htx] at this
          simp at this
          omega
        refine ⟨⟨?_, ?_⟩, ?_, by simp [Src.drop, htx], by simp⟩
        · intro x hx
          simp only [List.mem_append, List.mem_singleton] at hx
          rcases hx with hx | rfl
          · exact h.frag x (List.dropLast_subset _ hx)
          · exact .plain _ _
        · intro g' hg'
          cases hg'
          refine ⟨t.ast.dropLast, _, rfl, ?_, by simp; omega⟩
          simp only [Src.drop, hsou, List.drop_drop]
        · rw [hast, List.dropLast_concat, fragTexts_append, fragTexts_append, List.append_assoc, List.append_assoc]
          congr 1
          have h1 : fragTexts [Node.plain (g.start.take (g.i + 1)) (indentStep g.indent c) false] = g.start.txt.take (g.i + 1) := by
            simp [fragTexts, fragText, Src.take]
          have h2 : fragTexts [Node.plain (g.start.take g.i) i false] = g.start.txt.take g.i := by
            simp [fragTexts, fragText, Src.take]
          rw [h1, h2]
          simp only [Src.drop]
          rw [hsou, List.drop_drop, ← htx, hsou]
          rw [List.take_append_drop, List.take_append_drop]

theorem pm_bind_ok {m : PM α} {f : α → PM β} {s : PSt} {a : α} {s' : PSt} (h : m s = .ok (a, s')) :
    (m >>= f) s = f a s' := by
  change PM.bind m f s = _
  unfold PM.bind
  rw [h]

/-- A rule that cannot match. -/
theorem orElse_no {r : PM (Src × Option α)} {next : Src → PM (Src × Option α)} {s : Src} {st : PSt}
    (h : r st = .ok ((s, none), st)) : orElse r next st = next s st := by
  unfold orElse
  change PM.bind r _ st = _
  unfold PM.bind
  rw [h]

/-- A rule for one node in the list of alternatives. -/
def oneNode (r : PM (Src × Option Node)) : PM (Src × Option (List Node)) := do
  let (s, leg) ← r
  pure (s, leg.map ([·]))

theorem oneNode_ok {r : PM (Src × Option Node)} {st st' : PSt} {s : Src} {o : Option Node} (h : r st = .ok ((s, o), st')) :
    oneNode r st = .ok ((s, o.map ([·])), st') := by
  unfold oneNode
  change PM.bind r _ st = _
  unfold PM.bind
  rw [h]; rfl

theorem oneNode_err {r : PM (Src × Option Node)} {st : PSt} (h : r st = .err) : oneNode r st = .err := by
  unfold oneNode
  change PM.bind r _ st = _
  unfold PM.bind
  rw [h]

theorem orElse_some {r : PM (Src × Option α)} {next : Src → PM (Src × Option α)} {s : Src} {st st' : PSt} {x : α}
    (h : r st = .ok ((s, some x), st')) : orElse r next st = .ok ((s, some x), st') := by
  unfold orElse
  change PM.bind r _ st = _
  unfold PM.bind
  rw [h]; rfl

theorem orElse_err {r : PM (Src × Option α)} {next : Src → PM (Src × Option α)} {st : PSt} (h : r st = .err) :
    orElse r next st = .err := by
  unfold orElse
  change PM.bind r _ st = _
  unfold PM.bind
  rw [h]

/-- A literal, or nothing; in the C mode no exception. -/
theorem free_quote (e : PEnv) (s : Src) (st : PSt) (h : MacroFree s.txt) :
    (psQuote e s st = .err ∧ e.outputPython = true) ∨ psQuote e s st = .ok ((s, none), st) ∨
    ∃ k x, 0 < k ∧ k ≤ s.txt.length ∧ psQuote e s st = .ok ((s.drop k, some x), st) ∧ Fragment x ∧ fragText x = s.txt.take k := by
  have hq : psQuoted s st = .ok ((s, none), st) := by
    unfold psQuoted
    rw [free_bquote h, show s.starts kQuote = false from free_starts h _]
    rfl
  unfold psQuote
  split
  · next hp =>
    cases hl : pyStrLen s.txt with
    | no => exact .inr (.inl hq)
    | raises => exact .inl ⟨rfl, hp⟩
    | yes n =>
      have := pyStrLen_le hl
      exact .inr (.inr ⟨n, _, this.1, this.2, rfl, .str _, rfl⟩)
  · cases hl : cStrLen s.txt with
    | none => exact .inr (.inl hq)
    | some n =>
      have := cStrLen_le hl
      exact .inr (.inr ⟨n, _, this.1, this.2, rfl, .str _, rfl⟩)

/-- A remark, or nothing; no exception if comments are not looked for. -/
theorem free_remark (e : PEnv) (s : Src) (st : PSt) :
    (psRemark e s st = .err ∧ e.skip ≠ .none) ∨ psRemark e s st = .ok ((s, none), st) ∨
    ∃ k x, 0 < k ∧ k ≤ s.txt.length ∧ psRemark e s st = .ok ((s.drop k, some x), st) ∧ Fragment x ∧ fragText x = s.txt.take k := by
  unfold psRemark
  cases hsk : e.skip with
  | none => exact .inr (.inl rfl)
  | c =>
    simp only []
    cases hl : remarkCLen s.txt with
    | no => exact .inr (.inl rfl)
    | raises => exact .inl ⟨rfl, by simp⟩
    | yes n =>
      have := remarkCLen_le hl
      exact .inr (.inr ⟨n, _, this.1, this.2, rfl, .remark _, rfl⟩)
  | python =>
    simp only []
    cases hl : remarkPyLen s.txt with
    | no => exact .inr (.inl rfl)
    | raises => exact .inl ⟨rfl, by simp⟩
    | yes n =>
      have := remarkPyLen_le hl
      exact .inr (.inr ⟨n, _, this.1, this.2, rfl, .remark _, rfl⟩)

/-- Of the alternatives of a text before plain text only literals and remarks are left. -/
theorem free_alternatives (e : PEnv) (p : Parsers) (s : Src) (st : PSt) (h : MacroFree s.txt) :
    psTextLeg e p s st = orElse (oneNode (psQuote e s)) (fun s => oneNode (psRemark e s)) st := by
  have hno : ∀ k, s.starts ('(' :: '$' :: k) = false := free_starts h
  have h1 : psSet p s st = .ok ((s, none), st) := by
    unfold psSet; rw [show s.starts kSet = false from hno _]; rfl
  have h2 : psLet p s st = .ok ((s, none), st) := by
    unfold psLet; rw [show s.starts kLet = false from hno _]; rfl
  have h3 : psImport e p s st = .ok ((s, none), st) := by
    unfold psImport; rw [show s.starts kImport = false from hno _]; rfl
  have h4 : psMacro s st = .ok ((s, none), st) := by
    unfold psMacro; rw [show s.starts kMacro = false from hno _]; rfl
  have h5 : psComment s st = .ok ((s, none), st) := by
    unfold psComment; rw [show s.starts kComment = false from hno _]; rfl
  have h6 : psApplication p s st = .ok ((s, none), st) := by
    unfold psApplication; rw [show s.starts kApply = false from hno _]; rfl
  change orElse (oneNode (psSet p s)) (fun s => orElse (oneNode (psLet p s)) fun s =>
      orElse (psImport e p s) fun s => orElse (oneNode (psMacro s)) fun s => orElse (oneNode (psComment s)) fun s =>
      orElse (oneNode (psApplication p s)) fun s => orElse (oneNode (psQuote e s)) fun s => oneNode (psRemark e s)) st = _
  rw [orElse_no (oneNode_ok h1), orElse_no (oneNode_ok h2), orElse_no h3, orElse_no (oneNode_ok h4),
      orElse_no (oneNode_ok h5), orElse_no (oneNode_ok h6)]

/-- The alternatives of a text before plain text: only literals and remarks. -/
theorem free_leg (e : PEnv) (p : Parsers) (s : Src) (st : PSt) (h : MacroFree s.txt) :
    (psTextLeg e p s st = .err ∧ (e.outputPython = true ∨ e.skip ≠ .none)) ∨ psTextLeg e p s st = .ok ((s, none), st) ∨
    ∃ k x, 0 < k ∧ k ≤ s.txt.length ∧ psTextLeg e p s st = .ok ((s.drop k, some [x]), st) ∧ Fragment x ∧
      fragText x = s.txt.take k := by
  rw [free_alternatives e p s st h]
  rcases free_quote e s st h with ⟨hq, hp⟩ | hq | ⟨k, x, hk, hk', hq, hf, ht⟩
  · exact .inl ⟨orElse_err (oneNode_err hq), .inl hp⟩
  · rw [orElse_no (oneNode_ok hq)]
    rcases free_remark e s st with ⟨hr, hp⟩ | hr | ⟨k, x, hk, hk', hr, hf, ht⟩
    · exact .inl ⟨oneNode_err hr, .inr hp⟩
    · exact .inr (.inl (oneNode_ok hr))
    · exact .inr (.inr ⟨k, x, hk, hk', oneNode_ok hr, hf, ht⟩)
  · exact .inr (.inr ⟨k, x, hk, hk', orElse_some (oneNode_ok hq), hf, ht⟩)

/-- Why a text without macros may be refused: in the C mode only for its characters. -/
def Refusal (e : PEnv) (t : Str) : Prop := e.outputPython = true ∨ e.skip ≠ .none ∨ ∃ c ∈ t, isAny c = false

theorem Refusal.drop {e : PEnv} {t : Str} (n : Nat) (h : Refusal e (t.drop n)) : Refusal e t := by
  rcases h with h | h | ⟨c, hc, h⟩
  · exact .inl h
  · exact .inr (.inl h)
  · exact .inr (.inr ⟨c, List.mem_of_mem_drop hc, h⟩)

/-- The whole text: the nodes hold it and nothing else is touched. -/
theorem free_text (e : PEnv) : ∀ (n : Nat) (t : TextSt) (st : PSt), MacroFree t.sou.txt → TextOK t →
    t.sou.txt.length < n →
    ((P e n).text .eof t st = .err ∧ Refusal e t.sou.txt) ∨
    ∃ r xs, (P e n).text .eof t st = .ok ((r, xs), st) ∧ (∀ x ∈ xs, Fragment x) ∧
      fragTexts xs = fragTexts t.ast ++ t.sou.txt := by
  intro n
  induction n with
  | zero => intro t st _ _ h; exact absurd h (Nat.not_lt_zero _)
  | succ n ih =>
    intro t st hf ht hl
    change (psText e (P e n) .eof t st = .err ∧ _) ∨ ∃ r xs, psText e (P e n) .eof t st = .ok ((r, xs), st) ∧ _
    unfold psText
    rcases free_leg e (P e n) t.sou st hf with ⟨h, hr⟩ | h | ⟨k, x, hk, hk', h, hx, hxt⟩
    · left
      refine ⟨?_, by rcases hr with hr | hr <;> simp [Refusal, hr]⟩
      change PM.bind _ _ st = _
      unfold PM.bind
      rw [h]
    · rw [pm_bind_ok h]
      simp only []
      cases hst : stopAt .eof t.sou t.sq t.pth with
      | some rest =>
        right
        refine ⟨rest, t.ast, rfl, ht.frag, ?_⟩
        unfold stopAt at hst
        simp only [] at hst
        split at hst
        · next he => simp [List.isEmpty_iff.1 he]
        · cases hst
      | none =>
        simp only []
        have hne : t.sou.txt ≠ [] := by
          intro he
          simp [stopAt, he] at hst
        cases hps : plainStep t with
        | none =>
          left
          refine ⟨by
            change PM.bind _ _ st = _
            unfold PM.bind
            change (match PM.ofOption (plainStep t) st with | _ => _) = _
            rw [hps], ?_⟩
          unfold plainStep at hps
          cases htx : t.sou.txt with
          | nil => exact absurd htx hne
          | cons c r =>
            cases hg : t.gen <;> simp only [hg, htx] at hps <;> split at hps
            · next hc => exact .inr (.inr ⟨c, by simp, by simpa using hc⟩)
            · cases hps
            · next hc => exact .inr (.inr ⟨c, by simp, by simpa using hc⟩)
            · cases hps
        | some t' =>
          obtain ⟨h1, h2, h3, h4⟩ := plainStep_ok ht hps
          have hb : PM.ofOption (some t') st = .ok (t', st) := rfl
          have hlen : t'.sou.txt.length < n := by
            rw [h3, List.length_drop]
            have := List.length_pos_iff.2 hne
            omega
          rw [pm_bind_ok hb]
          rcases ih t' st (h3 ▸ macroFree_drop 1 hf) h1 hlen with ⟨h5, h6⟩ | ⟨r, xs, h5, h6, h7⟩
          · exact .inl ⟨h5, (h3 ▸ h6 : Refusal e (t.sou.txt.drop 1)).drop 1⟩
          · exact .inr ⟨r, xs, h5, h6, by rw [h7, h2]⟩
    · rw [pm_bind_ok h]
      simp only []
      have hd : (t.sou.drop k).txt = t.sou.txt.drop k := rfl
      have hlen : (t.sou.drop k).txt.length < n := by
        rw [hd, List.length_drop]
        omega
      rcases ih { t with sou := t.sou.drop k, ast := t.ast ++ [x], gen := none } st (macroFree_drop k hf)
        ⟨fun y hy => by
          simp only [List.mem_append, List.mem_singleton] at hy
          rcases hy with hy | rfl
          · exact ht.frag y hy
          · exact hx, fun g hg => by cases hg⟩ hlen with ⟨h5, h6⟩ | ⟨r, xs, h5, h6, h7⟩
      · exact .inl ⟨h5, Refusal.drop k h6⟩
      · exact .inr ⟨r, xs, h5, h6, by
          rw [h7]
          simp [fragTexts, hxt, Src.drop]⟩

/-- A forbidden character outside of literals is refused. -/
theorem free_forbidden (e : PEnv) (hp : e.outputPython = false) (hk : e.skip = .none) : ∀ (n : Nat) (t : TextSt) (st : PSt)
    (a : Str) (c : Char) (b : Str), MacroFree t.sou.txt → t.sou.txt = a ++ c :: b → '"' ∉ a → '\'' ∉ a → isAny c = false →
    a.length < n → (P e n).text .eof t st = .err := by
  intro n
  induction n with
  | zero => intro t st a c b _ _ _ _ _ h; exact absurd h (Nat.not_lt_zero _)
  | succ n ih =>
    intro t st a c b hf ht h1 h2 hc hl
    change psText e (P e n) .eof t st = .err
    have hq : cStrLen t.sou.txt = none := by
      cases a with
      | nil =>
        rw [ht, List.nil_append]
        unfold cStrLen
        split
        · next h => cases h; exact absurd hc (by decide)
        · next h => cases h; exact absurd hc (by decide)
        · rfl
      | cons d a =>
        rw [ht, List.cons_append]
        unfold cStrLen
        split
        · next h => cases h; simp at h1
        · next h => cases h; simp at h2
        · rfl
    have hleg : psTextLeg e (P e n) t.sou st = .ok ((t.sou, none), st) := by
      rw [free_alternatives e (P e n) t.sou st hf]
      have hpq : psQuote e t.sou st = .ok ((t.sou, none), st) := by
        unfold psQuote
        rw [if_neg (by simp [hp]), hq]
        simp only []
        unfold psQuoted
        rw [free_bquote hf, show t.sou.starts kQuote = false from free_starts hf _]
        rfl
      rw [orElse_no (oneNode_ok hpq)]
      have hr : psRemark e t.sou st = .ok ((t.sou, none), st) := by
        unfold psRemark
        rw [hk]
        rfl
      exact oneNode_ok hr
    unfold psText
    rw [pm_bind_ok hleg]
    simp only []
    have hst : stopAt .eof t.sou t.sq t.pth = none := by
      unfold stopAt
      rw [ht]
      simp
    rw [hst]
    simp only []
    cases hps : plainStep t with
    | none =>
      change PM.bind _ _ st = _
      unfold PM.bind
      change (match PM.ofOption (plainStep t) st with | _ => _) = _
      rw [hps]
    | some t' =>
      have hb : PM.ofOption (some t') st = .ok (t', st) := rfl
      rw [pm_bind_ok hb]
      have hd : t'.sou.txt = t.sou.txt.drop 1 ∧ ∀ c r, t.sou.txt = c :: r → isAny c = true := by
        unfold plainStep at hps
        cases htx : t.sou.txt with
        | nil => simp only [htx] at hps; cases hps
        | cons c r =>
          cases hg : t.gen <;> simp only [hg, htx] at hps <;> split at hps
          · cases hps
          · next h => cases hps; exact ⟨by simp [Src.drop, htx], fun c r h' => by cases h'; simpa using h⟩
          · cases hps
          · next h => cases hps; exact ⟨by simp [Src.drop, htx], fun c r h' => by cases h'; simpa using h⟩
      cases a with
      | nil => rw [hd.2 c b ht] at hc; cases hc
      | cons d a =>
        refine ih t' st a c b ?_ ?_ ?_ ?_ hc ?_
        · rw [hd.1]; exact macroFree_drop 1 hf
        · rw [hd.1, ht]; rfl
        · intro h; exact h1 (List.mem_cons_of_mem _ h)
        · intro h; exact h2 (List.mem_cons_of_mem _ h)
        · simp at hl; omega

/-- The nodes of a whole file. In the Python mode the file has no magic comment. -/
theorem free_parse (e : PEnv) (n : Nat) (input : Option Str) (text : Str) (hf : MacroFree (unifyEol text))
    (hh : e.outputPython = true → psHeader e.word { txt := unifyEol text, loc := some ⟨e.inputFile, 0⟩ } = none)
    (hl : (unifyEol text).length + 1 < n) :
    ((P e n).parse e.inputFile (PSt.start e input text) = .err ∧ Refusal e (unifyEol text)) ∨
    ∃ xs, (P e n).parse e.inputFile (PSt.start e input text) = .ok (xs, PSt.start e input text) ∧
      (∀ x ∈ xs, Fragment x) ∧ fragTexts xs = unifyEol text := by
  cases n with
  | zero => omega
  | succ n =>
    change (psParse e (P e n) e.inputFile _ = .err ∧ _) ∨ ∃ xs, psParse e (P e n) e.inputFile _ = _ ∧ _
    have hfind : (PSt.start e input text).world.find e.inputFile = some (.path input, unifyEol text) := by
      simp [PSt.start, World.find]
    unfold psParse
    have hget : PM.get (PSt.start e input text) = .ok (PSt.start e input text, PSt.start e input text) := rfl
    rw [pm_bind_ok hget]
    rw [hfind]
    cases htx : unifyEol text with
    | nil => exact .inr ⟨[], rfl, by simp, rfl⟩
    | cons c r =>
      have hrun : ∀ (m : PM (List Node)), m = psRun (P e n) { txt := c :: r, loc := some ⟨e.inputFile, 0⟩ } [] →
          (m (PSt.start e input text) = .err ∧ Refusal e (c :: r)) ∨
          ∃ xs, m (PSt.start e input text) = .ok (xs, PSt.start e input text) ∧ (∀ x ∈ xs, Fragment x) ∧
            fragTexts xs = c :: r := by
        rintro m rfl
        unfold psRun
        rw [if_neg (by simp)]
        rcases free_text e n { sou := { txt := c :: r, loc := some ⟨e.inputFile, 0⟩ } } (PSt.start e input text)
          (htx ▸ hf) ⟨by simp, by simp⟩ (by rw [htx] at hl; simp at hl ⊢; omega) with ⟨h1, h2⟩ | ⟨r', xs, h1, h2, h3⟩
        · left
          refine ⟨?_, h2⟩
          change PM.bind _ _ _ = _
          unfold PM.bind
          rw [h1]
        · right
          refine ⟨xs, ?_, h2, by simpa [fragTexts] using h3⟩
          rw [pm_bind_ok h1]
          cases xs <;> rfl
      simp only []
      split
      · next hc =>
        have := hh (by simpa using hc)
        rw [htx] at this
        rw [this]
        exact hrun _ rfl
      · exact hrun _ rfl

/-! ## Evaluation -/

theorem Fragment.value {x : Node} (h : Fragment x) : Value x := by
  cases h
  · exact .plain _ _ _
  · exact .str _
  · exact .remark _

/-- Fragments are kept as they are. -/
theorem evalT_fragments (e : EEnv) : ∀ (xs : List Node), (∀ x ∈ xs, Fragment x) → ∀ (indent : Indent) (s : ESt),
    evalT (ev e) indent 0 false xs s = .ok (xs, s)
  | [], _, _, _ => rfl
  | x :: xs, h, indent, s => by
    have hx := h x (by simp)
    have ih := fun i => evalT_fragments e xs (fun y hy => h y (by simp [hy])) i s
    have hv := ev_value e hx.value s
    cases hx <;> simp only [evalT, Bool.false_eq_true, if_false] <;> rw [em_bind_ok hv] <;> simp only [pieceOf] <;>
      rw [em_bind_ok (ih _)] <;> rfl

theorem areTerms_fragments : ∀ (xs : List Node), (∀ x ∈ xs, Fragment x) → areTerms xs = true
  | [], _ => rfl
  | x :: xs, h => by
    simp only [areTerms, areTerms_fragments xs (fun y hy => h y (by simp [hy])), Bool.and_true]
    cases h x (by simp) <;> rfl

theorem plainStrs_fragments (cfg : Config) (x : TextExt) : ∀ (xs : List Node), (∀ x ∈ xs, Fragment x) →
    plainStrs cfg x xs = fragTexts xs
  | [], _ => rfl
  | y :: ys, h => by
    simp only [plainStrs, plainStrs_fragments cfg x ys (fun z hz => h z (by simp [hz]))]
    have hy := h y (by simp)
    cases hy <;> simp [plainStr, strOf, fragTexts, fragText, getTrimmed]

theorem foldl_addText_frag : ∀ (rs : List Res) (r : Res), (rs.foldl Res.addText r).txt = r.txt ++ rs.flatMap Res.txt
  | [], r => by simp
  | r' :: rs, r => by
    rw [List.foldl_cons, foldl_addText_frag rs]
    have : (r.addText r').txt = r.txt ++ r'.txt := by
      unfold Res.addText
      split
      · next h => simp [List.isEmpty_iff.1 h]
      · rfl
    simp [this]

theorem addTexts_frag (rs : List Res) : (addTexts rs).txt = rs.flatMap Res.txt := by
  cases rs with
  | nil => rfl
  | cons r rs => simp [addTexts, foldl_addText_frag]

theorem plainBrowses_fragments (cfg : Config) (x : TextExt) : ∀ (xs : List Node), (∀ x ∈ xs, Fragment x) →
    (plainBrowses cfg x xs).flatMap Res.txt = fragTexts xs
  | [], _ => rfl
  | y :: ys, h => by
    simp only [plainBrowses, List.flatMap_cons, plainBrowses_fragments cfg x ys (fun z hz => h z (by simp [hz]))]
    have hy := h y (by simp)
    cases hy <;> simp [plainBrowse, srcRes, fragTexts, fragText, getTrimmedWithBrowse]

/-- The text of fragments. -/
theorem ev_fragments (e : EEnv) (xs : List Node) (h : ∀ x ∈ xs, Fragment x) (s : ESt) :
    ∃ v, Evaluates e (.text xs) s v s ∧
      ((e.cfg.browse = false ∧ v = .pstr (fragTexts xs)) ∨ ∃ r, e.cfg.browse = true ∧ v = .result r ∧ r.txt = fragTexts xs) := by
  have h1 : ev e (.text xs) s = finishT e (.str []) xs s := by
    rw [ev_at]
    change ev e (.t xs (.str [])) s = _
    rw [ev_at]
    change (evalT (ev e) (.str []) 0 false xs >>= fun ys => finishT e (.str []) ys) s = _
    rw [em_bind_ok (evalT_fragments e xs h _ s)]
  unfold finishT at h1
  rw [areTerms_fragments xs h, if_pos rfl] at h1
  cases hb : e.cfg.browse with
  | false =>
    rw [hb] at h1
    refine ⟨_, evaluates_iff.2 h1, .inl ⟨rfl, ?_⟩⟩
    simp [plainStr, plainStrs_fragments _ _ xs h]
  | true =>
    rw [hb] at h1
    refine ⟨_, evaluates_iff.2 h1, .inr ⟨_, rfl, rfl, ?_⟩⟩
    simp [plainBrowse, addTexts_frag, plainBrowses_fragments _ _ xs h]

/-! ## Translation -/

/-- A translation either raises, for a reason found in the text or the mode, or keeps the text. -/
theorem free_run (e : EEnv) (readable : Node → Str) (input : Option Str) (seen : List Node) (text : Str)
    (hf : MacroFree (unifyEol text))
    (hh : e.pe.outputPython = true → psHeader e.pe.word { txt := unifyEol text, loc := some ⟨e.pe.inputFile, 0⟩ } = none) :
    (Translates e readable input seen text { raw := .raised } ∧ Refusal e.pe (unifyEol text)) ∨
    (e.cfg.browse = false ∧ Translates e readable input seen text { raw := .str (unifyEol text) }) ∨
    ∃ r, e.cfg.browse = true ∧ Translates e readable input seen text { raw := .res r } ∧ r.txt = unifyEol text := by
  rcases free_parse e.pe ((unifyEol text).length + 2) input text hf hh (by omega) with ⟨h, hr⟩ | ⟨xs, h, hx, ht⟩
  · exact .inl ⟨⟨_, by unfold runAt; rw [h]⟩, hr⟩
  · obtain ⟨v, ⟨m, hm⟩, hv⟩ := ev_fragments e xs hx { p := PSt.start e.pe input text, seen := seen }
    have hp := (P_le e.pe (Nat.le_add_right ((unifyEol text).length + 2) m)).parse e.pe.inputFile (PSt.start e.pe input text)
    have hE := E_le e (Nat.le_add_left m ((unifyEol text).length + 2)) (.text xs) { p := PSt.start e.pe input text, seen := seen }
    rw [h] at hp
    rw [hm] at hE
    have key : runAt e readable ((unifyEol text).length + 2 + m) input seen text =
        .ok { raw := rawOf e readable { p := PSt.start e.pe input text, seen := seen } v } := by
      unfold runAt
      rw [← (hp.resolve_left (by simp))]
      simp only []
      rw [← (hE.resolve_left (by simp))]
      rfl
    rcases hv with ⟨hb, rfl⟩ | ⟨r, hb, rfl, hr⟩
    · exact .inr (.inl ⟨hb, _, by rw [key, ht]; rfl⟩)
    · exact .inr (.inr ⟨r, hb, ⟨_, key⟩, by rw [hr, ht]⟩)

/-- A translation has one result. -/
theorem translates_det {e : EEnv} {readable : Node → Str} {input : Option Str} {seen : List Node} {text : Str} {r1 r2 : Run}
    (h1 : Translates e readable input seen text r1) (h2 : Translates e readable input seen text r2) : r1 = r2 := by
  obtain ⟨n, h1⟩ := h1
  obtain ⟨m, h2⟩ := h2
  have key : ∀ (n : Nat) (r : Run), runAt e readable n input seen text = .ok r → ∀ k,
      runAt e readable (n + k) input seen text = .ok r := by
    intro n r h k
    have hp := (P_le e.pe (Nat.le_add_right n k)).parse e.pe.inputFile (PSt.start e.pe input text)
    unfold runAt at h ⊢
    cases hq : (P e.pe n).parse e.pe.inputFile (PSt.start e.pe input text) with
    | timeout => rw [hq] at h; cases h
    | err =>
      rw [hq] at h hp
      rw [← hp.resolve_left (by simp)]
      exact h
    | ok x =>
      obtain ⟨xs, st⟩ := x
      rw [hq] at h hp
      rw [← hp.resolve_left (by simp)]
      have hE := E_le e (Nat.le_add_right n k) (.text xs) { p := st, seen := seen }
      simp only [] at h ⊢
      cases hq : E e n (.text xs) { p := st, seen := seen } with
      | timeout => rw [hq] at h; cases h
      | err =>
        rw [hq] at h hE
        rw [← hE.resolve_left (by simp)]
        exact h
      | ok x =>
        rw [hq] at h hE
        rw [← hE.resolve_left (by simp)]
        exact h
  have a := key n r1 h1 m
  have b := key m r2 h2 n
  rw [Nat.add_comm m n, a] at b
  cases b
  rfl

end Yupp
