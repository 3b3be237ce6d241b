import Verif.Spec.CoroInit
import Verif.Props.CoroH
/-!
# C106 — Macros with several names in several places
-/

namespace Yupp
open Spec

theorem find_given {a : Str} : ∀ {ps ts : List Str}, ts.length = ps.length → a ∈ ps →
    ∃ q, (ps.zip ts).find? (fun p => decide (p.1 = a)) = some q ∧ q.2 = givenTo ps ts a
  | [], _, _, h => by simp at h
  | p :: ps, [], h, _ => by simp at h
  | p :: ps, t :: ts, hl, h => by
    by_cases hp : p = a
    · exact ⟨(p, t), by simp [hp], by simp [givenTo, hp]⟩
    · have ha : a ∈ ps := by
        rcases List.mem_cons.1 h with h | h
        · exact absurd h.symm hp
        · exact h
      obtain ⟨q, h1, h2⟩ := find_given (by simpa using hl) ha
      exact ⟨q, by simp [hp, h1], by simp [givenTo, Ne.symm hp, h2]⟩

theorem putArgs_among {ps ts : List Str} (hl : ts.length = ps.length) : ∀ {sl : List Slot}, NamesAmong ps sl →
    putArgs (ps.zip ts) sl = completed (givenTo ps ts) sl
  | [], _ => rfl
  | x :: sl, h => by
    have ih := putArgs_among hl (fun a ha => h a (by simp [ha]) : NamesAmong ps sl)
    cases x with
    | plain w => simp [putArgs, completed, ih]
    | quoted w => simp [putArgs, completed, ih]
    | name a =>
      obtain ⟨q, h1, h2⟩ := find_given hl (h a (by simp))
      simp [putArgs, completed, h1, h2, ih]

/-- **C106.** A macro whose text is a template of its parameters: a call gives the template with the texts of the arguments in the
    places of the parameters, each in those of its own parameter, in any mode. -/
theorem C106_templates (e : EEnv) (fn : Node) (text decl : Src) (c0 : Option Src) (ps : List Str) (args vs : List Node) (ts : List Str)
    (loc : Option Loc) (s s1 s2 : ESt) (hf : Evaluates e fn s (.mclosure text (ps.map (fun p => (p, Node.bound))) decl c0) s1)
    (ha : Args e args s1 vs s2) (hps : ps ≠ []) (hl : vs.length = ps.length) (hnd : ps.Nodup) (hva : vaArgs ∉ ps)
    (hv : ∀ v ∈ vs, Value v) (hn : ∀ v ∈ vs, v ≠ .none) (hts : Each2 ArgText vs ts) (htl : ts.length = ps.length)
    (hpn : ∀ p ∈ ps, '(' ∉ p ∧ ')' ∉ p)
    (sl : List Slot) (htext : text.txt = written sl) (hok : SlotsOk (modeOf e.pe) sl) (hsl : NamesAmong ps sl)
    (hplain : PlainOk (modeOf e.pe) (completed (givenTo ps ts) sl))
    (hk : e.pe.outputPython = true → e.pe.inputFile ≠ natStr s2.p.world.inclusion.length) :
    ∃ w s3, s3.env = s2.env ∧ Evaluates e (.apply fn args [] loc) s w s3 ∧ w.text? = some (completed (givenTo ps ts) sl) ∧
      TextInPlace e (.apply fn args [] loc) s (completed (givenTo ps ts) sl) s3 := by
  have hnames : NamesOk (ps.zip ts) := fun q hq => hpn q.1 (List.of_mem_zip (a := q.1) (b := q.2) hq).1
  have hsub : substitute (ps.zip ts) text.txt = completed (givenTo ps ts) sl := by
    rw [htext, C103_substitute hnames hok]
    exact putArgs_among htl hsl
  have hs1 : SlotsOk (modeOf e.pe) [.plain (completed (givenTo ps ts) sl)] := ⟨hplain, by simp, trivial⟩
  have hw : written [.plain (completed (givenTo ps ts) sl)] = completed (givenTo ps ts) sl := by simp [written]
  obtain ⟨nodes, s3, hx, hs3, -, h3, -⟩ := C82_macro e fn text decl c0 ps args vs ts loc s s1 s2 hf ha hps hl hnd hva hv hn hts hnames
    (by rw [hsub, ← hw]; exact written_unmarked hnames hs1 (by simp)) (by rw [hsub]; exact hw ▸ pieces_reads hs1 0 0)
    (by rw [hsub]; exact hplain.1) hk
  have hx' : ∃ (x : Src) (i : Indent), nodes = [.plain x i false] ∧ x.txt = completed (givenTo ps ts) sl := by
    change TextTrees true (.chars (completed (givenTo ps ts) sl) .nil) nodes at hx
    generalize completed (givenTo ps ts) sl = T at hx ⊢
    cases hx with
    | chars _ hx =>
      cases hx
      exact ⟨_, _, rfl, rfl⟩
  obtain ⟨x, i, rfl, hxt⟩ := hx'
  have hsame := h3 (.plain x i false) rfl (by rintro ⟨_, _, h⟩; cases h)
  have hval := (hsame.1 _ _).2 (evaluates_iff.2 (ev_value e (.plain x i false) s3))
  have htxt : (Node.plain x i false).text? = some (completed (givenTo ps ts) sl) := congrArg some hxt
  refine ⟨_, s3, by rw [hs3]; rfl, hval, htxt, ?_⟩
  exact in_place hval (fun h => absurd h hplain.1) (fun _ => ⟨htxt, rfl⟩)

theorem free_val : FreeName (lit "val") where
  name := ⟨'v', ['a', 'l'], rfl, .inl (by decide), by intro x hx; unfold NameChar NameStart; revert x hx; decide⟩
  keyword := by intro r; simp [NoKeyword, lit]
  directive := by intro r; simp [NoDirective, lit]

/-- The macro with the parameters `name` and `val`, given the identifiers `n` and `k` in any form, in any mode and any state, gives
    the text `t`. -/
def GivesTwo (body n k t : Str) : Prop :=
  ∀ (e : EEnv) (fn : Node) (text decl : Src) (c0 : Option Src) (args : List Node) (v u : Node) (loc : Option Loc) (s s1 s2 : ESt),
    Evaluates e fn s (.mclosure text [(lit "name", .bound), (lit "val", .bound)] decl c0) s1 → text.txt = body → Args e args s1 [v, u] s2 →
    Value v → v ≠ .none → ArgText v n → Value u → u ≠ .none → ArgText u k →
    (e.pe.outputPython = true → e.pe.inputFile ≠ natStr s2.p.world.inclusion.length) →
    ∃ w s3, s3.env = s2.env ∧ Evaluates e (.apply fn args [] loc) s w s3 ∧ w.text? = some t ∧ TextInPlace e (.apply fn args [] loc) s t s3

theorem givesTwo_of {n k : Str} (sl : List Slot) (hok : ∀ m, SlotsOk m sl) (hsl : NamesAmong [lit "name", lit "val"] sl)
    (hne : completed (givenTo [lit "name", lit "val"] [n, k]) sl ≠ [])
    (hc : plainCheck (completed (givenTo [lit "name", lit "val"] [n, k]) sl) = true) :
    GivesTwo (written sl) n k (completed (givenTo [lit "name", lit "val"] [n, k]) sl) := by
  intro e fn text decl c0 args v u loc s s1 s2 hf ht ha hv hvn hat hu hun hau hk
  exact C106_templates e fn text decl c0 [lit "name", lit "val"] args [v, u] [n, k] loc s s1 s2 hf ha (by simp) rfl (by decide) (by decide)
    (by simp [hv, hu]) (by simp [hvn, hun]) (.cons hat (.cons hau .nil)) rfl (by decide) sl ht (hok _) hsl
    (plainOk_of_check (modeOf e.pe) hne hc) hk

/-- **C106.** Both macros `semaphore-init` give the name and the value, each in its place. The value may be a number as well as a
    name: it is Latin letters, digits and `_`. -/
theorem C106_semaphore {n k : Str} (hn : CIdent n) (hk : CIdent k) :
    GivesTwo (lit " ($name) = ($val)") n k (semInitText n k) ∧
    GivesTwo (lit " SEMAPHORE_INIT( ($name), ($val) )") n k (hSemInitText n k) := by
  have e1 : givenTo [lit "name", lit "val"] [n, k] (lit "name") = n := by simp [givenTo]
  have e2 : givenTo [lit "name", lit "val"] [n, k] (lit "val") = k := by simp [givenTo, show lit "val" ≠ lit "name" by decide]
  have a1 : completed (givenTo [lit "name", lit "val"] [n, k]) [.plain (lit " "), .name (lit "name"), .plain (lit " = "), .name (lit "val")] =
      lit " " ++ (n ++ (lit " = " ++ (k ++ []))) := by simp only [completed, e1, e2]
  have a2 : completed (givenTo [lit "name", lit "val"] [n, k]) [.plain (lit " SEMAPHORE_INIT( "), .name (lit "name"), .plain (lit ", "),
      .name (lit "val"), .plain (lit " )")] = lit " SEMAPHORE_INIT( " ++ (n ++ (lit ", " ++ (k ++ (lit " )" ++ [])))) := by
    simp only [completed, e1, e2]
  have ok : ∀ {m w}, w ≠ [] → plainCheck w = true → PlainOk m w := fun h c => plainOk_of_check _ h c
  constructor
  · have h := givesTwo_of (n := n) (k := k) [.plain (lit " "), .name (lit "name"), .plain (lit " = "), .name (lit "val")]
      (fun m => ⟨ok (by decide) (by decide), by simp, free_name, ok (by decide) (by decide), by simp, free_val, trivial⟩)
      (by unfold NamesAmong; simp) (by rw [a1]; simp [lit])
      (by rw [a1]; exact plainCheck_before hn (by decide) (plainCheck_before hk (by decide) (by decide)))
    rw [a1, show lit " " ++ (n ++ (lit " = " ++ (k ++ []))) = semInitText n k by simp [semInitText],
      show written [.plain (lit " "), .name (lit "name"), .plain (lit " = "), .name (lit "val")] = lit " ($name) = ($val)" by decide +kernel] at h
    exact h
  · have h := givesTwo_of (n := n) (k := k) [.plain (lit " SEMAPHORE_INIT( "), .name (lit "name"), .plain (lit ", "), .name (lit "val"),
        .plain (lit " )")]
      (fun m => ⟨ok (by decide) (by decide), by simp, free_name, ok (by decide) (by decide), by simp, free_val, ok (by decide) (by decide), by simp,
        trivial⟩)
      (by unfold NamesAmong; simp) (by rw [a2]; exact fun h => absurd h (List.append_ne_nil_of_left_ne_nil (by decide) _))
      (by rw [a2]; exact plainCheck_before hn (by decide) (plainCheck_before hk (by decide) (by decide)))
    have a3 : lit " SEMAPHORE_INIT( " ++ (n ++ (lit ", " ++ (k ++ (lit " )" ++ [])))) = hSemInitText n k := by
      unfold hSemInitText
      simp only [List.append_assoc, List.append_nil]
    have a4 : written [.plain (lit " SEMAPHORE_INIT( "), .name (lit "name"), .plain (lit ", "), .name (lit "val"), .plain (lit " )")] =
        lit " SEMAPHORE_INIT( ($name), ($val) )" := by decide +kernel
    exact a4 ▸ (a2.trans a3) ▸ h

set_option maxRecDepth 100000 in
/-- **C106.** These are the macros of the files. -/
theorem C106_semaphore_libraries :
    DefinesMacro semInitLine (lit "semaphore-init") [lit "name", lit "val"] (lit " ($name) = ($val)") ∧
    DefinesMacro hSemInitLine (lit "semaphore-init") [lit "name", lit "val"] (lit " SEMAPHORE_INIT( ($name), ($val) )") :=
  ⟨definesMacro_of (by decide +kernel), definesMacro_of (by decide +kernel)⟩

/-! An example: `($semaphore-init lock 1)`. -/

example (e : EEnv) (decl m : Src) (s : ESt) (hm : Scopes.lookup s.env m.txt =
      some (.mclosure ⟨lit " ($name) = ($val)", none⟩ [(lit "name", .bound), (lit "val", .bound)] decl none)) (hk : e.pe.outputPython = false) :
    ∃ w s3, Evaluates e (.apply (.var false [] m) [.pstr (lit "lock"), .pstr (lit "1")] [] none) s w s3 ∧ w.text? = some (lit " lock = 1") := by
  have hn : CIdent (lit "lock") := ⟨by decide, by decide⟩
  have hv : CIdent (lit "1") := ⟨by decide, by decide⟩
  obtain ⟨w, s3, -, h1, h2, -⟩ := (C106_semaphore hn hv).1 e (.var false [] m) _ decl none [.pstr (lit "lock"), .pstr (lit "1")] (.pstr (lit "lock"))
    (.pstr (lit "1")) none s s s (evaluates_iff.2 (var_value hm (by simp))) rfl
    (.one (evaluates_iff.2 (ev_value e (.pstr _) s)) (by simp) (by simp) (.one (evaluates_iff.2 (ev_value e (.pstr _) s)) (by simp) (by simp) (.nil s)))
    (.pstr _) (by simp) (.pstr _) (.pstr _) (by simp) (.pstr _) (by simp [hk])
  exact ⟨w, s3, h1, h2⟩

end Yupp
