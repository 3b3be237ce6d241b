import Verif.Spec.Coro
import Verif.Props.HLib
/-!
# C106 — Macros with one name in several places, and those of the coroutine libraries
-/

namespace Yupp

open Spec

theorem putArgs_only {p n : Str} : ∀ {ps : List Slot}, OnlyName p ps → putArgs [(p, n)] ps = completed (fun _ => n) ps
  | [], _ => rfl
  | x :: ps, h => by
    have ih := putArgs_only (n := n) (fun y hy => h y (by simp [hy]) : OnlyName p ps)
    rcases h x (by simp) with ⟨w, rfl⟩ | rfl
    · simp [putArgs, completed, ih]
    · simp [putArgs, completed, ih]

/-- **C106.** A macro with one parameter whose text is a template of it: a call gives the template with the text of the argument
    in every place of the parameter, in any mode. -/
theorem C106_template (e : EEnv) (fn : Node) (text decl : Src) (c0 : Option Src) (p : Str) (args : List Node) (v : Node) (n : Str)
    (loc : Option Loc) (s s1 s2 : ESt) (hf : Evaluates e fn s (.mclosure text [(p, .bound)] decl c0) s1) (ha : Args e args s1 [v] s2)
    (hv : Value v) (hn : v ≠ .none) (ht : ArgText v n) (hpv : p ≠ vaArgs) (hpn : '(' ∉ p ∧ ')' ∉ p)
    (ps : List Slot) (htext : text.txt = written ps) (hok : SlotsOk (modeOf e.pe) ps) (hps : OnlyName p ps)
    (hplain : PlainOk (modeOf e.pe) (completed (fun _ => n) ps))
    (hk : e.pe.outputPython = true → e.pe.inputFile ≠ natStr s2.p.world.inclusion.length) :
    ∃ w s3, s3.env = s2.env ∧ Evaluates e (.apply fn args [] loc) s w s3 ∧ w.text? = some (completed (fun _ => n) ps) ∧
      TextInPlace e (.apply fn args [] loc) s (completed (fun _ => n) ps) s3 := by
  have hnames : NamesOk ([p].zip [n]) := by
    intro q hq
    obtain rfl : q = (p, n) := by simpa using hq
    exact hpn
  have hsub : substitute ([p].zip [n]) text.txt = completed (fun _ => n) ps := by
    rw [htext, C103_substitute hnames hok]
    exact putArgs_only hps
  have hsl : SlotsOk (modeOf e.pe) [.plain (completed (fun _ => n) ps)] := ⟨hplain, by simp, trivial⟩
  have hw : written [.plain (completed (fun _ => n) ps)] = completed (fun _ => n) ps := by simp [written]
  obtain ⟨nodes, s3, hx, hs3, -, h3, -⟩ := C82_macro e fn text decl c0 [p] args [v] [n] loc s s1 s2 hf ha (by simp) rfl (by simp)
    (by simpa using hpv.symm) (by simpa using hv) (by simpa using hn) (.cons ht .nil) hnames
    (by rw [hsub, ← hw]; exact written_unmarked hnames hsl (by simp)) (by rw [hsub]; exact hw ▸ pieces_reads hsl 0 0)
    (by rw [hsub]; exact hplain.1) hk
  have hx' : ∃ (x : Src) (i : Indent), nodes = [.plain x i false] ∧ x.txt = completed (fun _ => n) ps := by
    change TextTrees true (.chars (completed (fun _ => n) ps) .nil) nodes at hx
    generalize completed (fun _ => n) ps = T at hx ⊢
    cases hx with
    | chars _ hx =>
      cases hx
      exact ⟨_, _, rfl, rfl⟩
  obtain ⟨x, i, rfl, hxt⟩ := hx'
  have hsame := h3 (.plain x i false) rfl (by rintro ⟨_, _, h⟩; cases h)
  have hval := (hsame.1 _ _).2 (evaluates_iff.2 (ev_value e (.plain x i false) s3))
  have htxt : (Node.plain x i false).text? = some (completed (fun _ => n) ps) := congrArg some hxt
  refine ⟨_, s3, by rw [hs3]; rfl, hval, htxt, ?_⟩
  exact in_place hval (fun h => absurd h hplain.1) (fun _ => ⟨htxt, rfl⟩)

/-! ## Identifiers in plain text -/

theorem cident_char {c : Char} (h : ('a' ≤ c ∧ c ≤ 'z') ∨ ('A' ≤ c ∧ c ≤ 'Z') ∨ ('0' ≤ c ∧ c ≤ '9') ∨ c = '_') :
    (' ' ≤ c ∧ c ≤ 'ÿ') ∧ c ≠ '"' ∧ c ≠ '\'' ∧ c ≠ '#' ∧ c ≠ '/' ∧ c ≠ '(' ∧ c ≠ '$' ∧ c ≠ '`' := by
  have key : ∀ (d : Char), c = d → ¬ (('a' ≤ d ∧ d ≤ 'z') ∨ ('A' ≤ d ∧ d ≤ 'Z') ∨ ('0' ≤ d ∧ d ≤ '9') ∨ d = '_') → False :=
    fun d h1 h2 => h2 (h1 ▸ h)
  refine ⟨?_, fun h1 => key _ h1 (by decide), fun h1 => key _ h1 (by decide), fun h1 => key _ h1 (by decide), fun h1 => key _ h1 (by decide),
    fun h1 => key _ h1 (by decide), fun h1 => key _ h1 (by decide), fun h1 => key _ h1 (by decide)⟩
  simp only [Char.le_def, UInt32.le_iff_toNat_le] at h ⊢
  rcases h with h | h | h | rfl
  · simp at h ⊢; omega
  · simp at h ⊢; omega
  · simp at h ⊢; omega
  · decide

theorem plainCheck_ident {n r : Str} (hn : ∀ c ∈ n, ('a' ≤ c ∧ c ≤ 'z') ∨ ('A' ≤ c ∧ c ≤ 'Z') ∨ ('0' ≤ c ∧ c ≤ '9') ∨ c = '_')
    (hr : plainCheck r = true) : plainCheck (n ++ r) = true := by
  induction n with
  | nil => exact hr
  | cons c n ih =>
    obtain ⟨h1, h2, h3, h4, h5, h6, -⟩ := cident_char (hn c (by simp))
    simp [plainCheck, h1, h2, h3, h4, h5, h6, ih (fun d hd => hn d (by simp [hd]))]

/-- Plain text, then an identifier. -/
theorem plainCheck_before {w n r : Str} (hn : CIdent n) (hw : plainCheck w = true) (hr : plainCheck r = true) :
    plainCheck (w ++ (n ++ r)) = true := by
  induction w with
  | nil => exact plainCheck_ident (n := n) hn.2 hr
  | cons c w ih =>
    have hw' := hw
    simp only [plainCheck, Bool.and_eq_true] at hw
    have ih := ih hw.2
    cases w with
    | nil =>
      obtain ⟨h0, h1⟩ := hn
      cases n with
      | nil => exact absurd rfl h0
      | cons d n =>
        obtain ⟨-, -, -, -, -, -, h7, h8⟩ := cident_char (h1 d (by simp))
        simp only [List.nil_append, List.cons_append] at ih ⊢
        unfold plainCheck
        simp only [Bool.and_eq_true]
        refine ⟨⟨hw.1.1, ?_⟩, ih⟩
        simp [h7, h8]
    | cons d w =>
      simp only [List.cons_append] at ih ⊢
      unfold plainCheck
      simp only [Bool.and_eq_true]
      refine ⟨⟨hw.1.1, ?_⟩, ih⟩
      simpa using hw.1.2

/-! ## The macros of the library -/

/-- What is common to the calls: the macro with the text of the template, called with an identifier, in any mode. -/
theorem C106_ident (e : EEnv) (fn : Node) (text decl : Src) (c0 : Option Src) (p : Str) (args : List Node) (v : Node) (n : Str)
    (loc : Option Loc) (s s1 s2 : ESt) (hf : Evaluates e fn s (.mclosure text [(p, .bound)] decl c0) s1) (ha : Args e args s1 [v] s2)
    (hv : Value v) (hvn : v ≠ .none) (ht : ArgText v n) (hpv : p ≠ vaArgs) (hpf : FreeName p) (hpn : '(' ∉ p ∧ ')' ∉ p)
    (w1 w2 : Str) (htext : text.txt = w1 ++ lit "($" ++ p ++ lit ")" ++ w2) (h1 : w1 ≠ []) (c1 : plainCheck w1 = true)
    (c2 : plainCheck w2 = true) (hn : CIdent n)
    (hk : e.pe.outputPython = true → e.pe.inputFile ≠ natStr s2.p.world.inclusion.length) :
    ∃ w s3, s3.env = s2.env ∧ Evaluates e (.apply fn args [] loc) s w s3 ∧ w.text? = some (w1 ++ n ++ w2) ∧
      TextInPlace e (.apply fn args [] loc) s (w1 ++ n ++ w2) s3 := by
  have hc : plainCheck (w1 ++ (n ++ w2)) = true := plainCheck_before hn c1 c2
  have hne : w1 ++ (n ++ w2) ≠ [] := by simp [h1]
  cases w2 with
  | nil =>
    have key := C106_template e fn text decl c0 p args v n loc s s1 s2 hf ha hv hvn ht hpv hpn [.plain w1, .name p]
      (by rw [htext]; simp [written, lit]) ⟨plainOk_of_check _ h1 c1, by simp, hpf, trivial⟩ (by intro x hx; simp at hx; rcases hx with rfl | rfl <;> simp)
      (by simpa [completed] using plainOk_of_check (modeOf e.pe) hne hc) hk
    simpa [completed] using key
  | cons c w2 =>
    have key := C106_template e fn text decl c0 p args v n loc s s1 s2 hf ha hv hvn ht hpv hpn [.plain w1, .name p, .plain (c :: w2)]
      (by rw [htext]; simp [written, lit]) ⟨plainOk_of_check _ h1 c1, by simp, hpf, plainOk_of_check _ (by simp) c2, by simp, trivial⟩
      (by intro x hx; simp at hx; rcases hx with rfl | rfl | rfl <;> simp)
      (by simpa [completed] using plainOk_of_check (modeOf e.pe) hne hc) hk
    simpa [completed] using key

theorem free_name : FreeName (lit "name") where
  name := ⟨'n', ['a', 'm', 'e'], rfl, .inl (by decide), by intro x hx; unfold NameChar NameStart; revert x hx; decide⟩
  keyword := by intro r; simp [NoKeyword, lit]
  directive := by intro r; simp [NoDirective, lit]

/-- The macro `m` with the parameter `name`, given the identifier `n` in any form, in any mode and any state, gives the text `t`. -/
def GivesName (body : Str) (n t : Str) : Prop :=
  ∀ (e : EEnv) (fn : Node) (text decl : Src) (c0 : Option Src) (args : List Node) (v : Node) (loc : Option Loc) (s s1 s2 : ESt),
    Evaluates e fn s (.mclosure text [(lit "name", .bound)] decl c0) s1 → text.txt = body → Args e args s1 [v] s2 → Value v → v ≠ .none → ArgText v n →
    (e.pe.outputPython = true → e.pe.inputFile ≠ natStr s2.p.world.inclusion.length) →
    ∃ w s3, s3.env = s2.env ∧ Evaluates e (.apply fn args [] loc) s w s3 ∧ w.text? = some t ∧ TextInPlace e (.apply fn args [] loc) s t s3

theorem givesName_one {n : Str} (hn : CIdent n) (w1 w2 : Str) (h1 : w1 ≠ []) (c1 : plainCheck w1 = true) (c2 : plainCheck w2 = true) :
    GivesName (w1 ++ lit "($name)" ++ w2) n (w1 ++ n ++ w2) := by
  intro e fn text decl c0 args v loc s s1 s2 hf ht ha hv hvn hat hk
  exact C106_ident e fn text decl c0 (lit "name") args v n loc s s1 s2 hf ha hv hvn hat (by decide) free_name (by decide) w1 w2
    (by rw [ht]; simp [lit]) h1 c1 c2 hn hk

theorem givesName_two {n : Str} (hn : CIdent n) (w1 w2 w3 : Str) (h1 : w1 ≠ []) (h2 : w2 ≠ []) (h3 : w3 ≠ []) (c1 : plainCheck w1 = true)
    (c2 : plainCheck w2 = true) (c3 : plainCheck w3 = true) :
    GivesName (w1 ++ lit "($name)" ++ w2 ++ lit "($name)" ++ w3) n (w1 ++ n ++ w2 ++ n ++ w3) := by
  intro e fn text decl c0 args v loc s s1 s2 hf ht ha hv hvn hat hk
  have hc : plainCheck (w1 ++ (n ++ (w2 ++ (n ++ w3)))) = true := plainCheck_before hn c1 (plainCheck_before hn c2 c3)
  have key := C106_template e fn text decl c0 (lit "name") args v n loc s s1 s2 hf ha hv hvn hat (by decide) (by decide)
    [.plain w1, .name (lit "name"), .plain w2, .name (lit "name"), .plain w3] (by rw [ht]; simp [written, lit])
    ⟨plainOk_of_check _ h1 c1, by simp, free_name, plainOk_of_check _ h2 c2, by simp, free_name, plainOk_of_check _ h3 c3, by simp, trivial⟩
    (by intro x hx; simp at hx; rcases hx with rfl | rfl | rfl | rfl | rfl <;> simp)
    (by simpa [completed] using plainOk_of_check (modeOf e.pe) (w := w1 ++ (n ++ (w2 ++ (n ++ w3)))) (by simp [h1]) hc) hk
  simpa [completed] using key

/-- **C106.** The macros of the coroutine libraries, called with an identifier: the context that is declared is the one that is
    initialised and the one that is passed in a call, and the function that is declared is the one that is called. -/
theorem C106_coroutine {n : Str} (hn : CIdent n) :
    GivesName (lit " co_t co_($name)") n (contextText n) ∧ GivesName (lit " co_($name) = NULL") n (contextInitText n) ∧
    GivesName (lit " int coro_($name)( co_t *co_p )") n (declareText n) ∧ GivesName (lit " coro_($name)( &co_($name) )") n (callText n) ∧
    GivesName (lit " coro_($name)()") n (pyCoroText n) ∧ GivesName (lit " ($name).close()") n (pyCloseText n) ∧
    GivesName (lit " next( ($name) )") n (pyCallText n) := by
  have h1 := givesName_one hn (lit " co_t co_") [] (by decide) (by decide) (by decide)
  rw [List.append_nil, List.append_nil] at h1
  have e2 : lit " co_($name) = NULL" = lit " co_" ++ lit "($name)" ++ lit " = NULL" := by decide +kernel
  have e3 : lit " int coro_($name)( co_t *co_p )" = lit " int coro_" ++ lit "($name)" ++ lit "( co_t *co_p )" := by decide +kernel
  have e4 : lit " coro_($name)( &co_($name) )" = lit " coro_" ++ lit "($name)" ++ lit "( &co_" ++ lit "($name)" ++ lit " )" := by decide +kernel
  have e5 : lit " coro_($name)()" = lit " coro_" ++ lit "($name)" ++ lit "()" := by decide +kernel
  have e6 : lit " ($name).close()" = lit " " ++ lit "($name)" ++ lit ".close()" := by decide +kernel
  have e7 : lit " next( ($name) )" = lit " next( " ++ lit "($name)" ++ lit " )" := by decide +kernel
  have e1 : lit " co_t co_($name)" = lit " co_t co_" ++ lit "($name)" := by decide +kernel
  rw [e1, e2, e3, e4, e5, e6, e7]
  exact ⟨h1, givesName_one hn (lit " co_") (lit " = NULL") (by decide) (by decide) (by decide),
    givesName_one hn (lit " int coro_") (lit "( co_t *co_p )") (by decide) (by decide) (by decide),
    givesName_two hn (lit " coro_") (lit "( &co_") (lit " )") (by decide) (by decide) (by decide) (by decide) (by decide) (by decide),
    givesName_one hn (lit " coro_") (lit "()") (by decide) (by decide) (by decide),
    givesName_one hn (lit " ") (lit ".close()") (by decide) (by decide) (by decide),
    givesName_one hn (lit " next( ") (lit " )") (by decide) (by decide) (by decide)⟩

/-- **C106.** Different coroutines have different contexts and functions. -/
theorem C106_distinct {n m : Str} (h : n ≠ m) :
    contextText n ≠ contextText m ∧ contextInitText n ≠ contextInitText m ∧ declareText n ≠ declareText m ∧ callText n ≠ callText m ∧
    pyCoroText n ≠ pyCoroText m := by
  refine ⟨fun h' => h ?_, fun h' => h ?_, fun h' => h ?_, fun h' => h ?_, fun h' => h ?_⟩
  · exact List.append_cancel_left h'
  · exact List.append_cancel_left (List.append_cancel_right h')
  · exact List.append_cancel_left (List.append_cancel_right h')
  · have h1 := List.append_cancel_right h'
    have h2 : n.length = m.length := by
      have := congrArg List.length h1
      simp only [List.length_append] at this
      omega
    exact (List.append_inj h1 (by simp [h2])).2
  · exact List.append_cancel_left (List.append_cancel_right h')

set_option maxRecDepth 100000 in
/-- **C106.** The macros that the theorems are about are those of the files. -/
theorem C106_library :
    DefinesMacro contextLine (lit "coro-context") [lit "name"] (lit " co_t co_($name)") ∧
    DefinesMacro contextInitLine (lit "coro-context-init") [lit "name"] (lit " co_($name) = NULL") ∧
    DefinesMacro declareLine (lit "coro-declare") [lit "name"] (lit " int coro_($name)( co_t *co_p )") ∧
    DefinesMacro callLine (lit "coro-call") [lit "name"] (lit " coro_($name)( &co_($name) )") ∧
    DefinesMacro pyCoroLine (lit "coro") [lit "name"] (lit " coro_($name)()") ∧
    DefinesMacro pyCloseLine (lit "coro-uninit") [lit "name"] (lit " ($name).close()") ∧
    DefinesMacro pyCallLine (lit "coro-call") [lit "name"] (lit " next( ($name) )") :=
  ⟨definesMacro_of (by decide +kernel), definesMacro_of (by decide +kernel), definesMacro_of (by decide +kernel), definesMacro_of (by decide +kernel),
    definesMacro_of (by decide +kernel), definesMacro_of (by decide +kernel), definesMacro_of (by decide +kernel)⟩

/-! An example: `($coro-call A)`. -/

example (e : EEnv) (decl m : Src) (s : ESt) (hm : Scopes.lookup s.env m.txt =
      some (.mclosure ⟨lit " coro_($name)( &co_($name) )", none⟩ [(lit "name", .bound)] decl none)) (hk : e.pe.outputPython = false) :
    ∃ w s3, Evaluates e (.apply (.var false [] m) [.pstr (lit "A")] [] none) s w s3 ∧ w.text? = some (lit " coro_A( &co_A )") := by
  have hn : CIdent (lit "A") := ⟨by decide, by intro c hc; rw [show c = 'A' by simpa [lit] using hc]; decide⟩
  obtain ⟨w, s3, -, h1, h2, -⟩ := (C106_coroutine hn).2.2.2.1 e (.var false [] m) _ decl none [.pstr (lit "A")] (.pstr (lit "A")) none s s s
    (evaluates_iff.2 (var_value hm (by simp))) rfl (.one (evaluates_iff.2 (ev_value e (.pstr _) s)) (by simp) (by simp) (.nil s)) (.pstr _) (by simp)
    (.pstr _) (by simp [hk])
  exact ⟨w, s3, h1, h2⟩

end Yupp
