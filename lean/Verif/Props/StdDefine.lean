import Verif.Spec.StdDefine
import Verif.Props.DefIf
import Verif.Props.Stdlib
import Verif.Props.Texts
import Verif.Props.Feature

/-!
# C93: `$define` of the library writes a preprocessor directive that is one logical line
-/

namespace Yupp
open Spec

variable {e : EEnv}

/-! ## Texts -/

theorem textValue_text (s : ESt) (i : Indent) (ys : List Node) : (textValue e s i ys).text? = some (showns e.cfg (textExt e s).repr ys) := by
  unfold textValue
  by_cases hb : e.cfg.browse = true
  · rw [if_pos hb]
    simp [Node.text?, plainBrowse_shown e.cfg (textExt e s) hb, shown]
  · rw [if_neg hb]
    simp [Node.text?, plainStr_shown e.cfg (textExt e s) (by simpa using hb), shown]

theorem ev_trim (a : Node) (i : Str) (s : ESt) : ev e (.trim a i) s = (ev e a >>= fun v => pure (.trim v i)) s := by rw [ev_at]; rfl

theorem ev_trim_ok {a v : Node} {s s' : ESt} (i : Str) (h : ev e a s = .ok (v, s')) : ev e (.trim a i) s = .ok (.trim v i, s') := by
  rw [ev_trim, em_bind_ok h]; rfl

/-- One more part of a text that stays as it is. -/
theorem evalT_item {indent : Indent} {x y : Node} {rest ys : List Node} {s s1 s2 : ESt} (hx : x ≠ .comment) (h : ev e x s = .ok (y, s1))
    (hy : pieceOf y = .item y) (hr : evalT (ev e) (nextIndent indent x) 0 false rest s1 = .ok (ys, s2)) :
    evalT (ev e) indent 0 false (x :: rest) s = .ok ((if x.isApply then .trim y indent.orEmpty else y) :: ys, s2) := by
  unfold evalT
  simp only [Bool.false_eq_true, if_false]
  have : (ev e x >>= fun y => (match pieceOf y with
      | .nothing => evalT (ev e) indent 0 false rest
      | .skip => evalT (ev e) indent 1 false rest
      | .scope f =>
        if rest.isEmpty then pure []
        else do
          let z ← ev e (.setClosure (.t (trimNext indent rest) indent) f)
          pure [z]
      | .splice xs => do
        let z ← ev e (.t (addIndents indent xs ++ rest) indent)
        pure (asItems z)
      | .item y => do
        let ys ← evalT (ev e) (nextIndent indent x) 0 false rest
        pure ((if x.isApply then .trim y indent.orEmpty else y) :: ys) : EM (List Node))) s =
      .ok ((if x.isApply then .trim y indent.orEmpty else y) :: ys, s2) := by
    rw [em_bind_ok h, hy]
    simp only []
    rw [em_bind_ok hr]
    rfl
  cases x <;> first | exact absurd rfl hx | exact this

theorem data_piece {v : Node} (hd : Data v) (hn : v ≠ .none) : pieceOf v = .item v := by
  cases hd <;> first | rfl | exact absurd rfl hn

/-! ## Calls that wait for their arguments -/

/-- A built-in function already looked up. -/
theorem ev_found {f : Src} {x : BExt} (hs : Standard e x f.txt) {args vs : List Node} {loc : Option Loc} {s s' : ESt} (ha : Args e args s vs s') :
    ev e (.apply (.builtin f false) args [] loc) s = applyFunction e f false vs loc s' := by
  rw [ev_apply (evaluates_iff.2 (ev_builtin f false _)) ha]
  change applyBuiltin e f false vs [] loc _ = _
  unfold applyBuiltin
  simp only [List.isEmpty_nil, Bool.not_true, Bool.false_eq_true, if_false]
  rw [em_bind_ok (show EM.get s' = .ok (_, _) from rfl), hs.table]

theorem ev_named {f : Src} {x : BExt} (hs : Standard e x f.txt) {args vs : List Node} {loc : Option Loc} {s s' : ESt} (hu : Unbound f.txt s)
    (ha : Args e args s vs s') :
    ev e (.apply (.var false [] f) args [] loc) s = applyFunction e f false vs loc s' :=
  ev_table_fn (f := f.txt) (l := f.loc) ⟨hu, hs.table _⟩ ha (hs.table _)

theorem function_waits {f : Src} {vs : List Node} {loc : Option Loc} {s : ESt} (h : areTerms vs = false) (hl : detectDeadlocks vs = false) :
    applyFunction e f false vs loc s = .ok (.apply (.builtin f false) vs [] loc, s) := by
  unfold applyFunction
  rw [if_neg (by simp [h]), if_neg (by simp [hl])]

/-! ## The body of `$define` -/

section body

variable (w b1 b2 c j : Src) (l4 l6 : Option Loc) (wv u : Node)

def defParts (t1 : Node) (q1 q2 : Node) : List Node := [.trim t1 [], .plain b1 .none false, .trim q1 [], .plain b2 .none false, .trim q2 []]

def defineBody (t1 q1 q2 : Node) : Node :=
  .apply (.builtin j false) [.apply (.builtin c false) [.t (defParts b1 b2 t1 q1 q2) (.str []), wv] [] l4, u] [] l6

end body

variable {w b1 b2 c j : Src} {l4 l6 : Option Loc} {wv u : Node}

theorem parts_step {t1 q1 q2 r1 r2 : Node} {s : ESt} (ht : Data t1) (h1 : ev e q1 s = .ok (r1, s)) (h2 : ev e q2 s = .ok (r2, s)) :
    ev e (.t (defParts b1 b2 t1 q1 q2) (.str [])) s =
      .ok (if areTerms (defParts b1 b2 t1 r1 r2) then textValue e s (.str []) (defParts b1 b2 t1 r1 r2) else .t (defParts b1 b2 t1 r1 r2) (.str []), s) := by
  rw [ev_t]
  have hT : evalT (ev e) (.str []) 0 false (defParts b1 b2 t1 q1 q2) s = .ok (defParts b1 b2 t1 r1 r2, s) := by
    refine evalT_item (by simp) (ev_trim_ok _ (ev_data e ht s)) rfl ?_
    refine evalT_item (by simp) (ev_data e (.plain _ _ _) s) rfl ?_
    refine evalT_item (by simp) (ev_trim_ok _ h1) rfl ?_
    refine evalT_item (by simp) (ev_data e (.plain _ _ _) s) rfl ?_
    refine evalT_item (by simp) (ev_trim_ok _ h2) rfl ?_
    rfl
  rw [em_bind_ok hT]
  rfl

theorem parts_terms {t1 q1 q2 : Node} (ht : Data t1) : areTerms (defParts b1 b2 t1 q1 q2) = (isTerm q1 && isTerm q2) := by
  simp [defParts, areTerms, isTerm, data_term ht]

theorem data_arg {v : Node} (hd : Data v) (hn : v ≠ .none) {xs vs : List Node} {s : ESt} (h : Args e xs s vs s) :
    Args e (v :: xs) s (v :: vs) s :=
  .one (evaluates_iff.2 (ev_data e hd s)) hn (by rintro a rfl; cases hd) h

/-- The body while a parameter is missing. -/
theorem body_step {x : BExt} (hc : Standard e x c.txt) (hj : Standard e x j.txt) {t1 q1 q2 r1 r2 : Node} {s : ESt} (ht : Data t1)
    (hw : Data wv) (hwn : wv ≠ .none) (hu : Data u) (hun : u ≠ .none)
    (h1 : ev e q1 s = .ok (r1, s)) (h2 : ev e q2 s = .ok (r2, s)) (hr : (isTerm r1 && isTerm r2) = false)
    (d1 : detectDeadlock r1 = false) (d2 : detectDeadlock r2 = false) :
    ev e (defineBody b1 b2 c j l4 l6 wv u t1 q1 q2) s = .ok (defineBody b1 b2 c j l4 l6 wv u t1 r1 r2, s) := by
  have hp := parts_step (b1 := b1) (b2 := b2) ht h1 h2
  rw [parts_terms ht, hr] at hp
  simp only [Bool.false_eq_true, if_false] at hp
  unfold defineBody
  have hterm : isTerm (.t (defParts b1 b2 t1 r1 r2) (.str [])) = false := by
    unfold isTerm; rw [parts_terms ht, hr]
  have hin : ev e (.apply (.builtin c false) [.t (defParts b1 b2 t1 q1 q2) (.str []), wv] [] l4) s =
      .ok (.apply (.builtin c false) [.t (defParts b1 b2 t1 r1 r2) (.str []), wv] [] l4, s) := by
    rw [ev_found hc (.one (evaluates_iff.2 hp) (by simp) (by simp) (data_arg hw hwn (.nil s)))]
    exact function_waits (by simp [areTerms, hterm]) (by simp [detectDeadlocks, detectDeadlock, defParts, data_live ht, data_live hw, d1, d2])
  rw [ev_found hj (.one (evaluates_iff.2 hin) (by simp) (by simp) (data_arg hu hun (.nil s)))]
  exact function_waits (by simp [areTerms, isTerm]) (by simp [detectDeadlocks, detectDeadlock, data_live hu])

theorem text_none {v : Node} {t : Str} (h : v.text? = some t) : v ≠ .none := by rintro rfl; cases h

/-- The body when both are known. -/
theorem body_done {x : BExt} (hc : Standard e x c.txt) (hj : Standard e x j.txt) (hct : c.txt = lit "split") (hjt : j.txt = lit "join")
    {t1 q1 q2 r1 r2 : Node} {s : ESt} (ht : Data t1) {eol sep : Str}
    (hw : wv.text? = some eol) (h0 : eol ≠ []) (hu : u.text? = some sep)
    (h1 : ev e q1 s = .ok (r1, s)) (h2 : ev e q2 s = .ok (r2, s)) (hr1 : isTerm r1 = true) (hr2 : isTerm r2 = true) :
    ev e (defineBody b1 b2 c j l4 l6 wv u t1 q1 q2) s =
      .ok (.pstr (joinStr sep (splitStr eol (showns e.cfg (textExt e s).repr (defParts b1 b2 t1 r1 r2)))), s) := by
  have hp := parts_step (b1 := b1) (b2 := b2) ht h1 h2
  rw [parts_terms ht, hr1, hr2] at hp
  simp only [Bool.and_self, if_true] at hp
  have htv := textValue_text (e := e) s (.str []) (defParts b1 b2 t1 r1 r2)
  have hd := text_fixed htv
  generalize textValue e s (.str []) (defParts b1 b2 t1 r1 r2) = v at hp htv hd
  generalize showns e.cfg (textExt e s).repr (defParts b1 b2 t1 r1 r2) = tx at htv
  unfold defineBody
  have hin : ev e (.apply (.builtin c false) [.t (defParts b1 b2 t1 q1 q2) (.str []), wv] [] l4) s =
      .ok (.list ((splitStr eol tx).map .pstr), s) := by
    rw [ev_found hc (.one (evaluates_iff.2 hp) (text_none htv) (by rintro a rfl; cases hd) (data_arg (text_fixed hw) (text_none hw) (.nil s)))]
    unfold applyFunction
    rw [if_pos (by simp [areTerms, text_isTerm htv, text_isTerm hw]), hc.call, hct]
    have hb : builtinCall x (lit "split") [v, wv] s.seen = some (.list ((splitStr eol tx).map .pstr), s.seen) := by
      simp [builtinCall, textCall, lit, bText2, htv, hw, h0]
    rw [hb]
    rfl
  rw [ev_found hj (.one (evaluates_iff.2 hin) (by simp) (by simp) (data_arg (text_fixed hu) (text_none hu) (.nil s)))]
  unfold applyFunction
  have hx : ((splitStr eol tx).map Node.pstr).map Node.text? = (splitStr eol tx).map some := by simp [Node.text?, Function.comp_def]
  rw [if_pos (by simp [areTerms, isTerm, text_isTerm hu, texts_terms _ _ hx]), hj.call, hjt]
  have hb : builtinCall x (lit "join") [.list ((splitStr eol tx).map .pstr), u] s.seen = some (.pstr (joinStr sep (splitStr eol tx)), s.seen) := by
    simp [builtinCall, textCall, lit, joinWords, Node.iter, joinWords_texts hx, hu]
  rw [hb]
  rfl

theorem shown_of_text {v : Node} {t : Str} (h : v.text? = some t) (hp : ∀ t i, v ≠ .plain t i true) (cfg : Config) (repr : Node → Str) :
    shown cfg repr v = t := by
  cases v with
  | plain a i tr =>
    cases tr with
    | true => exact absurd rfl (hp a i)
    | false => simpa [Node.text?, shown, fragment] using h
  | _ => first | cases h; done | simpa [Node.text?, shown] using h

/-! ## The definition -/

theorem unbound_push {f : Str} {s : ESt} {F : Frame} (h : Unbound f s) (hF : Frame.get F f = none) : Unbound f (push s F) := by
  unfold Unbound at h ⊢
  simp only [push, Scopes.lookup, hF]
  exact h

/-- A name that has a value, inserted. -/
theorem ev_insert {v : Src} {s : ESt} {w : Node} (h : Scopes.lookup s.env v.txt = some w) (hd : Data w) (hn : w ≠ .none) (loc : Option Loc) :
    ev e (.apply (.var false [] v) [] [] loc) s = .ok (w, s) := by
  have hl : Leg w := .inl ⟨hd, hn⟩
  rw [ev_apply_eq, em_bind_ok (var_value h (leg_bound hl)), leg_call hl]
  exact leg_applied hl loc _

def defFrame : Frame := [(lit "sig", .bound), (lit "body", .bound)]

/-- What the definition of `$define` stores. -/
theorem define_stored {x : BExt} (hj : Standard e x (lit "join")) (hc : Standard e x (lit "split")) (hq : Standard e x (lit "unq"))
    {d wv : Node} {s0 : ESt} (hd : DefineFn d)
    (uj : Unbound (lit "join") s0) (uc : Unbound (lit "split") s0) (uq : Unbound (lit "unq") s0)
    {eol : Str} (hk : Scopes.lookup s0.env (lit "__EOL__") = some wv) (hw : wv.text? = some eol)
    (hwp : ∀ t i, wv ≠ .plain t i true) :
    ∃ (b1 b2 c j p' q' : Src) (l2 l3 l4 l6 : Option Loc) (u t1 : Node), b1.txt = [' '] ∧ b2.txt = [' '] ∧ c.txt = lit "split" ∧ j.txt = lit "join" ∧
      p'.txt = lit "sig" ∧ q'.txt = lit "body" ∧ u.text? = some ([' ', '\\'] ++ reindent e.cfg [] eol) ∧ t1 = .pstr (lit "#define") ∧
      ev e d s0 = .ok (.env [(lit "define", .lclosure (defineBody b1 b2 c j l4 l6 wv u t1 (.apply (.var false [] p') [] [] l2)
        (.apply (.var false [] q') [] [] l3)) defFrame [] [])], s0) := by
  cases hd with
  | @mk n p q j c u w p' q' k k' b1 b2 bs l1 l2 l3 l4 l5 l6 e1 e2 e3 e4 e5 e6 e7 e8 e9 e10 e11 e12 e13 e14 =>
    have hwd := text_fixed hw
    have hwn := text_none hw
    have hwb : wv ≠ .bound := by rintro rfl; cases hw
    let σ := push (push s0 [(n.txt, .bound)]) defFrame
    have hσ : σ = push (push s0 [(n.txt, .bound)]) defFrame := rfl
    have up : ∀ a, Frame.get [(lit "define", Node.bound)] a = none → Frame.get defFrame a = none → Unbound a s0 → Unbound a σ := by
      intro a h1 h2 h3
      exact unbound_push (unbound_push h3 (by rw [e1]; exact h1)) h2
    have hkσ : Scopes.lookup σ.env (lit "__EOL__") = some wv := by
      rw [hσ, e1]
      simp only [push, Scopes.lookup]
      rw [show Frame.get defFrame (lit "__EOL__") = none from rfl, show Frame.get [(lit "define", Node.bound)] (lit "__EOL__") = none from rfl]
      exact hk
    have hp1 : ev e (.apply (.var false [] p') [] [] l2) σ = .ok (.apply (.var false [] p') [] [] l2, σ) := leg_missing (F := defFrame) (by rw [e8]; rfl)
    have hp2 : ev e (.apply (.var false [] q') [] [] l3) σ = .ok (.apply (.var false [] q') [] [] l3, σ) := leg_missing (F := defFrame) (by rw [e9]; rfl)
    clear_value σ
    -- the parts
    have hu1 : ev e (.apply (.var false [] u) [.str w] [] l1) σ = .ok (.pstr (lit "#define"), σ) := by
      rw [ev_named (f := u) (by rw [e6]; exact hq) (by rw [e6]; exact up _ rfl rfl uq) (data_arg (.str w) (by simp) (.nil _))]
      unfold applyFunction
      rw [if_pos (by simp [areTerms, isTerm]), e6, hq.call]
      have hval : bUnq x (.str w) = lit "#define" := by
        unfold bUnq
        simp only [Node.text?, e7]
        rw [if_pos (by decide)]
        have := literal_quoted (q := '"') (.inl rfl) x.literal (lit "#define") (by decide)
        rw [show escEncode (lit "#define") = lit "#define" by decide] at this
        rw [show lit "\"#define\"" = '"' :: lit "#define" ++ ['"'] from rfl, this]
        rfl
      rw [(call_q x (.str w) _).2.2, hval]
      rfl
    let parts := defParts b1 b2 (.pstr (lit "#define")) (.apply (.var false [] p') [] [] l2) (.apply (.var false [] q') [] [] l3)
    have hT : ev e (.text [.apply (.var false [] u) [.str w] [] l1, .plain b1 .none false, .apply (.var false [] p') [] [] l2, .plain b2 .none false,
        .apply (.var false [] q') [] [] l3]) σ = .ok (.t parts (.str []), σ) := by
      rw [ev_text, ev_t]
      have hT : evalT (ev e) (.str []) 0 false [.apply (.var false [] u) [.str w] [] l1, .plain b1 .none false, .apply (.var false [] p') [] [] l2,
          .plain b2 .none false, .apply (.var false [] q') [] [] l3] σ = .ok (parts, σ) := by
        refine evalT_item (by simp) hu1 rfl ?_
        refine evalT_item (by simp) (ev_data e (.plain _ _ _) _) rfl ?_
        refine evalT_item (by simp) hp1 rfl ?_
        refine evalT_item (by simp) (ev_data e (.plain _ _ _) _) rfl ?_
        refine evalT_item (by simp) hp2 rfl ?_
        rfl
      rw [em_bind_ok hT]
      rfl
    have hU : ev e (.text [.plain bs .no false, .apply (.var false [] k') [] [] l5]) σ = .ok (textValue e σ (.str []) [.plain bs .no false, .trim wv []], σ) := by
      rw [ev_text, ev_t]
      have hT : evalT (ev e) (.str []) 0 false [.plain bs .no false, .apply (.var false [] k') [] [] l5] σ = .ok ([.plain bs .no false, .trim wv []], σ) := by
        refine evalT_item (by simp) (ev_data e (.plain _ _ _) _) rfl ?_
        refine evalT_item (by simp) (ev_insert (by rw [e11]; exact hkσ) hwd hwn l5) (data_piece hwd hwn) ?_
        rfl
      rw [em_bind_ok hT]
      unfold finishT
      rw [if_pos (by simp [areTerms, isTerm, data_term hwd])]
      rfl
    have hut := textValue_text (e := e) σ (.str []) [.plain bs .no false, .trim wv []]
    generalize textValue e σ (.str []) [.plain bs .no false, .trim wv []] = uv at hU hut
    have hsplit : ev e (.apply (.var false [] c) [.text [.apply (.var false [] u) [.str w] [] l1, .plain b1 .none false,
        .apply (.var false [] p') [] [] l2, .plain b2 .none false, .apply (.var false [] q') [] [] l3], .var false [] k] [] l4) σ =
        .ok (.apply (.builtin c false) [.t parts (.str []), wv] [] l4, σ) := by
      rw [ev_named (f := c) (by rw [e5]; exact hc) (by rw [e5]; exact up _ rfl rfl uc)
        (.one (evaluates_iff.2 hT) (by simp) (by simp)
          (.one (evaluates_iff.2 (var_value (by rw [e10]; exact hkσ) hwb)) hwn (by rintro a rfl; cases hw) (.nil _)))]
      exact function_waits (by simp [areTerms, isTerm, parts, defParts]) (by simp [detectDeadlocks, detectDeadlock, parts, defParts, data_live hwd])
    have hbody := (ev_named (f := j) (loc := l6) (by rw [e4]; exact hj) (by rw [e4]; exact up _ rfl rfl uj)
        (.one (evaluates_iff.2 hsplit) (by simp) (by simp)
          (.one (evaluates_iff.2 hU) (text_none hut) (by rintro a rfl; cases hut) (.nil _)))).trans
      (function_waits (by simp [areTerms, isTerm]) (by simp [detectDeadlocks, detectDeadlock, data_live (text_fixed hut)]))
    have hpar : Params e (push s0 [(n.txt, .bound)]) [([], p, none), ([], q, none)] [p.txt, q.txt] [] :=
      .cons (by rw [e2]; decide) (.cons (by rw [e3]; decide) .nil)
    have hlam : ev e (.lambda [([], p, none), ([], q, none)] _) (push s0 [(n.txt, .bound)]) = _ :=
      (ev_lambda _ _ hpar (by rw [e2, e3]; decide)).trans (by
        simp only [List.map_cons, List.map_nil, e2, e3]
        exact closure_value (F := defFrame) (by rw [← hσ]; exact hbody))
    have hset := set_one (e := e) (n := n) (s := s0) (by rw [e1]; decide) hlam
    rw [e1] at hset
    refine ⟨b1, b2, c, j, p', q', l2, l3, l4, l6, uv, _, e12, e13, e5, e4, e8, e9, ?_, rfl, hset⟩
    rw [hut]
    have hs : shown e.cfg (textExt e σ).repr wv = eol := shown_of_text hw hwp _ _
    simp [showns, shown, hs, fragment, e14]

/-- **C93**. The definition can be evaluated, without effects, wherever `__EOL__` is a text. -/
theorem C93_defined (e : EEnv) (x : BExt) (hj : Standard e x (lit "join")) (hc : Standard e x (lit "split")) (hq : Standard e x (lit "unq"))
    (d wv : Node) (s0 : ESt) (hd : DefineFn d) (uj : Unbound (lit "join") s0) (uc : Unbound (lit "split") s0) (uq : Unbound (lit "unq") s0)
    (eol : Str) (hk : Scopes.lookup s0.env (lit "__EOL__") = some wv) (hw : wv.text? = some eol) (hwp : ∀ t i, wv ≠ .plain t i true) :
    ∃ f, Evaluates e d s0 (.env [(lit "define", f)]) s0 := by
  obtain ⟨_, _, _, _, _, _, _, _, _, _, _, _, -, -, -, -, -, -, -, -, h⟩ := define_stored hj hc hq hd uj uc uq hk hw hwp
  exact ⟨_, evaluates_iff.2 h⟩

/-! ## The call -/

theorem applyNext_args {fn : Node} {F dflt : Frame} {v : Node} {vs : List Node} {loc : Option Loc} {s : ESt} :
    applyNext (ev e) fn F dflt (v :: vs) [] loc s = ev e (.apply (fn.setFrame F) (v :: vs) [] loc) s := by
  unfold applyNext
  simp

theorem define_applied {x : BExt} (hj : Standard e x (lit "join")) (hc : Standard e x (lit "split")) (hq : Standard e x (lit "unq"))
    {d f wv : Node} {s0 s0' : ESt} (hd : DefineFn d) (hdef : Evaluates e d s0 (.env [(lit "define", f)]) s0')
    (uj : Unbound (lit "join") s0) (uc : Unbound (lit "split") s0) (uq : Unbound (lit "unq") s0)
    {eol : Str} (hk : Scopes.lookup s0.env (lit "__EOL__") = some wv) (hw : wv.text? = some eol) (hwp : ∀ t i, wv ≠ .plain t i true)
    (h0 : eol ≠ [])
    {fn : Node} {args : List Node} {a b : Node} {loc : Option Loc} {s s1 s2 : ESt} (hf : Evaluates e fn s f s1) (ha : Args e args s1 [a, b] s2)
    (hda : Data a) (hdb : Data b) (hna : a ≠ .none) (hnb : b ≠ .none) :
    Evaluates e (.apply fn args [] loc) s (.pstr (joinStr ([' ', '\\'] ++ reindent e.cfg [] eol)
      (splitStr eol (directive e.cfg (shown e.cfg e.repr a) (shown e.cfg e.repr b))))) s2 := by
  obtain ⟨b1, b2, c, j, p', q', l2, l3, l4, l6, u, t1, k1, k2, k3, k4, k5, k6, hu, ht1, hst⟩ := define_stored hj hc hq hd uj uc uq hk hw hwp
  rw [evaluates_iff, hst] at hdef
  simp only [PRes.ok.injEq, Prod.mk.injEq, Node.env.injEq, List.cons.injEq, and_true, true_and] at hdef
  obtain ⟨rfl, -⟩ := hdef
  clear hst
  have hab : a ≠ .bound := by rintro rfl; cases hda
  have hbb : b ≠ .bound := by rintro rfl; cases hdb
  have hc' : Standard e x c.txt := by rw [k3]; exact hc
  have hj' : Standard e x j.txt := by rw [k4]; exact hj
  have hdt : Data t1 := by rw [ht1]; exact .pstr _
  rw [evaluates_iff]
  rw [closure_step hf ha (un_bound _ _) (by decide) (evaluates_iff.2 (ev_data e hda s2)) (by rintro y rfl; cases hda), applyNext_args, setFrame_closure]
  have e1 : Frame.set defFrame (lit "sig") a = [(lit "body", .bound), (lit "sig", a)] := rfl
  have e2 : Frame.set [(lit "body", .bound), (lit "sig", a)] (lit "body") b = [(lit "sig", a), (lit "body", b)] := rfl
  rw [e1]
  have hq1 : ev e (.apply (.var false [] p') [] [] l2) (push s2 [(lit "body", .bound), (lit "sig", a)]) = .ok (a, _) :=
    leg_present (by rw [k5]; rfl) (.inl ⟨hda, hna⟩)
  have hq2 : ev e (.apply (.var false [] q') [] [] l3) (push s2 [(lit "body", .bound), (lit "sig", a)]) = .ok (_, _) :=
    leg_missing (by rw [k6]; rfl)
  have hst := body_step (b1 := b1) (b2 := b2) (l4 := l4) (l6 := l6) hc' hj' hdt (text_fixed hw) (text_none hw) (text_fixed hu) (text_none hu)
    hq1 hq2 (by simp [isTerm]) (data_live hda) rfl
  rw [closure_step (closure_waits hst (un_bound _ _)) (data_arg hdb hnb (.nil s2)) (un_bound _ _) (by decide) (evaluates_iff.2 (ev_data e hdb s2))
    (by rintro y rfl; cases hdb), e2]
  have hun : Frame.unassigned [(lit "sig", a), (lit "body", b)] = none := by
    rw [un_known hab, un_known hbb]; rfl
  rw [applyNext_end (by rw [hun]; rfl), setFrame_closure]
  have hr2 : ev e (.apply (.var false [] q') [] [] l3) (push s2 [(lit "sig", a), (lit "body", b)]) = .ok (b, _) :=
    leg_present (by rw [k6]; rfl) (.inl ⟨hdb, hnb⟩)
  have hdone := body_done (b1 := b1) (b2 := b2) (l4 := l4) (l6 := l6) hc' hj' k3 k4 hdt hw h0 hu (ev_data e hda _) hr2 (data_term hda) (data_term hdb)
  have htx : showns e.cfg (textExt e (push s2 [(lit "sig", a), (lit "body", b)])).repr (defParts b1 b2 t1 a b) =
      directive e.cfg (shown e.cfg e.repr a) (shown e.cfg e.repr b) := by
    have hword : reindent e.cfg [] (lit "#define") = lit "#define" := reindent_word e.cfg [] (.inl rfl)
    change showns e.cfg e.repr _ = _
    generalize e.repr = r
    generalize hra : reindent e.cfg [] (shown e.cfg r a) = A
    generalize hrb : reindent e.cfg [] (shown e.cfg r b) = B
    unfold directive
    rw [hra, hrb]
    subst ht1
    generalize lit "#define" = W at hword
    simp only [defParts, showns, shown, k1, k2, hword, hra, hrb, fragment, Bool.false_eq_true, and_false, if_false, List.append_nil]
    simp only [List.cons_append, List.nil_append]
  rw [htx] at hdone
  rw [closure_value hdone, hun]

/-- **C93**. `($define SIG BODY)` gives `#define SIG BODY`, cut at every `__EOL__` and joined with ` \` and `__EOL__`. Both are
    moved to the margin. `__EOL__` and the functions used are those known where `$define` is defined. -/
theorem C93_define (e : EEnv) (x : BExt) (hj : Standard e x (lit "join")) (hc : Standard e x (lit "split")) (hq : Standard e x (lit "unq"))
    (d f wv : Node) (s0 s0' : ESt) (hd : DefineFn d) (hdef : Evaluates e d s0 (.env [(lit "define", f)]) s0')
    (uj : Unbound (lit "join") s0) (uc : Unbound (lit "split") s0) (uq : Unbound (lit "unq") s0)
    (eol : Str) (hk : Scopes.lookup s0.env (lit "__EOL__") = some wv) (hw : wv.text? = some eol) (hwp : ∀ t i, wv ≠ .plain t i true)
    (h0 : eol ≠ [])
    (fn : Node) (args : List Node) (a b : Node) (loc : Option Loc) (s s1 s2 : ESt) (hf : Evaluates e fn s f s1) (ha : Args e args s1 [a, b] s2)
    (hda : Data a) (hdb : Data b) (hna : a ≠ .none) (hnb : b ≠ .none) :
    ∃ lines t, Evaluates e (.apply fn args [] loc) s (.pstr t) s2 ∧
      Pieces eol (directive e.cfg (shown e.cfg e.repr a) (shown e.cfg e.repr b)) lines ∧
      Joined ([' ', '\\'] ++ reindent e.cfg [] eol) lines t :=
  ⟨_, _, define_applied hj hc hq hd hdef uj uc uq hk hw hwp h0 hf ha hda hdb hna hnb, splitStr_pieces h0 _, joinStr_joined _ _⟩

theorem reindent_newline (cfg : Config) : reindent cfg [] ['\n'] = ['\n'] := by
  unfold reindent trim trimWithBrowse
  cases cfg.browse <;> cases cfg.trimAppIndent <;> rfl

/-- In a text joined from pieces without line breaks every line break belongs to a separator. -/
theorem joined_breaks {ps : List Str} {t : Str} (hj : Joined [' ', '\\', '\n'] ps t) (hp : ∀ p ∈ ps, '\n' ∉ p) :
    ∀ u v, t = u ++ '\n' :: v → ∃ u', u = u' ++ [' ', '\\'] := by
  induction hj with
  | none => intro u v h; simp at h
  | one a => intro u v h; exact absurd (by rw [h]; simp) (hp a (by simp))
  | @more a b bs t _ ih =>
    intro u v h
    have ha : '\n' ∉ a := hp a (by simp)
    have ih' := ih (fun p hm => hp p (List.mem_cons_of_mem _ hm))
    rw [List.append_assoc, List.append_eq_append_iff] at h
    rcases h with ⟨r, h1, h2⟩ | ⟨r, h1, h2⟩
    · -- u = a ++ r
      subst h1
      match r, h2 with
      | [], h2 => simp at h2
      | [_], h2 => simp at h2
      | [_, _], h2 =>
        simp only [List.cons_append, List.nil_append, List.cons.injEq] at h2
        exact ⟨a, by rw [← h2.1, ← h2.2.1]⟩
      | x1 :: x2 :: x3 :: r, h2 =>
        simp only [List.cons_append, List.nil_append, List.cons.injEq] at h2
        obtain ⟨u', hu⟩ := ih' r v h2.2.2.2
        exact ⟨a ++ x1 :: x2 :: x3 :: u', by rw [hu]; simp⟩
    · match r, h2 with
      | [], h2 => simp at h2
      | c :: r, h2 =>
        simp only [List.cons_append, List.cons.injEq] at h2
        exact absurd (by rw [h1, ← h2.1]; simp) ha

theorem pieces_free {c : Char} {t : Str} {ps : List Str} (h : Pieces [c] t ps) : ∀ p ∈ ps, c ∉ p := by
  induction h with
  | last h =>
    intro p hp hc
    rw [List.mem_singleton] at hp
    subst hp
    obtain ⟨u, v, rfl⟩ := List.append_of_mem hc
    exact h u.length ⟨u, v, by simp, rfl⟩
  | @cut a r ps h _ ih =>
    intro p hp hc
    rcases List.mem_cons.1 hp with rfl | hp
    · obtain ⟨u, v, rfl⟩ := List.append_of_mem hc
      exact h u.length (by simp) ⟨u, v ++ [c] ++ r, by simp, rfl⟩
    · exact ih p hp hc

/-- **C93**. With the usual line break: the directive is one logical line, whatever the texts are. Every line break of it comes
    after ` \`. Nothing else is changed: without these marks it is the directive. -/
theorem C93_one_line (e : EEnv) (x : BExt) (hj : Standard e x (lit "join")) (hc : Standard e x (lit "split")) (hq : Standard e x (lit "unq"))
    (d f wv : Node) (s0 s0' : ESt) (hd : DefineFn d) (hdef : Evaluates e d s0 (.env [(lit "define", f)]) s0')
    (uj : Unbound (lit "join") s0) (uc : Unbound (lit "split") s0) (uq : Unbound (lit "unq") s0)
    (hk : Scopes.lookup s0.env (lit "__EOL__") = some wv) (hw : wv.text? = some ['\n']) (hwp : ∀ t i, wv ≠ .plain t i true)
    (fn : Node) (args : List Node) (a b : Node) (loc : Option Loc) (s s1 s2 : ESt) (hf : Evaluates e fn s f s1) (ha : Args e args s1 [a, b] s2)
    (hda : Data a) (hdb : Data b) (hna : a ≠ .none) (hnb : b ≠ .none) :
    ∃ lines t, Evaluates e (.apply fn args [] loc) s (.pstr t) s2 ∧
      (∀ u v, t = u ++ '\n' :: v → ∃ u', u = u' ++ [' ', '\\']) ∧
      Joined [' ', '\\', '\n'] lines t ∧ Joined ['\n'] lines (directive e.cfg (shown e.cfg e.repr a) (shown e.cfg e.repr b)) := by
  obtain ⟨lines, t, h1, h2, h3⟩ := C93_define e x hj hc hq d f wv s0 s0' hd hdef uj uc uq ['\n'] hk hw hwp (by simp) fn args a b loc s s1 s2 hf ha
    hda hdb hna hnb
  rw [reindent_newline] at h3
  exact ⟨lines, t, h1, joined_breaks h3 (pieces_free h2), h3, pieces_joined h2⟩

/-- **C93**. For texts of one line, not indented, it is just `#define SIG BODY`. -/
theorem C93_short (e : EEnv) (x : BExt) (hj : Standard e x (lit "join")) (hc : Standard e x (lit "split")) (hq : Standard e x (lit "unq"))
    (d f wv : Node) (s0 s0' : ESt) (hd : DefineFn d) (hdef : Evaluates e d s0 (.env [(lit "define", f)]) s0')
    (uj : Unbound (lit "join") s0) (uc : Unbound (lit "split") s0) (uq : Unbound (lit "unq") s0)
    (hk : Scopes.lookup s0.env (lit "__EOL__") = some wv) (hw : wv.text? = some ['\n']) (hwp : ∀ t i, wv ≠ .plain t i true)
    (fn : Node) (args : List Node) (a b : Node) (loc : Option Loc) (s s1 s2 : ESt) (hf : Evaluates e fn s f s1) (ha : Args e args s1 [a, b] s2)
    (hda : Data a) (hdb : Data b) (hna : a ≠ .none) (hnb : b ≠ .none) (c1 c2 : Char) (t1 t2 : Str)
    (ht1 : shown e.cfg e.repr a = c1 :: t1) (ht2 : shown e.cfg e.repr b = c2 :: t2) (hl1 : ∀ c ∈ c1 :: t1, isLineBreak c = false)
    (hl2 : ∀ c ∈ c2 :: t2, isLineBreak c = false) (hb1 : blankChar c1 = false) (hb2 : blankChar c2 = false) :
    Evaluates e (.apply fn args [] loc) s (.pstr (lit "#define " ++ c1 :: t1 ++ ' ' :: c2 :: t2)) s2 := by
  obtain ⟨lines, t, h1, h2, h3⟩ := C93_define e x hj hc hq d f wv s0 s0' hd hdef uj uc uq ['\n'] hk hw hwp (by simp) fn args a b loc s s1 s2 hf ha
    hda hdb hna hnb
  have hdir : directive e.cfg (shown e.cfg e.repr a) (shown e.cfg e.repr b) = lit "#define " ++ c1 :: t1 ++ ' ' :: c2 :: t2 := by
    unfold directive
    rw [ht1, ht2, reindent_line e.cfg [] hl1 hb1, reindent_line e.cfg [] hl2 hb2]
    rfl
  rw [hdir] at h2
  have hno : ∀ k, ¬ OccursAt ['\n'] (lit "#define " ++ c1 :: t1 ++ ' ' :: c2 :: t2) k := by
    rintro k ⟨u, v, h, -⟩
    have hm : '\n' ∈ lit "#define " ++ c1 :: t1 ++ ' ' :: c2 :: t2 := by rw [h]; simp
    rw [List.mem_append, List.mem_append, List.mem_cons (b := ' ')] at hm
    rcases hm with (hm | hm) | hm | hm
    · exact absurd hm (by decide)
    · exact absurd (hl1 _ hm) (by decide)
    · exact absurd hm (by decide)
    · exact absurd (hl2 _ hm) (by decide)
  generalize lit "#define " ++ c1 :: t1 ++ ' ' :: c2 :: t2 = T at h2 hno
  cases h2 with
  | last => cases h3; exact h1
  | cut _ _ => exact absurd ⟨_, _, rfl, rfl⟩ (hno _)

/-! ## `$__EOL__` -/

theorem eol_test {x : BExt} (hn : Standard e x (lit "not")) {o i a : Src} {l1 l2 : Option Loc} {σ : ESt} {v : Node} (ho : o.txt = lit "not")
    (hi : i.txt = lit "isatom") (un : Unbound (lit "not") σ) (ri : Reserved e σ (lit "isatom")) (hv : Evaluates e (.var false [] a) σ v σ) (hd : Data v)
    (hvn : v ≠ .none) :
    ∃ c, Evaluates e (.apply (.var false [] o) [.apply (.var false [] i) [.var false [] a] [] l1] [] l2) σ c σ ∧ Value c ∧ (False' c ↔ ∃ b, v = .atom b) := by
  have hval : Value v := data_value hd
  have hat := C56_isatom e i (.var false [] a) v l1 σ σ hi (by rw [hi]; exact ri) hv hval hvn
  by_cases h : ∃ b, v = .atom b
  · have hc := C54_not (l := o.loc) (loc := l2) hn un (.one (hat.1 h) (by simp) (by simp) (.nil σ)) (.int 1)
    have : truth (False' (.int 1)) = .int 0 := by unfold truth; rw [if_neg (by intro h; cases h)]
    rw [this, ← ho] at hc
    exact ⟨.int 0, hc, .int 0, ⟨fun _ => h, fun _ => .int⟩⟩
  · have hc := C54_not (l := o.loc) (loc := l2) hn un (.one (hat.2 h) (by simp) (by simp) (.nil σ)) (.int 0)
    have : truth (False' (.int 0)) = .int 1 := by unfold truth; rw [if_pos .int]
    rw [this, ← ho] at hc
    exact ⟨.int 1, hc, .int 1, ⟨fun h => by (cases h), fun h' => absurd h' h⟩⟩

theorem eol_push {a : Str} {n : Src} {s : ESt} (hn : n.txt = lit "__EOL__") (ha : a ≠ lit "__EOL__") :
    Scopes.lookup (push s [(n.txt, .bound)]).env a = Scopes.lookup s.env a := by
  rw [hn]
  simp only [push, Scopes.lookup, Frame.get]
  rw [List.find?_cons, show ((lit "__EOL__", Node.bound).1 == a) = false by simpa using Ne.symm ha]
  rfl

/-- **C93**. `__EOL__` is a line break, unless the script has given `EOL` a value. -/
theorem C93_eol_default (e : EEnv) (x : BExt) (hn : Standard e x (lit "not")) (d : Node) (s : ESt) (hd : EndOfLine d) (un : Unbound (lit "not") s)
    (ri : Reserved e s (lit "isatom")) (hb : Bare e s (lit "EOL")) :
    ∃ w, Evaluates e d s (.env [(lit "__EOL__", w)]) s ∧ w.text? = some ['\n'] ∧ ∀ t i, w ≠ .plain t i true := by
  cases hd with
  | @mk n o i a b c l1 l2 ind e1 e2 e3 e4 e5 e6 =>
    have hσ : Bare e (push s [(n.txt, .bound)]) a.txt :=
      ⟨by rw [eol_push e1 (by rw [e4]; decide), e4]; exact hb.unbound, by rw [e4]; exact hb.notBuiltin, by rw [e4]; exact hb.notSpecial,
        by rw [e4]; exact hb.noHyphen⟩
    have un' : Unbound (lit "not") (push s [(n.txt, .bound)]) := (eol_push e1 (by decide)).trans un
    have ri' : Reserved e (push s [(n.txt, .bound)]) (lit "isatom") := ⟨(eol_push e1 (by decide)).trans ri.scope, ri.table⟩
    obtain ⟨cv, hc, hv, hf⟩ := eol_test (l1 := l1) (l2 := l2) hn e2 e3 un' ri' (bare_eval hσ) (.atom a) (by simp)
    have hT : ev e (.text [.plain c ind false]) (push s [(n.txt, .bound)]) =
        .ok (textValue e (push s [(n.txt, .bound)]) (.str []) [.plain c ind false], push s [(n.txt, .bound)]) := by
      rw [ev_text, ev_t]
      have : evalT (ev e) (.str []) 0 false [.plain c ind false] (push s [(n.txt, .bound)]) = .ok ([.plain c ind false], _) :=
        evalT_item (by simp) (ev_data e (.plain _ _ _) _) rfl rfl
      rw [em_bind_ok this]
      rfl
    have hx := ((C25_false_leg e _ (.var false [] b) (.text [.plain c ind false]) cv _ _ hc hv (hf.2 ⟨a, rfl⟩)).1 _ _).2 (evaluates_iff.2 hT)
    have htx := textValue_text (e := e) (push s [(n.txt, .bound)]) (.str []) [.plain c ind false]
    refine ⟨_, by rw [← e1]; exact evaluates_iff.2 (set_one (by rw [e1]; decide) (evaluates_iff.1 hx)), ?_, ?_⟩
    · rw [htx]; simp [showns, shown, fragment, e6]
    · intro t i h
      unfold textValue at h
      split at h <;> cases h

/-- **C93**. Otherwise it is that value. (A script that says `($set EOL CR)` with a name that has none still gets the line break.) -/
theorem C93_eol_given (e : EEnv) (x : BExt) (hn : Standard e x (lit "not")) (d v : Node) (s : ESt) (hd : EndOfLine d) (un : Unbound (lit "not") s)
    (ri : Reserved e s (lit "isatom")) (hv : Scopes.lookup s.env (lit "EOL") = some v) (hdv : Data v) (hnv : v ≠ .none) (ha : ∀ a, v ≠ .atom a) :
    Evaluates e d s (.env [(lit "__EOL__", v)]) s := by
  cases hd with
  | @mk n o i a b c l1 l2 ind e1 e2 e3 e4 e5 e6 =>
    have hvb : v ≠ .bound := by rintro rfl; cases hdv
    have hl : ∀ a : Src, a.txt = lit "EOL" → Evaluates e (.var false [] a) (push s [(n.txt, .bound)]) v (push s [(n.txt, .bound)]) := by
      intro a h
      exact evaluates_iff.2 (var_value (by rw [eol_push e1 (by rw [h]; decide), h]; exact hv) hvb)
    have un' : Unbound (lit "not") (push s [(n.txt, .bound)]) := (eol_push e1 (by decide)).trans un
    have ri' : Reserved e (push s [(n.txt, .bound)]) (lit "isatom") := ⟨(eol_push e1 (by decide)).trans ri.scope, ri.table⟩
    obtain ⟨cv, hc, hv', hf⟩ := eol_test (l1 := l1) (l2 := l2) hn e2 e3 un' ri' (hl a e4) hdv hnv
    have hx := ((C25_true_leg e _ (.var false [] b) (.text [.plain c ind false]) cv _ _ hc hv' (fun h => by
      obtain ⟨y, hy⟩ := hf.1 h; exact ha y hy)).1 _ _).2 (hl b e5)
    rw [← e1]
    exact evaluates_iff.2 (set_one (by rw [e1]; decide) (evaluates_iff.1 hx))

/-! ## The library -/

def isDefineFn : Node → Bool
  | .set (.one n) (.lambda [([], p, none), ([], q, none)]
        (.apply (.var false [] j)
          [.apply (.var false [] c)
            [.text [.apply (.var false [] u) [.str w] [] _, .plain b1 .none false, .apply (.var false [] p') [] [] _, .plain b2 .none false,
              .apply (.var false [] q') [] [] _], .var false [] k] [] _,
           .text [.plain bs .no false, .apply (.var false [] k') [] [] _]] [] _)) =>
    decide (n.txt = lit "define") && decide (p.txt = lit "sig") && decide (q.txt = lit "body") && decide (j.txt = lit "join") &&
    decide (c.txt = lit "split") && decide (u.txt = lit "unq") && decide (w.txt = lit "\"#define\"") && decide (p'.txt = lit "sig") &&
    decide (q'.txt = lit "body") && decide (k.txt = lit "__EOL__") && decide (k'.txt = lit "__EOL__") && decide (b1.txt = [' ']) &&
    decide (b2.txt = [' ']) && decide (bs.txt = [' ', '\\'])
  | _ => false

theorem isDefineFn_sound {d : Node} (h : isDefineFn d = true) : DefineFn d := by
  unfold isDefineFn at h
  split at h
  · simp only [Bool.and_eq_true, decide_eq_true_eq] at h
    obtain ⟨⟨⟨⟨⟨⟨⟨⟨⟨⟨⟨⟨⟨h1, h2⟩, h3⟩, h4⟩, h5⟩, h6⟩, h7⟩, h8⟩, h9⟩, h10⟩, h11⟩, h12⟩, h13⟩, h14⟩ := h
    exact .mk h1 h2 h3 h4 h5 h6 h7 h8 h9 h10 h11 h12 h13 h14
  · cases h

def isEndOfLine : Node → Bool
  | .set (.one n) (.cond (.apply (.var false [] o) [.apply (.var false [] i) [.var false [] a] [] _] [] _) (.var false [] b)
        (.text [.plain c _ false])) =>
    decide (n.txt = lit "__EOL__") && decide (o.txt = lit "not") && decide (i.txt = lit "isatom") && decide (a.txt = lit "EOL") &&
    decide (b.txt = lit "EOL") && decide (c.txt = ['\n'])
  | _ => false

theorem isEndOfLine_sound {d : Node} (h : isEndOfLine d = true) : EndOfLine d := by
  unfold isEndOfLine at h
  split at h
  · simp only [Bool.and_eq_true, decide_eq_true_eq] at h
    obtain ⟨⟨⟨⟨⟨h1, h2⟩, h3⟩, h4⟩, h5⟩, h6⟩ := h
    exact .mk h1 h2 h3 h4 h5 h6
  · cases h

set_option maxRecDepth 100000 in
theorem defineFn_parsed : parsedAlone 100 (stdlibLines[55]?.getD []) isDefineFn = true := by decide +kernel

set_option maxRecDepth 100000 in
theorem endOfLine_parsed : parsedAlone 100 (twoLines 53) isEndOfLine = true := by decide +kernel

/-- **C93**. Both definitions are those of the library file. -/
theorem C93_library :
    (∃ (i : Nat) (l : Str) (n : Nat) (d : Node) (st : PSt), stdlibLines[i]? = some l ∧
      (P { inputFile := ['a'] } n).parse ['a'] (PSt.start { inputFile := ['a'] } none l) = .ok ([d], st) ∧ DefineFn d) ∧
    (∃ (i : Nat) (l1 l2 : Str) (n : Nat) (d : Node) (st : PSt), stdlibLines[i]? = some l1 ∧ stdlibLines[i + 1]? = some l2 ∧
      (P { inputFile := ['a'] } n).parse ['a'] (PSt.start { inputFile := ['a'] } none (l1 ++ '\n' :: l2)) = .ok ([d], st) ∧ EndOfLine d) := by
  obtain ⟨d1, p1, h1, k1⟩ := parsedAlone_sound defineFn_parsed
  obtain ⟨d2, p2, h2, k2⟩ := parsedAlone_sound endOfLine_parsed
  exact ⟨⟨55, _, 100, d1, p1, rfl, h1, isDefineFn_sound k1⟩, 53, _, _, 100, d2, p2, rfl, rfl, h2, isEndOfLine_sound k2⟩

/-! An example: `($define [A(x)] [f(x)])` with the usual line break. -/

example (x : BExt) (pe : PEnv) {d : Node} (hd : DefineFn d) (s : ESt) :
    ∃ f, Evaluates (stdEnv x pe) d { env := [[(lit "__EOL__", .pstr ['\n'])]] } (.env [(lit "define", f)]) { env := [[(lit "__EOL__", .pstr ['\n'])]] } ∧
      ∀ fn, Evaluates (stdEnv x pe) fn s f s →
        Evaluates (stdEnv x pe) (.apply fn [.pstr ['A', '(', 'x', ')'], .pstr ['f', '(', 'x', ')']] [] none) s (.pstr (lit "#define A(x) f(x)")) s := by
  obtain ⟨f, hf⟩ := C93_defined (stdEnv x pe) x (stdEnv_standard x pe _) (stdEnv_standard x pe _) (stdEnv_standard x pe _) d (.pstr ['\n'])
    { env := [[(lit "__EOL__", .pstr ['\n'])]] } hd rfl rfl rfl ['\n'] rfl rfl (by simp)
  refine ⟨f, hf, fun fn hfn => ?_⟩
  exact C93_short (stdEnv x pe) x (stdEnv_standard x pe _) (stdEnv_standard x pe _) (stdEnv_standard x pe _) d f (.pstr ['\n']) _ _ hd hf rfl rfl rfl
    rfl rfl (by simp) fn _ (.pstr ['A', '(', 'x', ')']) (.pstr ['f', '(', 'x', ')']) none s s s hfn
    (data_arg (.pstr _) (by simp) (data_arg (.pstr _) (by simp) (.nil s))) (.pstr _) (.pstr _) (by simp) (by simp) 'A' 'f' _ _ rfl rfl
    (by decide) (by decide) (by decide) (by decide)

/-- The same with a body of two lines. -/
example (x : BExt) (pe : PEnv) {d f fn : Node} (hd : DefineFn d) (s : ESt)
    (hf : Evaluates (stdEnv x pe) d { env := [[(lit "__EOL__", .pstr ['\n'])]] } (.env [(lit "define", f)]) { env := [[(lit "__EOL__", .pstr ['\n'])]] })
    (hfn : Evaluates (stdEnv x pe) fn s f s) :
    Evaluates (stdEnv x pe) (.apply fn [.pstr ['A'], .pstr ['f', ';', '\n', 'g']] [] none) s (.pstr (lit "#define A f; \\\ng")) s :=
  define_applied (stdEnv_standard x pe _) (stdEnv_standard x pe _) (stdEnv_standard x pe _) (eol := ['\n']) hd hf rfl rfl rfl rfl rfl (by simp) (by simp)
    hfn (data_arg (.pstr _) (by simp) (data_arg (.pstr _) (by simp) (.nil s))) (.pstr _) (.pstr _) (by simp) (by simp)

/-- `__EOL__` where only `$not` is in the table: without a value of `EOL`, and with one. -/
example (x : BExt) (pe : PEnv) {d : Node} (hd : EndOfLine d) :
    let e : EEnv := { pe := pe, builtin := fun _ f => if f = lit "not" then some .fn else none, call := fun _ f args seen => builtinCall x f args seen }
    (∃ w, Evaluates e d {} (.env [(lit "__EOL__", w)]) {} ∧ w.text? = some ['\n']) ∧
    Evaluates e d { env := [[(lit "EOL", .pstr ['\r', '\n'])]] } (.env [(lit "__EOL__", .pstr ['\r', '\n'])]) { env := [[(lit "EOL", .pstr ['\r', '\n'])]] } := by
  intro e
  have hn : Standard e x (lit "not") := ⟨fun _ => rfl, fun _ _ _ => rfl⟩
  obtain ⟨w, h1, h2, -⟩ := C93_eol_default e x hn d {} hd rfl ⟨rfl, rfl⟩ ⟨rfl, rfl, by decide, by decide⟩
  exact ⟨⟨w, h1, h2⟩, C93_eol_given e x hn d _ _ hd rfl ⟨rfl, rfl⟩ rfl (.pstr _) (by simp) (by simp)⟩

end Yupp
