import Verif.Lemmas.Straight
import Verif.Props.Generate
import Verif.Props.StdlibText
/-!
# C97: programs without functions of their own always come to an end
-/

namespace Yupp
open Spec

variable {e : EEnv}

/-- **C97**. An expression without functions, macros and evaluated texts of its own comes to an end wherever the names in scope
    stand for data: it has a value, which is data again, or raises an exception. -/
theorem C97_ends {Γ : NamesAt} {x : Node} {s : ESt} (h : Straight e s.p.scripts Γ (.expr x)) (hf : Fits Γ s.env) :
    (∃ v s', Evaluates e x s v s' ∧ Inert v) ∨ Raises e x s := by
  rcases straight_halts h s rfl hf with h | ⟨v, s', h, hv, _⟩
  · exact .inr (raises_iff.2 h)
  · exact .inl ⟨v, s', evaluates_iff.2 h, hv⟩

/-- **C97**. A whole source without functions of its own, libraries included: the translation ends. It writes a text, or
    reports an error; nothing in it is left unreduced. -/
theorem C97_translation (readable : Node → Str) {input : Option Str} (seen : List Node) {src : Str} {nodes : List Node} {st : PSt} {N : Nat}
    (hp : (P e.pe N).parse e.pe.inputFile (PSt.start e.pe input src) = .ok (nodes, st))
    (h : Straight e st.scripts NamesAt.empty (.pieces nodes)) :
    ∃ run, Translates e readable input seen src run ∧ ∀ t, run.raw ≠ .tree t := by
  have hp' : ∀ n, N ≤ n → (P e.pe n).parse e.pe.inputFile (PSt.start e.pe input src) = .ok (nodes, st) := by
    intro n hn
    rcases (P_le e.pe hn).parse e.pe.inputFile (PSt.start e.pe input src) with h | h
    · rw [hp] at h; cases h
    · rw [← h, hp]
  have hfit : Fits NamesAt.empty ({ p := st, seen := seen } : ESt).env := by
    refine ⟨fun a v _ h => ?_, fun a h => False.elim h⟩
    cases h
  have hout : ∀ {n : Nat} {r}, E e n (.text nodes) { p := st, seen := seen } = r → r ≠ .timeout →
      ∃ n, N ≤ n ∧ E e n (.text nodes) { p := st, seen := seen } = r := by
    intro n r hE hr
    refine ⟨max n N, Nat.le_max_right _ _, ?_⟩
    rcases E_le e (Nat.le_max_left n N) (.text nodes) { p := st, seen := seen } with h | h
    · rw [hE] at h; exact absurd h hr
    · rw [← h, hE]
  have hrun : (Halts (ev e (.text nodes)) { p := st, seen := seen } (fun v _ => (∃ s, v = .pstr s) ∨ ∃ r, v = .result r)) := by
    have h1 := straight_halts h { p := st, seen := seen } rfl hfit (.str []) false
    refine halts_step (m := evalT (ev e) (.str []) 0 false nodes >>= fun ys => finishT e (.str []) ys) ?_ ?_
    · rw [ev_text, ev_at]; rfl
    · refine halts_bind h1 (fun ys σ' hy => .inr ⟨_, σ', rfl, ?_⟩)
      rw [(areTerms_iff ys).2 hy.1]
      simp only [if_true]
      split
      · exact .inr ⟨_, rfl⟩
      · exact .inl ⟨_, rfl⟩
  rcases hrun with hE | ⟨v, s', hE, hv⟩
  · obtain ⟨n, hn⟩ := raises_iff.2 hE
    obtain ⟨n, h1, h2⟩ := hout hn (by simp)
    refine ⟨{ raw := .raised }, ⟨n, ?_⟩, by simp⟩
    unfold runAt; rw [hp' n h1]; dsimp only; rw [h2]
  · obtain ⟨n, hn⟩ := evaluates_iff.2 hE
    obtain ⟨n, h1, h2⟩ := hout hn (by simp)
    refine ⟨{ raw := rawOf e readable s' v, outputFile := s'.outputFile, rept := s'.rept, shrink := s'.p.shrink }, ⟨n, ?_⟩, ?_⟩
    · unfold runAt; rw [hp' n h1]; dsimp only; rw [h2]
    · rcases hv with ⟨u, rfl⟩ | ⟨r, rfl⟩
      · intro t ht; cases ht
      · intro t ht; cases ht

/-! ## Functions are what it takes -/

/-- A function `\x.($f x)`. -/
def callsItself (f x x' : Src) (loc : Option Loc) : Node :=
  .lclosure (.apply (.var false [] f) [.var false [] x'] [] loc) [(x.txt, .bound)] [] []

theorem lookup_head {f : Frame} {env : Scopes} {k : Str} {v : Node} (h : Frame.get f k = some v) : Scopes.lookup (f :: env) k = some v := by
  unfold Scopes.lookup
  rw [h]

theorem lookup_tail {f : Frame} {env : Scopes} {k : Str} (h : Frame.get f k = none) : Scopes.lookup (f :: env) k = Scopes.lookup env k := by
  rw [Scopes.lookup, h]

theorem calls_itself {f x x' : Src} {floc : Option Loc} (hx : x'.txt = x.txt) (hne : f.txt ≠ x.txt) (hva : x.txt ≠ vaArgs) :
    ∀ (n : Nat) (g : Src) (arg : Node) (k : Int) (loc : Option Loc) (s : ESt), g.txt = f.txt →
      Scopes.lookup s.env f.txt = some (callsItself f x x' floc) →
      (arg = .int k ∨ arg = .var false [] x' ∧ Scopes.lookup s.env x.txt = some (.int k)) →
      E e n (.apply (.var false [] g) [arg] [] loc) s = .timeout
  | 0, _, _, _, _, _, _, _, _ => rfl
  | 1, _, _, _, _, _, _, _, _ => rfl
  | n + 2, g, arg, k, loc, s, hg, hl, ha => by
    change evalApply e (E e (n + 1)) (.var false [] g) [arg] [] loc s = _
    unfold evalApply
    have h1 : E e (n + 1) (.var false [] g) s = .ok (callsItself f x x' floc, s) := by
      change evalVar e false [] g s = _
      unfold evalVar
      rw [hg, hl]
      rfl
    have h2 : E e (n + 1) arg s = .ok (.int k, s) := by
      rcases ha with rfl | ⟨rfl, hk⟩
      · rfl
      · change evalVar e false [] x' s = _
        unfold evalVar
        rw [hx, hk]
        rfl
    have h3 : evalList (E e (n + 1)) [arg] s = .ok ([.int k], s) := by
      unfold evalList
      rw [em_bind_ok h2]
      rfl
    rw [em_bind_ok h1, em_bind_ok h3]
    change applyClosure (E e (n + 1)) (callsItself f x x' floc) [(x.txt, .bound)] [] [] [.int k] [] loc s = _
    unfold applyClosure
    have h4 : Frame.unassigned [(x.txt, Node.bound)] = some x.txt := rfl
    simp only [h4, hva, if_false]
    have h5 : listEval1 (E e (n + 1)) [.int k] s = .ok ((some (.int k), []), s) := rfl
    rw [em_bind_ok h5]
    change applyNext (E e (n + 1)) (callsItself f x x' floc) (Frame.set [(x.txt, .bound)] x.txt (.int k)) [] [] [] loc s = _
    have h6 : Frame.set [(x.txt, Node.bound)] x.txt (.int k) = [(x.txt, .int k)] := by
      simp [Frame.set, Frame.del]
    rw [h6]
    change evalClosure (E e n) (.apply (.var false [] f) [.var false [] x'] [] floc) [(x.txt, .int k)] [] [] s = _
    unfold evalClosure
    have hge : ∀ a, Frame.get [(x.txt, Node.int k)] a = if x.txt = a then some (.int k) else none := by
      intro a
      rw [get_cons]
      rfl
    have h7 := calls_itself hx hne hva n f (.var false [] x') k floc { s with env := [(x.txt, .int k)] :: s.env } rfl
      (by rw [lookup_tail (by rw [hge, if_neg (Ne.symm hne)])]; exact hl)
      (.inr ⟨rfl, lookup_head (by rw [hge, if_pos rfl])⟩)
    rw [em_bind]
    unfold EM.inFrame
    rw [h7]

/-- `($set f \x.($f x))($f k)`. -/
inductive Endless : List Node → Prop
  | mk {f f' f'' x x' : Src} {k : Int} {loc loc'} : f.txt ≠ x.txt → x.txt ≠ ['.', '.', '.'] → x.txt ≠ vaArgs →
      f.txt ≠ lit "__OUTPUT_FILE__" → f'.txt = f.txt → f''.txt = f.txt → x'.txt = x.txt →
      Endless [.set (.one f) (.lambda [([], x, none)] (.apply (.var false [] f') [.var false [] x'] [] loc)),
        .apply (.var false [] f'') [.int k] [] loc']

theorem ev_timeout {x : Node} {s : ESt} (h : ∀ n, E e n x s = .timeout) : ev e x s = .timeout := by
  cases he : ev e x s with
  | timeout => rfl
  | err => obtain ⟨n, hn⟩ := raises_iff.2 he; rw [h n] at hn; cases hn
  | ok p => obtain ⟨n, hn⟩ := evaluates_iff.2 he; rw [h n] at hn; cases hn

theorem endless_ev {nodes : List Node} (h : Endless nodes) (s : ESt) : ev e (.text nodes) s = .timeout := by
  cases h with
  | @mk f f' f'' x x' k loc loc' hne hdots hva hout hf' hf'' hx' =>
    have hbody : ev e (.apply (.var false [] f') [.var false [] x'] [] loc)
        { s with env := [(x.txt, .bound)] :: [(f.txt, .bound)] :: s.env } =
        .ok (.apply (.var false [] f') [.var false [] x'] [] loc, { s with env := [(x.txt, .bound)] :: [(f.txt, .bound)] :: s.env }) := by
      have hge : ∀ b a, Frame.get [(b, Node.bound)] a = if b = a then some .bound else none := by
        intro b a
        rw [get_cons]
        rfl
      have hv : ∀ a : Src, Scopes.lookup ([(x.txt, Node.bound)] :: [(f.txt, .bound)] :: s.env) a.txt = some .bound →
          ev e (.var false [] a) { s with env := [(x.txt, .bound)] :: [(f.txt, .bound)] :: s.env } =
          .ok (.var false [] a, { s with env := [(x.txt, .bound)] :: [(f.txt, .bound)] :: s.env }) := by
        intro a ha
        rw [ev_at]
        change evalVar e false [] a _ = _
        unfold evalVar
        rw [ha]
        rfl
      have h1 := hv f' (by rw [lookup_tail (by rw [hge, if_neg (by rw [hf']; exact Ne.symm hne)]), lookup_head (by rw [hge, if_pos hf'.symm])])
      have h2 := hv x' (by rw [lookup_head (by rw [hge, if_pos hx'.symm])])
      rw [ev_apply_eq, em_bind_ok h1]
      have h3 : evalList (ev e) [.var false [] x'] { s with env := [(x.txt, .bound)] :: [(f.txt, .bound)] :: s.env } =
          .ok ([.var false [] x'], { s with env := [(x.txt, .bound)] :: [(f.txt, .bound)] :: s.env }) := by
        unfold evalList
        rw [em_bind_ok h2]
        rfl
      rw [em_bind_ok h3]
      rfl
    have hlam : ev e (.lambda [([], x, none)] (.apply (.var false [] f') [.var false [] x'] [] loc)) { s with env := [(f.txt, .bound)] :: s.env } =
        .ok (.lclosure (.apply (.var false [] f') [.var false [] x'] [] loc) [(x.txt, .bound)] [] [], { s with env := [(f.txt, .bound)] :: s.env }) := by
      rw [ev_at]
      change evalLambda (ev e) [([], x, none)] _ _ = _
      unfold evalLambda
      have h1 : evalBound (ev e) [([], x, none)] [] [] [] { s with env := [(f.txt, .bound)] :: s.env } =
          .ok (([(x.txt, .bound)], [], []), { s with env := [(f.txt, .bound)] :: s.env }) := by
        change evalBound (ev e) [] (Frame.set [] (if x.txt = ['.', '.', '.'] then vaArgs else x.txt) .bound) [] [] _ = _
        rw [if_neg hdots]
        rfl
      rw [em_bind_ok h1]
      change ev e (.lclosure _ _ _ _) _ = _
      rw [ev_at]
      change evalClosure (ev e) _ _ _ _ _ = _
      unfold evalClosure
      have h2 : EM.inFrame [(x.txt, Node.bound)] (ev e (.apply (.var false [] f') [.var false [] x'] [] loc)) { s with env := [(f.txt, .bound)] :: s.env } =
          .ok ((.apply (.var false [] f') [.var false [] x'] [] loc, [(x.txt, .bound)]), { s with env := [(f.txt, .bound)] :: s.env }) := by
        unfold EM.inFrame
        rw [hbody]
      rw [em_bind_ok h2]
      rfl
    have hset : ev e (.set (.one f) (.lambda [([], x, none)] (.apply (.var false [] f') [.var false [] x'] [] loc))) s =
        .ok (.env [(f.txt, .lclosure (.apply (.var false [] f') [.var false [] x'] [] loc) [(x.txt, .bound)] [] [])], s) := by
      rw [ev_at]
      change evalSet e (ev e) _ _ _ = _
      have ho : LVal.isOutput (.one f) = false := by
        change (f.txt == lit "__OUTPUT_FILE__") = false
        simpa using hout
      unfold evalSet
      rw [ho]
      have h3 : EM.inFrame (LVal.frame (.one f)) (ev e (.lambda [([], x, none)] (.apply (.var false [] f') [.var false [] x'] [] loc))) s =
          .ok ((.lclosure (.apply (.var false [] f') [.var false [] x'] [] loc) [(x.txt, .bound)] [] [], [(f.txt, .bound)]), s) := by
        unfold EM.inFrame LVal.frame
        rw [hlam]
      have h4 : evalAssign (ev e) (.one f) (.lambda [([], x, none)] (.apply (.var false [] f') [.var false [] x'] [] loc)) s =
          .ok ([(f.txt, .lclosure (.apply (.var false [] f') [.var false [] x'] [] loc) [(x.txt, .bound)] [] [])], s) := by
        unfold evalAssign
        rw [em_bind_ok h3]
        change PRes.ok (assign _ _ _, s) = _
        simp [assign, Frame.set, Frame.del]
      exact (em_bind_ok h4).trans rfl
    have hcall : ∀ i, ev e (.t [.apply (.var false [] f'') [.int k] [] loc'] i)
        { s with env := [(f.txt, .lclosure (.apply (.var false [] f') [.var false [] x'] [] loc) [(x.txt, .bound)] [] [])] :: s.env } = .timeout := by
      intro i
      have h5 : ev e (.apply (.var false [] f'') [.int k] [] loc')
          { s with env := [(f.txt, .lclosure (.apply (.var false [] f') [.var false [] x'] [] loc) [(x.txt, .bound)] [] [])] :: s.env } = .timeout := by
        refine ev_timeout (fun n => ?_)
        refine calls_itself (f := f') (x := x) (x' := x') (floc := loc) hx' (by rw [hf']; exact hne) hva n f'' (.int k) k loc' _ (by rw [hf', hf'']) ?_ (.inl rfl)
        refine lookup_head ?_
        rw [get_cons, if_pos hf'.symm]
        rfl
      rw [ev_at]
      change (evalT (ev e) i 0 false [_] >>= fun ys => finishT e i ys) _ = _
      rw [em_bind]
      have h6 : evalT (ev e) i 0 false [.apply (.var false [] f'') [.int k] [] loc']
          { s with env := [(f.txt, .lclosure (.apply (.var false [] f') [.var false [] x'] [] loc) [(x.txt, .bound)] [] [])] :: s.env } = .timeout := by
        unfold evalT
        simp only [Bool.false_eq_true, if_false]
        rw [em_bind, h5]
      rw [h6]
    rw [ev_text, ev_at]
    change (evalT (ev e) (.str []) 0 false _ >>= fun ys => finishT e (.str []) ys) _ = _
    rw [em_bind]
    have h7 : evalT (ev e) (.str []) 0 false [.set (.one f) (.lambda [([], x, none)] (.apply (.var false [] f') [.var false [] x'] [] loc)),
        .apply (.var false [] f'') [.int k] [] loc'] s = .timeout := by
      unfold evalT
      simp only [Bool.false_eq_true, if_false]
      rw [em_bind_ok hset]
      change (ev e (.setClosure (.t [.apply (.var false [] f'') [.int k] [] loc'] (.str [])) _) >>= fun z => pure [z]) s = _
      rw [em_bind]
      have h8 : ev e (.setClosure (.t [.apply (.var false [] f'') [.int k] [] loc'] (.str []))
          [(f.txt, .lclosure (.apply (.var false [] f') [.var false [] x'] [] loc) [(x.txt, .bound)] [] [])]) s = .timeout := by
        rw [ev_at]
        change evalSetClosure (ev e) _ _ _ = _
        unfold evalSetClosure
        rw [em_bind]
        unfold EM.inFrame
        rw [hcall]
      rw [h8]
    rw [h7]

/-- **C97**. One function that calls itself is enough: such a program has no end, whatever it is called with. -/
theorem C97_recursion {nodes : List Node} (h : Endless nodes) (s : ESt) :
    (∀ v s', ¬ Evaluates e (.text nodes) s v s') ∧ ¬ Raises e (.text nodes) s := by
  have := endless_ev (e := e) h s
  constructor
  · intro v s' hv
    rw [evaluates_iff.1 hv] at this
    cases this
  · intro hr
    rw [raises_iff.1 hr] at this
    cases this

/-! ## Examples -/

/-- The pieces of a text parsed on its own. -/
def piecesAlone (n : Nat) (t : Str) (ok : List Node → Bool) : Bool :=
  match (P { inputFile := ['a'] } n).parse ['a'] (PSt.start { inputFile := ['a'] } none t) with
  | .ok (ds, p) => ok ds && p.scripts.isEmpty
  | _ => false

theorem piecesAlone_sound {n : Nat} {t : Str} {ok : List Node → Bool} (h : piecesAlone n t ok = true) :
    ∃ ds p, (P { inputFile := ['a'] } n).parse ['a'] (PSt.start { inputFile := ['a'] } none t) = .ok (ds, p) ∧ ok ds = true ∧ p.scripts = [] := by
  unfold piecesAlone at h
  split at h
  · rename_i ds p hp
    simp only [Bool.and_eq_true, List.isEmpty_iff] at h
    exact ⟨ds, p, hp, h⟩
  · cases h

def isEndless : List Node → Bool
  | [.set (.one f) (.lambda [([], x, none)] (.apply (.var false [] f') [.var false [] x'] [] _)), .apply (.var false [] f'') [.int _] [] _] =>
    f.txt == ['f'] && x.txt == ['x'] && f'.txt == ['f'] && f''.txt == ['f'] && x'.txt == ['x']
  | _ => false

theorem isEndless_sound {ds : List Node} (h : isEndless ds = true) : Endless ds := by
  unfold isEndless at h
  split at h
  · simp only [Bool.and_eq_true, beq_iff_eq] at h
    obtain ⟨⟨⟨⟨h1, h2⟩, h3⟩, h4⟩, h5⟩ := h
    refine .mk ?_ ?_ ?_ ?_ (h3.trans h1.symm) (h4.trans h1.symm) (h5.trans h2.symm)
    · rw [h1, h2]; decide
    · rw [h2]; decide
    · rw [h2]; decide
    · rw [h1]; decide
  · cases h

/-- `($set f \x.($f x))($f 1)`. -/
def endlessText : Str := ['(', '$', 's', 'e', 't', ' ', 'f', ' ', '\\', 'x', '.', '(', '$', 'f', ' ', 'x', ')', ')', '(', '$', 'f', ' ', '1', ')']

set_option maxRecDepth 100000 in
theorem endless_parsed : piecesAlone 100 endlessText isEndless = true := by decide +kernel

/-- The translation of this source has no end. -/
theorem C97_endless_source (readable : Node → Str) (seen : List Node) (run : Run) :
    ¬ Translates { pe := { inputFile := ['a'] } } readable none seen endlessText run := by
  obtain ⟨ds, p, hp, hd, _⟩ := piecesAlone_sound endless_parsed
  rintro ⟨n, hn⟩
  unfold runAt at hn
  have hno := fun s => C97_recursion (e := { pe := { inputFile := ['a'] } }) (isEndless_sound hd) s
  have hle : ∀ m, (P { inputFile := ['a'] } m).parse ['a'] (PSt.start { inputFile := ['a'] } none endlessText) = .timeout ∨
      (P { inputFile := ['a'] } m).parse ['a'] (PSt.start { inputFile := ['a'] } none endlessText) = .ok (ds, p) := by
    intro m
    rcases Nat.le_total m 100 with h | h
    · rcases (P_le { inputFile := ['a'] } h).parse ['a'] (PSt.start { inputFile := ['a'] } none endlessText) with h | h
      · exact .inl h
      · exact .inr (h.trans hp)
    · rcases (P_le { inputFile := ['a'] } h).parse ['a'] (PSt.start { inputFile := ['a'] } none endlessText) with h | h
      · rw [hp] at h; cases h
      · exact .inr (h.symm.trans hp)
  rcases hle n with h | h
  · rw [show (P _ n).parse _ _ = _ from h] at hn; cases hn
  · rw [show (P _ n).parse _ _ = _ from h] at hn
    dsimp only at hn
    cases hE : E { pe := { inputFile := ['a'] } } n (.text ds) { p := p, seen := seen } with
    | timeout => rw [hE] at hn; cases hn
    | err => exact (hno _).2 ⟨n, hE⟩
    | ok q => exact (hno _).1 _ _ ⟨n, hE⟩

def isSampleStraight : List Node → Bool
  | [.set (.one n) (.int _), .plain _ _ _, .apply (.var false [] n1) [] [] _, .plain _ _ _,
      .letn (.one m) (.apply (.var false [] n2) [.var false [] n3] [] _) (.apply (.str _) [.var false [] m1] [] _), .plain _ _ _] =>
    n.txt == ['n'] && n1.txt == ['n'] && n2.txt == ['n'] && n3.txt == ['n'] && m.txt == ['m'] && m1.txt == ['m']
  | _ => false

theorem sampleStraight_sound {ds : List Node} (h : isSampleStraight ds = true) (sc : List Str) : Straight e sc .empty (.pieces ds) := by
  unfold isSampleStraight at h
  split at h
  · rename_i n _ _ _ _ n1 _ _ _ _ m n2 n3 _ _ m1 _ _ _ _
    simp only [Bool.and_eq_true, beq_iff_eq] at h
    obtain ⟨⟨⟨⟨⟨h1, h2⟩, h3⟩, h4⟩, h5⟩, h6⟩ := h
    have hnm : ∀ {a : Src}, a.txt = ['n'] → ¬ ((NamesAt.empty.bind (lvalNames (.one n))).hide (lvalNames (.one m))).waiting a.txt := by
      intro a ha hw
      rcases hw with hw | hw
      · rw [ha] at hw
        simp [lvalNames, h5] at hw
      · exact hw.2
    refine .set (by simp [lvalNames]) ?_ (.data (.int _)) ?_
    · rintro a ha
      cases ha
      rw [h1]
      decide
    refine .piece (.data (.plain _ _ _)) ?_
    refine .piece (.apply (.name (fun h => h.2) (.inl (.inl (by simp [lvalNames, h1, h2])))) .noItems .noNamed) ?_
    refine .piece (.data (.plain _ _ _)) ?_
    refine .piece (.letn (by simp [lvalNames]) ?_ ?_) (.piece (.data (.plain _ _ _)) .noPieces)
    · exact .apply (.name (hnm h3) (.inl (.inl (by simp [lvalNames, h1, h3]))))
        (.item (.name (hnm h4) (.inl (.inl (by simp [lvalNames, h1, h4])))) .noItems) .noNamed
    · exact .apply (.data (.str _)) (.item (.name (fun h => h.2.2) (.inl (.inl (by simp [lvalNames, h5, h6])))) .noItems) .noNamed
  · cases h

/-- `($set n 5)a($n)b($let m ($ n n) ($"x" m))c`. -/
def straightText : Str := ['(', '$', 's', 'e', 't', ' ', 'n', ' ', '5', ')', 'a', '(', '$', 'n', ')', 'b', '(', '$', 'l', 'e', 't', ' ', 'm', ' ', '(', '$', ' ', 'n', ' ', 'n', ')', ' ', '(', '$', '"', 'x', '"', ' ', 'm', ')', ')', 'c']

set_option maxRecDepth 100000 in
theorem straight_parsed : piecesAlone 100 straightText isSampleStraight = true := by decide +kernel

/-- `C97_translation` applies to this source. -/
example (readable : Node → Str) (seen : List Node) :
    ∃ run, Translates { pe := { inputFile := ['a'] } } readable none seen straightText run ∧ ∀ t, run.raw ≠ .tree t := by
  obtain ⟨ds, p, hp, hd, hs⟩ := piecesAlone_sound straight_parsed
  exact C97_translation (e := { pe := { inputFile := ['a'] } }) readable seen hp (sampleStraight_sound hd _)

/-- `C97_ends`: `($ n ? 1 | ($list n))` where `n` is 2. -/
example : (∃ v s', Evaluates e (.cond (.var false [] { txt := ['n'] }) (.int 1) (.list [.var false [] { txt := ['n'] }]))
      { env := [[(['n'], .int 2)]] } v s' ∧ Inert v) ∨
    Raises e (.cond (.var false [] { txt := ['n'] }) (.int 1) (.list [.var false [] { txt := ['n'] }])) { env := [[(['n'], .int 2)]] } := by
  have hf : Fits (NamesAt.empty.bind [['n']]) [[(['n'], .int 2)]] :=
    fits_bind (f := [(['n'], .int 2)]) (Γ := .empty) (env := []) ⟨fun a v _ h => (by cases h), fun a h => False.elim h⟩
      (by intro p hp; cases List.mem_singleton.1 hp; exact .int _)
  have hn : ∀ sc, Straight e sc (NamesAt.empty.bind [['n']]) (.expr (.var false [] { txt := ['n'] })) :=
    fun sc => .name (fun h => h.2) (.inl (.inl (by simp)))
  exact C97_ends (.cond (hn _) (.data (.int _)) (.list (.item (hn _) .noItems))) hf

end Yupp
