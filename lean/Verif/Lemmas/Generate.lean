import Verif.Spec.Generate
import Verif.Props.Scope
import Verif.Props.Trim
import Verif.Props.Indent
/-!
# Evaluation of a sequence of pieces
-/

namespace Yupp

open Spec

variable {e : EEnv}

theorem fragment_eq (cfg : Config) (s : Src) (c : Bool) : fragment cfg s.txt c = getTrimmed cfg s c := by
  unfold fragment getTrimmed
  cases cfg.trimAppIndent <;> cases c <;> rfl

mutual
theorem plainStr_shown (cfg : Config) (x : TextExt) (hb : cfg.browse = false) : (n : Node) → plainStr cfg x n = shown cfg x.repr n
  | .none => by simp [plainStr, shown]
  | .result r => by simp [plainStr, shown, strOf]
  | .trim a i => by simp [plainStr, shown, reindent, hb, plainStr_shown cfg x hb a]
  | .list xs => by simp only [plainStr, shown]; exact plainStrs_shown cfg x hb xs
  | .t xs _ => by simp only [plainStr, shown]; exact plainStrs_shown cfg x hb xs
  | .lazy a => by simp only [plainStr, shown]; exact plainStr_shown cfg x hb a
  | .plain s _ tr => by simp only [plainStr, shown, fragment_eq]
  | .atom s => by simp [plainStr, shown, strOf]
  | .remark s => by simp [plainStr, shown, strOf]
  | .str s => by simp [plainStr, shown, strOf]
  | .pstr _ => by simp [plainStr, shown, strOf]
  | .int _ => by simp [plainStr, shown, strOf]
  | .bool true => by simp [plainStr, shown, strOf, lit]
  | .bool false => by simp [plainStr, shown, strOf, lit]
  | .float _ => by simp [plainStr, shown, strOf]
  | .text .. => by simp [plainStr, shown, strOf]
  | .var .. => by simp [plainStr, shown, strOf]
  | .apply .. => by simp [plainStr, shown, strOf]
  | .set .. => by simp [plainStr, shown, strOf]
  | .letn .. => by simp [plainStr, shown, strOf]
  | .macro .. => by simp [plainStr, shown, strOf]
  | .emit .. => by simp [plainStr, shown, strOf]
  | .lambda .. => by simp [plainStr, shown, strOf]
  | .lambdaVar .. => by simp [plainStr, shown, strOf]
  | .cond .. => by simp [plainStr, shown, strOf]
  | .infix .. => by simp [plainStr, shown, strOf]
  | .eval .. => by simp [plainStr, shown, strOf]
  | .embed .. => by simp [plainStr, shown, strOf]
  | .comment .. => by simp [plainStr, shown, strOf]
  | .importBegin .. => by simp [plainStr, shown, strOf]
  | .importEnd .. => by simp [plainStr, shown, strOf]
  | .bound .. => by simp [plainStr, shown, strOf]
  | .lclosure .. => by simp [plainStr, shown, strOf]
  | .mclosure .. => by simp [plainStr, shown, strOf]
  | .infixClosure .. => by simp [plainStr, shown, strOf]
  | .condClosure .. => by simp [plainStr, shown, strOf]
  | .setClosure .. => by simp [plainStr, shown, strOf]
  | .builtin .. => by simp [plainStr, shown, strOf]
  | .skip .. => by simp [plainStr, shown, strOf]
  | .env .. => by simp [plainStr, shown, strOf]
  | .pyobj .. => by simp [plainStr, shown, strOf]
theorem plainStrs_shown (cfg : Config) (x : TextExt) (hb : cfg.browse = false) : (ns : List Node) →
    plainStrs cfg x ns = showns cfg x.repr ns
  | [] => by simp [plainStrs, showns]
  | n :: ns => by simp only [plainStrs, showns]; rw [plainStr_shown cfg x hb n, plainStrs_shown cfg x hb ns]
end

theorem trimBrowse_txt (cfg : Config) (i : Str) (r : Res) : (trimWithBrowse cfg i r).txt = (trimWithBrowse cfg i { txt := r.txt }).txt := by
  unfold trimWithBrowse
  split <;> rfl

mutual
theorem plainBrowse_shown (cfg : Config) (x : TextExt) (hb : cfg.browse = true) : (n : Node) →
    (plainBrowse cfg x n).txt = shown cfg x.repr n
  | .none => by simp [plainBrowse, shown]
  | .result r => by simp [plainBrowse, shown]
  | .trim a i => by
      simp only [plainBrowse, shown, reindent, hb, if_true]
      rw [trimBrowse_txt, plainBrowse_shown cfg x hb a]
  | .list xs => by simp only [plainBrowse, shown, addTexts_txt]; exact plainBrowses_shown cfg x hb xs
  | .t xs _ => by simp only [plainBrowse, shown, addTexts_txt]; exact plainBrowses_shown cfg x hb xs
  | .lazy a => by simp only [plainBrowse, shown]; exact plainBrowse_shown cfg x hb a
  | .plain s _ tr => by
      simp only [plainBrowse, shown, fragment_eq, getTrimmed, getTrimmedWithBrowse, srcRes]
      split <;> simp [Src.drop, drop_lstrip]
  | .atom s => by simp [plainBrowse, shown, srcRes]
  | .remark s => by simp [plainBrowse, shown, srcRes]
  | .str s => by simp [plainBrowse, shown, srcRes]
  | .pstr _ => by simp [plainBrowse, shown, strOf]
  | .int _ => by simp [plainBrowse, shown, strOf]
  | .bool true => by simp [plainBrowse, shown, strOf, lit]
  | .bool false => by simp [plainBrowse, shown, strOf, lit]
  | .float _ => by simp [plainBrowse, shown, strOf]
  | .text .. => by simp [plainBrowse, shown, strOf]
  | .var .. => by simp [plainBrowse, shown, strOf]
  | .apply .. => by simp [plainBrowse, shown, strOf]
  | .set .. => by simp [plainBrowse, shown, strOf]
  | .letn .. => by simp [plainBrowse, shown, strOf]
  | .macro .. => by simp [plainBrowse, shown, strOf]
  | .emit .. => by simp [plainBrowse, shown, strOf]
  | .lambda .. => by simp [plainBrowse, shown, strOf]
  | .lambdaVar .. => by simp [plainBrowse, shown, strOf]
  | .cond .. => by simp [plainBrowse, shown, strOf]
  | .infix .. => by simp [plainBrowse, shown, strOf]
  | .eval .. => by simp [plainBrowse, shown, strOf]
  | .embed .. => by simp [plainBrowse, shown, strOf]
  | .comment .. => by simp [plainBrowse, shown, strOf]
  | .importBegin .. => by simp [plainBrowse, shown, strOf]
  | .importEnd .. => by simp [plainBrowse, shown, strOf]
  | .bound .. => by simp [plainBrowse, shown, strOf]
  | .lclosure .. => by simp [plainBrowse, shown, strOf]
  | .mclosure .. => by simp [plainBrowse, shown, strOf]
  | .infixClosure .. => by simp [plainBrowse, shown, strOf]
  | .condClosure .. => by simp [plainBrowse, shown, strOf]
  | .setClosure .. => by simp [plainBrowse, shown, strOf]
  | .builtin .. => by simp [plainBrowse, shown, strOf]
  | .skip .. => by simp [plainBrowse, shown, strOf]
  | .env .. => by simp [plainBrowse, shown, strOf]
  | .pyobj .. => by simp [plainBrowse, shown, strOf]
theorem plainBrowses_shown (cfg : Config) (x : TextExt) (hb : cfg.browse = true) : (ns : List Node) →
    ((plainBrowses cfg x ns).map (·.txt)).flatten = showns cfg x.repr ns
  | [] => by simp [plainBrowses, showns]
  | n :: ns => by
      simp only [plainBrowses, showns, List.map_cons, List.flatten_cons]
      rw [plainBrowse_shown cfg x hb n, plainBrowses_shown cfg x hb ns]
end

mutual
theorem final_of : (n : Node) → isTerm n = true → Final n
  | .none, _ => .none
  | .result r, _ => .result r
  | .trim a _, h => .trim (final_of a (by simpa [isTerm] using h))
  | .list xs, h => .list (finals_of xs (by simpa [isTerm] using h))
  | .t xs _, h => .t (finals_of xs (by simpa [isTerm] using h))
  | .lazy a, _ => .lazy a
  | .plain s i tr, _ => .plain s i tr
  | .atom s, _ => .atom s
  | .remark s, _ => .remark s
  | .str s, _ => .str s
  | .pstr s, _ => .pstr s
  | .int n, _ => .int n
  | .bool n, _ => .bool n
  | .float n, _ => .float n
theorem finals_of : (ns : List Node) → areTerms ns = true → ∀ n ∈ ns, Final n
  | [], _ => by simp
  | n :: ns, h => by
      simp only [areTerms, Bool.and_eq_true] at h
      intro m hm
      rcases List.mem_cons.1 hm with hm | hm
      · rw [hm]; exact final_of n h.1
      · exact finals_of ns h.2 m hm
end

theorem final_iff {n : Node} : Final n ↔ isTerm n = true := by
  constructor
  · intro h
    induction h with
    | list _ ih => unfold isTerm; exact (areTerms_iff _).2 ih
    | t _ ih => unfold isTerm; exact (areTerms_iff _).2 ih
    | trim _ ih => unfold isTerm; exact ih
    | _ => rfl
  · exact final_of n

/-- What is left of the text after `$skip`. -/
theorem evalT_behind (rec : Node → EM Node) (indent : Indent) : ∀ (xs : List Node) (k : Nat) (c : Bool),
    evalT rec indent (k + 1) c xs = evalT rec indent 0 false (behindModule (k + 1) xs) := by
  intro xs
  induction xs with
  | nil => intro k c; simp only [evalT, behindModule]
  | cons x xs ih =>
    intro k c
    simp only [evalT]
    cases x
    case importBegin => simp only [skipStep, behindModule]; exact ih _ _
    case importEnd =>
      simp only [skipStep, behindModule, Nat.add_sub_cancel]
      cases k with
      | zero => simp only [behindModule]
      | succ k => exact ih _ _
    all_goals simp only [skipStep, behindModule]; exact ih _ _

theorem putIn_eq (ind : Indent) (xs : List Node) : addIndents ind xs = putIn ind xs := by
  cases ind with
  | none => rfl
  | no => rfl
  | str i =>
    cases i with
    | nil => rfl
    | cons c i => exact addIndents_eq (by simp) xs

/-- A form is evaluated whether or not the white space is cut. -/
theorem form_cut {x : Node} (h : Form x) (c : Bool) : (if c then setTrim x else x) = x := by
  cases c with
  | false => rfl
  | true =>
    cases x <;> first | rfl | exact absurd ⟨_, _, _, rfl⟩ h.1

/-- A round of the loop for a form. -/
theorem evalT_form (rec : Node → EM Node) (indent : Indent) (c : Bool) {x : Node} (h : Form x) (xs : List Node) :
    evalT rec indent 0 c (x :: xs) = (rec x >>= fun y =>
      match pieceOf y with
      | .nothing => evalT rec indent 0 false xs
      | .skip => evalT rec indent 1 false xs
      | .scope f =>
        if xs.isEmpty then pure []
        else do
          let z ← rec (.setClosure (.t (trimNext indent xs) indent) f)
          pure [z]
      | .splice ys => do
        let z ← rec (.t (addIndents indent ys ++ xs) indent)
        pure (asItems z)
      | .item y => do
        let ys ← evalT rec (nextIndent indent x) 0 false xs
        pure ((if x.isApply then .trim y indent.orEmpty else y) :: ys)) := by
  conv => lhs; unfold evalT
  simp only [form_cut h]
  cases x
  case comment => exact absurd rfl h.2
  all_goals rfl

theorem evalT_plain (rec : Node → EM Node) (indent : Indent) (c : Bool) (w : Src) (i : Indent) (t : Bool) (xs : List Node)
    (hp : ∀ b s, rec (.plain w i b) s = .ok (.plain w i b, s)) :
    evalT rec indent 0 c (.plain w i t :: xs) = (evalT rec (indentBehind indent i) 0 false xs >>= fun ys =>
      pure (.plain w i (c || t) :: ys)) := by
  conv => lhs; unfold evalT
  have h1 : (if c = true then setTrim (.plain w i t) else .plain w i t) = .plain w i (c || t) := by
    cases c <;> rfl
  simp only [h1]
  funext s
  rw [em_bind_ok (hp _ s)]
  simp only [pieceOf, Node.isApply, Bool.false_eq_true, if_false]
  have : nextIndent indent (.plain w i (c || t)) = indentBehind indent i := by cases i <;> rfl
  rw [this]

theorem evalT_comment (rec : Node → EM Node) (indent : Indent) (c : Bool) (xs : List Node) :
    evalT rec indent 0 c (.comment :: xs) = evalT rec indent 0 (atLineStart indent) xs := by
  conv => lhs; unfold evalT
  cases c <;> cases indent <;> rfl

theorem isStr_eq (i : Indent) : i.isStr = atLineStart i := by cases i <;> rfl

theorem evalT_trimNext (rec : Node → EM Node) (ind : Indent) (xs : List Node) :
    evalT rec ind 0 false (trimNext ind xs) = evalT rec ind 0 (atLineStart ind) xs := by
  cases xs with
  | nil => simp only [trimNext, evalT]
  | cons x xs =>
    rw [← isStr_eq]
    simp only [trimNext, evalT]
    cases ind.isStr <;> rfl

theorem nextIndent_form {x : Node} (h : Form x) (ind : Indent) : nextIndent ind x = .no := by
  cases x <;> first | rfl | exact absurd ⟨_, _, _, rfl⟩ h.1

theorem item_piece {v a : Node} (h : Item v a) : pieceOf v = .item a := by
  cases h with
  | embed h => cases a <;> first | rfl | exact absurd rfl (h _ _)
  | value h1 h2 h3 h4 h5 h6 =>
    cases v <;> first
      | rfl
      | exact absurd rfl h1
      | exact absurd rfl h2
      | exact absurd rfl h3
      | exact absurd rfl h4
      | exact absurd rfl (h5 _)
      | exact absurd rfl (h6 _)

theorem item_shown (e : EEnv) (ind : Indent) (x a : Node) :
    shown e.cfg e.repr (if x.isApply then .trim a ind.orEmpty else a) = itemText e ind x a := by
  cases x <;> first
    | rfl
    | (cases ind <;> simp [Node.isApply, itemText, shown, Indent.orEmpty])

theorem item_final (ind : Indent) (x a : Node) : isTerm (if x.isApply then .trim a ind.orEmpty else a) = isTerm a := by
  split <;> simp [isTerm]

/-- What `finishT` makes of the items. -/
theorem finishT_text (e : EEnv) (ind : Indent) {ys : List Node} (h : areTerms ys = true) (s : ESt) :
    ∃ w, IsText w ∧ (∀ x, strOf x w = showns e.cfg e.repr ys) ∧ finishT e ind ys s = .ok (w, s) := by
  unfold finishT
  rw [h, if_pos rfl]
  cases hb : e.cfg.browse with
  | true =>
    refine ⟨_, .result _, fun x => ?_, rfl⟩
    exact plainBrowse_shown e.cfg (textExt e s) hb (.t ys ind)
  | false =>
    refine ⟨_, .pstr _, fun x => ?_, rfl⟩
    exact plainStr_shown e.cfg (textExt e s) hb (.t ys ind)

/-- What the loop over the pieces has to give. -/
def MadeBy (e : EEnv) (o : PRes (List Node × ESt)) : Yield → Prop
  | .text t s => ∃ ys, o = .ok (ys, s) ∧ areTerms ys = true ∧ showns e.cfg e.repr ys = t
  | .unfinished s => ∃ ys, o = .ok (ys, s) ∧ areTerms ys = false
  | .fails => o = .err

/-- What a text has to evaluate to. -/
def TextMade (o : PRes (Node × ESt)) : Yield → Prop
  | .text t s => ∃ w, o = .ok (w, s) ∧ IsText w ∧ ∀ x, strOf x w = t
  | .unfinished s => ∃ ys i, o = .ok (.t ys i, s) ∧ areTerms ys = false
  | .fails => o = .err

theorem ev_t (e : EEnv) (xs : List Node) (ind : Indent) (s : ESt) :
    ev e (.t xs ind) s = (evalT (ev e) ind 0 false xs >>= fun ys => finishT e ind ys) s := by rw [ev_at]; rfl

theorem textMade_of {xs : List Node} {ind : Indent} {s : ESt} {o : Yield} (h : MadeBy e (evalT (ev e) ind 0 false xs s) o) :
    TextMade (ev e (.t xs ind) s) o := by
  rw [ev_t]
  cases o with
  | text t s1 =>
    obtain ⟨ys, h1, h2, h3⟩ := h
    obtain ⟨w, h4, h5, h6⟩ := finishT_text e ind h2 s1
    rw [em_bind_ok h1]
    exact ⟨w, h6, h4, fun x => (h5 x).trans h3⟩
  | unfinished s1 =>
    obtain ⟨ys, h1, h2⟩ := h
    rw [em_bind_ok h1]
    refine ⟨ys, ind, ?_, h2⟩
    unfold finishT
    rw [h2]; rfl
  | fails =>
    change (_ : PRes _) = _ at h
    rw [em_bind, h]; rfl

theorem shown_text {w : Node} (h : IsText w) (x : TextExt) (cfg : Config) (repr : Node → Str) : shown cfg repr w = strOf x w := by
  cases h <;> simp [shown, strOf]

/-- The scopes are as many as before. -/
theorem scopes_kept {x v : Node} {s s1 : ESt} {f : Frame} (h : ev e x (push s f) = .ok (v, s1)) : ∃ f' env, s1.env = f' :: env := by
  have hk := C28_nothing_leaks e _ _ _ _ (evaluates_iff.2 h)
  cases hs : s1.env with
  | nil => rw [hs] at hk; simp [names, push] at hk
  | cons f' env => exact ⟨f', env, rfl⟩

theorem closure_made {xs : List Node} {ind : Indent} {s : ESt} {f : Frame} {o : Yield}
    (h : MadeBy e (evalT (ev e) ind 0 (atLineStart ind) xs (push s f)) o) :
    MadeBy e ((ev e (.setClosure (.t (trimNext ind xs) ind) f) >>= fun z => pure [z]) s) o.leave := by
  rw [← evalT_trimNext] at h
  have h := textMade_of h
  have key : ev e (.setClosure (.t (trimNext ind xs) ind) f) s =
      (EM.inFrame f (ev e (.t (trimNext ind xs) ind)) >>= fun p => if isTerm p.1 then pure p.1 else pure (.setClosure p.1 p.2)) s := by
    rw [ev_at]; rfl
  cases o with
  | text t s1 =>
    obtain ⟨w, h1, h2, h3⟩ := h
    obtain ⟨f', env, hs⟩ := scopes_kept h1
    rw [em_bind, key, em_bind_ok (inFrame_ok h1 hs)]
    have hterm : isTerm w = true := by cases h2 <;> rfl
    simp only [hterm, if_true]
    refine ⟨[w], ?_, by simp [areTerms, hterm], ?_⟩
    · change PRes.ok ([w], { s1 with env := env }) = _
      simp [pop, hs]
    · simp only [showns, List.append_nil]
      rw [shown_text h2 { repr := e.repr, locs := fun _ => [] }]; exact h3 _
  | unfinished s1 =>
    obtain ⟨ys, i, h1, h2⟩ := h
    obtain ⟨f', env, hs⟩ := scopes_kept h1
    rw [em_bind, key, em_bind_ok (inFrame_ok h1 hs)]
    have hterm : isTerm (.t ys i) = false := by simpa [isTerm] using h2
    simp only [hterm, Bool.false_eq_true, if_false]
    refine ⟨[.setClosure (.t ys i) f'], ?_, by simp [areTerms, isTerm]⟩
    change PRes.ok ([_], { s1 with env := env }) = _
    simp [pop, hs]
  | fails =>
    change (_ : PRes _) = _ at h
    have : EM.inFrame f (ev e (.t (trimNext ind xs) ind)) s = .err := by
      unfold EM.inFrame
      change ev e _ { s with env := f :: s.env } = _ at h
      rw [h]
    change (_ : PRes _) = _
    rw [em_bind, key, em_bind, this]

/-- **Soundness**: the loop over the pieces does what `Generates` says. -/
theorem generates_made {ind : Indent} {c : Bool} {xs : List Node} {s : ESt} {o : Yield} (h : Generates e ind c xs s o) :
    MadeBy e (evalT (ev e) ind 0 c xs s) o := by
  induction h with
  | nil => exact ⟨[], by simp [evalT]; rfl, rfl, rfl⟩
  | @plain ind cut w i c xs s o _ ih =>
    rw [evalT_plain _ _ _ _ _ _ _ (fun b s => by rw [ev_at]; rfl)]
    cases o with
    | text t s1 =>
      obtain ⟨ys, h1, h2, h3⟩ := ih
      rw [em_bind_ok h1]
      exact ⟨_, rfl, by simp [areTerms, isTerm, h2], by simp [showns, shown, h3]⟩
    | unfinished s1 =>
      obtain ⟨ys, h1, h2⟩ := ih
      rw [em_bind_ok h1]
      exact ⟨_, rfl, by simp [areTerms, h2]⟩
    | fails =>
      change (_ : PRes _) = _ at ih
      change (_ : PRes _) = _
      rw [em_bind, ih]
  | comment _ ih => rw [evalT_comment]; exact ih
  | nothing hf hx hv _ ih =>
    rw [evalT_form _ _ _ hf, em_bind_ok (evaluates_iff.1 hx)]
    rcases hv with rfl | rfl | rfl <;> exact ih
  | @item ind cut x v a xs s s1 o hf hx hi ht _ ih =>
    rw [evalT_form _ _ _ hf, em_bind_ok (evaluates_iff.1 hx), item_piece hi, nextIndent_form hf]
    dsimp only
    have ht := final_iff.1 ht
    cases o with
    | text t s1 =>
      obtain ⟨ys, h1, h2, h3⟩ := ih
      rw [em_bind_ok h1]
      exact ⟨_, rfl, by simp [areTerms, item_final, h2, ht], by simp [showns, item_shown, h3]⟩
    | unfinished s1 =>
      obtain ⟨ys, h1, h2⟩ := ih
      rw [em_bind_ok h1]
      exact ⟨_, rfl, by simp [areTerms, h2]⟩
    | fails =>
      change (_ : PRes _) = _ at ih
      change (_ : PRes _) = _
      rw [em_bind, ih]
  | @waits ind cut x v a xs s s1 o hf hx hi ht _ ih =>
    rw [evalT_form _ _ _ hf, em_bind_ok (evaluates_iff.1 hx), item_piece hi, nextIndent_form hf]
    dsimp only
    have ht : isTerm a = false := by rw [final_iff] at ht; simpa using ht
    cases o with
    | text t s1 =>
      obtain ⟨ys, h1, h2, h3⟩ := ih
      rw [em_bind_ok h1]
      exact ⟨_, rfl, by simp [areTerms, item_final, ht]⟩
    | unfinished s1 =>
      obtain ⟨ys, h1, h2⟩ := ih
      rw [em_bind_ok h1]
      exact ⟨_, rfl, by simp [areTerms, h2]⟩
    | fails =>
      change (_ : PRes _) = _ at ih
      change (_ : PRes _) = _
      rw [em_bind, ih]
  | @definition ind cut x f xs s s1 o hf hx hr _ ih =>
    rw [evalT_form _ _ _ hf, em_bind_ok (evaluates_iff.1 hx)]
    have : xs.isEmpty = false := by cases xs <;> simp_all
    simp only [pieceOf, this, Bool.false_eq_true, if_false]
    exact closure_made ih
  | lastDefinition hf hx =>
    rw [evalT_form _ _ _ hf, em_bind_ok (evaluates_iff.1 hx)]
    exact ⟨[], rfl, rfl, rfl⟩
  | @block ind cut x xs ys i s s1 o hf hx _ ih =>
    rw [evalT_form _ _ _ hf, em_bind_ok (evaluates_iff.1 hx)]
    simp only [pieceOf, putIn_eq]
    have h := textMade_of ih
    cases o with
    | text t s2 =>
      obtain ⟨w, h1, h2, h3⟩ := h
      rw [em_bind_ok h1]
      refine ⟨[w], by cases h2 <;> rfl, by cases h2 <;> rfl, ?_⟩
      simp only [showns, List.append_nil]
      rw [shown_text h2 { repr := e.repr, locs := fun _ => [] }]; exact h3 _
    | unfinished s2 =>
      obtain ⟨zs, j, h1, h2⟩ := h
      rw [em_bind_ok h1]
      exact ⟨zs, rfl, h2⟩
    | fails =>
      change (_ : PRes _) = _ at h
      change (_ : PRes _) = _
      rw [em_bind, h]
  | skip hf hx _ ih =>
    rw [evalT_form _ _ _ hf, em_bind_ok (evaluates_iff.1 hx)]
    simp only [pieceOf, evalT_behind]
    exact ih
  | fails hf hx =>
    change (_ : PRes _) = _
    rw [evalT_form _ _ _ hf, em_bind, raises_iff.1 hx]

/-- What becomes of an evaluated form. -/
theorem piece_cases (v : Node) : (v = .none ∨ v = .importBegin ∨ v = .importEnd) ∧ pieceOf v = .nothing ∨
    v = .skip ∨ (∃ f, v = .env f) ∨ (∃ ys i, v = .embed (.t ys i)) ∨ ∃ a, Item v a ∧ pieceOf v = .item a := by
  have hi : ∀ a, Item v a → ∃ a, Item v a ∧ pieceOf v = .item a := fun a h => ⟨a, h, item_piece h⟩
  cases v
  case none => exact .inl ⟨.inl rfl, rfl⟩
  case importBegin => exact .inl ⟨.inr (.inl rfl), rfl⟩
  case importEnd => exact .inl ⟨.inr (.inr rfl), rfl⟩
  case skip => exact .inr (.inl rfl)
  case env f => exact .inr (.inr (.inl ⟨f, rfl⟩))
  case embed a =>
    cases a
    case t ys i => exact .inr (.inr (.inr (.inl ⟨ys, i, rfl⟩)))
    all_goals exact .inr (.inr (.inr (.inr (hi _ (.embed (by simp))))))
  all_goals exact .inr (.inr (.inr (.inr (hi _ (.value (by simp) (by simp) (by simp) (by simp) (by simp) (by simp))))))

theorem behindModule_length (xs : List Node) : ∀ k, (behindModule k xs).length ≤ xs.length := by
  induction xs with
  | nil => intro k; cases k <;> simp [behindModule]
  | cons x xs ih =>
    intro k
    cases k with
    | zero => simp [behindModule]
    | succ k => cases x <;> simp only [behindModule, List.length_cons] <;> exact Nat.le_succ_of_le (ih _)

theorem made_exists {n : Nat} {ind : Indent} {xs : List Node} {s : ESt} {r : PRes (Node × ESt)}
    (h : E e (n + 1) (.t xs ind) s = r) (hr : r ≠ .timeout) : evalT (E e n) ind 0 false xs s ≠ .timeout := by
  intro ht
  apply hr
  rw [← h]
  change (evalT (E e n) ind 0 false xs >>= fun ys => finishT e ind ys) s = _
  rw [em_bind, ht]

/-- **Completeness**: whenever the loop over the pieces ends, `Generates` says how. -/
theorem made_generates : ∀ (n len : Nat) (ind : Indent) (c : Bool) (xs : List Node) (s : ESt), xs.length ≤ len →
    evalT (E e n) ind 0 c xs s ≠ .timeout → ∃ o, Generates e ind c xs s o := by
  intro n
  induction n using Nat.strongRecOn with
  | ind n ihn =>
    intro len
    induction len with
    | zero =>
      intro ind c xs s hl _
      obtain rfl := List.length_eq_zero_iff.1 (Nat.le_zero.1 hl)
      exact ⟨_, .nil⟩
    | succ len ih =>
      intro ind c xs s hl h
      cases xs with
      | nil => exact ⟨_, .nil⟩
      | cons x xs =>
        have hl' : xs.length ≤ len := by simpa using hl
        by_cases hp : IsPlain x
        · obtain ⟨w, i, t, rfl⟩ := hp
          cases n with
          | zero =>
            exfalso; apply h
            unfold evalT
            cases c <;> rfl
          | succ n =>
            rw [evalT_plain _ _ _ _ _ _ _ (fun b s => rfl)] at h
            obtain ⟨o, ho⟩ := ih (indentBehind ind i) false xs s hl' (by intro ht; apply h; rw [em_bind, ht])
            exact ⟨_, .plain ho⟩
        by_cases hc : x = .comment
        · subst hc
          rw [evalT_comment] at h
          obtain ⟨o, ho⟩ := ih _ _ xs s hl' h
          exact ⟨_, .comment ho⟩
        have hf : Form x := ⟨hp, hc⟩
        rw [evalT_form _ _ _ hf, em_bind] at h
        cases hx : E e n x s with
        | timeout => rw [hx] at h; exact absurd rfl h
        | err => exact ⟨_, .fails hf ⟨n, hx⟩⟩
        | ok p =>
          obtain ⟨v, s1⟩ := p
          rw [hx] at h
          have hv' : Evaluates e x s v s1 := ⟨n, hx⟩
          dsimp only at h
          rcases piece_cases v with ⟨hv, hpv⟩ | rfl | ⟨f, rfl⟩ | ⟨ys, i, rfl⟩ | ⟨a, ha, hpa⟩
          · rw [hpv] at h
            obtain ⟨o, ho⟩ := ih _ _ xs s1 hl' h
            exact ⟨_, .nothing hf hv' hv ho⟩
          · simp only [pieceOf, evalT_behind] at h
            obtain ⟨o, ho⟩ := ih _ _ _ s1 (Nat.le_trans (behindModule_length xs 1) hl') h
            exact ⟨_, .skip hf hv' ho⟩
          · simp only [pieceOf] at h
            cases hxs : xs with
            | nil => exact ⟨_, .lastDefinition hf hv'⟩
            | cons y zs =>
              rw [← hxs]
              have hne : xs ≠ [] := by simp [hxs]
              have : xs.isEmpty = false := by simp [hxs]
              simp only [this, Bool.false_eq_true, if_false] at h
              rw [em_bind] at h
              have h : E e n (.setClosure (.t (trimNext ind xs) ind) f) s1 ≠ .timeout := by
                intro ht; apply h; rw [ht]
              match n, h, ihn with
              | 0, h, _ => exact absurd rfl h
              | 1, h, _ => exact absurd rfl h
              | m + 2, h, ihn =>
                have h : evalSetClosure (E e (m + 1)) (.t (trimNext ind xs) ind) f s1 ≠ .timeout := h
                unfold evalSetClosure at h
                rw [em_bind] at h
                have h : E e (m + 1) (.t (trimNext ind xs) ind) (push s1 f) ≠ .timeout := by
                  intro ht; apply h
                  unfold EM.inFrame
                  change E e (m + 1) _ { s1 with env := f :: s1.env } = _ at ht
                  rw [ht]
                have h := made_exists rfl h
                rw [evalT_trimNext] at h
                obtain ⟨o, ho⟩ := ihn m (by omega) xs.length _ _ xs _ (Nat.le_refl _) h
                exact ⟨_, .definition hf hv' hne ho⟩
          · simp only [pieceOf, putIn_eq] at h
            rw [em_bind] at h
            have h : E e n (.t (putIn ind ys ++ xs) ind) s1 ≠ .timeout := by
              intro ht; apply h; rw [ht]
            match n, h, ihn with
            | 0, h, _ => exact absurd rfl h
            | m + 1, h, ihn =>
              have h := made_exists rfl h
              obtain ⟨o, ho⟩ := ihn m (by omega) _ _ _ (putIn ind ys ++ xs) _ (Nat.le_refl _) h
              exact ⟨_, .block hf hv' ho⟩
          · rw [hpa] at h
            dsimp only at h
            rw [nextIndent_form hf, em_bind] at h
            have h : evalT (E e n) .no 0 false xs s1 ≠ .timeout := by
              intro ht; apply h; rw [ht]
            obtain ⟨o, ho⟩ := ih _ _ xs s1 hl' h
            by_cases hfin : Final a
            · exact ⟨_, .item hf hv' ha hfin ho⟩
            · exact ⟨_, .waits hf hv' ha hfin ho⟩

end Yupp
