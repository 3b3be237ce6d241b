import Verif.Spec.Fill
import Verif.Props.Template
/-!
# C103 — The texts of the names take their places in a template
-/

namespace Yupp
open Spec

theorem data_item {v : Node} (h : Data v) (hn : v ≠ .none) : Item v v := by
  refine .value hn ?_ ?_ ?_ ?_ ?_ <;> (intros; rintro rfl; cases h)

theorem data_final {v : Node} (h : Data v) : Final v := by
  induction h with
  | list xs _ _ ih => exact .list ih
  | none => exact .none
  | atom s => exact .atom s
  | remark s => exact .remark s
  | str s => exact .str s
  | plain s i t => exact .plain s i t
  | pstr s => exact .pstr s
  | result r => exact .result r
  | int n => exact .int n
  | bool b => exact .bool b
  | float f => exact .float f

section
variable {e : EEnv} {s : ESt}

/-- An inserted name. -/
theorem stands_value {a : Src} {t : Str} (h : Stands e s a.txt t) (loc : Option Loc) :
    ∃ v, Evaluates e (.apply (.var false [] a) [] [] loc) s v s ∧ Data v ∧ v ≠ .none ∧ shown e.cfg e.repr v = t := by
  cases h with
  | value hl hd hn => exact ⟨_, evaluates_iff.2 (ev_insert hl hd hn loc), hd, hn, rfl⟩
  | itself hb =>
    refine ⟨.atom a, ?_, .atom a, by simp, by simp [shown]⟩
    rw [evaluates_iff, ev_apply (bare_eval hb) (.nil s)]
    rfl

/-- **C103.** A text with inserted names generates itself, with the texts of the names in their places. -/
theorem C103_text {val : Str → Option Str} (hval : ∀ a t, val a = some t → Stands e s a t) {f cut : Bool} {ind : Indent}
    {xs : ExprText} {t : Str} (h : Filled e.cfg val f ind cut xs t) {nodes : List Node} (hx : TextTrees f xs nodes) :
    Generates e ind cut nodes s (.text t s) := by
  induction h generalizing nodes with
  | nil => cases hx; exact .nil
  | @chars _ _ cut _ _ _ _ hi _ ih =>
    cases hx with
    | @chars _ w j _ _ hj hx =>
      rw [indented_det hi hj] at ih
      have := Generates.plain (cut := cut) (w := w) (c := false) (ih hx)
      rw [Bool.or_false] at this
      exact this
  | str _ ih =>
    cases hx with
    | @str _ w _ _ hx =>
      exact .item (x := .str w) ⟨(by rintro ⟨_, _, _, h⟩; cases h), by simp⟩ ⟨1, rfl⟩ (data_item (.str w) (by simp)) (.str w) (ih hx)
  | remark _ ih =>
    cases hx with
    | @remark _ w _ _ hx =>
      exact .item (x := .remark w) ⟨(by rintro ⟨_, _, _, h⟩; cases h), by simp⟩ ⟨1, rfl⟩ (data_item (.remark w) (by simp)) (.remark w) (ih hx)
  | comment _ ih => cases hx with | comment hx => exact .comment (ih hx)
  | @name _ ind cut a xs t u hv _ ih =>
    cases hx with
    | expr _ hn hx =>
      cases hn with
      | @app _ _ _ n ns ms l hf ha hm =>
        cases ha
        cases hm
        generalize hz : Expr.name false [] a = z at hf
        cases hf <;> first | (cases hz; done) | skip
        injection hz with h1 h2 h3
        subst h1
        next rs b =>
        subst h3
        obtain rfl : rs = [] := by simpa using h2.symm
        obtain ⟨v, h4, h5, h6, h7⟩ := stands_value (hval _ _ hv) l
        have := Generates.item (ind := ind) (cut := cut) ⟨(by rintro ⟨_, _, _, h⟩; cases h), by simp⟩ h4 (data_item h5 h6) (data_final h5) (ih hx)
        have hi : itemText e ind (.apply (.var false [] b) [] [] l) v = blockAt e.cfg ind u := by
          rw [← h7]
          cases ind <;> rfl
        rwa [hi] at this

/-- The text is determined. -/
theorem filled_det {cfg : Config} {val : Str → Option Str} {f cut : Bool} {ind : Indent} {xs : ExprText} {t u : Str}
    (h : Filled cfg val f ind cut xs t) (h' : Filled cfg val f ind cut xs u) : t = u := by
  induction h generalizing u with
  | nil => cases h'; rfl
  | chars hi _ ih => cases h' with | chars hj h => rw [indented_det hi hj] at ih; rw [ih h]
  | str _ ih => cases h' with | str h => rw [ih h]
  | remark _ ih => cases h' with | remark h => rw [ih h]
  | comment _ ih => cases h' with | comment h => exact ih h
  | name hv _ ih =>
    cases h' with
    | name hv' h =>
      rw [hv] at hv'
      injection hv' with hv'
      rw [ih h, hv']

theorem block_line (cfg : Config) (ind : Indent) {t : Str} (h : OneLine t) : blockAt cfg ind t = t := by
  have key : ∀ i, reindent cfg i t = t := by
    intro i
    cases t with
    | nil => exact reindent_empty cfg i
    | cons c t => exact reindent_line cfg i (fun d hd => Bool.eq_false_iff.2 (fun hx => h.1 d hd (isLineBreak_iff.1 hx))) (h.2 c rfl)
  unfold blockAt
  split <;> exact key _

/-- Plain text has an indent behind it. -/
theorem indented_total (f : Bool) (w : Str) : ∃ i, Indented f w i := by
  suffices ∀ n (w : Str), w.length = n → ∃ i, Indented f w i from this _ w rfl
  intro n
  induction n with
  | zero => intro w hw; cases w with
    | nil => exact ⟨_, Indented.base f⟩
    | cons _ _ => cases hw
  | succ n ih =>
    intro w hw
    rcases List.eq_nil_or_concat w with rfl | ⟨u, c, rfl⟩
    · cases hw
    · obtain ⟨i, hi⟩ := ih u (by simpa using hw)
      exact ⟨_, List.concat_eq_append ▸ hi.step c⟩

/-- **C103.** If the texts of the names have one line, they are just put in the places of the names. -/
theorem C103_lines {cfg : Config} {val : Str → Option Str} (hone : ∀ a t, val a = some t → OneLine t) {f : Bool} {ind : Indent} {xs : ExprText}
    {t : Str} (h : replaced val xs = some t) : Filled cfg val f ind false xs t := by
  induction xs using replaced.induct generalizing f ind t with
  | case1 => simp only [replaced] at h; cases h; exact .nil
  | case2 w xs ih =>
    simp only [replaced, Option.map_eq_some_iff] at h
    obtain ⟨u, hu, rfl⟩ := h
    obtain ⟨i, hi⟩ := indented_total f w
    have := Filled.chars (cfg := cfg) (val := val) (ind := ind) (cut := false) hi (ih hu)
    simpa [fragment] using this
  | case3 w xs ih =>
    simp only [replaced, Option.map_eq_some_iff] at h
    obtain ⟨u, hu, rfl⟩ := h
    exact .str (ih hu)
  | case4 w xs ih =>
    simp only [replaced, Option.map_eq_some_iff] at h
    obtain ⟨u, hu, rfl⟩ := h
    exact .remark (ih hu)
  | case5 a xs ih =>
    simp only [replaced, Option.bind_eq_some_iff, Option.map_eq_some_iff] at h
    obtain ⟨v, hv, u, hu, rfl⟩ := h
    have := Filled.name (cfg := cfg) (f := f) (ind := ind) (cut := false) hv (ih hu)
    rwa [block_line cfg ind (hone _ _ hv)] at this
  | case6 xs h1 h2 h3 h4 h5 =>
    unfold replaced at h
    split at h <;> first | (cases h; done) | (exact absurd rfl (by first | exact h1 | exact h2 _ _ | exact h3 _ _ | exact h4 _ _ | exact h5 _ _))

/-! ## Macros -/

theorem filled_parts {cfg : Config} {val : Str → Option Str} {f cut : Bool} {ind : Indent} {xs : ExprText} {t : Str}
    (h : Filled cfg val f ind cut xs t) {nodes : List Node} (hx : TextTrees f xs nodes) :
    nodes.length = partCount xs ∧ ∀ x ∈ nodes, ¬ Defines x := by
  have key : ∀ {x : Node} {xs : ExprText} {ns : List Node}, (ns.length = partCount xs ∧ ∀ x ∈ ns, ¬ Defines x) → ¬ Defines x →
      (x :: ns).length = partCount xs + 1 ∧ ∀ y ∈ x :: ns, ¬ Defines y := by
    intro x xs ns h hx
    refine ⟨by simp [h.1], fun y hy => ?_⟩
    rcases List.mem_cons.mp hy with rfl | hy
    · exact hx
    · exact h.2 y hy
  induction h generalizing nodes with
  | nil => cases hx; exact ⟨rfl, by simp⟩
  | chars _ _ ih => cases hx with | chars _ hx => exact key (ih hx) (by rintro ⟨_, _, h⟩; cases h)
  | str _ ih => cases hx with | str hx => exact key (ih hx) (by rintro ⟨_, _, h⟩; cases h)
  | remark _ ih => cases hx with | remark hx => exact key (ih hx) (by rintro ⟨_, _, h⟩; cases h)
  | comment _ ih => cases hx with | comment hx => exact key (ih hx) (by rintro ⟨_, _, h⟩; cases h)
  | name _ _ ih => cases hx with | expr _ hn hx => cases hn; exact key (ih hx) (by rintro ⟨_, _, h⟩; cases h)

theorem stands_recorded {s : ESt} {a t T : Str} {d c : Option Loc} (h : Stands e s a t) : Stands e (record s T d c).2 a t := by
  cases h with
  | value h1 h2 h3 => exact .value h1 h2 h3
  | itself h => exact .itself ⟨h.unbound, h.notBuiltin, h.notSpecial, h.noHyphen⟩

theorem text_value (x : TextExt) {w : Node} {t : Str} (h : IsText w) (ht : ∀ x, strOf x w = t) : w.text? = some t ∧ AsItIs w := by
  have := ht x
  cases h with
  | pstr s => exact ⟨congrArg some this, trivial⟩
  | result r => exact ⟨congrArg some this, trivial⟩

theorem filled_call {fn : Node} {args : List Node} {loc : Option Loc} {s s3 : ESt} {nodes : List Node} {t : Str}
    (hsame : SameOutcome e (.apply fn args [] loc) s (.text nodes) s3) (hg : Generates e (.str []) false nodes s3 (.text t s3)) :
    (∃ v, Evaluates e (.apply fn args [] loc) s v s3 ∧ v.text? = some t) ∧
    ∀ ind cut rest o, Generates e .no false rest s3 o →
      Generates e ind cut (.apply fn args [] loc :: rest) s (o.after (blockAt e.cfg ind t)) := by
  obtain ⟨w, hw, h1, h2⟩ := (C78_text e _ _ _ _ _).1 hg
  have hw' : Evaluates e (.text nodes) s3 w s3 := by
    rw [evaluates_iff] at hw ⊢
    rw [ev_text]; exact hw
  have hv := (hsame.1 _ _).2 hw'
  obtain ⟨h3, h4⟩ := text_value (textExt e s) h1 h2
  refine ⟨⟨w, hv, h3⟩, fun ind cut rest o ho => ?_⟩
  have hform : Form (.apply fn args [] loc) := ⟨(by rintro ⟨_, _, _, h⟩; cases h), (by intro h; cases h)⟩
  have := Generates.item (ind := ind) (cut := cut) hform hv (item_text h3) (text_final h3) ho
  have hi : itemText e ind (.apply fn args [] loc) w = blockAt e.cfg ind t := by
    cases ind <;> simp [itemText, blockAt, shown_asItIs h3 h4]
  rwa [hi] at this

/-- **C103.** A macro call gives the text of the macro with its arguments put in and then the texts of the names in their
    places. In the text around the call it is a block at the indent of the call. -/
theorem C103_macro (e : EEnv) (fn : Node) (text decl : Src) (c0 : Option Src) (ps : List Str) (args vs : List Node)
    (ts : List Str) (loc : Option Loc) (s s1 s2 : ESt)
    (hf : Evaluates e fn s (.mclosure text (ps.map (fun p => (p, Node.bound))) decl c0) s1)
    (ha : Args e args s1 vs s2) (hps : ps ≠ []) (hl : vs.length = ps.length) (hnd : ps.Nodup) (hva : vaArgs ∉ ps)
    (hv : ∀ v ∈ vs, Value v) (hn : ∀ v ∈ vs, v ≠ .none) (hts : Each2 ArgText vs ts)
    (hok : NamesOk (ps.zip ts)) (hclean : Unmarked (ps.zip ts) (substitute (ps.zip ts) text.txt))
    {xs : ExprText} (hr : Reads (modeOf e.pe) (.text .file 0 0 xs) (substitute (ps.zip ts) text.txt) [])
    (hne : substitute (ps.zip ts) text.txt ≠ []) (h1 : partCount xs ≠ 1)
    (hk : e.pe.outputPython = true → e.pe.inputFile ≠ natStr s2.p.world.inclusion.length)
    {val : Str → Option Str} (hval : ∀ a t, val a = some t → Stands e s2 a t) {t : Str} (hfill : Filled e.cfg val true (.str []) false xs t) :
    ∃ s3, s3.env = s2.env ∧ (∃ v, Evaluates e (.apply fn args [] loc) s v s3 ∧ v.text? = some t) ∧
      ∀ ind cut rest o, Generates e .no false rest s3 o →
        Generates e ind cut (.apply fn args [] loc :: rest) s (o.after (blockAt e.cfg ind t)) := by
  obtain ⟨nodes, s3, hx, hs3, -, -, h4⟩ := C82_macro e fn text decl c0 ps args vs ts loc s s1 s2 hf ha hps hl hnd hva hv hn hts hok hclean hr hne hk
  obtain ⟨h5, h6⟩ := filled_parts hfill hx
  exact ⟨s3, by rw [hs3]; rfl, filled_call (h4 h6 (by rw [h5]; exact h1)) (C103_text (fun a t h => by rw [hs3]; exact stands_recorded (hval a t h)) hfill hx)⟩

/-- **C103.** The same for a macro without parameters. -/
theorem C103_without_parameters (e : EEnv) (fn : Node) (text decl : Src) (c0 : Option Src) (args : List Node) (loc : Option Loc)
    (s s1 s2 : ESt) (hf : Evaluates e fn s (.mclosure text [] decl c0) s1) (ha : Args e args s1 [] s2)
    {xs : ExprText} (hr : Reads (modeOf e.pe) (.text .file 0 0 xs) text.txt []) (hne : text.txt ≠ []) (h1 : partCount xs ≠ 1)
    (hk : e.pe.outputPython = true → e.pe.inputFile ≠ natStr s2.p.world.inclusion.length)
    {val : Str → Option Str} (hval : ∀ a t, val a = some t → Stands e s2 a t) {t : Str} (hfill : Filled e.cfg val true (.str []) false xs t) :
    ∃ s3, s3.env = s2.env ∧ (∃ v, Evaluates e (.apply fn args [] loc) s v s3 ∧ v.text? = some t) ∧
      ∀ ind cut rest o, Generates e .no false rest s3 o →
        Generates e ind cut (.apply fn args [] loc :: rest) s (o.after (blockAt e.cfg ind t)) := by
  obtain ⟨nodes, s3, hx, hs3, -, -, h4⟩ := C82_without_parameters e fn text decl c0 args loc s s1 s2 hf ha hr hne hk
  obtain ⟨h5, h6⟩ := filled_parts hfill hx
  exact ⟨s3, by rw [hs3]; rfl, filled_call (h4 h6 (by rw [h5]; exact h1)) (C103_text (fun a t h => by rw [hs3]; exact stands_recorded (hval a t h)) hfill hx)⟩

end

end Yupp
