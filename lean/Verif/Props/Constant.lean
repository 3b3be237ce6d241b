import Verif.Props.Config
import Verif.Props.Call
import Verif.Lemmas.Reduce
/-!
# C71 — Constants of the configuration
-/

namespace Yupp

open Spec

theorem name_char {c : Char} (h : isLetter c = true ∨ isFigure c = true) : isSpace c = false ∧ c ≠ ':' := by
  have hl : ∀ n : Nat, n < 256 → (isLetter (Char.ofNat n) || isFigure (Char.ofNat n)) = true →
      isSpace (Char.ofNat n) = false ∧ Char.ofNat n ≠ ':' := by decide +kernel
  have hlt : c.toNat < 256 := by
    rcases h with h | h
    · simp only [isLetter, Bool.or_eq_true, Bool.and_eq_true, decide_eq_true_eq, beq_iff_eq] at h
      rcases h with (⟨_, h⟩ | ⟨_, h⟩) | rfl
      · have : c.toNat ≤ 'z'.toNat := h
        exact Nat.lt_of_le_of_lt this (by decide)
      · have : c.toNat ≤ 'Z'.toNat := h
        exact Nat.lt_of_le_of_lt this (by decide)
      · decide
    · simp only [isFigure, isDig, Bool.or_eq_true, Bool.and_eq_true, decide_eq_true_eq, beq_iff_eq] at h
      rcases h with ⟨_, h⟩ | rfl
      · have : c.toNat ≤ '9'.toNat := h
        exact Nat.lt_of_le_of_lt this (by decide)
      · decide
  have := hl c.toNat hlt
  rw [Char.ofNat_toNat] at this
  apply this
  rcases h with h | h <;> simp [h]

/-! ## `strip` -/

theorem lstrip_white {a s : Str} (ha : White a) : lstrip (a ++ s) = lstrip s := by
  induction a with
  | nil => rfl
  | cons c t ih =>
    show List.dropWhile isSpace (c :: (t ++ s)) = _
    rw [List.dropWhile_cons_of_pos (ha c (by simp))]
    exact ih fun x hx => ha x (by simp [hx])

theorem lstrip_tight {s : Str} (h : ∀ c, s.head? = some c → isSpace c = false) : lstrip s = s := by
  cases s with
  | nil => rfl
  | cons c t =>
    show List.dropWhile isSpace (c :: t) = _
    rw [List.dropWhile_cons_of_neg]
    rw [h c rfl]; simp

theorem lstrip_split (s : Str) : ∃ a, s = a ++ lstrip s ∧ White a ∧ ∀ c, (lstrip s).head? = some c → isSpace c = false := by
  induction s with
  | nil => exact ⟨[], rfl, nofun, nofun⟩
  | cons c t ih =>
    unfold lstrip
    by_cases h : isSpace c = true
    · rw [List.dropWhile_cons_of_pos h]
      obtain ⟨a, h1, h2, h3⟩ := ih
      refine ⟨c :: a, ?_, ?_, h3⟩
      · show c :: t = c :: (a ++ _); exact congrArg _ h1
      · intro x hx
        rcases List.mem_cons.1 hx with rfl | hx
        · exact h
        · exact h2 x hx
    · rw [List.dropWhile_cons_of_neg h]
      refine ⟨[], rfl, nofun, fun d hd => ?_⟩
      cases hd
      simpa using h

theorem strip_split (s : Str) : ∃ a b, s = a ++ strip s ++ b ∧ White a ∧ White b ∧ Tight (strip s) := by
  obtain ⟨a, h1, h2, h3⟩ := lstrip_split s
  obtain ⟨b, h4, h5, h6⟩ := rstrip_spec (lstrip s)
  refine ⟨a, b, ?_, h2, h5, ?_, h6⟩
  · rw [List.append_assoc]
    show s = a ++ (rstrip (lstrip s) ++ b)
    rw [← h4, ← h1]
  · intro c hc
    apply h3
    rw [h4]
    show (rstrip (lstrip s) ++ b).head? = some c
    have : (rstrip (lstrip s)).head? = some c := hc
    cases hr : rstrip (lstrip s) with
    | nil => rw [hr] at this; cases this
    | cons d t => rw [hr] at this; exact this

theorem strip_of {a v b : Str} (ha : White a) (hv : Tight v) (hn : v ≠ []) (hb : White b) : strip (a ++ v ++ b) = v := by
  unfold strip
  rw [List.append_assoc, lstrip_white ha, lstrip_tight]
  · exact stripEnd_unique' ⟨b, rfl, hb, hv.2⟩
  · intro c hc
    cases v with
    | nil => exact absurd rfl hn
    | cons d t => exact hv.1 c hc
where
  stripEnd_unique' {v b : Str} (h : StripEnd (v ++ b) v) : rstrip (v ++ b) = v := by
    obtain ⟨ws, h1, h2, h3⟩ := h
    have hb : b = ws := List.append_cancel_left h1
    subst hb
    unfold rstrip
    rw [List.reverse_append]
    have : List.dropWhile isSpace (b.reverse ++ v.reverse) = v.reverse := by
      have hw : White b.reverse := fun c hc => h2 c (List.mem_reverse.1 hc)
      have := lstrip_white (s := v.reverse) hw
      unfold lstrip at this
      rw [this]
      exact lstrip_tight (s := v.reverse) (by intro c hc; rw [List.head?_reverse] at hc; exact h3 c hc)
    rw [this, List.reverse_reverse]

theorem strip_white {s : Str} (h : White s) : strip s = [] := by
  have := strip_empty s
  rw [show whiteLine s = true from List.all_eq_true.2 h] at this
  exact List.isEmpty_iff.1 this

theorem white_of_strip {s : Str} (h : strip s = []) : White s := by
  have := strip_empty s
  rw [h] at this
  exact List.all_eq_true.1 this.symm

/-! ## The text of a constant -/

theorem splitColon_none {x : Str} (h : ':' ∉ x) : splitColon x = (x, none) := by
  induction x with
  | nil => rfl
  | cons c t ih =>
    unfold splitColon
    rw [if_neg (by rintro rfl; exact h (by simp)), ih (fun h' => h (by simp [h']))]

theorem splitColon_some {l r : Str} (h : ':' ∉ l) : splitColon (l ++ ':' :: r) = (l, some r) := by
  induction l with
  | nil => rfl
  | cons c t ih =>
    show splitColon (c :: (t ++ ':' :: r)) = _
    unfold splitColon
    rw [if_neg (by rintro rfl; exact h (by simp)), ih (fun h' => h (by simp [h']))]

theorem splitColon_inv (x : Str) : (∃ l r, x = l ++ ':' :: r ∧ splitColon x = (l, some r)) ∨ splitColon x = (x, none) := by
  induction x with
  | nil => exact .inr rfl
  | cons c t ih =>
    by_cases hc : c = ':'
    · subst hc
      exact .inl ⟨[], t, rfl, rfl⟩
    · unfold splitColon
      rw [if_neg hc]
      rcases ih with ⟨l, r, rfl, h⟩ | h
      · exact .inl ⟨c :: l, r, rfl, by rw [h]⟩
      · exact .inr (by rw [h])

theorem atomLen_name {s : Str} : (atomLen s ≠ 0 ∧ s.drop (atomLen s) = []) ↔ IsConstName s := by
  cases s with
  | nil => exact ⟨fun h => absurd rfl h.1, fun ⟨_, _, h, _⟩ => by cases h⟩
  | cons c t =>
    simp only [atomLen, spanLen]
    by_cases hc : isLetter c = true
    · rw [if_pos hc]
      have hd : (c :: t).drop (1 + (t.takeWhile fun c => isLetter c || isFigure c).length) = t.dropWhile fun c => isLetter c || isFigure c := by
        rw [Nat.add_comm, List.drop_succ_cons]
        conv => lhs; arg 2; rw [← List.takeWhile_append_dropWhile (p := fun c => isLetter c || isFigure c) (l := t)]
        exact List.drop_left ..
      rw [hd]
      constructor
      · rintro ⟨_, h⟩
        refine ⟨c, t, rfl, hc, fun x hx => ?_⟩
        rw [← List.takeWhile_append_dropWhile (p := fun c => isLetter c || isFigure c) (l := t), h, List.append_nil] at hx
        have := (List.all_takeWhile (p := fun c => isLetter c || isFigure c) (l := t))
        rw [List.all_eq_true] at this
        simpa using this x hx
      · rintro ⟨c', t', h, _, h2⟩
        cases h
        refine ⟨by omega, ?_⟩
        have : ∀ {t : Str}, (∀ x ∈ t, isLetter x = true ∨ isFigure x = true) → t.dropWhile (fun c => isLetter c || isFigure c) = [] := by
          intro t h
          induction t with
          | nil => rfl
          | cons d u ih =>
            rw [List.dropWhile_cons_of_pos (by simpa using h d (by simp))]
            exact ih fun x hx => h x (by simp [hx])
        exact this h2
    · rw [if_neg hc]
      exact ⟨fun h => absurd rfl h.1, fun ⟨c', t', h, h1, _⟩ => by cases h; exact absurd h1 hc⟩

theorem name_tight {n : Str} (h : IsConstName n) : Tight n ∧ n ≠ [] ∧ ':' ∉ n := by
  obtain ⟨c, t, rfl, h1, h2⟩ := h
  have all : ∀ x ∈ c :: t, isLetter x = true ∨ isFigure x = true := by
    intro x hx
    rcases List.mem_cons.1 hx with rfl | hx
    · exact .inl h1
    · exact h2 x hx
  refine ⟨⟨?_, ?_⟩, by simp, fun h => (name_char (all _ h)).2 rfl⟩
  · intro d hd; cases hd; exact (name_char (.inl h1)).1
  · intro d hd
    exact (name_char (all d (List.mem_of_getLast? hd))).1

theorem white_colon {a : Str} (h : White a) : ':' ∉ a := fun h' => by have := h _ h'; revert this; decide

theorem parseDefine_of {l : Str} {r : Option Str} {x n : Str} (hx : splitColon x = (l, r)) (hl : strip l = n) (hn : IsConstName n) :
    parseDefine x = some (n, if (defText r).isEmpty then .bool true
      else .pstr (defText r)) := by
  have ha := atomLen_name.2 hn
  unfold parseDefine
  simp only [hx, hl, psAtom, if_neg ha.1, Src.drop, Src.take]
  rw [ha.2]
  have : n.take (atomLen n) = n := by
    have := List.take_append_drop (atomLen n) n
    rw [ha.2, List.append_nil] at this
    exact this
  rw [this]
  rfl

/-- **C71**. The text of a definition is a name, with or without a value after a colon, white space around either; every other
    text is ignored. -/
theorem C71_exactly (x n : Str) (v : Node) : parseDefine x = some (n, v) ↔ Constant x n v := by
  constructor
  · intro h
    have hp : ∀ {l r}, splitColon x = (l, r) → IsConstName (strip l) ∧ n = strip l ∧
        v = if (defText r).isEmpty then .bool true
          else .pstr (defText r) := by
      intro l r hx
      by_cases hn : IsConstName (strip l)
      · rw [parseDefine_of hx rfl hn] at h
        simp only [Option.some.injEq, Prod.mk.injEq] at h
        exact ⟨hn, h.1.symm, h.2.symm⟩
      · exfalso
        apply hn
        rw [← atomLen_name]
        unfold parseDefine at h
        simp only [hx, psAtom] at h
        by_cases h0 : atomLen (strip l) = 0
        · rw [if_pos h0] at h; cases h
        · rw [if_neg h0] at h
          refine ⟨h0, ?_⟩
          simp only [Src.drop] at h
          by_cases he : (List.drop (atomLen (strip l)) (strip l)).isEmpty = true
          · exact List.isEmpty_iff.1 he
          · exact absurd ((if_neg (c := (List.drop (atomLen (strip l)) (strip l)).isEmpty = true) he).symm.trans h) nofun
    rcases splitColon_inv x with ⟨l, r, rfl, hx⟩ | hx
    · obtain ⟨h1, rfl, rfl⟩ := hp hx
      obtain ⟨a, b, hl, ha, hb, -⟩ := strip_split l
      by_cases hr : strip r = []
      · simp only [defText, hr, List.isEmpty_nil, if_true]
        have := Constant.empty ha h1 hb (white_of_strip hr)
        rwa [← hl] at this
      · obtain ⟨c, d, hr', hc, hd, ht⟩ := strip_split r
        have := Constant.value ha h1 hb hc hr ht hd
        rw [← hl, ← hr'] at this
        simp only [defText, List.isEmpty_iff, hr, if_false]
        exact this
    · obtain ⟨h1, rfl, rfl⟩ := hp hx
      obtain ⟨a, b, hl, ha, hb, -⟩ := strip_split x
      have := Constant.flag ha h1 hb
      rwa [← hl] at this
  · intro h
    have nc : ∀ {a n b : Str}, White a → IsConstName n → White b → ':' ∉ a ++ n ++ b := by
      intro a n b ha hn hb h
      simp only [List.mem_append] at h
      rcases h with (h | h) | h
      · exact white_colon ha h
      · exact (name_tight hn).2.2 h
      · exact white_colon hb h
    cases h with
    | flag ha hn hb =>
      rw [parseDefine_of (splitColon_none (nc ha hn hb)) (strip_of ha (name_tight hn).1 (name_tight hn).2.1 hb) hn]
      rfl
    | empty ha hn hb hc =>
      rw [parseDefine_of (splitColon_some (nc ha hn hb)) (strip_of ha (name_tight hn).1 (name_tight hn).2.1 hb) hn]
      simp only [defText, strip_white hc]
      rfl
    | value ha hn hb hc hv ht hd =>
      rw [parseDefine_of (splitColon_some (nc ha hn hb)) (strip_of ha (name_tight hn).1 (name_tight hn).2.1 hb) hn]
      simp only [defText, strip_of hc ht hv hd, List.isEmpty_iff, hv, if_false]

/-! ## The table -/

theorem defineStep_of {x n : Str} {v : Node} (h : Constant x n v) (t : Str → Option BVal) (f : Str) :
    defineStep t x f = if f = n then some (.const v) else t f := by
  unfold defineStep
  rw [(C71_exactly x n v).2 h]

theorem defineStep_other {x f : Str} (h : ∀ v, ¬ Constant x f v) (t : Str → Option BVal) : defineStep t x f = t f := by
  unfold defineStep
  cases hp : parseDefine x with
  | none => rfl
  | some p =>
    obtain ⟨n, v⟩ := p
    show (if f = n then _ else _) = _
    rw [if_neg]
    rintro rfl
    exact h v ((C71_exactly x f v).1 hp)

/-- **C71**. Names that no definition gives keep their meaning. -/
theorem C71_others {defs : List Str} {f : Str} (h : ∀ d ∈ defs, ∀ v, ¬ Constant d f v) (t : Str → Option BVal) :
    updateTable defs t f = t f := by
  unfold updateTable
  induction defs generalizing t with
  | nil => rfl
  | cons d ds ih =>
    rw [List.foldl_cons, ih (fun d hd => h d (by simp [hd])), defineStep_other (h d (by simp))]

/-- **C71**. The last definition of a name counts, also over a built-in function of that name. -/
theorem C71_last {before after : List Str} {d f : Str} {v : Node} (h : Constant d f v) (ha : ∀ d ∈ after, ∀ v, ¬ Constant d f v)
    (t : Str → Option BVal) : updateTable (before ++ d :: after) t f = some (.const v) := by
  unfold updateTable
  rw [List.foldl_append, List.foldl_cons]
  have := C71_others ha (defineStep (List.foldl defineStep t before) d)
  unfold updateTable at this
  rw [this, defineStep_of h, if_pos rfl]

/-- **C71**. In the program `($NAME)` gives the value of the constant, as a text; `True` if it has none. -/
theorem C71_value {e : EEnv} {s : ESt} {before after : List Str} {d f : Str} {v : Node} {t : Str → Option BVal} {l loc : Option Loc}
    (h : Constant d f v) (ha : ∀ d ∈ after, ∀ v, ¬ Constant d f v)
    (he : e.builtin s.p.scripts = updateTable (before ++ d :: after) t) (hu : Unbound f s) :
    Evaluates e (fnCall f l loc []) s v s := by
  have ht : e.builtin s.p.scripts f = some (.const v) := by rw [he]; exact C71_last h ha t
  have hv : v = .bool true ∨ ∃ w, v = .pstr w := by cases h <;> simp
  rcases hv with rfl | ⟨w, rfl⟩
  · unfold fnCall
    rw [evaluates_iff, ev_table ⟨hu, ht⟩ (.nil s)]
    unfold applyBuiltin
    simp only [List.isEmpty_nil, Bool.not_true, Bool.false_eq_true, if_false]
    rw [em_bind_ok (show EM.get s = .ok (s, s) from rfl), ht]
    rfl
  · exact C68_constant ⟨hu, ht⟩ (.nil s) ht (.text (.pstr w)) (by simp)

theorem const_name_unique {x n n' : Str} {v v' : Node} (h : Constant x n v) (h' : Constant x n' v') : n = n' ∧ v = v' := by
  have h1 := (C71_exactly _ _ _).2 h
  have h2 := (C71_exactly _ _ _).2 h'
  rw [h1] at h2
  simpa using h2

/-- **C71**. For the files of one command line the table is the same: defining the constants again changes nothing. -/
theorem C71_again (defs : List Str) (t : Str → Option BVal) : updateTable defs (updateTable defs t) = updateTable defs t := by
  funext f
  by_cases h : ∃ d ∈ defs, ∃ v, Constant d f v
  · have : ∃ before d after v, defs = before ++ d :: after ∧ Constant d f v ∧ ∀ d ∈ after, ∀ v, ¬ Constant d f v := by
      clear t
      induction defs with
      | nil => obtain ⟨_, h, _⟩ := h; cases h
      | cons d ds ih =>
        by_cases h' : ∃ d ∈ ds, ∃ v, Constant d f v
        · obtain ⟨b, d', a, v, rfl, h1, h2⟩ := ih h'
          exact ⟨d :: b, d', a, v, rfl, h1, h2⟩
        · obtain ⟨d', hd, v, hv⟩ := h
          rcases List.mem_cons.1 hd with rfl | hd
          · exact ⟨[], d', ds, v, rfl, hv, fun x hx w hw => h' ⟨x, hx, w, hw⟩⟩
          · exact absurd ⟨d', hd, v, hv⟩ h'
    obtain ⟨b, d, a, v, rfl, h1, h2⟩ := this
    rw [C71_last h1 h2, C71_last h1 h2]
  · rw [C71_others fun d hd v hv => h ⟨d, hd, v, hv⟩]

/-- **C71**, where it fails: the constants of one module are still there when the next one is translated, whose configuration
    does not define them. -/
theorem C71_leaks : ∃ i j : Import, i.translated = true ∧ (∀ g g', j.start g = some g' → g'.define = []) ∧ ∀ g, ∃ g1 g2,
    i.run g = some g1 ∧ j.start g1 = some g2 ∧ g2.table (lit "DEBUG") = some (.const (.bool true)) := by
  let sc : Scripts := fun n => if n = lit "a.yuconfig" then
    some fun c => Ctx.put c (lit "pp_define") (.list [lit "DEBUG"]) else none
  have hs : ∀ fn k, k = lit "directory" ∨ k = lit "dependency" ∨ k = lit "pp_define" → (finalCtx sc fn k).isSome := by
    intro fn k hk
    have key : ∀ f c, (c k).isSome → (execScript sc f c k).isSome := by
      intro f c hc
      unfold execScript
      show Option.isSome ((match (if f = lit "a.yuconfig" then some fun c => Ctx.put c (lit "pp_define") (.list [lit "DEBUG"]) else none) with | some f => f c | none => c) k) = true
      by_cases hf : f = lit "a.yuconfig"
      · rw [if_pos hf]
        show Option.isSome (if k = lit "pp_define" then _ else c k) = true
        split
        · rfl
        · exact hc
      · rw [if_neg hf]; exact hc
    unfold finalCtx
    exact key _ _ (key _ _ (by rcases hk with rfl | rfl | rfl <;> rfl))
  obtain ⟨c1, hc1, hk1⟩ := run_some (i := ⟨sc, lit "a.py", true, []⟩) (hs _)
  obtain ⟨c2, hc2, hk2⟩ := run_some (i := ⟨sc, lit "b.py", true, []⟩) (hs _)
  have d1 : ∀ g, (ppConfigure [] c1 g).define = [lit "DEBUG"] := by
    intro g
    show (Ctx.getD c1 (lit "pp_define") _).items = _
    unfold Ctx.getD
    rw [hk1]; rfl
  have d2 : ∀ g, (ppConfigure [] c2 g).define = [] := by
    intro g
    show (Ctx.getD c2 (lit "pp_define") _).items = _
    unfold Ctx.getD
    rw [hk2]; rfl
  refine ⟨⟨sc, lit "a.py", true, []⟩, ⟨sc, lit "b.py", true, []⟩, rfl, ?_, ?_⟩
  · intro g g' h
    unfold Import.start at h
    rw [hc2] at h
    cases h
    exact d2 g
  · intro g
    refine ⟨addToTable [] (startShell (ppConfigure [] c1 g)), startShell (ppConfigure [] c2 (addToTable [] (startShell (ppConfigure [] c1 g)))), ?_, ?_, ?_⟩
    · unfold Import.run Import.start
      rw [hc1]; rfl
    · unfold Import.start
      rw [hc2]; rfl
    · show updateTable (ppConfigure [] c2 _).define (updateTable (ppConfigure [] c1 g).define g.table) (lit "DEBUG") = _
      rw [d1, d2]
      exact C71_last (before := []) (after := []) (.flag (a := []) (n := lit "DEBUG") (b := []) nofun
        ⟨'D', lit "EBUG", rfl, by decide, by decide⟩ nofun) nofun g.table

/-- **C71**. Exactly what is in the table when a module is translated: what the earlier ones left, and over it the module's own
    constants. -/
theorem C71_table {i : Import} {g g' : Global} (hi : i.translated = true) (h : i.start g = some g') :
    g'.table = updateTable g'.define g.table := by
  unfold Import.start at h
  cases hc : parseYuconfig i.scripts i.fn with
  | none => rw [hc] at h; cases h
  | some c =>
    rw [hc] at h
    simp only [Option.map_some, hi, if_true, Option.some.injEq] at h
    subst h
    rfl

/-- **C71**. What a module leaves in the table for the next ones: what the Python scripts it imports define, over everything else;
    nothing new if its old output is used. -/
theorem C71_scripts_stay {i : Import} {g g0 g' : Global} (h0 : i.start g = some g0) (h : i.run g = some g') :
    (i.translated = true → ∀ f v, i.adds.lookup f = some v → g'.table f = some v) ∧
    (i.translated = true → ∀ f, i.adds.lookup f = none → g'.table f = g0.table f) ∧
    (i.translated = false → g'.table = g.table) := by
  unfold Import.run at h
  rw [h0] at h
  simp only [Option.map_some, Option.some.injEq] at h
  subst h
  refine ⟨fun ht f v hv => ?_, fun ht f hv => ?_, fun ht => ?_⟩
  · simp [ht, addToTable, hv]
  · simp [ht, addToTable, hv]
  · simp only [ht, Bool.false_eq_true, if_false]
    unfold Import.start at h0
    cases hc : parseYuconfig i.scripts i.fn with
    | none => rw [hc] at h0; cases h0
    | some c =>
      rw [hc] at h0
      simp only [Option.map_some, ht, Bool.false_eq_true, if_false, Option.some.injEq] at h0
      subst h0
      rfl

/-- `-D " LEVEL : 3 "` -/
example : Constant (lit " LEVEL : 3 ") (lit "LEVEL") (.pstr (lit "3")) :=
  have w : White [' '] := fun c hc => by rw [List.mem_singleton.1 hc]; rfl
  .value (a := [' ']) (n := lit "LEVEL") (b := [' ']) (c := [' ']) (v := ['3']) (d := [' ']) w
    ⟨'L', lit "EVEL", rfl, by decide, by decide⟩ w w (by decide) ⟨fun c hc => by cases hc; rfl, fun c hc => by cases hc; rfl⟩ w

end Yupp
