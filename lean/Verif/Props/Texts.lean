import Verif.Lemmas.Texts
import Verif.Props.Number
import Verif.Props.Arith
import Verif.Props.Eval
/-!
# C75 — Texts in pieces, slices, numbers as texts
-/

namespace Yupp

open Spec

variable {e : EEnv} {x : BExt} {l loc : Option Loc} {args : List Node} {s s' : ESt}

theorem text_isTerm {a : Node} {t : Str} (h : a.text? = some t) : isTerm a = true := by
  have := text_term h
  simpa [areTerms] using this

/-! ## Pieces -/

/-- **C75**. `$split` at a separator: the text cut at every occurrence from left to right. -/
theorem C75_split (hs : Standard e x (lit "split")) (hu : Unbound (lit "split") s) {a b : Node} {t sep : Str}
    (ha : Args e args s [a, b] s') (ht : a.text? = some t) (hb : b.text? = some sep) (h0 : sep ≠ []) :
    ∃ ps, Evaluates e (fnCall (lit "split") l loc args) s (.list (ps.map .pstr)) s' ∧ Pieces sep t ps := by
  refine ⟨splitStr sep t, ?_, splitStr_pieces h0 t⟩
  exact ev_call (v := .list _) (seen := s'.seen) hs hu ha (by simp [areTerms, text_isTerm ht, text_isTerm hb])
    (by simp [builtinCall, textCall, lit, bText2, ht, hb, h0])

/-- **C75**. An empty separator is an error. -/
theorem C75_split_empty (hs : Standard e x (lit "split")) (hu : Unbound (lit "split") s) {a b : Node} {t : Str}
    (ha : Args e args s [a, b] s') (ht : a.text? = some t) (hb : b.text? = some []) :
    Raises e (fnCall (lit "split") l loc args) s :=
  ev_call_err hs hu ha (by simp [areTerms, text_isTerm ht, text_isTerm hb])
    (by simp [builtinCall, textCall, lit, bText2, ht, hb])

/-- **C75**. `$split` without a separator: the words. -/
theorem C75_words (hs : Standard e x (lit "split")) (hu : Unbound (lit "split") s) {a : Node} {t : Str}
    (ha : Args e args s [a] s') (ht : a.text? = some t) :
    ∃ ws, Evaluates e (fnCall (lit "split") l loc args) s (.list (ws.map .pstr)) s' ∧ Words t ws := by
  refine ⟨wordsStr t, ?_, wordsStr_words t⟩
  exact ev_call (v := .list _) (seen := s'.seen) hs hu ha (text_term ht) (by simp [builtinCall, textCall, lit, bText1, ht])

theorem joinWords_texts : ∀ {xs : List Node} {ps : List Str}, xs.map Node.text? = ps.map some → xs.mapM Node.text? = some ps
  | [], [], _ => rfl
  | a :: xs, p :: ps, h => by
    simp only [List.map_cons, List.cons.injEq] at h
    rw [List.mapM_cons, h.1, joinWords_texts h.2]
    rfl

theorem texts_terms : ∀ (xs : List Node) (ps : List Str), xs.map Node.text? = ps.map some → areTerms xs = true := by
  intro xs
  induction xs with
  | nil => intros; rfl
  | cons a xs ih =>
    intro ps h
    cases ps with
    | nil => simp at h
    | cons p ps =>
      simp only [List.map_cons, List.cons.injEq] at h
      simp [areTerms, text_isTerm h.1, ih ps h.2]

/-- **C75**. `$join`: the texts of a list one after another, the separator between them. -/
theorem C75_join (hs : Standard e x (lit "join")) (hu : Unbound (lit "join") s) {xs : List Node} {b : Node} {ps : List Str} {sep : Str}
    (ha : Args e args s [.list xs, b] s') (hx : xs.map Node.text? = ps.map some) (hb : b.text? = some sep) :
    ∃ t, Evaluates e (fnCall (lit "join") l loc args) s (.pstr t) s' ∧ Joined sep ps t := by
  refine ⟨joinStr sep ps, ?_, joinStr_joined sep ps⟩
  exact ev_call (v := .pstr _) (seen := s'.seen) hs hu ha (by simp [areTerms, isTerm, text_isTerm hb, texts_terms xs ps hx])
    (by simp [builtinCall, textCall, lit, joinWords, Node.iter, joinWords_texts hx, hb])

/-- **C75**. Without a separator, blanks are put between them. -/
theorem C75_join_blank (hs : Standard e x (lit "join")) (hu : Unbound (lit "join") s) {xs : List Node} {ps : List Str}
    (ha : Args e args s [.list xs] s') (hx : xs.map Node.text? = ps.map some) :
    ∃ t, Evaluates e (fnCall (lit "join") l loc args) s (.pstr t) s' ∧ Joined [' '] ps t := by
  refine ⟨joinStr [' '] ps, ?_, joinStr_joined [' '] ps⟩
  exact ev_call (v := .pstr _) (seen := s'.seen) hs hu ha (by simp [areTerms, isTerm, texts_terms xs ps hx])
    (by simp [builtinCall, textCall, lit, joinWords, Node.iter, joinWords_texts hx])

/-- **C75**. `$join` undoes `$split`. -/
theorem C75_join_split (hs : Standard e x (lit "split")) (hj : Standard e x (lit "join")) (hu : Unbound (lit "split") s)
    (huj : Unbound (lit "join") s) {a b c : Node} {t sep : Str} {loc' l' : Option Loc}
    (ha : Args e args s [a, b] s) (ht : a.text? = some t) (hb : b.text? = some sep) (h0 : sep ≠ []) (hc : Evaluates e c s b s) :
    Evaluates e (fnCall (lit "join") l loc [fnCall (lit "split") l' loc' args, c]) s (.pstr t) s := by
  obtain ⟨ps, h1, h2⟩ := C75_split (l := l') (loc := loc') hs hu ha ht hb h0
  have hbn : b ≠ .none := by rintro rfl; cases hb
  have hbe : ∀ a, b ≠ .embed a := by rintro a rfl; cases hb
  obtain ⟨u, h3, h4⟩ := C75_join (l := l) (loc := loc) (args := [fnCall (lit "split") l' loc' args, c]) hj huj
    (.one h1 (by simp) (by simp) (.one hc hbn hbe (.nil s))) (ps := ps) (by simp [Node.text?, Function.comp_def]) hb
  rwa [joined_unique (pieces_joined h2) h4]

/-- **C75**. `$replace`: the text cut at every occurrence of the old text, and joined with the new one. -/
theorem C75_replace (hs : Standard e x (lit "replace")) (hu : Unbound (lit "replace") s) {a b c : Node} {t old new : Str}
    (ha : Args e args s [a, b, c] s') (ht : a.text? = some t) (hb : b.text? = some old) (hc : c.text? = some new) (h0 : old ≠ []) :
    ∃ ps u, Evaluates e (fnCall (lit "replace") l loc args) s (.pstr u) s' ∧ Pieces old t ps ∧ Joined new ps u := by
  refine ⟨splitStr old t, replace old new t, ?_, splitStr_pieces h0 t, ?_⟩
  · cases old with
    | nil => exact absurd rfl h0
    | cons o os =>
      exact ev_call (v := .pstr _) (seen := s'.seen) hs hu ha (by simp [areTerms, text_isTerm ht, text_isTerm hb, text_isTerm hc])
        (by simp [builtinCall, textCall, lit, ht, hb, hc])
  · unfold replace
    rw [replace_split h0 new _ t (Nat.le_refl _)]
    exact joinStr_joined _ _

/-- **C75**. `$find`: the lowest position at which the text occurs, or -1. -/
theorem C75_find (hs : Standard e x (lit "find")) (hu : Unbound (lit "find") s) {a v : Node} {t u : Str}
    (ha : Args e args s [a, v] s') (ht : a.text? = some t) (hv : v.text? = some u) :
    ∃ i : Int, Evaluates e (fnCall (lit "find") l loc args) s (.int i) s' ∧
      ((∃ k : Nat, i = k ∧ OccursAt u t k ∧ ∀ j, j < k → ¬ OccursAt u t j) ∨ (i = -1 ∧ ∀ k, ¬ OccursAt u t k)) := by
  refine ⟨_, ev_call hs hu ha (by simp [areTerms, text_isTerm ht, text_isTerm hv])
    (by simp [builtinCall, textCall, lit, bText2, ht, hv]; exact ⟨rfl, rfl⟩), ?_⟩
  cases hf : findIdx u t with
  | none => exact .inr ⟨rfl, findIdx_none_occurs u t hf⟩
  | some k => exact .inl ⟨k, rfl, (findIdx_occurs u t k hf).1, (findIdx_occurs u t k hf).2⟩

/-- **C75**. `$count`: how often the text occurs, occurrences not overlapping. -/
theorem C75_count (hs : Standard e x (lit "count")) (hu : Unbound (lit "count") s) {a v : Node} {t u : Str}
    (ha : Args e args s [a, v] s') (ht : a.text? = some t) (hv : v.text? = some u) (h0 : u ≠ []) :
    ∃ (n : Nat) (ps : List Str), Evaluates e (fnCall (lit "count") l loc args) s (.int n) s' ∧ Pieces u t ps ∧ ps.length = n + 1 := by
  have hp := splitStr_pieces h0 t
  have hl : 1 ≤ (splitStr u t).length := by
    cases h : splitStr u t with
    | nil => rw [h] at hp; cases hp
    | cons => simp
  refine ⟨(splitStr u t).length - 1, splitStr u t, ?_, hp, by omega⟩
  have := ev_call (e := e) (x := x) (l := l) (loc := loc) (v := .int (((splitStr u t).length : Int) - 1)) (seen := s'.seen) hs hu ha
    (by simp [areTerms, text_isTerm ht, text_isTerm hv]) (by simp [builtinCall, textCall, lit, bText2, ht, hv, h0])
  rw [show (((splitStr u t).length - 1 : Nat) : Int) = ((splitStr u t).length : Int) - 1 by omega]
  exact this

/-- **C75**. The empty text occurs before every character and at the end. -/
theorem C75_count_empty (hs : Standard e x (lit "count")) (hu : Unbound (lit "count") s) {a v : Node} {t : Str}
    (ha : Args e args s [a, v] s') (ht : a.text? = some t) (hv : v.text? = some []) :
    Evaluates e (fnCall (lit "count") l loc args) s (.int (t.length + 1)) s' :=
  ev_call (v := .int (t.length + 1)) (seen := s'.seen) hs hu ha (by simp [areTerms, text_isTerm ht, text_isTerm hv])
    (by simp [builtinCall, textCall, lit, bText2, ht, hv])

/-- **C75**. `$strip`, `$lstrip` and `$rstrip` take the white space off the ends. -/
theorem C75_strip {f : Str} {left right : Bool}
    (hf : f = lit "strip" ∧ left = true ∧ right = true ∨ f = lit "lstrip" ∧ left = true ∧ right = false ∨
      f = lit "rstrip" ∧ left = false ∧ right = true)
    (hs : Standard e x f) (hu : Unbound f s) {a : Node} {t : Str} (ha : Args e args s [a] s') (ht : a.text? = some t) :
    ∃ r, Evaluates e (fnCall f l loc args) s (.pstr r) s' ∧ Stripped (fun c => isSpace c = true) left right t r := by
  have h := fun v => ev_call (l := l) (loc := loc) (v := .pstr v) (seen := s'.seen) hs hu ha (text_term ht)
  rcases hf with ⟨rfl, rfl, rfl⟩ | ⟨rfl, rfl, rfl⟩ | ⟨rfl, rfl, rfl⟩
  · exact ⟨_, h (strip t) (by simp [builtinCall, textCall, lit, bText1, ht]), stripBy_stripped isSpace t⟩
  · exact ⟨_, h (lstrip t) (by simp [builtinCall, textCall, lit, bText1, ht]), lstripBy_stripped isSpace t⟩
  · exact ⟨_, h (rstrip t) (by simp [builtinCall, textCall, lit, bText1, ht]), rstripBy_stripped isSpace t⟩

theorem stripped_congr {p q : Char → Prop} (h : ∀ c, p c ↔ q c) {left right : Bool} {t r : Str} (hs : Stripped p left right t r) :
    Stripped q left right t r := by
  have : p = q := funext fun c => propext (h c)
  exact this ▸ hs

/-- **C75**. With a second text they take the characters of this text off the ends. -/
theorem C75_strip_characters {f : Str} {left right : Bool}
    (hf : f = lit "strip" ∧ left = true ∧ right = true ∨ f = lit "lstrip" ∧ left = true ∧ right = false ∨
      f = lit "rstrip" ∧ left = false ∧ right = true)
    (hs : Standard e x f) (hu : Unbound f s) {a b : Node} {t cs : Str} (ha : Args e args s [a, b] s') (ht : a.text? = some t)
    (hb : b.text? = some cs) :
    ∃ r, Evaluates e (fnCall f l loc args) s (.pstr r) s' ∧ Stripped (fun c => c ∈ cs) left right t r := by
  have h := fun v => ev_call (l := l) (loc := loc) (v := .pstr v) (seen := s'.seen) hs hu ha
    (by simp [areTerms, text_isTerm ht, text_isTerm hb])
  have hc : ∀ c, (cs.contains c = true) ↔ c ∈ cs := fun c => by simp
  rcases hf with ⟨rfl, rfl, rfl⟩ | ⟨rfl, rfl, rfl⟩ | ⟨rfl, rfl, rfl⟩
  · exact ⟨_, h _ (by simp [builtinCall, textCall, lit, bText2, ht, hb]), stripped_congr hc (stripBy_stripped (cs.contains ·) t)⟩
  · exact ⟨_, h _ (by simp [builtinCall, textCall, lit, bText2, ht, hb]), stripped_congr hc (lstripBy_stripped (cs.contains ·) t)⟩
  · exact ⟨_, h _ (by simp [builtinCall, textCall, lit, bText2, ht, hb]), stripped_congr hc (rstripBy_stripped (cs.contains ·) t)⟩

/-! ## Slices -/

theorem bound_of {n m k : Nat} {a : Node} (h : SliceEnd n m a k) (hm : m ≤ n) :
    ∃ o, boundOf a = some o ∧ (o.map (sliceBound n)).getD m = k ∧ k ≤ n := by
  have huniq : ∀ {i : Int} {k : Nat}, Position n i k → sliceBound n i = k := by
    intro i k h
    unfold sliceBound
    cases h with
    | inside h => rw [if_neg (by omega)]; omega
    | beyond _ h => rw [if_neg (by omega)]; omega
    | fromEnd k h1 h2 => rw [if_pos (by omega)]; omega
    | before _ h => rw [if_pos (by omega)]; omega
  cases h with
  | @given i _ h1 h2 =>
    refine ⟨some i, by simp [boundOf, whole_text h1, h1], by simpa using huniq h2, ?_⟩
    have := sliceBound_le n i
    rw [huniq h2] at this
    exact this
  | left h => exact ⟨none, by simp [boundOf, h], rfl, hm⟩

theorem bound_term {n m k : Nat} {a : Node} (h : SliceEnd n m a k) : isTerm a = true := by
  cases h with
  | given h => exact whole_term h
  | left h => exact text_isTerm h

/-- **C75**. `$getslice` of a list: the items from one position up to another. -/
theorem C75_getslice (hs : Standard e x (lit "getslice")) (hu : Unbound (lit "getslice") s) {xs : List Node} {a b : Node} {i j : Nat}
    (ha : Args e args s [.list xs, a, b] s') (hx : Value (.list xs)) (hi : SliceEnd xs.length 0 a i) (hj : SliceEnd xs.length xs.length b j) :
    ∃ ys, Evaluates e (fnCall (lit "getslice") l loc args) s (.list ys) s' ∧ Between xs i j ys := by
  obtain ⟨o1, h1, h2, -⟩ := bound_of hi (by omega)
  obtain ⟨o2, h3, h4, h5⟩ := bound_of hj (by omega)
  refine ⟨sliceList o1 o2 xs, ?_, ?_⟩
  · exact ev_call (v := .list _) (seen := s'.seen) hs hu ha
      (by simp only [areTerms, bound_term hi, bound_term hj, Bool.and_true]; exact value_term hx)
      (by simp [builtinCall, textCall, lit, bGetslice, h1, h3, bSlice, Node.asList])
  · unfold sliceList
    rw [h2, h4]
    exact between_drop_take xs i j h5

/-- **C75**. The same of a text. -/
theorem C75_getslice_text (hs : Standard e x (lit "getslice")) (hu : Unbound (lit "getslice") s) {c a b : Node} {t : Str} {i j : Nat}
    (ha : Args e args s [c, a, b] s') (ht : c.text? = some t) (hi : SliceEnd t.length 0 a i) (hj : SliceEnd t.length t.length b j) :
    ∃ u, Evaluates e (fnCall (lit "getslice") l loc args) s (.pstr u) s' ∧ Between t i j u := by
  obtain ⟨o1, h1, h2, -⟩ := bound_of hi (by omega)
  obtain ⟨o2, h3, h4, h5⟩ := bound_of hj (by omega)
  refine ⟨sliceList o1 o2 t, ?_, ?_⟩
  · exact ev_call (v := .pstr _) (seen := s'.seen) hs hu ha (by simp [areTerms, bound_term hi, bound_term hj, text_isTerm ht])
      (by simp [builtinCall, textCall, lit, bGetslice, h1, h3, bSlice, text_list ht, ht])
  · unfold sliceList
    rw [h2, h4]
    exact between_drop_take t i j h5

/-- **C75**. One bound alone is the end. -/
theorem C75_getslice_one (hs : Standard e x (lit "getslice")) (hu : Unbound (lit "getslice") s) {xs : List Node} {b : Node} {j : Nat}
    (ha : Args e args s [.list xs, b] s') (hx : Value (.list xs)) (hj : SliceEnd xs.length xs.length b j) :
    Evaluates e (fnCall (lit "getslice") l loc args) s (.list (xs.take j)) s' := by
  obtain ⟨o2, h3, h4, h5⟩ := bound_of hj (by omega)
  have hb : boundOf (.pstr []) = some none := rfl
  have : sliceList none o2 xs = xs.take j := by
    unfold sliceList
    rw [h4]
    simp
  rw [← this]
  exact ev_call (v := .list _) (seen := s'.seen) hs hu ha
    (by simp only [areTerms, bound_term hj, Bool.and_true]; exact value_term hx)
    (by simp [builtinCall, textCall, lit, bGetslice, hb, h3, bSlice, Node.asList])

/-! ## Padding, sums, lengths -/

/-- **C75**. `$ljust` and `$rjust` pad a text that is too short, and leave others alone. -/
theorem C75_just {f : Str} {left : Bool} (hf : f = lit "ljust" ∧ left = true ∨ f = lit "rjust" ∧ left = false)
    (hs : Standard e x f) (hu : Unbound f s) {a w c : Node} {t : Str} {n : Int} {ch : Char} (ha : Args e args s [a, w, c] s')
    (ht : a.text? = some t) (hw : w.whole? = some n) (hc : c.text? = some [ch]) :
    ∃ k : Nat, Evaluates e (fnCall f l loc args) s (.pstr (if left then t ++ List.replicate k ch else List.replicate k ch ++ t)) s' ∧
      (k = 0 ∧ n ≤ t.length ∨ (t.length : Int) + k = n) := by
  refine ⟨n.toNat - t.length, ?_, by omega⟩
  have h := fun v => ev_call (l := l) (loc := loc) (v := .pstr v) (seen := s'.seen) hs hu ha
    (by simp [areTerms, text_isTerm ht, text_isTerm hc, whole_term hw])
  rcases hf with ⟨rfl, rfl⟩ | ⟨rfl, rfl⟩ <;> exact h _ (by simp [builtinCall, textCall, lit, bJust, ht, hw, hc])

/-- **C75**. Without a character they pad with blanks. -/
theorem C75_just_blank {f : Str} {left : Bool} (hf : f = lit "ljust" ∧ left = true ∨ f = lit "rjust" ∧ left = false)
    (hs : Standard e x f) (hu : Unbound f s) {a w : Node} {t : Str} {n : Int} (ha : Args e args s [a, w] s')
    (ht : a.text? = some t) (hw : w.whole? = some n) :
    ∃ k : Nat, Evaluates e (fnCall f l loc args) s (.pstr (if left then t ++ List.replicate k ' ' else List.replicate k ' ' ++ t)) s' ∧
      (k = 0 ∧ n ≤ t.length ∨ (t.length : Int) + k = n) := by
  refine ⟨n.toNat - t.length, ?_, by omega⟩
  have h := fun v => ev_call (l := l) (loc := loc) (v := .pstr v) (seen := s'.seen) hs hu ha
    (by simp [areTerms, text_isTerm ht, whole_term hw])
  rcases hf with ⟨rfl, rfl⟩ | ⟨rfl, rfl⟩ <;> exact h _ (by simp [builtinCall, textCall, lit, bJust, ht, hw])

/-- **C75**. More than one character to pad with, or none, is an error. -/
theorem C75_just_fails {f : Str} (hf : f = lit "ljust" ∨ f = lit "rjust") (hs : Standard e x f) (hu : Unbound f s)
    {a w c : Node} {t u : Str} {n : Int} (ha : Args e args s [a, w, c] s') (ht : a.text? = some t) (hw : w.whole? = some n)
    (hc : c.text? = some u) (h1 : u.length ≠ 1) : Raises e (fnCall f l loc args) s := by
  have h0 : ∀ left, bJust left a w u = none := fun left => by
    unfold bJust
    rw [ht, hw]
    match u, h1 with
    | [], _ => rfl
    | _ :: _ :: _, _ => rfl
  rcases hf with rfl | rfl <;>
    exact ev_call_err hs hu ha (by simp [areTerms, text_isTerm ht, whole_term hw, text_isTerm hc])
      (by simp [builtinCall, textCall, lit, hc, h0])

theorem whole_mapM : ∀ {xs : List Node} {ns : List Int}, xs.map Node.whole? = ns.map some → xs.mapM Node.whole? = some ns
  | [], [], _ => rfl
  | a :: xs, p :: ps, h => by
    simp only [List.map_cons, List.cons.injEq] at h
    rw [List.mapM_cons, h.1, whole_mapM h.2]
    rfl

/-- **C75**. `$sum` of a list of whole numbers. -/
theorem C75_sum (hs : Standard e x (lit "sum")) (hu : Unbound (lit "sum") s) {xs : List Node} {ns : List Int}
    (ha : Args e args s [.list xs] s') (hx : xs.map Node.whole? = ns.map some) :
    Evaluates e (fnCall (lit "sum") l loc args) s (.int (ns.foldr (· + ·) 0)) s' := by
  have hterm : ∀ (xs : List Node) (ns : List Int), xs.map Node.whole? = ns.map some → areTerms xs = true := by
    intro xs
    induction xs with
    | nil => intros; rfl
    | cons a xs ih =>
      intro ps h
      cases ps with
      | nil => simp at h
      | cons p ps =>
        simp only [List.map_cons, List.cons.injEq] at h
        simp [areTerms, whole_term h.1, ih ps h.2]
  exact ev_call (v := .int _) (seen := s'.seen) hs hu ha (by simp [areTerms, isTerm, hterm xs ns hx])
    (by simp [builtinCall, textCall, lit, Node.asList, whole_mapM hx, List.sum_eq_foldr])

/-! ## Numbers as texts -/

theorem dig_range {c : Char} {b : Nat} (hb : b ≤ 16) (h : digVal c < b) :
    48 ≤ c.toNat ∧ c.toNat ≤ 57 ∨ 65 ≤ c.toNat ∧ c.toNat ≤ 70 ∨ 97 ≤ c.toNat ∧ c.toNat ≤ 102 := by
  unfold digVal isDig at h
  simp only [toNat_le, show '0'.toNat = 48 from rfl, show '9'.toNat = 57 from rfl, show 'a'.toNat = 97 from rfl,
    show 'f'.toNat = 102 from rfl, show 'A'.toNat = 65 from rfl, show 'F'.toNat = 70 from rfl, Bool.and_eq_true, decide_eq_true_eq] at h
  split at h
  · omega
  · split at h
    · omega
    · split at h <;> omega

theorem dig_not_space {c : Char} {b : Nat} (hb : b ≤ 16) (h : digVal c < b) : isSpace c = false := by
  have := dig_range hb h
  unfold isSpace
  simp only [Bool.or_eq_false_iff, Bool.and_eq_false_iff, decide_eq_false_iff_not, beq_eq_false_iff_ne, ne_eq]
  omega

theorem denotes_of {b : Nat} (hb : b ≤ 16) : ∀ (n : Nat) (ds : Str), ds.length = n → (∀ c ∈ ds, digVal c < b) → Denotes b ds (baseVal b ds) := by
  intro n
  induction n with
  | zero =>
    intro ds h _
    rw [List.length_eq_zero_iff] at h
    subst h
    exact .nil
  | succ n ih =>
    intro ds h hd
    obtain ⟨u, c, rfl⟩ : ∃ u c, ds = u ++ [c] := by
      have : ds ≠ [] := by rintro rfl; simp at h
      exact ⟨ds.dropLast, ds.getLast this, (List.dropLast_concat_getLast this).symm⟩
    have hc := hd c (by simp)
    have := Denotes.snoc (c := c) (d := digVal c) (ih u (by simpa using h) (fun c hc => hd c (by simp [hc])))
      ((digit_iff _ _).2 ⟨rfl, by omega⟩) hc
    simpa [baseVal, List.foldl_append] using this

/-- The prefix of a base. -/
def Pref (b : Nat) (p : Str) : Prop :=
  p = [] ∨ b = 16 ∧ (p = ['0', 'x'] ∨ p = ['0', 'X']) ∨ b = 2 ∧ (p = ['0', 'b'] ∨ p = ['0', 'B']) ∨
    b = 8 ∧ (p = ['0', 'o'] ∨ p = ['0', 'O'])

theorem dropPrefix_spec (b : Nat) (s : Str) : ∃ p, Pref b p ∧ s = p ++ dropPrefix b s := by
  unfold dropPrefix
  split
  · rename_i c t
    split
    · rename_i h
      refine ⟨['0', c], ?_, rfl⟩
      rcases h with ⟨h, rfl | rfl⟩ | ⟨h, rfl | rfl⟩ | ⟨h, rfl | rfl⟩ <;> simp [Pref, h]
    · exact ⟨[], .inl rfl, rfl⟩
  · exact ⟨[], .inl rfl, rfl⟩

theorem dropPrefix_pref {b : Nat} (hb : b ≤ 16) {p ds : Str} (hp : Pref b p) (hd : ∀ c ∈ ds, digVal c < b) : dropPrefix b (p ++ ds) = ds := by
  rcases hp with rfl | ⟨rfl, rfl | rfl⟩ | ⟨rfl, rfl | rfl⟩ | ⟨rfl, rfl | rfl⟩
  · rw [List.nil_append]
    unfold dropPrefix
    split
    · rename_i c t
      have hc := hd c (by simp)
      rw [if_neg]
      rintro (⟨rfl, rfl | rfl⟩ | ⟨rfl, rfl | rfl⟩ | ⟨rfl, rfl | rfl⟩) <;> exact absurd hc (by decide)
    · rfl
  all_goals simp [dropPrefix]

theorem pyNat_iff {b : Nat} (hb : b ≤ 16) (s : Str) (n : Nat) :
    pyNat b s = some n ↔ ∃ p ds, s = p ++ ds ∧ Pref b p ∧ ds ≠ [] ∧ Denotes b ds n := by
  unfold pyNat
  constructor
  · intro h
    simp only [] at h
    split at h
    · rename_i hd
      obtain ⟨p, hp, hs⟩ := dropPrefix_spec b s
      refine ⟨p, _, hs, hp, hd.1, ?_⟩
      cases h
      exact denotes_of hb _ _ rfl (fun c hc => by simpa using List.all_eq_true.1 hd.2 c hc)
    · cases h
  · rintro ⟨p, ds, rfl, hp, h0, hd⟩
    obtain ⟨h1, h2⟩ := denotes_iff hd
    simp only [dropPrefix_pref hb hp h2]
    rw [if_pos ⟨h0, List.all_eq_true.2 (fun c hc => by simpa using h2 c hc)⟩, h1]

theorem getLast?_append_ne {a b : Str} (h : b ≠ []) : (a ++ b).getLast? = b.getLast? := by
  rw [List.getLast?_append]
  cases hb : b.getLast? with
  | none => rw [List.getLast?_eq_none_iff] at hb; exact absurd hb h
  | some c => rfl

theorem strip_between {a m t : Str} (ha : ∀ c ∈ a, isSpace c = true) (ht : ∀ c ∈ t, isSpace c = true) (h0 : m ≠ [])
    (h1 : ∀ c, m.head? = some c → isSpace c = false) (h2 : ∀ c, m.getLast? = some c → isSpace c = false) : strip (a ++ m ++ t) = m := by
  have hdrop : ∀ (a m : Str), (∀ c ∈ a, isSpace c = true) → m ≠ [] → (∀ c, m.head? = some c → isSpace c = false) →
      (a ++ m).dropWhile isSpace = m := by
    intro a m ha h0 h1
    rw [List.dropWhile_append_of_pos ha]
    cases m with
    | nil => exact absurd rfl h0
    | cons c m => rw [List.dropWhile_cons_of_neg (by simp [h1 c rfl])]
  have hl : lstrip (a ++ m ++ t) = m ++ t := by
    unfold lstrip
    rw [List.append_assoc]
    refine hdrop a (m ++ t) ha (by simp [h0]) fun c hc => h1 c ?_
    cases m with
    | nil => exact absurd rfl h0
    | cons d m => simpa using hc
  unfold strip
  rw [hl]
  unfold rstrip
  rw [List.reverse_append, hdrop _ _ (fun c hc => ht c (List.mem_reverse.1 hc)) (by simpa using h0) (fun c hc => h2 c (by simpa using hc)),
    List.reverse_reverse]

theorem pyInt_iff {b : Nat} (hb : b ≤ 16) (s : Str) (v : Int) : pyInt b s = some v ↔ Written b s v := by
  constructor
  · intro h
    obtain ⟨a, t, h1, h2, h3, -, -⟩ := stripBy_stripped isSpace s
    change s = a ++ strip s ++ t at h1
    have key : ∀ (g u : Str) (n : Nat), strip s = g ++ u → pyNat b u = some n → Signed g n v → Written b s v := by
      intro g u n hg hu hv
      obtain ⟨p, ds, rfl, hp, h0, hd⟩ := (pyNat_iff hb u n).1 hu
      rw [h1, hg]
      exact .mk h2 h3 hv hp h0 hd
    unfold pyInt at h
    split at h
    · rename_i u hu
      obtain ⟨n, h4, h5⟩ := Option.map_eq_some_iff.1 h
      exact key ['-'] u n hu h4 (h5 ▸ .minus)
    · rename_i u hu
      obtain ⟨n, h4, h5⟩ := Option.map_eq_some_iff.1 h
      exact key ['+'] u n hu h4 (h5 ▸ .plus)
    · rename_i u _ _
      obtain ⟨n, h4, h5⟩ := Option.map_eq_some_iff.1 h
      exact key [] _ n rfl h4 (h5 ▸ .none)
  · intro h
    cases h with
    | @mk a g p ds n _ t ha ht hg hp h0 hd =>
      have h2 := (denotes_iff hd).2
      have hn : pyNat b (p ++ ds) = some n := (pyNat_iff hb _ _).2 ⟨p, ds, rfl, hp, h0, hd⟩
      have hz : isSpace '0' = false := by decide
      have hhead : ∀ c, (p ++ ds).head? = some c → isSpace c = false ∧ c ≠ '-' ∧ c ≠ '+' := by
        intro c hc
        have hdig : ∀ c, ds.head? = some c → isSpace c = false ∧ c ≠ '-' ∧ c ≠ '+' := by
          intro c hc
          have hd := h2 c (List.mem_of_mem_head? hc)
          refine ⟨dig_not_space hb hd, ?_, ?_⟩ <;> (rintro rfl; have := dig_range hb hd; revert this; decide)
        rcases hp with rfl | ⟨-, rfl | rfl⟩ | ⟨-, rfl | rfl⟩ | ⟨-, rfl | rfl⟩
        · exact hdig c (by simpa using hc)
        all_goals
          simp at hc
          subst hc
          decide
      have hlast : ∀ c, (p ++ ds).getLast? = some c → isSpace c = false := by
        intro c hc
        rw [getLast?_append_ne h0] at hc
        exact dig_not_space hb (h2 c (List.mem_of_getLast? hc))
      have hne : p ++ ds ≠ [] := by simp [h0]
      have hstrip : strip (a ++ (g ++ (p ++ ds)) ++ t) = g ++ (p ++ ds) := by
        refine strip_between ha ht (by simp [h0]) ?_ ?_
        · intro c hc
          cases hg with
          | none => exact (hhead c hc).1
          | plus => simp at hc; subst hc; decide
          | minus => simp at hc; subst hc; decide
        · intro c hc
          rw [getLast?_append_ne hne] at hc
          exact hlast c hc
      unfold pyInt
      rw [hstrip]
      cases hg with
      | plus => simp [hn]
      | minus => simp [hn]
      | none =>
        rw [List.nil_append]
        cases hc : p ++ ds with
        | nil => exact absurd hc hne
        | cons c u =>
          rw [hc] at hn hhead
          have := hhead c rfl
          split
          · rename_i h; cases h; exact absurd rfl this.2.1
          · rename_i h; cases h; exact absurd rfl this.2.2
          · simp [hn]

/-- **C75**. `$atoi` of a text that denotes a number in the base 2, 8, 10 or 16. -/
theorem C75_atoi (hs : Standard e x (lit "atoi")) (hu : Unbound (lit "atoi") s) {a b : Node} {t : Str} {n : Nat} {v : Int}
    (ha : Args e args s [a, b] s') (ht : a.text? = some t) (hb : b.whole? = some n) (hn : n = 2 ∨ n = 8 ∨ n = 10 ∨ n = 16)
    (hc : ∀ c ∈ t, c.toNat < 128 ∧ c ≠ '_') (hv : Written n t v) :
    Evaluates e (fnCall (lit "atoi") l loc args) s (.int v) s' := by
  have h1 : (t.all fun c => c.toNat < 128 && c != '_') = true := by
    rw [List.all_eq_true]; intro c h; have := hc c h; simp [this.1, this.2]
  have h2 : ((n : Int) = 2 ∨ (n : Int) = 8 ∨ (n : Int) = 10 ∨ (n : Int) = 16) := by omega
  have h3 : pyInt n t = some v := (pyInt_iff (by omega) t v).2 hv
  refine ev_call (v := .int _) (seen := s'.seen) hs hu ha (by simp [areTerms, text_isTerm ht, whole_term hb]) ?_
  have : builtinCall x (lit "atoi") [a, b] s'.seen = bAtoi x [a, b] a n s'.seen := by
    simp [builtinCall, textCall, lit, hb]
  rw [this]
  unfold bAtoi
  rw [ht]
  simp only []
  rw [if_pos ⟨h2, h1⟩]
  simp [h3]

/-- **C75**. Of a text that does not, it is an error. -/
theorem C75_atoi_fails (hs : Standard e x (lit "atoi")) (hu : Unbound (lit "atoi") s) {a b : Node} {t : Str} {n : Nat}
    (ha : Args e args s [a, b] s') (ht : a.text? = some t) (hb : b.whole? = some n) (hn : n = 2 ∨ n = 8 ∨ n = 10 ∨ n = 16)
    (hc : ∀ c ∈ t, c.toNat < 128 ∧ c ≠ '_') (hv : ∀ v, ¬ Written n t v) : Raises e (fnCall (lit "atoi") l loc args) s := by
  have h1 : (t.all fun c => c.toNat < 128 && c != '_') = true := by
    rw [List.all_eq_true]; intro c h; have := hc c h; simp [this.1, this.2]
  have h2 : ((n : Int) = 2 ∨ (n : Int) = 8 ∨ (n : Int) = 10 ∨ (n : Int) = 16) := by omega
  have h3 : pyInt n t = none := by
    cases h : pyInt n t with
    | none => rfl
    | some v => exact absurd ((pyInt_iff (by omega) t v).1 h) (hv v)
  refine ev_call_err hs hu ha (by simp [areTerms, text_isTerm ht, whole_term hb]) ?_
  have : builtinCall x (lit "atoi") [a, b] s'.seen = bAtoi x [a, b] a n s'.seen := by
    simp [builtinCall, textCall, lit, hb]
  rw [this]
  unfold bAtoi
  rw [ht]
  simp only []
  rw [if_pos ⟨h2, h1⟩]
  simp [h3]

/-- **C75**. Without a base it is 10. -/
theorem C75_atoi_ten (hs : Standard e x (lit "atoi")) (hu : Unbound (lit "atoi") s) {a : Node} {t : Str} {v : Int}
    (ha : Args e args s [a] s') (ht : a.text? = some t) (hc : ∀ c ∈ t, c.toNat < 128 ∧ c ≠ '_') (hv : Written 10 t v) :
    Evaluates e (fnCall (lit "atoi") l loc args) s (.int v) s' := by
  have h1 : (t.all fun c => c.toNat < 128 && c != '_') = true := by
    rw [List.all_eq_true]; intro c h; have := hc c h; simp [this.1, this.2]
  have h3 : pyInt 10 t = some v := (pyInt_iff (by omega) t v).2 hv
  refine ev_call (v := .int _) (seen := s'.seen) hs hu ha (by simp [areTerms, text_isTerm ht]) ?_
  have : builtinCall x (lit "atoi") [a] s'.seen = bAtoi x [a] a 10 s'.seen := by
    simp [builtinCall, textCall, lit]
  rw [this]
  unfold bAtoi
  rw [ht]
  simp only []
  rw [if_pos ⟨by decide, h1⟩]
  simp [h3]

theorem digits_denote {b : Nat} (hb2 : 2 ≤ b) (hb : b ≤ 16) (n : Nat) : Denotes b (digitsStr b n) n ∧ digitsStr b n ≠ [] := by
  have hdig : ∀ d : Nat, d < b → Digit d.digitChar d := by
    intro d hd
    rw [digit_iff]
    have : ∀ d : Fin 16, digVal d.val.digitChar = d.val := by decide
    exact ⟨this ⟨d, by omega⟩, by omega⟩
  induction n using digitsStr.induct (b := b) with
  | case1 n h =>
    unfold digitsStr
    rw [if_pos h]
    have := Denotes.snoc (b := b) .nil (hdig n (by omega)) (by omega)
    exact ⟨by simpa using this, by simp⟩
  | case2 n h ih =>
    unfold digitsStr
    rw [if_neg h]
    have hm : n % b < b := Nat.mod_lt n (by omega)
    have := Denotes.snoc ih.1 (hdig _ hm) hm
    rw [Nat.mul_comm, Nat.div_add_mod] at this
    exact ⟨this, by simp⟩

theorem hex_written (n : Int) : Written 16 (hexStr n) n := by
  cases n with
  | ofNat n =>
    obtain ⟨h1, h2⟩ := digits_denote (b := 16) (by omega) (by omega) n
    have := Written.mk (b := 16) (s := []) (g := []) (p := ['0', 'x']) (t := []) (by simp) (by simp) .none (by simp) h2 h1
    simpa [hexStr] using this
  | negSucc n =>
    obtain ⟨h1, h2⟩ := digits_denote (b := 16) (by omega) (by omega) (n + 1)
    have := Written.mk (b := 16) (s := []) (g := ['-']) (p := ['0', 'x']) (t := []) (by simp) (by simp) .minus (by simp) h2 h1
    simpa [hexStr, Int.negSucc_eq] using this

/-- **C75**. `$hex` writes a number so that it can be read again. -/
theorem C75_hex (hs : Standard e x (lit "hex")) (hu : Unbound (lit "hex") s) {a : Node} {n : Int}
    (ha : Args e args s [a] s') (hn : a.whole? = some n) :
    ∃ t, Evaluates e (fnCall (lit "hex") l loc args) s (.pstr t) s' ∧ Written 16 t n ∧ (∀ c ∈ t, c.toNat < 128 ∧ c ≠ '_') := by
  refine ⟨hexStr n, ?_, hex_written n, ?_⟩
  · exact ev_call (v := .pstr _) (seen := s'.seen) hs hu ha (by simp [areTerms, whole_term hn]) (by simp [builtinCall, textCall, lit, hn])
  · have hd : ∀ n c, c ∈ digitsStr 16 n → c.toNat < 128 ∧ c ≠ '_' := by
      intro n c hc
      have := dig_range (b := 16) (by omega) ((denotes_iff (digits_denote (b := 16) (by omega) (by omega) n).1).2 c hc)
      refine ⟨by omega, ?_⟩
      rintro rfl
      revert this; decide
    intro c hc
    cases n with
    | ofNat n =>
      simp only [hexStr, List.mem_append, List.mem_cons, List.not_mem_nil, or_false] at hc
      rcases hc with (rfl | rfl) | hc
      · decide
      · decide
      · exact hd _ c hc
    | negSucc n =>
      simp only [hexStr, List.mem_append, List.mem_cons, List.not_mem_nil, or_false] at hc
      rcases hc with (rfl | rfl | rfl) | hc
      · decide
      · decide
      · decide
      · exact hd _ c hc

/-- **C75**. `$ord` undoes `$chr`. -/
theorem C75_chr_ord (hs : Standard e x (lit "chr")) (ho : Standard e x (lit "ord")) (hu : Unbound (lit "chr") s) (huo : Unbound (lit "ord") s)
    {a : Node} {n : Nat} (ha : Args e args s [a] s) (hn : a.whole? = some n) (hv : n.isValidChar) {loc' l' : Option Loc} :
    Evaluates e (fnCall (lit "chr") l' loc' args) s (.pstr [Char.ofNat n]) s ∧
    Evaluates e (fnCall (lit "ord") l loc [fnCall (lit "chr") l' loc' args]) s (.int n) s := by
  have h1 : Evaluates e (fnCall (lit "chr") l' loc' args) s (.pstr [Char.ofNat n]) s :=
    ev_call (v := .pstr _) (seen := s.seen) hs hu ha (by simp [areTerms, whole_term hn])
      (by simp [builtinCall, textCall, lit, hn, hv])
  refine ⟨h1, ?_⟩
  have h2 := ev_call (x := x) (l := l) (loc := loc) (v := .int ((Char.ofNat n).toNat : Int)) (seen := s.seen) ho huo
    (.one h1 (by simp) (by simp) (.nil s)) rfl
    (by simp [builtinCall, textCall, lit, bOrd, BExt.str, strOf])
  have h3 : (Char.ofNat n).toNat = n := by
    unfold Char.ofNat
    rw [dif_pos hv]
    rfl
  rw [h3] at h2
  exact h2

/-- **C75**. Of a quoted literal `$ord` is an error, whatever is between the quotes. -/
theorem C75_ord_of_a_literal (hs : Standard e x (lit "ord")) (hu : Unbound (lit "ord") s) {t : Src} {body : Str}
    (ha : Args e args s [.str t] s') (ht : t.txt = '"' :: body ++ ['"']) : Raises e (fnCall (lit "ord") l loc args) s := by
  refine ev_call_err hs hu ha rfl ?_
  cases body <;> simp [builtinCall, textCall, lit, bOrd, ht]

/-- **C75**. `$str` of a text is the text. -/
theorem C75_str (hs : Standard e x (lit "str")) (hu : Unbound (lit "str") s) {a : Node} {t : Str}
    (ha : Args e args s [a] s') (ht : a.text? = some t) : Evaluates e (fnCall (lit "str") l loc args) s (.pstr t) s' :=
  ev_call (v := .pstr t) (seen := s'.seen) hs hu ha (text_term ht) (by simp [builtinCall, textCall, lit, text_str ht])

/-- **C75**. `$strlen` is the length of what `$unq` gives of a literal, and of any other text its own length. -/
theorem C75_strlen (hs : Standard e x (lit "strlen")) (hq : Standard e x (lit "unq")) (hu : Unbound (lit "strlen") s)
    (huq : Unbound (lit "unq") s) {a : Node} {t : Str} (ha : Args e args s [a] s') (ht : a.text? = some t) :
    (∀ u, (∃ q, a = .str q) → Evaluates e (fnCall (lit "unq") l loc args) s (.pstr u) s' →
      Evaluates e (fnCall (lit "strlen") l loc args) s (.int u.length) s') ∧
    ((∀ q, a ≠ .str q) → Evaluates e (fnCall (lit "strlen") l loc args) s (.int t.length) s') := by
  refine ⟨?_, fun hne => ?_⟩
  · rintro u ⟨q, rfl⟩ h
    have h2 := ev_call (x := x) (l := l) (loc := loc) (v := .pstr (bUnq x (.str q))) (seen := s'.seen) hq huq ha rfl (by simp [builtinCall, lit])
    rw [evaluates_iff] at h h2
    rw [h] at h2
    injection h2 with h2
    injection h2 with h2 _
    injection h2 with h2
    subst h2
    exact ev_call (v := .int _) (seen := s'.seen) hs hu ha rfl (by simp [builtinCall, textCall, lit, bStrlen])
  · have : bStrlen x a = .int t.length := by
      cases a <;> first | exact absurd rfl (hne _) | (simp [Node.text?] at ht; done) | (simp [Node.text?] at ht; subst ht; simp [bStrlen, BExt.str, strOf])
    exact ev_call (v := .int _) (seen := s'.seen) hs hu ha (text_term ht) (by simp [builtinCall, textCall, lit, this])

/-! ## The hypotheses can be met -/

theorem two_values {a b : Node} (ha : Value a) (hb : Value b) (h1 : a ≠ .none) (h2 : b ≠ .none) (s : ESt) : Args e [a, b] s [a, b] s := by
  have hne : ∀ {v : Node}, Value v → ∀ c, v ≠ .embed c := by rintro v hv c rfl; cases hv
  exact .one (C24_values_are_fixed_points e ha s).1 h1 (hne ha) (.one (C24_values_are_fixed_points e hb s).1 h2 (hne hb) (.nil s))

/-- `($join ($split [a, b,, c] [, ]) [, ])` -/
example (pe : PEnv) (s : ESt) (h : s.env = []) :
    Evaluates (stdEnv x pe) (fnCall (lit "join") none none [fnCall (lit "split") none none [.pstr ['a', ',', 'b', ',', ',', 'c'], .pstr [',']],
      .pstr [',']]) s (.pstr ['a', ',', 'b', ',', ',', 'c']) s := by
  have hu : ∀ f, Unbound f s := fun f => by unfold Unbound; rw [h]; rfl
  exact C75_join_split (stdEnv_standard x pe _) (stdEnv_standard x pe _) (hu _) (hu _)
    (two_values (.pstr _) (.pstr _) (by simp) (by simp) s) rfl rfl (by simp) (C24_values_are_fixed_points _ (.pstr _) s).1

example : Pieces [','] ['a', ',', 'b', ',', ',', 'c'] [['a'], ['b'], [], ['c']] := by
  have := splitStr_pieces (sep := [',']) (by simp) ['a', ',', 'b', ',', ',', 'c']
  have h : splitStr [','] ['a', ',', 'b', ',', ',', 'c'] = [['a'], ['b'], [], ['c']] := by decide
  rwa [h] at this

example : Words [' ', 'a', 'b', '\t', ' ', 'c'] [['a', 'b'], ['c']] := by
  have := wordsStr_words [' ', 'a', 'b', '\t', ' ', 'c']
  have h : wordsStr [' ', 'a', 'b', '\t', ' ', 'c'] = [['a', 'b'], ['c']] := by decide
  rwa [h] at this

/-- `($atoi,,1010 2)` -/
example (pe : PEnv) (s : ESt) (h : s.env = []) :
    Evaluates (stdEnv x pe) (fnCall (lit "atoi") none none [.pstr ['1', '0', '1', '0'], .int 2]) s (.int 10) s := by
  have hu : ∀ f, Unbound f s := fun f => by unfold Unbound; rw [h]; rfl
  have hw : Written 2 ['1', '0', '1', '0'] 10 := (pyInt_iff (by omega) _ _).1 (by decide)
  exact C75_atoi (n := 2) (stdEnv_standard x pe _) (hu _) (two_values (.pstr _) (.int _) (by simp) (by simp) s) rfl rfl (by omega) (by decide) hw

/-- `($getslice [abcd] 1 -1)` -/
example : SliceEnd 4 0 (.int 1) 1 ∧ SliceEnd 4 4 (.int (-1)) 3 ∧ Between ['a', 'b', 'c', 'd'] 1 3 ['b', 'c'] :=
  ⟨.given rfl (.inside 1 (by omega)), .given rfl (.fromEnd 1 (by omega) (by omega)), by decide, by decide⟩

end Yupp
