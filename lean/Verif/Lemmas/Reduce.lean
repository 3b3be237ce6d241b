import Verif.Lemmas.Lines
import Verif.Spec.Lines

namespace Yupp
open Spec

theorem filterGo {α} (p : α → Bool) (ls : List α) : ∀ b,
    ((ls.zip (b :: ls.map p)).filter (fun x => !(p x.1 && x.2))).map (·.1)
      = match ls with
        | [] => []
        | l :: r => (if p l && b then [] else [l]) ++
            ((r.zip (p l :: r.map p)).filter (fun x => !(p x.1 && x.2))).map (·.1) := by
  cases ls with
  | nil => intro b; rfl
  | cons l r =>
    intro b
    simp only [List.map_cons, List.zip_cons_cons, List.filter_cons]
    cases h : (p l && b) <;> simp

/-- `dropSuccessive` with the state made explicit. -/
def dropSucc {α} (p : α → Bool) : Bool → List α → List α
  | _, [] => []
  | b, l :: r => (if p l && b then [] else [l]) ++ dropSucc p (p l) r

theorem dropSucc_eq {α} (p : α → Bool) (ls : List α) : ∀ b,
    ((ls.zip (b :: ls.map p)).filter (fun x => !(p x.1 && x.2))).map (·.1) = dropSucc p b ls := by
  induction ls with
  | nil => intro b; rfl
  | cons l r ih => intro b; rw [filterGo]; simp only [dropSucc, ih]

theorem dropSuccessive_eq {α} (p : α → Bool) (ls : List α) : dropSuccessive p ls = dropSucc p false ls :=
  dropSucc_eq p ls false

theorem dropSucc_mem {α} {p : α → Bool} {ls : List α} : ∀ {b x}, x ∈ dropSucc p b ls → x ∈ ls := by
  induction ls with
  | nil => intro b x h; simp [dropSucc] at h
  | cons l r ih =>
    intro b x h
    simp only [dropSucc, List.mem_append] at h
    rcases h with h | h
    · split at h <;> simp at h; simp [h]
    · exact List.mem_cons_of_mem _ (ih h)

/-- neighbour condition with state -/
def NoTwoFrom {α} (p : α → Bool) : Bool → List α → Prop
  | _, [] => True
  | b, l :: r => (p l && b) = false ∧ NoTwoFrom p (p l) r

theorem noTwoFrom_dropSucc {α} (p : α → Bool) (ls : List α) : ∀ b, NoTwoFrom p b (dropSucc p b ls) := by
  induction ls with
  | nil => intro b; trivial
  | cons l r ih =>
    intro b
    simp only [dropSucc]
    cases hl : p l
    · simp only [Bool.false_and, Bool.false_eq_true, if_false, List.singleton_append, NoTwoFrom, hl]
      exact ⟨trivial, ih false⟩
    · cases b
      · simp only [Bool.true_and, Bool.false_eq_true, if_false, List.singleton_append, NoTwoFrom, hl]
        exact ⟨trivial, ih true⟩
      · simpa using ih true

theorem dropSucc_id {α} (p : α → Bool) (ls : List α) : ∀ b, NoTwoFrom p b ls → dropSucc p b ls = ls := by
  induction ls with
  | nil => intros; rfl
  | cons l r ih => intro b h; simp only [dropSucc, h.1, ih _ h.2]; simp

theorem noTwoFrom_map {α β} (p : α → Bool) (q : β → Bool) (f : α → β) (ls : List α)
    (h : ∀ a ∈ ls, q (f a) = p a) : ∀ b, NoTwoFrom p b ls → NoTwoFrom q b (ls.map f) := by
  induction ls with
  | nil => intros; trivial
  | cons l r ih =>
    intro b hh
    have hl := h l (by simp)
    refine ⟨by rw [hl]; exact hh.1, ?_⟩
    rw [hl]
    exact ih (fun a ha => h a (List.mem_cons_of_mem _ ha)) _ hh.2

theorem noTwo_of {α} (p : α → Bool) (ls : List α) : ∀ b, NoTwoFrom p b ls → NoTwo p ls := by
  induction ls with
  | nil => intro b _ i x y h; simp at h
  | cons l r ih =>
    intro b h i x y hx hy
    cases i with
    | zero =>
      simp at hx hy
      cases r with
      | nil => simp at hy
      | cons m r =>
        simp at hy; subst hx hy
        have := h.2.1
        intro hh; rw [hh.1, hh.2] at this; simp at this
    | succ i => exact ih _ h.2 i x y (by simpa using hx) (by simpa using hy)

theorem rstrip_spec (l : Str) : StripEnd l (rstrip l) := by
  refine ⟨(l.reverse.takeWhile isSpace).reverse, ?_, ?_, ?_⟩
  · unfold rstrip
    rw [← List.reverse_append, List.takeWhile_append_dropWhile, List.reverse_reverse]
  · intro c hc
    rw [List.mem_reverse] at hc
    generalize l.reverse = r at hc
    induction r with
    | nil => simp at hc
    | cons a t ih =>
      rw [List.takeWhile_cons] at hc
      cases ha : isSpace a
      · simp [ha] at hc
      · simp only [ha, if_true, List.mem_cons] at hc
        rcases hc with rfl | hc
        · exact ha
        · exact ih hc
  · intro c hc
    unfold rstrip at hc
    rw [List.getLast?_reverse] at hc
    generalize l.reverse = r at hc
    induction r with
    | nil => simp at hc
    | cons a t ih =>
      rw [List.dropWhile_cons] at hc
      cases ha : isSpace a
      · simp [ha] at hc; subst hc; exact ha
      · simp [ha] at hc; exact ih hc

theorem stripEnd_id {l l' : Str} (h : ∀ c, l.getLast? = some c → isSpace c = false) (h2 : StripEnd l l') : l' = l := by
  obtain ⟨ws, rfl, hw, _⟩ := h2
  cases hws : ws.getLast? with
  | none => simp [List.getLast?_eq_none_iff.mp hws]
  | some c =>
    have h1 := h c (by simp [List.getLast?_append, hws])
    rw [hw c (List.mem_of_getLast? hws)] at h1; cases h1

theorem rstrip_idem (l : Str) : rstrip (rstrip l) = rstrip l :=
  stripEnd_id (rstrip_spec l).choose_spec.2.2 (rstrip_spec (rstrip l))

theorem strip_empty (l : Str) : (strip l).isEmpty = whiteLine l := by
  unfold whiteLine strip
  have key : ∀ m : Str, (∀ c ∈ m, isSpace c = true) → rstrip m = [] := by
    intro m hm
    obtain ⟨ws, h1, _, h3⟩ := rstrip_spec m
    cases hl : (rstrip m).getLast? with
    | none => exact List.getLast?_eq_none_iff.mp hl
    | some c =>
      have := h3 c hl
      rw [hm c (by rw [h1]; exact List.mem_append_left _ (List.mem_of_getLast? hl))] at this; cases this
  cases ha : l.all isSpace
  · -- some non-space survives both strips
    rw [List.all_eq_false] at ha
    obtain ⟨c, hc, hcs⟩ := ha
    have h1 : c ∈ lstrip l := by
      unfold lstrip
      clear key
      induction l with
      | nil => simp at hc
      | cons a t ih =>
        rw [List.dropWhile_cons]
        cases hs : isSpace a
        · simpa using hc
        · rcases List.mem_cons.mp hc with rfl | hc
          · exact absurd hs hcs
          · simpa using ih hc
    obtain ⟨ws, h2, h3, _⟩ := rstrip_spec (lstrip l)
    have h4 : c ∈ rstrip (lstrip l) := by
      rw [h2] at h1
      rcases List.mem_append.mp h1 with h | h
      · exact h
      · exact absurd (h3 c h) hcs
    cases hr : rstrip (lstrip l) with
    | nil => rw [hr] at h4; simp at h4
    | cons _ _ => rfl
  · rw [List.all_eq_true] at ha
    rw [key (lstrip l) (fun c hc => ha c ((List.dropWhile_sublist _).subset hc))]; rfl

theorem whiteLine_rstrip (l : Str) : whiteLine (rstrip l) = whiteLine l := by
  obtain ⟨ws, h1, h2, h3⟩ := rstrip_spec l
  unfold whiteLine
  conv => rhs; rw [h1]
  rw [List.all_append, List.all_eq_true.mpr h2, Bool.and_true]

theorem white_rstrip_nil {l : Str} (h : whiteLine l = true) : rstrip l = [] := by
  obtain ⟨ws, h1, h2, h3⟩ := rstrip_spec l
  cases hl : (rstrip l).getLast? with
  | none => exact List.getLast?_eq_none_iff.mp hl
  | some c =>
    have h4 := h3 c hl
    rw [List.all_eq_true.mp h c (by rw [h1]; exact List.mem_append_left _ (List.mem_of_getLast? hl))] at h4
    cases h4

theorem reduceFilter_eq (ls : List Str) : ∀ b, reduceFilter b ls = dropSucc whiteLine b ls := by
  induction ls with
  | nil => intro b; rfl
  | cons l r ih =>
    intro b
    simp only [reduceFilter, dropSucc, strip_empty, ih]
    cases b <;> cases whiteLine l <;> rfl

/-- Lines without terminators hold no line break. -/
theorem splitLines_noBreak (s : Str) : ∀ l ∈ splitLines s, ∀ c ∈ l, isLineBreak c = false := by
  intro l hl c hc
  simp only [splitLines, List.mem_map] at hl
  obtain ⟨a, ha, rfl⟩ := hl
  clear ha
  induction a with
  | nil => simp at hc
  | cons x t ih =>
    rw [List.takeWhile_cons] at hc
    cases hx : isLineBreak x
    · simp [hx] at hc
      rcases hc with rfl | hc
      · exact hx
      · exact ih hc
    · simp [hx] at hc

theorem splitKeep_line (b : Str) (hb : ∀ c ∈ b, isLineBreak c = false) (t : Str) :
    splitKeep (b ++ '\n' :: t) = (b ++ ['\n']) :: splitKeep t := by
  induction b with
  | nil =>
    rw [List.nil_append]
    rw [splitKeep]
    · rfl
    · simp
  | cons a b ih =>
    have ha := hb a (by simp)
    have hne : a ≠ '\r' := by rintro rfl; exact absurd ha (by decide)
    rw [List.cons_append, splitKeep]
    · rw [if_neg (by simp [ha]), ih (fun c hc => hb c (List.mem_cons_of_mem _ hc))]; rfl
    · intro t' h; exact absurd h hne

theorem splitKeep_join (ls : List Str) (h : ∀ l ∈ ls, ∀ c ∈ l, isLineBreak c = false) (hne : ls ≠ []) :
    splitKeep (joinStr ['\n'] ls ++ ['\n']) = ls.map (· ++ ['\n']) := by
  induction ls with
  | nil => exact absurd rfl hne
  | cons l r ih =>
    cases r with
    | nil =>
      have := splitKeep_line l (h l (by simp)) []
      simpa [joinStr, splitKeep] using this
    | cons m r =>
      simp only [joinStr, List.append_assoc, List.nil_append, List.map_cons, List.cons_append]
      rw [splitKeep_line l (h l (by simp)), ih (fun l hl => h l (List.mem_cons_of_mem _ hl)) (by simp)]
      rfl

theorem takeWhile_noBreak (l : Str) (h : ∀ c ∈ l, isLineBreak c = false) :
    (l ++ ['\n']).takeWhile (fun c => !isLineBreak c) = l := by
  induction l with
  | nil => rfl
  | cons a t ih =>
    rw [List.cons_append, List.takeWhile_cons, h a (by simp)]
    simp [ih (fun c hc => h c (List.mem_cons_of_mem _ hc))]

theorem splitLines_join (ls : List Str) (h : ∀ l ∈ ls, ∀ c ∈ l, isLineBreak c = false) (hne : ls ≠ []) :
    splitLines (joinStr ['\n'] ls ++ ['\n']) = ls := by
  unfold splitLines
  rw [splitKeep_join ls h hne, List.map_map]
  conv => rhs; rw [← List.map_id ls]
  apply List.map_congr_left
  intro l hl
  exact takeWhile_noBreak l (h l hl)

theorem rstrip_sub (l : Str) : ∀ c ∈ rstrip l, c ∈ l := by
  obtain ⟨ws, h1, _, _⟩ := rstrip_spec l
  intro c hc; rw [h1]; exact List.mem_append_left _ hc

end Yupp
