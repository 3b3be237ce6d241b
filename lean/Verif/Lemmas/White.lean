import Verif.Spec.White
import Verif.Lemmas.Trim
import Verif.Lemmas.Reduce
import Verif.Props.Trim
/-!
# Texts up to white space
-/

namespace Yupp
open Spec

theorem ink_append (a b : Str) : ink (a ++ b) = ink a ++ ink b := by simp [ink]

theorem ink_white {s : Str} (h : ∀ c ∈ s, isSpace c = true) : ink s = [] := by
  rw [ink, List.filter_eq_nil_iff]
  intro a ha; simp [h a ha]

theorem ink_flatten (ls : List Str) : ink ls.flatten = (ls.map ink).flatten := by
  induction ls with
  | nil => rfl
  | cons l ls ih => simp [ink_append, ih]

theorem ink_join {sep : Str} (h : ∀ c ∈ sep, isSpace c = true) (ls : List Str) :
    ink (joinStr sep ls) = ink ls.flatten := by
  cases ls with
  | nil => rfl
  | cons l ls =>
    rw [joinStr_eq, ink_append, List.flatten_cons, ink_append, ink_flatten, ink_flatten, List.map_map]
    congr 2
    apply List.map_congr_left
    intro x _
    simp [ink_append, ink_white h]

theorem blank_space {c : Char} (h : isBlank c = true) : isSpace c = true := by
  simp [isBlank] at h
  rcases h with rfl | rfl <;> rfl

theorem break_space {c : Char} (h : isLineBreak c = true) : isSpace c = true := by
  unfold isLineBreak at h
  unfold isSpace
  simp only [Bool.or_eq_true, Bool.and_eq_true, decide_eq_true_eq, beq_iff_eq] at h ⊢
  omega

theorem ink_drop_prefix {p l : Str} (hp : ∀ c ∈ p, isSpace c = true) (h : p <+: l) : ink (l.drop p.length) = ink l := by
  obtain ⟨t, rfl⟩ := h
  rw [List.drop_left, ink_append, ink_white hp, List.nil_append]

theorem splitNL_flat (s : Str) : ink (splitNL s).flatten = ink s := by
  induction s with
  | nil => rfl
  | cons c t ih =>
    unfold splitNL
    split
    · next h =>
      have : c = '\n' := by simpa using h
      subst this
      rw [List.flatten_cons, List.nil_append, ih]
      rfl
    · split
      · next h =>
        rw [h] at ih
        rw [show c :: t = [c] ++ t from rfl, ink_append, ← ih]; simp [ink]
      · next l ls h =>
        rw [h] at ih
        rw [show c :: t = [c] ++ t from rfl, ink_append, ← ih]
        rw [List.flatten_cons, List.flatten_cons, ← ink_append]; rfl

theorem ink_map (f : Str → Str) (ls : List Str) (h : ∀ l ∈ ls, ink (f l) = ink l) :
    ink (ls.map f).flatten = ink ls.flatten := by
  rw [ink_flatten, ink_flatten, List.map_map]
  congr 1
  exact List.map_congr_left h

theorem ink_dedent (s : Str) : ink (dedent s) = ink s := by
  obtain ⟨m, h1, h2, h3⟩ := dedent_spec_aux s
  rw [h3, ink_join (by simp; rfl), ← splitNL_flat s]
  refine ink_map _ _ (fun l hl => ?_)
  by_cases hb : l.all isBlank = true
  · rw [if_pos hb]
    have : ink l = [] := ink_white (fun c hc => blank_space (List.all_eq_true.mp hb c hc))
    rw [this]; rfl
  · rw [if_neg hb]
    have hb' : l.all isBlank = false := by simpa using hb
    have hm := h1 ⟨l, hl, hb'⟩
    exact ink_drop_prefix (fun c hc => blank_space (hm.1.1 c hc)) (hm.1.2 l hl hb')

theorem ink_trim (cfg : Config) {indent : Str} (hi : ∀ c ∈ indent, isSpace c = true) (s : Str) :
    ink (trim cfg indent s) = ink s := by
  unfold trim
  split
  · rfl
  · rw [ink_join hi, splitKeep_flatten, ink_dedent]

theorem ink_zipIdx (f : Str × Nat → Str) (ls : List Str) : ∀ k, (∀ l ∈ ls, ∀ i, ink (f (l, i)) = ink l) →
    ink ((ls.zipIdx k).map f).flatten = ink ls.flatten := by
  induction ls with
  | nil => intro _ _; rfl
  | cons l ls ih =>
    intro k h
    simp only [List.zipIdx_cons, List.map_cons, List.flatten_cons, ink_append]
    rw [h l (by simp) k, ih (k + 1) (fun m hm => h m (by simp [hm]))]

theorem ink_trimWithBrowse (cfg : Config) {indent : Str} (hi : ∀ c ∈ indent, isSpace c = true) (r : Res) :
    ink (trimWithBrowse cfg indent r).txt = ink r.txt := by
  cases hc : cfg.trimAppIndent with
  | false => simp [trimWithBrowse, hc]
  | true =>
    obtain ⟨p, h1, h2, h3⟩ := C10_trim_browse_text cfg hc indent r
    rw [h3]
    conv => rhs; rw [← splitKeep_flatten r.txt]
    refine ink_zipIdx _ _ _ (fun l hl i => ?_)
    simp only
    split
    · rfl
    · next hb =>
      rw [ink_append, ink_drop_prefix (fun c hc => blank_space (h1 c hc)) (h2 l hl (by simpa using hb))]
      split
      · rfl
      · rw [ink_white hi, List.nil_append]

theorem ink_rstrip (s : Str) : ink (rstrip s) = ink s := by
  obtain ⟨ws, h1, h2, _⟩ := rstrip_spec s
  conv => rhs; rw [h1]
  rw [ink_append, ink_white h2, List.append_nil]

theorem ink_dropSucc (p : Str → Bool) (ls : List Str) (h : ∀ l ∈ ls, p l = true → ink l = []) : ∀ b,
    ink (dropSucc p b ls).flatten = ink ls.flatten := by
  induction ls with
  | nil => intro _; rfl
  | cons l ls ih =>
    intro b
    simp only [dropSucc, List.flatten_append, List.flatten_cons, ink_append]
    rw [ih (fun m hm => h m (by simp [hm]))]
    congr 1
    split
    · next hb =>
      have : p l = true := by
        simp only [Bool.and_eq_true] at hb; exact hb.1
      rw [h l (by simp) this]; rfl
    · simp

theorem ink_line {l : Str} {b : Bool} (h : IsLine b l) : ink (l.takeWhile (fun c => !isLineBreak c)) = ink l := by
  obtain ⟨x, e, rfl, hx, he⟩ := h
  have hx' : ∀ c ∈ x, (!isLineBreak c) = true := by intro c hc; simp [hx c hc]
  have he' : e.takeWhile (fun c => !isLineBreak c) = [] ∧ ink e = [] := by
    cases b with
    | false => simp at he; rw [he.1]; exact ⟨rfl, rfl⟩
    | true =>
      simp only [if_true] at he
      rcases he with rfl | ⟨c, rfl, hc⟩
      · exact ⟨rfl, rfl⟩
      · exact ⟨by simp [hc], ink_white (by simp [break_space hc])⟩
  rw [List.takeWhile_append_of_pos hx', he'.1, List.append_nil, ink_append, he'.2, List.append_nil]

theorem linesOK_mem {ls : List Str} (h : LinesOK ls) : ∀ l ∈ ls, ∃ b, IsLine b l := by
  induction ls with
  | nil => simp
  | cons l ls ih =>
    intro m hm
    cases ls with
    | nil =>
      rw [List.mem_singleton.mp hm]
      rcases h with h | h
      · exact ⟨_, h⟩
      · exact ⟨_, h⟩
    | cons a r =>
      rcases List.mem_cons.mp hm with rfl | hm
      · exact ⟨_, h.1⟩
      · exact ih h.2 m hm

theorem ink_splitLines (s : Str) : ink (splitLines s).flatten = ink s := by
  unfold splitLines
  conv => rhs; rw [← splitKeep_flatten s]
  refine ink_map _ _ (fun l hl => ?_)
  obtain ⟨b, hb⟩ := linesOK_mem (splitKeep_ok s) l hl
  exact ink_line hb

theorem ink_reduce (cfg : Config) (s : Str) : ink (reduceEmptiness cfg s) = ink s := by
  unfold reduceEmptiness
  split
  · rfl
  · rw [ink_append, ink_join (by simp; rfl), ink_map _ _ (fun l _ => ink_rstrip l), reduceFilter_eq,
      ink_dropSucc whiteLine _ (fun l _ h => ink_white (fun c hc => List.all_eq_true.mp h c hc)), ink_splitLines]
    show ink s ++ [] = ink s
    simp

theorem ink_emptyLine {l : Str} (h : emptyLine l = true) : ink l = [] := by
  unfold emptyLine spaceSplit at h
  rw [← List.takeWhile_append_dropWhile (p := isBlank) (l := l), ink_append,
    ink_white (fun c hc => blank_space (takeWhile_all c hc))]
  have : l.dropWhile isBlank = ['\n'] := by simpa using h
  rw [this]; rfl

theorem ink_reduceText (ls : List Str) : ∀ b, ink (reduceText b ls) = ink ls.flatten := by
  induction ls with
  | nil => intro _; rfl
  | cons l ls ih =>
    intro b
    unfold reduceText
    rw [List.flatten_cons, ink_append]
    split
    · next h =>
      split
      · rw [ink_append, ih]
      · rw [ih, ink_emptyLine h, List.nil_append]
    · rw [ink_append, ih]

theorem ink_reduceRes (cfg : Config) (r : Res) : ink (r.reduceEmptiness cfg).txt = ink r.txt := by
  unfold Res.reduceEmptiness
  split
  · rfl
  · simp only [ink_reduceText, splitKeep_flatten]

end Yupp
