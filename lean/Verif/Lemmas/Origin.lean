import Verif.Lemmas.Sound
import Verif.Lemmas.Keep
import Verif.Lemmas.Parsed
import Verif.Lemmas.Provenance
import Verif.Props.Offset
import Verif.Props.White
/-!
# The origin of every character

Every rendering is made while the tables are in order, of fragments that are found where they say they are.
-/

namespace Yupp
open Spec

/-! ## References -/

theorem le_getElem {w w' : World} (h : w.Le w') {m : Nat} {x} (hm : w.inclusion[m]? = some x) : w'.inclusion[m]? = some x := by
  obtain ⟨q, hq⟩ := h.incl
  rw [hq, List.getElem?_append_left (List.getElem?_eq_some_iff.mp hm).1]
  exact hm

theorem le_mem {w w' : World} (h : w.Le w') {x} (hm : x ∈ w.source) : x ∈ w'.source := by
  obtain ⟨q, hq⟩ := h.source
  rw [hq]; exact List.mem_append_right _ hm

theorem Spec.Refs.le {w w' : World} {l rs} (h : Refs w l rs) (hw : w.Le w') : Refs w' l rs := by
  induction h with
  | file h1 h2 => exact .file (le_mem hw h1) h2
  | both h1 h2 h3 _ _ i1 i2 => exact .both (le_mem hw h1) h2 (le_getElem hw h3) i1 i2
  | declared h1 h2 h3 _ i => exact .declared (le_mem hw h1) h2 (le_getElem hw h3) i

/-- What the rounds of `RESULT.loc` are bounded by. -/
def rank (f : Str) : Nat := if isDigits f then digitsVal f + 1 else 0

theorem loc_refs {w : World} (h : Sound w) : ∀ n (l : Loc), Registered w l.file → rank l.file < n →
    Refs w l ((w.loc n l).map (·.2)) := by
  intro n
  induction n with
  | zero => intro l _ hr; omega
  | succ n ih =>
    intro l hl hr
    obtain ⟨d0, t0, hm0⟩ := hl
    obtain ⟨⟨d, t⟩, hf⟩ := Option.isSome_iff_exists.mp (mem_find hm0)
    have hm := find_mem hf
    unfold World.loc
    rw [hf]
    dsimp only
    by_cases hd : isDigits l.file = true
    · rw [if_pos hd]
      obtain ⟨m, hk, hlt, dl, rfl, hdl⟩ := h.text _ _ _ hm hd
      have hv : digitsVal l.file = m := by rw [hk, digitsVal_natStr]
      have hrm : m + 1 ≤ n := by
        have : rank l.file = m + 1 := by unfold rank; rw [if_pos hd, hv]
        omega
      have old : ∀ l', Older w m l'.file → Refs w l' ((w.loc n l').map (·.2)) := by
        intro l' ho
        refine ih l' ho.1 ?_
        unfold rank
        split
        · next hd' => have := ho.2 hd'; omega
        · omega
      have hin : ∃ c, w.inclusion[m]? = some c := ⟨_, List.getElem?_eq_getElem hlt⟩
      obtain ⟨c, hc⟩ := hin
      rw [hv, hc]
      cases c with
      | none => exact .declared hm hd (by rw [hv]; exact hc) (old _ hdl)
      | some c =>
        have hcall := old c (h.call m c hc)
        dsimp only
        rw [List.map_append]
        exact .both hm hd (by rw [hv]; exact hc) hcall (old _ hdl)
    · rw [if_neg hd]
      have hd : isDigits l.file = false := by simpa using hd
      have := Refs.file (w := w) hm hd
      cases d with
      | path p => cases p <;> exact this
      | «at» dl => exact this

/-- More rounds give the same. -/
theorem loc_more {w : World} (h : Sound w) : ∀ n m (l : Loc), Registered w l.file → rank l.file < n → n ≤ m →
    w.loc m l = w.loc n l := by
  intro n
  induction n with
  | zero => intro m l _ hr; omega
  | succ n ih =>
    intro m l hl hr hnm
    obtain ⟨m, rfl⟩ : ∃ k, m = k + 1 := ⟨m - 1, by omega⟩
    obtain ⟨d0, t0, hm0⟩ := hl
    obtain ⟨⟨d, t⟩, hf⟩ := Option.isSome_iff_exists.mp (mem_find hm0)
    have hm := find_mem hf
    unfold World.loc
    rw [hf]
    dsimp only
    by_cases hd : isDigits l.file = true
    · rw [if_pos hd, if_pos hd]
      obtain ⟨j, hk, hlt, dl, rfl, hdl⟩ := h.text _ _ _ hm hd
      have hv : digitsVal l.file = j := by rw [hk, digitsVal_natStr]
      have hrm : j + 1 ≤ n := by
        have : rank l.file = j + 1 := by unfold rank; rw [if_pos hd, hv]
        omega
      have old : ∀ l' : Loc, Older w j l'.file → w.loc m l' = w.loc n l' := by
        intro l' ho
        refine ih m l' ho.1 ?_ (by omega)
        unfold rank
        split
        · next hd' => have := ho.2 hd'; omega
        · omega
      have hcall : (match w.inclusion[digitsVal l.file]? with
          | some (some c) => w.loc m c
          | _ => []) = match w.inclusion[digitsVal l.file]? with
          | some (some c) => w.loc n c
          | _ => [] := by
        rw [hv]
        cases hc : w.inclusion[j]? with
        | none => rfl
        | some c =>
          cases c with
          | none => rfl
          | some c => exact old c (h.call j c hc)
      have := old { dl with pos := -dl.pos } hdl
      dsimp only
      rw [this]
      exact congrArg (· ++ _) hcall
    · rw [if_neg hd, if_neg hd]

/-- Enough rounds for every text that is there. -/
theorem rank_lt {w : World} (h : Sound w) {f : Str} (hf : Registered w f) : rank f < w.inclusion.length + 1 := by
  have := h.older hf
  unfold rank
  split
  · next hd => have := this.2 hd; omega
  · omega

/-! ## Fragments -/

/-- The characters of a fragment stand in the text of its file, from its position on. -/
def Copied (w : World) (s : Src) : Prop := ∀ l, s.loc = some l → ∃ d txt, ∃ k : Nat, (l.file, d, txt) ∈ w.source ∧
  l.pos = k ∧ ∀ i ch, s.txt[i]? = some ch → txt[k + i]? = some ch

theorem Copied.le {w w' : World} {s : Src} (h : Copied w s) (hw : w.Le w') : Copied w' s := by
  intro l hl
  obtain ⟨d, txt, k, h1, h2⟩ := h l hl
  exact ⟨d, txt, k, le_mem hw h1, h2⟩

theorem Src.Found.copied {w : World} {s : Src} (h : s.Found w.source) : Copied w s := by
  intro l hl
  obtain ⟨d, txt, h1, k, h2, h3, h4⟩ := h.1 l hl
  refine ⟨d, txt, k, h1, h2, fun i ch hi => ?_⟩
  rw [h4] at hi
  obtain ⟨hlt, _⟩ := List.getElem?_eq_some_iff.mp hi
  rw [List.length_take] at hlt
  rw [List.getElem?_take, if_pos (by omega), List.getElem?_drop] at hi
  exact hi

theorem Copied.drop {w : World} {s : Src} (h : Copied w s) (n : Nat) : Copied w (s.drop n) := by
  intro l hl
  simp only [Src.drop] at hl ⊢
  cases hs : s.loc with
  | none => rw [hs] at hl; cases hl
  | some l0 =>
    rw [hs] at hl
    cases hl
    obtain ⟨d, txt, k, h1, h2, h3⟩ := h l0 hs
    refine ⟨d, txt, k + n, h1, by simp [h2], fun i ch hi => ?_⟩
    rw [List.getElem?_drop] at hi
    rw [Nat.add_assoc]
    exact h3 _ _ hi

theorem Copied.take {w : World} {s : Src} (h : Copied w s) (n : Nat) : Copied w (s.take n) := by
  intro l hl
  simp only [Src.take] at hl ⊢
  obtain ⟨d, txt, k, h1, h2, h3⟩ := h l hl
  refine ⟨d, txt, k, h1, h2, fun i ch hi => h3 i ch ?_⟩
  rw [List.getElem?_take] at hi
  split at hi
  · exact hi
  · cases hi

/-! ## Cells -/

/-- The origins of the cells are right. -/
def RightCells (w : World) (cs : List Cell) : Prop := ∀ c ∈ cs, ∀ o, c.org = some o → Right w o c.ch

theorem Spec.Right.le {w w' : World} {o ch} (h : Right w o ch) (hw : w.Le w') : Right w' o ch := by
  obtain ⟨name, k, d, txt, h1, h2, h3⟩ := h
  exact ⟨name, k, d, txt, le_mem hw h1, h2, h3.le hw⟩

theorem Spec.Made.le {cfg repr w w' r cs} (h : Made cfg repr w r cs) (hw : w.Le w') : Made cfg repr w' r cs := by
  induction h with
  | tree w0 n σ h0 _ ih => exact .tree w0 n σ (h0.trans hw) ih
  | reduce r cs _ ih => exact .reduce r cs ih
  | steady r cs _ ih => exact .steady r cs ih

theorem rightCells_sub {w : World} {cs cs' : List Cell} (h : RightCells w cs) (hs : ∀ c ∈ cs', c ∈ cs ∨ c.org = none) :
    RightCells w cs' := by
  intro c hc o ho
  rcases hs c hc with h' | h'
  · exact h c h' o ho
  · rw [h'] at ho; cases ho

theorem blank_org {s : Str} : ∀ c ∈ blankCells s, c.org = none := by
  intro c hc
  obtain ⟨x, _, rfl⟩ := List.mem_map.mp hc
  rfl

theorem trimCellLines_sub (k : Nat) (indent : Str) : ∀ (ls : List (List Cell)) first, ∀ c ∈ trimCellLines k indent first ls,
    c ∈ ls.flatten ∨ c.org = none
  | [], _, c, hc => by cases hc
  | l :: ls, first, c, hc => by
    simp only [trimCellLines, List.mem_append] at hc
    rw [List.flatten_cons, List.mem_append]
    rcases hc with hc | hc
    · split at hc
      · exact .inl (.inl hc)
      · rcases List.mem_append.mp hc with hc | hc
        · split at hc
          · cases hc
          · exact .inr (blank_org _ hc)
        · exact .inl (.inl (List.mem_of_mem_drop hc))
    · rcases trimCellLines_sub k indent ls false c hc with h | h
      · exact .inl (.inr h)
      · exact .inr h

theorem trimCells_sub (cfg : Config) (indent : Str) (cs : List Cell) : ∀ c ∈ trimCells cfg indent cs, c ∈ cs ∨ c.org = none := by
  intro c hc
  unfold trimCells at hc
  split at hc
  · exact .inl hc
  · have := trimCellLines_sub _ _ _ _ c hc
    rwa [cellLines_flatten] at this

theorem dropRepeated_sub : ∀ (ls : List (List Cell)) prev, ∀ c ∈ dropRepeated prev ls, c ∈ ls.flatten
  | [], _, c, hc => by cases hc
  | l :: ls, prev, c, hc => by
    unfold dropRepeated at hc
    rw [List.flatten_cons, List.mem_append]
    split at hc
    · rcases List.mem_append.mp hc with hc | hc
      · split at hc
        · cases hc
        · exact .inl hc
      · exact .inr (dropRepeated_sub ls _ c hc)
    · rcases List.mem_append.mp hc with hc | hc
      · exact .inl hc
      · exact .inr (dropRepeated_sub ls _ c hc)

theorem reduceCells_sub (cfg : Config) (cs : List Cell) : ∀ c ∈ reduceCells cfg cs, c ∈ cs := by
  intro c hc
  unfold reduceCells at hc
  split at hc
  · have := dropRepeated_sub _ _ c hc
    rwa [cellLines_flatten] at this
  · exact hc

theorem right_src {w : World} (hw : Sound w) (repr : Node → Str) {s : Src} (h : Copied w s) :
    RightCells w (srcCells { repr := repr, locs := w.loc (w.inclusion.length + 1) } s) := by
  unfold srcCells
  split
  · intro c hc o ho; rw [blank_org c hc] at ho; cases ho
  · next l hl =>
    dsimp only
    split
    · intro c hc o ho; rw [blank_org c hc] at ho; cases ho
    · next en hen =>
      intro c hc o ho
      obtain ⟨i, hi⟩ := List.mem_iff_getElem?.mp hc
      have horg := fragCells_getElem _ _ _ _ _ _ hi
      rw [horg] at ho
      cases ho
      obtain ⟨d, txt, k, h1, h2, h3⟩ := h l hl
      have hr : Registered w l.file := ⟨_, _, h1⟩
      have hrefs := loc_refs hw _ l hr (rank_lt hw hr)
      obtain ⟨file, pos⟩ := l
      cases h2
      refine ⟨file, k, d, txt, h1, h3 i _ ?_, ?_⟩
      · have ht := text_fragCells en.2.1 en.2.2 s.txt ((w.loc (w.inclusion.length + 1) ⟨file, Int.ofNat k⟩).dropLast.map (·.2))
        rw [← ht]
        unfold text
        rw [List.getElem?_map, hi]
        rfl
      · obtain ⟨ys, hys⟩ := List.getLast?_eq_some_iff.mp hen
        dsimp only at hys ⊢
        rw [hys] at hrefs ⊢
        simpa using hrefs

mutual
theorem right_tree (cfg : Config) {w : World} (hw : Sound w) (repr : Node → Str) (σ : Res → List Cell) :
    (n : Node) → (∀ s, Leaf.src s ∈ n.leaves → Copied w s) → (∀ r ∈ results n, RightCells w (σ r)) →
    RightCells w (treeCells cfg { repr := repr, locs := w.loc (w.inclusion.length + 1) } σ n)
  | .none, _, _ => by intro c hc; cases hc
  | .result r, _, h => by simp only [treeCells]; exact h r (by simp [results])
  | .trim a i, hs, h => by
      simp only [treeCells]
      exact rightCells_sub (right_tree cfg hw repr σ a (fun s hm => hs s (by simp [Node.leaves, hm])) h) (trimCells_sub cfg i _)
  | .list xs, hs, h => by simp only [treeCells]; exact right_trees cfg hw repr σ xs hs h
  | .t xs i, hs, h => by
      simp only [treeCells]
      exact right_trees cfg hw repr σ xs (fun s hm => hs s (by simp [Node.leaves, hm])) h
  | .lazy a, hs, h => by simp only [treeCells]; exact right_tree cfg hw repr σ a hs h
  | .plain s i tr, hs, _ => by
      simp only [treeCells]
      refine right_src hw repr ?_
      have := hs s (by simp [Node.leaves])
      unfold getTrimmedWithBrowse
      split
      · exact this.drop _
      · exact this
  | .atom s, hs, _ => by simp only [treeCells]; exact right_src hw repr (hs s (by simp [Node.leaves]))
  | .remark s, hs, _ => by simp only [treeCells]; exact right_src hw repr (hs s (by simp [Node.leaves]))
  | .str s, hs, _ => by simp only [treeCells]; exact right_src hw repr (hs s (by simp [Node.leaves]))
  | .pstr _, _, _ => by simp only [treeCells]; exact fun c hc o ho => by rw [blank_org c hc] at ho; cases ho
  | .int _, _, _ => by simp only [treeCells]; exact fun c hc o ho => by rw [blank_org c hc] at ho; cases ho
  | .bool _, _, _ => by simp only [treeCells]; exact fun c hc o ho => by rw [blank_org c hc] at ho; cases ho
  | .float _, _, _ => by simp only [treeCells]; exact fun c hc o ho => by rw [blank_org c hc] at ho; cases ho
  | .text .., _, _ => by simp only [treeCells]; exact fun c hc o ho => by rw [blank_org c hc] at ho; cases ho
  | .var .., _, _ => by simp only [treeCells]; exact fun c hc o ho => by rw [blank_org c hc] at ho; cases ho
  | .apply .., _, _ => by simp only [treeCells]; exact fun c hc o ho => by rw [blank_org c hc] at ho; cases ho
  | .set .., _, _ => by simp only [treeCells]; exact fun c hc o ho => by rw [blank_org c hc] at ho; cases ho
  | .letn .., _, _ => by simp only [treeCells]; exact fun c hc o ho => by rw [blank_org c hc] at ho; cases ho
  | .macro .., _, _ => by simp only [treeCells]; exact fun c hc o ho => by rw [blank_org c hc] at ho; cases ho
  | .emit .., _, _ => by simp only [treeCells]; exact fun c hc o ho => by rw [blank_org c hc] at ho; cases ho
  | .lambda .., _, _ => by simp only [treeCells]; exact fun c hc o ho => by rw [blank_org c hc] at ho; cases ho
  | .lambdaVar .., _, _ => by simp only [treeCells]; exact fun c hc o ho => by rw [blank_org c hc] at ho; cases ho
  | .cond .., _, _ => by simp only [treeCells]; exact fun c hc o ho => by rw [blank_org c hc] at ho; cases ho
  | .infix .., _, _ => by simp only [treeCells]; exact fun c hc o ho => by rw [blank_org c hc] at ho; cases ho
  | .eval .., _, _ => by simp only [treeCells]; exact fun c hc o ho => by rw [blank_org c hc] at ho; cases ho
  | .embed .., _, _ => by simp only [treeCells]; exact fun c hc o ho => by rw [blank_org c hc] at ho; cases ho
  | .comment, _, _ => by simp only [treeCells]; exact fun c hc o ho => by rw [blank_org c hc] at ho; cases ho
  | .importBegin, _, _ => by simp only [treeCells]; exact fun c hc o ho => by rw [blank_org c hc] at ho; cases ho
  | .importEnd, _, _ => by simp only [treeCells]; exact fun c hc o ho => by rw [blank_org c hc] at ho; cases ho
  | .bound, _, _ => by simp only [treeCells]; exact fun c hc o ho => by rw [blank_org c hc] at ho; cases ho
  | .lclosure .., _, _ => by simp only [treeCells]; exact fun c hc o ho => by rw [blank_org c hc] at ho; cases ho
  | .mclosure .., _, _ => by simp only [treeCells]; exact fun c hc o ho => by rw [blank_org c hc] at ho; cases ho
  | .infixClosure .., _, _ => by simp only [treeCells]; exact fun c hc o ho => by rw [blank_org c hc] at ho; cases ho
  | .condClosure .., _, _ => by simp only [treeCells]; exact fun c hc o ho => by rw [blank_org c hc] at ho; cases ho
  | .setClosure .., _, _ => by simp only [treeCells]; exact fun c hc o ho => by rw [blank_org c hc] at ho; cases ho
  | .builtin .., _, _ => by simp only [treeCells]; exact fun c hc o ho => by rw [blank_org c hc] at ho; cases ho
  | .skip, _, _ => by simp only [treeCells]; exact fun c hc o ho => by rw [blank_org c hc] at ho; cases ho
  | .env .., _, _ => by simp only [treeCells]; exact fun c hc o ho => by rw [blank_org c hc] at ho; cases ho
  | .pyobj .., _, _ => by simp only [treeCells]; exact fun c hc o ho => by rw [blank_org c hc] at ho; cases ho
theorem right_trees (cfg : Config) {w : World} (hw : Sound w) (repr : Node → Str) (σ : Res → List Cell) :
    (ns : List Node) → (∀ s, Leaf.src s ∈ leavesL ns → Copied w s) → (∀ r ∈ resultss ns, RightCells w (σ r)) →
    RightCells w (treesCells cfg { repr := repr, locs := w.loc (w.inclusion.length + 1) } σ ns)
  | [], _, _ => by intro c hc; cases hc
  | n :: ns, hs, h => by
      simp only [treesCells]
      intro c hc
      rcases List.mem_append.mp hc with hc | hc
      · exact right_tree cfg hw repr σ n (fun s hm => hs s (by simp [leavesL, hm])) (fun r hr => h r (by simp [resultss, hr])) c hc
      · exact right_trees cfg hw repr σ ns (fun s hm => hs s (by simp [leavesL, hm])) (fun r hr => h r (by simp [resultss, hr])) c hc
end

mutual
/-- The generated texts in a tree are among its parts. -/
theorem results_leaves : ∀ (n : Node), ∀ r ∈ results n, Leaf.res r ∈ n.leaves
  | .result r, r', h => by simp only [results, List.mem_singleton] at h; subst h; simp [Node.leaves]
  | .trim a i, r, h => by
      simp only [results] at h
      simp only [Node.leaves, List.mem_cons]
      exact .inr (results_leaves a r h)
  | .list xs, r, h => by
      simp only [results] at h
      simp only [Node.leaves]
      exact resultss_leaves xs r h
  | .t xs i, r, h => by
      simp only [results] at h
      simp only [Node.leaves, List.mem_append]
      exact .inr (resultss_leaves xs r h)
  | .lazy a, r, h => by
      simp only [results] at h
      simp only [Node.leaves]
      exact results_leaves a r h
  | .none, _, h | .plain .., _, h | .atom _, _, h | .remark _, _, h | .str _, _, h | .pstr _, _, h | .int _, _, h
  | .bool _, _, h | .float _, _, h | .text .., _, h | .var .., _, h | .apply .., _, h | .set .., _, h | .letn .., _, h
  | .macro .., _, h | .emit .., _, h | .lambda .., _, h | .lambdaVar .., _, h | .cond .., _, h | .infix .., _, h
  | .eval .., _, h | .embed .., _, h | .comment, _, h | .importBegin, _, h | .importEnd, _, h | .bound, _, h
  | .lclosure .., _, h | .mclosure .., _, h | .infixClosure .., _, h | .condClosure .., _, h | .setClosure .., _, h
  | .builtin .., _, h | .skip, _, h | .env .., _, h | .pyobj .., _, h => by simp [results] at h
theorem resultss_leaves : ∀ (ns : List Node), ∀ r ∈ resultss ns, Leaf.res r ∈ leavesL ns
  | [], _, h => by cases h
  | n :: ns, r, h => by
      simp only [resultss, List.mem_append] at h
      simp only [leavesL, List.mem_append]
      exact h.imp (results_leaves n r) (resultss_leaves ns r)
end

/-! ## Through a translation -/

/-- A part is what it says it is. -/
def Placed (cfg : Config) (repr : Node → Str) (w : World) : Leaf → Prop
  | .src s => Copied w s
  | .ind _ => True
  | .res r => ∃ cs, Made cfg repr w r cs ∧ RightCells w cs
  | .at l => Registered w l.file
  | .lost => False

theorem placed_madeOf {cfg repr w given l} (h : MadeOf given l) (hg : ∀ l ∈ given, Placed cfg repr w l) : Placed cfg repr w l := by
  cases h with
  | old h => exact hg _ h
  | new t => intro l hl; cases hl
  | slice x k n hm =>
    exact Copied.take (Copied.drop (hg _ hm) k) n

theorem placed_le {cfg repr w w' l} (hw : World.Le w w') (h : Placed cfg repr w l) : Placed cfg repr w' l := by
  cases l with
  | src s => exact Copied.le h hw
  | ind i => trivial
  | res r =>
    obtain ⟨cs, h1, h2⟩ := h
    exact ⟨cs, h1.le hw, fun c hc o ho => (h2 c hc o ho).le hw⟩
  | «at» l => exact Registered.le h hw
  | lost => exact h

theorem placed_parse {e : EEnv} (hn : Names e.pe) {n a p xs t} (hs : Sound p.world) (h : (P e.pe n).parse a p = .ok (xs, t)) :
    Sound t.world ∧ World.Le p.world t.world ∧ ∀ l ∈ leavesL xs, Placed e.cfg e.repr t.world l := by
  obtain ⟨hg, hf⟩ := P_grow _ h
  refine ⟨((P_files hn.lib n).parse a p xs t hs h).1, hg.le, fun l hl => ?_⟩
  have := rawL_leaves ((P_parsed e.pe n).parse a _ _ _ h) l hl
  cases l with
  | src s =>
    rcases this with h | h
    · exact (hf s h).copied
    · intro l hl; rw [h] at hl; cases hl
  | ind i => trivial
  | res r => exact this.elim
  | «at» l =>
    obtain ⟨y, hy, l', hl', hfile⟩ := this
    obtain ⟨d, txt, h1, _⟩ := (hf y hy).1 l' hl'
    exact ⟨d, txt, by rw [← hfile]; exact h1⟩
  | lost =>
    obtain ⟨y, hy, h1, h2⟩ := this
    exact h2 ((hf y hy).2 h1)

theorem placed_render {cfg : Config} {repr : Node → Str} {w : World} {n : Node} (hw : Sound w)
    (h : ∀ l ∈ n.leaves, Placed cfg repr w l) :
    ∃ cs, Made cfg repr w (plainBrowse cfg { repr := repr, locs := w.loc (w.inclusion.length + 1) } n) cs ∧ RightCells w cs := by
  classical
  let σ : Res → List Cell := fun r => if h : ∃ cs, Made cfg repr w r cs ∧ RightCells w cs then h.choose else []
  have hσ : ∀ r ∈ results n, Made cfg repr w r (σ r) ∧ RightCells w (σ r) := by
    intro r hr
    have hex : ∃ cs, Made cfg repr w r cs ∧ RightCells w cs := h _ (results_leaves n r hr)
    have : σ r = hex.choose := dif_pos hex
    rw [this]
    exact hex.choose_spec
  exact ⟨_, .tree w n σ (World.Le.refl _) (fun r hr => (hσ r hr).1),
    right_tree cfg hw repr σ n (fun s hs => h _ hs) (fun r hr => (hσ r hr).2)⟩

theorem placed_keeps {e : EEnv} (hp : Honest e) (hn : Names e.pe) : Keeps e Sound (Placed e.cfg e.repr) where
  mono hw h := placed_le hw h
  free _ _ := by intro l hl; cases hl
  place w s l h hl := by
    obtain ⟨d, txt, k, h1, _⟩ := h l hl
    exact ⟨d, txt, h1⟩
  indNil _ := trivial
  indApp _ _ _ _ _ := trivial
  fin s ys indent hw h := placed_render hw (by
    intro l hl
    simp only [Node.leaves, List.mem_append] at hl
    rcases hl with hl | hl
    · cases indent with
      | str i => cases List.mem_singleton.mp hl; trivial
      | _ => cases hl
    · exact h l hl)
  parse n a p xs t hs h := placed_parse hn hs h
  reg w decl call text hw hd hn hc := hw.number _ _ _ (by
    cases decl with
    | none => exact (hn rfl).elim
    | some l => exact ⟨l, rfl, hd l rfl⟩) hc
  const sc a v h w l hl := placed_madeOf (hp.const _ _ _ h l hl) (by intro l hl; cases hl)
  call sc a args seen v seen' h w hw l hl := placed_madeOf (hp.call _ _ _ _ _ _ h l hl) hw
  pyEval sc code f v h w hw l hl := placed_madeOf (hp.pyEval _ _ _ _ h l hl) hw
  reduce sc f xs v h w hw l hl := placed_madeOf (hp.reduce _ _ _ _ h l hl) hw

/-- A part lies in a text that is there. -/
def InText (w : World) : Leaf → Prop
  | .src s => ∀ l, s.loc = some l → Registered w l.file
  | .at l => Registered w l.file
  | .lost => False
  | _ => True

theorem inText_madeOf {w given l} (h : MadeOf given l) (hg : ∀ l ∈ given, InText w l) : InText w l := by
  cases h with
  | old h => exact hg _ h
  | new t => intro l hl; cases hl
  | slice x k n hm =>
    intro l hl
    simp only [Src.take, Src.drop] at hl
    cases hx : x.loc with
    | none => rw [hx] at hl; cases hl
    | some l0 => rw [hx] at hl; cases hl; exact hg _ hm l0 hx

theorem inText_of_placed {cfg repr w l} (h : Placed cfg repr w l) : InText w l := by
  cases l with
  | src s =>
    intro l hl
    obtain ⟨d, txt, k, h1, _⟩ := h l hl
    exact ⟨d, txt, h1⟩
  | «at» l => exact h
  | ind i => trivial
  | res r => trivial
  | lost => exact h

theorem inText_keeps {e : EEnv} (hp : Honest e) (hn : Names e.pe) : Keeps e Sound InText where
  mono {w w' l} hw h := by
    cases l with
    | src s => exact fun l hl => Registered.le (h l hl) hw
    | «at» l => exact Registered.le h hw
    | ind i => trivial
    | res r => trivial
    | lost => exact h
  free _ _ := by intro l hl; cases hl
  place w s l h hl := h l hl
  indNil _ := trivial
  indApp _ _ _ _ _ := trivial
  fin s ys indent hw h := trivial
  parse n a p xs t hs h := by
    obtain ⟨h1, h2, h3⟩ := placed_parse hn hs h
    exact ⟨h1, h2, fun l hl => inText_of_placed (h3 l hl)⟩
  reg w decl call text hw hd hn hc := hw.number _ _ _ (by
    cases decl with
    | none => exact (hn rfl).elim
    | some l => exact ⟨l, rfl, hd l rfl⟩) hc
  const sc a v h w l hl := inText_madeOf (hp.const _ _ _ h l hl) (by intro l hl; cases hl)
  call sc a args seen v seen' h w hw l hl := inText_madeOf (hp.call _ _ _ _ _ _ h l hl) hw
  pyEval sc code f v h w hw l hl := inText_madeOf (hp.pyEval _ _ _ _ h l hl) hw
  reduce sc f xs v h w hw l hl := inText_madeOf (hp.reduce _ _ _ _ h l hl) hw

theorem start_sound {e : PEnv} (hn : Names e) (input : Option Str) (text : Str) : Sound (PSt.start e input text).world := by
  refine ⟨?_, ?_⟩
  · intro key d t hm hk
    simp only [PSt.start, List.mem_cons, List.not_mem_nil, or_false] at hm
    rcases hm with hm | hm
    · cases hm; rw [hn.input] at hk; cases hk
    · cases hm; exact absurd hk (by decide)
  · intro m c hm; cases hm

theorem made_inv {cfg : Config} {repr : Node → Str} {w : World} {r cs} (h : Made cfg repr w r cs) : ∃ o, InvAt r cs o := by
  induction h with
  | tree w0 n σ _ _ ih => exact inv_tree cfg _ (fun l e he => w0.loc_zero _ l e he) σ n ih
  | reduce r cs _ ih => obtain ⟨o, ho⟩ := ih; exact ⟨o, inv_reduce cfg ho⟩
  | steady r cs _ ih => obtain ⟨o, ho⟩ := ih; exact ⟨_, inv_steady ho⟩

end Yupp
