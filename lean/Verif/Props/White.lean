import Verif.Lemmas.White
import Verif.Lemmas.Parsed
import Verif.Model.Engine
import Verif.Lemmas.EvalMono
import Verif.Lemmas.Provenance
import Verif.Spec.Eval
/-!
# Browse mode changes white space only: C11
-/

namespace Yupp
open Spec

mutual
theorem ink_tree (cfg : Config) (x : TextExt) : (n : Node) → BlankIndents n →
    ink (plainStr cfg x n) = ink (plainBrowse cfg x n).txt
  | .none, _ => by simp [plainStr, plainBrowse]
  | .result r, _ => by simp [plainStr, plainBrowse, strOf]
  | .trim a i, h => by
      simp only [BlankIndents] at h
      simp only [plainStr, plainBrowse]
      rw [ink_trim cfg h.1, ink_trimWithBrowse cfg h.1, ink_tree cfg x a h.2]
  | .list xs, h => by
      simp only [BlankIndents] at h
      simp only [plainStr, plainBrowse, addTexts_txt, ink_trees cfg x xs h]
  | .t xs _, h => by
      simp only [BlankIndents] at h
      simp only [plainStr, plainBrowse, addTexts_txt, ink_trees cfg x xs h]
  | .lazy a, h => by
      simp only [BlankIndents] at h
      simp only [plainStr, plainBrowse]; exact ink_tree cfg x a h
  | .plain s _ tr, _ => by
      simp only [plainStr, plainBrowse, getTrimmed, getTrimmedWithBrowse, srcRes]
      split <;> simp [Src.drop, drop_lstrip]
  | .atom s, _ => by simp [plainStr, plainBrowse, strOf, srcRes]
  | .remark s, _ => by simp [plainStr, plainBrowse, strOf, srcRes]
  | .str s, _ => by simp [plainStr, plainBrowse, strOf, srcRes]
  | .pstr _, _ => by simp [plainStr, plainBrowse]
  | .int _, _ => by simp [plainStr, plainBrowse]
  | .bool _, _ => by simp [plainStr, plainBrowse]
  | .float _, _ => by simp [plainStr, plainBrowse]
  | .text .., _ => by simp [plainStr, plainBrowse]
  | .var .., _ => by simp [plainStr, plainBrowse]
  | .apply .., _ => by simp [plainStr, plainBrowse]
  | .set .., _ => by simp [plainStr, plainBrowse]
  | .letn .., _ => by simp [plainStr, plainBrowse]
  | .macro .., _ => by simp [plainStr, plainBrowse]
  | .emit .., _ => by simp [plainStr, plainBrowse]
  | .lambda .., _ => by simp [plainStr, plainBrowse]
  | .lambdaVar .., _ => by simp [plainStr, plainBrowse]
  | .cond .., _ => by simp [plainStr, plainBrowse]
  | .infix .., _ => by simp [plainStr, plainBrowse]
  | .eval .., _ => by simp [plainStr, plainBrowse]
  | .embed .., _ => by simp [plainStr, plainBrowse]
  | .comment, _ => by simp [plainStr, plainBrowse]
  | .importBegin, _ => by simp [plainStr, plainBrowse]
  | .importEnd, _ => by simp [plainStr, plainBrowse]
  | .bound, _ => by simp [plainStr, plainBrowse]
  | .lclosure .., _ => by simp [plainStr, plainBrowse]
  | .mclosure .., _ => by simp [plainStr, plainBrowse]
  | .infixClosure .., _ => by simp [plainStr, plainBrowse]
  | .condClosure .., _ => by simp [plainStr, plainBrowse]
  | .setClosure .., _ => by simp [plainStr, plainBrowse]
  | .builtin .., _ => by simp [plainStr, plainBrowse]
  | .skip, _ => by simp [plainStr, plainBrowse]
  | .env .., _ => by simp [plainStr, plainBrowse]
  | .pyobj .., _ => by simp [plainStr, plainBrowse]
theorem ink_trees (cfg : Config) (x : TextExt) : (ns : List Node) → BlankIndentss ns →
    ink (plainStrs cfg x ns) = ink ((plainBrowses cfg x ns).map (·.txt)).flatten
  | [], _ => by simp [plainStrs, plainBrowses]
  | n :: ns, h => by
      simp only [BlankIndentss] at h
      simp only [plainStrs, plainBrowses, List.map_cons, List.flatten_cons, ink_append]
      rw [ink_tree cfg x n h.1, ink_trees cfg x ns h.2]
end

/-- **C11**. The texts of the two modes, before and after the final empty-line reduction, are the same up to
    white space. (They need not be the same: `C11_browse_changes_text`, `C11_browse_changes_final_text`.) -/
theorem C11_white_space_only (cfg : Config) (x : TextExt) (n : Node) (h : BlankIndents n) :
    ink (plainStr cfg x n) = ink (plainBrowse cfg x n).txt ∧
    ink (reduceEmptiness cfg (plainStr cfg x n)) = ink ((plainBrowse cfg x n).reduceEmptiness cfg).txt := by
  rw [ink_reduce, ink_reduceRes]
  exact ⟨ink_tree cfg x n h, ink_tree cfg x n h⟩

/-! ## In every translation -/

/-- The indents among the parts are blank. -/
def BlankLeaves (ls : List Leaf) : Prop := ∀ i, Leaf.ind i ∈ ls → i.all isSpace = true

/-- The condition on a single part. -/
def BlankLeaf (_ : World) : Leaf → Prop
  | .ind i => i.all isSpace = true
  | _ => True

theorem blankLeaf_madeOf {w given l} (h : MadeOf given l) (hg : ∀ l ∈ given, BlankLeaf w l) : BlankLeaf w l := by
  cases h with
  | old h => exact hg _ h
  | new t => trivial
  | slice => trivial

theorem P_grow (e : PEnv) {n a p xs t} (h : (P e n).parse a p = .ok (xs, t)) : Grow e p t ∧ ∀ y ∈ srcsList xs, y.Found t.world.source := by
  have := (P_good e [] n).parse a p
  unfold PM.Sat at this
  rw [h] at this
  exact this

theorem Grow.le {e : PEnv} {p t : PSt} (h : Grow e p t) : World.Le p.world t.world := ⟨h.source, h.incl⟩

theorem parsed_blank (e : PEnv) {n a p xs t} (h : (P e n).parse a p = .ok (xs, t)) (w : World) :
    ∀ l ∈ leavesL xs, BlankLeaf w l := by
  intro l hl
  have := rawL_leaves ((P_parsed e n).parse a _ _ _ h) l hl
  cases l with
  | ind i => exact this
  | _ => trivial

theorem blank_keeps {e : EEnv} (hp : Honest e) : Keeps e (fun _ => True) BlankLeaf where
  mono {w w' l} _ h := by cases l <;> first | exact h | trivial
  free _ _ := trivial
  place _ _ _ _ _ := trivial
  indNil _ := rfl
  indApp w a b ha hb := by
    change (a ++ b).all isSpace = true
    rw [List.all_append, Bool.and_eq_true]
    exact ⟨ha, hb⟩
  fin _ _ _ _ _ := trivial
  parse n a p xs t _ h := ⟨trivial, (P_grow _ h).1.le, parsed_blank _ h _⟩
  reg _ _ _ _ _ _ _ _ := trivial
  const sc a v h w l hl := blankLeaf_madeOf (hp.const _ _ _ h l hl) (by intro l hl; cases hl)
  call sc a args seen v seen' h w hw l hl := blankLeaf_madeOf (hp.call _ _ _ _ _ _ h l hl) hw
  pyEval sc code f v h w hw l hl := blankLeaf_madeOf (hp.pyEval _ _ _ _ h l hl) hw
  reduce sc f xs v h w hw l hl := blankLeaf_madeOf (hp.reduce _ _ _ _ h l hl) hw

mutual
theorem blankIndents_of : ∀ (n : Node), (∀ i, Leaf.ind i ∈ n.leaves → i.all isSpace = true) → BlankIndents n
  | .trim a i, h => by
      refine ⟨?_, blankIndents_of a (fun j hj => h j (by simp [Node.leaves, hj]))⟩
      exact List.all_eq_true.mp (h i (by simp [Node.leaves]))
  | .list xs, h => blankIndentss_of xs h
  | .t xs i, h => blankIndentss_of xs (fun j hj => h j (by simp [Node.leaves, hj]))
  | .lazy a, h => blankIndents_of a h
  | .none, _ => trivial
  | .result _, _ => trivial
  | .plain .., _ => trivial
  | .atom _, _ => trivial
  | .remark _, _ => trivial
  | .str _, _ => trivial
  | .pstr _, _ => trivial
  | .int _, _ => trivial
  | .bool _, _ => trivial
  | .float _, _ => trivial
  | .text .., _ => trivial
  | .var .., _ => trivial
  | .apply .., _ => trivial
  | .set .., _ => trivial
  | .letn .., _ => trivial
  | .macro .., _ => trivial
  | .emit .., _ => trivial
  | .lambda .., _ => trivial
  | .lambdaVar .., _ => trivial
  | .cond .., _ => trivial
  | .infix .., _ => trivial
  | .eval .., _ => trivial
  | .embed .., _ => trivial
  | .comment, _ => trivial
  | .importBegin, _ => trivial
  | .importEnd, _ => trivial
  | .bound, _ => trivial
  | .lclosure .., _ => trivial
  | .mclosure .., _ => trivial
  | .infixClosure .., _ => trivial
  | .condClosure .., _ => trivial
  | .setClosure .., _ => trivial
  | .builtin .., _ => trivial
  | .skip, _ => trivial
  | .env .., _ => trivial
  | .pyobj .., _ => trivial
theorem blankIndentss_of : ∀ (ns : List Node), (∀ i, Leaf.ind i ∈ leavesL ns → i.all isSpace = true) → BlankIndentss ns
  | [], _ => trivial
  | n :: ns, h => ⟨blankIndents_of n (fun i hi => h i (by simp [leavesL, hi])),
      blankIndentss_of ns (fun i hi => h i (by simp [leavesL, hi]))⟩
end

theorem leaves_blank {w ls} (h : BlankLeaves ls) : ∀ l ∈ ls, BlankLeaf w l := by
  intro l hl
  cases l with
  | ind i => exact h i hl
  | _ => trivial

theorem ink_steady {a b : Str} (h : ink a = ink b) : ink (replaceSteady a) = ink (replaceSteady b) := by
  have key : ∀ t : Str, ink (replaceSteady t) = ink (replaceSteady (ink t)) := by
    intro t
    simp only [replaceSteady_map]
    induction t with
    | nil => rfl
    | cons c t ih =>
      by_cases hc : isSpace c = true
      · have h1 : c ≠ 'ÿ' := by rintro rfl; exact absurd hc (by decide)
        have h2 : c ≠ 'þ' := by rintro rfl; exact absurd hc (by decide)
        simp [ink, hc, h1, h2]
        simpa [ink] using ih
      · simp only [ink, List.map_cons, List.filter_cons, hc] at ih ⊢
        simp only [Bool.not_false, if_true, List.map_cons, List.filter_cons]
        split <;> simp [ih]
  rw [key a, key b, h]

/-- What a text with the items `ys` is rendered to, finally, without and with `pp_browse`. -/
def finalPlain (cfg : Config) (x : TextExt) (ys : List Node) : Str :=
  replaceSteady (reduceEmptiness cfg (plainStr cfg x (.t ys (.str []))))
/-- … with `pp_browse`. -/
def finalBrowse (cfg : Config) (x : TextExt) (ys : List Node) : Res :=
  ((plainBrowse cfg x (.t ys (.str []))).reduceEmptiness cfg).replaceSteady

/-- **C11**. Wherever a text is made during an evaluation, the other mode would make the same text of the same items,
    up to white space: `v` is the text in the mode the translator runs in. -/
theorem C11_while_evaluating (e : EEnv) (hp : Honest e) {xs : List Node} {i : Indent} {s : ESt} {v : Node} {s' : ESt}
    (hs : BlankLeaves s.leaves) (hx : BlankLeaves (Node.t xs i).leaves) (h : Evaluates e (.t xs i) s v s') :
    ∃ ys, (v = .t ys i ∨
        v = if e.cfg.browse then .result (plainBrowse e.cfg (textExt e s') (.t ys i))
          else .pstr (plainStr e.cfg (textExt e s') (.t ys i))) ∧
      ink (plainStr e.cfg (textExt e s') (.t ys i)) = ink (plainBrowse e.cfg (textExt e s') (.t ys i)).txt := by
  obtain ⟨n, h⟩ := h
  cases n with
  | zero => cases h
  | succ n =>
    change (evalT (E e n) i 0 false xs >>= finishT e i) s = _ at h
    obtain ⟨ys, s1, h1, h2⟩ := em_bind_inv h
    obtain ⟨k1, k2, k3⟩ := evalT_keep (blank_keeps hp) (E_keep (blank_keeps hp) n) xs i 0 false s ys s1
      ⟨trivial, leaves_blank hs⟩ (leaves_blank hx) h1
    refine ⟨ys, ?_, ?_⟩
    · unfold finishT at h2
      cases h2
      split
      · exact .inr rfl
      · exact .inl rfl
    · refine ink_tree _ _ _ (blankIndentss_of ys (fun j hj => k3 _ hj))

/-- **C11**. The final text of a translation and the one the other mode makes of the same items are the same up to
    white space. -/
theorem C11_final_text (e : EEnv) (hp : Honest e) (readable : Node → Str) {n : Nat} {input : Option Str} {seen : List Node}
    {text : Str} {run : Run} (hseen : BlankLeaves (leavesL seen)) (h : runAt e readable n input seen text = .ok run)
    (hok : (pp e.cfg run.raw).1 = true) :
    ∃ x ys, ((pp e.cfg run.raw).2 = if e.cfg.browse then .res (finalBrowse e.cfg x ys) else .str (finalPlain e.cfg x ys)) ∧
      ink (finalPlain e.cfg x ys) = ink (finalBrowse e.cfg x ys).txt := by
  unfold runAt at h
  split at h
  · cases h; cases hok
  · cases h
  · next xs st hpar =>
    split at h
    · cases h; cases hok
    · cases h
    · next v s' hev =>
      cases h
      cases n with
      | zero => cases hev
      | succ n =>
        have hb : BlankLeaves (leavesL xs) := fun i hi => parsed_blank _ hpar {} _ hi
        obtain ⟨ys, hv, hi⟩ := C11_while_evaluating e hp (i := .str []) (xs := xs) (s := { p := st, seen := seen })
          (by simpa [ESt.leaves] using hseen) (by
            intro i hi
            simp only [Node.leaves, Indent.leaves, List.mem_append, List.mem_singleton] at hi
            rcases hi with hi | hi
            · cases hi; rfl
            · exact hb i hi) ⟨n, hev⟩
        have hf : ink (finalPlain e.cfg (textExt e s') ys) = ink (finalBrowse e.cfg (textExt e s') ys).txt := by
          refine ink_steady ?_
          rw [ink_reduce, ink_reduceRes, hi]
        refine ⟨textExt e s', ys, ?_, hf⟩
        rcases hv with rfl | rfl
        · cases hok
        · cases hbr : e.cfg.browse with
          | true => rfl
          | false => rfl

/-- The hypotheses are met: an application in an indented line, translated with `pp_browse`. -/
example : let e : EEnv := { pe := { inputFile := lit "a" }, cfg := { browse := true } }
    Honest e ∧ BlankLeaves (leavesL []) ∧
    (match runAt e (fun _ => []) 30 none [] (lit "($set x ]\n u\n  v\n[)a\n  ($x)\n") with
     | .ok run => match pp e.cfg run.raw with
       | (true, p) => p.txt == lit "a\n  u\n   v\n"
       | _ => false
     | _ => false) = true := by
  refine ⟨⟨?_, ?_, ?_, ?_⟩, ?_, ?_⟩
  · intro _ _ _ h; cases h
  · intro _ _ _ _ _ _ h; cases h
  · intro _ _ _ _ h; cases h
  · intro _ _ _ _ h; cases h
  · intro i hi; cases hi
  · decide +kernel

end Yupp
