import Verif.Props.Subst
import Verif.Props.Scope
import Verif.Lemmas.EvalRel
/-!
# What is recorded about texts that are evaluated: C52
-/

namespace Yupp

open Spec

theorem grow_stable (e : EEnv) : Stable e (fun s s' => Grow e.pe s.p s'.p) where
  refl _ := Grow.refl _ _
  trans _ _ _ h h' := h.trans h'
  frame _ _ _ _ _ h _ := h
  upd _ _ _ _ _ := Grow.refl _ _
  other _ _ _ _ := Grow.refl _ _
  reg _ _ _ _ _ _ h := by unfold register at h; cases h; exact Grow.num
  parse n a s xs t h := by
    have := (P_good e.pe [] n).parse a s.p
    unfold PM.Sat at this
    rw [h] at this
    exact this.1

/-- Whatever is evaluated, no registered text is ever dropped or changed, and neither is a recorded call. -/
theorem C52_records_only_grow (e : EEnv) (x v : Node) (s s' : ESt) (h : Evaluates e x s v s') :
    (∃ new, s'.p.world.source = new ++ s.p.world.source) ∧
    (∃ new, s'.p.world.inclusion = s.p.world.inclusion ++ new) :=
  have := evaluates_rel (grow_stable e) h
  ⟨this.source, this.incl⟩

/-- The record made for a text: it is registered under the number of the record, with the place of the
    declaration, and the record holds the place of the call. -/
def Recorded (w : World) (k : Nat) (text : Str) (decl call : Option Loc) : Prop :=
  (natStr k, (match decl with | some l => Decl.at l | none => Decl.path none), text) ∈ w.source ∧
  w.inclusion[k]? = some call

theorem recorded_of_eval {e : EEnv} {t : Str} {decl call : Option Src} {v : Node} {s s' : ESt}
    (h : Evaluates e (.eval (.pstr t) decl call) s v s') :
    Recorded s'.p.world s.p.world.inclusion.length t (decl.bind (·.loc)) (call.bind (·.loc)) := by
  obtain ⟨n, hn⟩ := h
  cases n with
  | zero => cases hn
  | succ n =>
    change evalEval e (P e.pe n) (E e n) (.pstr t) decl call s = _ at hn
    unfold evalEval at hn
    obtain ⟨w, s1, h1, h2⟩ := em_bind_inv hn
    have hw : w = .pstr t ∧ s1 = s := evaluates_det ⟨n, h1⟩ (evaluates_iff.2 (ev_value e (.pstr t) s))
    obtain ⟨rfl, rfl⟩ := hw
    have h3 := h2
    simp only [Node.isStr, Bool.not_true, Bool.false_eq_true, if_false] at h3
    obtain ⟨s2, s2', h4, h5⟩ := em_bind_inv h3
    cases h4
    obtain ⟨key, s3, h6, h7⟩ := em_bind_inv h5
    have hrest : Grow e.pe s3.p s'.p := by
      have hR := grow_stable e
      have hr : EM.Rel (fun s s' => Grow e.pe s.p s'.p) (fun s => (do
          let xs ← EM.parse ((P e.pe n).parse key)
          if xs.isEmpty then pure .none
          else if xs.any Node.isSet then pure (.embed (.t xs (.str [])))
          else match xs with
            | [x] => E e n x
            | xs => E e n (.t xs (.str [])) : EM Node) s) := by
        refine hR.bind (fun s a s' hs => parse_rel (R := fun s s' => Grow e.pe s.p s'.p)
          (fun s xs t h => hR.parse n key s xs t h) hs) (fun xs => ?_)
        split
        · exact hR.pure _
        · split
          · exact hR.pure _
          · split
            · exact E_rel hR n _
            · exact E_rel hR n _
      exact hr _ _ _ h7
    unfold register at h6
    cases h6
    obtain ⟨pre, hp⟩ := hrest.source
    obtain ⟨post, hq⟩ := hrest.incl
    refine ⟨?_, ?_⟩
    · rw [hp]
      refine List.mem_append_right _ ?_
      exact List.mem_cons_self
    · rw [hq]
      simp

/-- The expansion of a macro with one parameter is recorded with the declaration of the macro and the place
    where its name stands in the call. -/
theorem C52_expansion_is_recorded (e : EEnv) (late : Bool) (reg : List Src) (m text decl : Src) (c0 : Option Src)
    (p : Str) (args : List Node) (v : Node) (t : Str) (loc : Option Loc) (s s1 s2 s3 : ESt) (r : Node)
    (hf : Evaluates e (.var late reg m) s (.mclosure text [(p, .bound)] decl c0) s1)
    (ha : Args e args s1 [v] s2) (hva : p ≠ vaArgs) (hv : Value v) (hn : v ≠ .none) (ht : ArgText v t)
    (hok : NamesOk [(p, t)]) (hclean : Unmarked [(p, t)] (substitute [(p, t)] text.txt))
    (hr : Evaluates e (.apply (.var late reg m) args [] loc) s r s3) :
    Recorded s3.p.world s2.p.world.inclusion.length (substitute [(p, t)] text.txt) decl.loc m.loc := by
  have := C33_expansion e (.var late reg m) text decl c0 [p] args [v] [t] loc s s1 s2 hf ha (by simp) rfl (by simp)
    (by simpa using Ne.symm hva) (by simpa using hv) (by simpa using hn) (.cons ht .nil) hok hclean
  have := recorded_of_eval ((this.1 r s3).1 hr)
  simpa [callOf] using this

/-- The same for a macro without parameters. -/
theorem C52_expansion_without_parameters (e : EEnv) (late : Bool) (reg : List Src) (m text decl : Src) (c0 : Option Src)
    (args : List Node) (loc : Option Loc) (s s1 s2 s3 : ESt) (r : Node)
    (hf : Evaluates e (.var late reg m) s (.mclosure text [] decl c0) s1) (ha : Args e args s1 [] s2)
    (hr : Evaluates e (.apply (.var late reg m) args [] loc) s r s3) :
    Recorded s3.p.world s2.p.world.inclusion.length text.txt decl.loc m.loc := by
  have := C33_without_parameters e (.var late reg m) text decl c0 args loc s s1 s2 hf ha
  exact recorded_of_eval ((this.1 r s3).1 hr)

/-- With two or more parameters the place of the call is lost, whatever the macro, the arguments and the place. -/
theorem C52_call_is_lost (e : EEnv) (fn : Node) (text decl : Src) (c0 : Option Src) (ps : List Str) (args vs : List Node)
    (ts : List Str) (loc : Option Loc) (s s1 s2 s3 : ESt) (r : Node)
    (hf : Evaluates e fn s (.mclosure text (ps.map (fun p => (p, Node.bound))) decl c0) s1)
    (ha : Args e args s1 vs s2) (hps : 2 ≤ ps.length) (hl : vs.length = ps.length) (hnd : ps.Nodup) (hva : vaArgs ∉ ps)
    (hv : ∀ v ∈ vs, Value v) (hn : ∀ v ∈ vs, v ≠ .none) (hts : Each2 ArgText vs ts)
    (hok : NamesOk (ps.zip ts)) (hclean : Unmarked (ps.zip ts) (substitute (ps.zip ts) text.txt))
    (hr : Evaluates e (.apply fn args [] loc) s r s3) :
    Recorded s3.p.world s2.p.world.inclusion.length (substitute (ps.zip ts) text.txt) decl.loc none := by
  have := C33_expansion e fn text decl c0 ps args vs ts loc s s1 s2 hf ha (by intro h; simp [h] at hps) hl hnd hva hv hn
    hts hok hclean
  rw [if_neg (by omega)] at this
  exact recorded_of_eval ((this.1 r s3).1 hr)

/-- Both cases do occur: a macro called at position 5 of a file, with one parameter and with two. -/
example (e : EEnv) : let m : Src := { txt := ['m'], loc := some ⟨['f'], 5⟩ }
    let decl : Src := { txt := ['m'], loc := some ⟨['f'], 1⟩ }
    let s1 : ESt := { env := [[(['m'], .mclosure { txt := [] } [(['a'], .bound)] decl none)]] }
    let s2 : ESt := { env := [[(['m'], .mclosure { txt := [] } [(['a'], .bound), (['b'], .bound)] decl none)]] }
    (∃ v s', Evaluates e (.apply (.var false [] m) [.int 7] [] none) s1 v s' ∧
      s'.p.world.inclusion = [some ⟨['f'], 5⟩]) ∧
    (∃ v s', Evaluates e (.apply (.var false [] m) [.int 7, .int 8] [] none) s2 v s' ∧
      s'.p.world.inclusion = [none]) :=
  ⟨⟨_, _, ⟨5, rfl⟩, rfl⟩, ⟨_, _, ⟨6, rfl⟩, rfl⟩⟩

end Yupp
