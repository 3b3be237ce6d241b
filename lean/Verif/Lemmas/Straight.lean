import Verif.Spec.Straight
import Verif.Lemmas.Beta
import Verif.Props.Scope
/-!
# Lemmas for C97
-/

namespace Yupp
open Spec

/-- `m` ends: it raises, or gives a result with `Q`. -/
def Halts (m : EM α) (σ : ESt) (Q : α → ESt → Prop) : Prop := m σ = .err ∨ ∃ a σ', m σ = .ok (a, σ') ∧ Q a σ'

theorem halts_pure {a : α} {σ : ESt} {Q : α → ESt → Prop} (h : Q a σ) : Halts (pure a : EM α) σ Q := .inr ⟨a, σ, rfl, h⟩

theorem halts_err {σ : ESt} {Q : α → ESt → Prop} : Halts (EM.err : EM α) σ Q := .inl rfl

theorem halts_bind {m : EM α} {f : α → EM β} {σ : ESt} {Q : α → ESt → Prop} {R : β → ESt → Prop} (h : Halts m σ Q)
    (hf : ∀ a σ', Q a σ' → Halts (f a) σ' R) : Halts (m >>= f) σ R := by
  rcases h with h | ⟨a, σ', h, hq⟩
  · exact .inl (em_bind_err h)
  · rcases hf a σ' hq with h2 | ⟨b, σ2, h2, hr⟩
    · exact .inl (by rw [em_bind_ok h]; exact h2)
    · exact .inr ⟨b, σ2, by rw [em_bind_ok h]; exact h2, hr⟩

theorem halts_mono {m : EM α} {σ : ESt} {Q R : α → ESt → Prop} (h : Halts m σ Q) (hr : ∀ a σ', Q a σ' → R a σ') :
    Halts m σ R := by
  rcases h with h | ⟨a, σ', h, hq⟩
  · exact .inl h
  · exact .inr ⟨a, σ', h, hr _ _ hq⟩

theorem halts_get {σ : ESt} {Q : ESt → ESt → Prop} (h : Q σ σ) : Halts EM.get σ Q := .inr ⟨σ, σ, rfl, h⟩

theorem halts_ofOption {o : Option α} {σ : ESt} {Q : α → ESt → Prop} (h : ∀ a, o = some a → Q a σ) : Halts (EM.ofOption o) σ Q := by
  cases o with
  | none => exact .inl rfl
  | some a => exact .inr ⟨a, σ, rfl, h a rfl⟩

/-! ## What is kept -/

/-- An entry is the same, or the name is the same and stands for data now. -/
def SameOrData (p q : Str × Node) : Prop := q.1 = p.1 ∧ (q.2 = p.2 ∨ Inert q.2)

/-- The scopes have the same names, and values changed are data. -/
def KeptScopes : Scopes → Scopes → Prop := Each2 (Each2 SameOrData)

theorem each2_refl {R : α → α → Prop} (h : ∀ a, R a a) : ∀ l : List α, Each2 R l l
  | [] => .nil
  | a :: l => .cons (h a) (each2_refl h l)

theorem each2_trans' {R : α → α → Prop} (h : ∀ a b c, R a b → R b c → R a c) : ∀ {l m n : List α}, Each2 R l m → Each2 R m n → Each2 R l n
  | _, _, _, .nil, .nil => .nil
  | _, _, _, .cons h1 r1, .cons h2 r2 => .cons (h _ _ _ h1 h2) (each2_trans' h r1 r2)

theorem sameOrData_refl (p : Str × Node) : SameOrData p p := ⟨rfl, .inl rfl⟩

theorem sameOrData_trans (p q r : Str × Node) (h : SameOrData p q) (h' : SameOrData q r) : SameOrData p r :=
  ⟨h'.1.trans h.1, by
    rcases h'.2 with h2 | h2
    · rcases h.2 with h1 | h1
      · exact .inl (h2.trans h1)
      · exact .inr (h2 ▸ h1)
    · exact .inr h2⟩

theorem keptScopes_refl (env : Scopes) : KeptScopes env env := each2_refl (each2_refl sameOrData_refl) env

theorem keptScopes_trans {a b c : Scopes} (h : KeptScopes a b) (h' : KeptScopes b c) : KeptScopes a c :=
  each2_trans' (R := Each2 SameOrData) (fun _ _ _ h1 h2 => each2_trans' sameOrData_trans h1 h2) h h'

/-- What an evaluation keeps. -/
def KeepsData (σ σ' : ESt) : Prop := σ'.p = σ.p ∧ KeptScopes σ.env σ'.env

theorem keepsData_refl (σ : ESt) : KeepsData σ σ := ⟨rfl, keptScopes_refl _⟩

theorem keepsData_trans {a b c : ESt} (h : KeepsData a b) (h' : KeepsData b c) : KeepsData a c := ⟨h'.1.trans h.1, keptScopes_trans h.2 h'.2⟩

theorem frame_get_kept {f g : Frame} (h : Each2 SameOrData f g) (a : Str) :
    (Frame.get f a = none ∧ Frame.get g a = none) ∨
      ∃ v w, Frame.get f a = some v ∧ Frame.get g a = some w ∧ (w = v ∨ Inert w) := by
  induction h with
  | nil => exact .inl ⟨rfl, rfl⟩
  | @cons p q f g hp hr ih =>
    obtain ⟨k, v⟩ := p
    obtain ⟨k', w⟩ := q
    obtain ⟨h1, h2⟩ := hp
    simp only at h1 h2
    subst h1
    rw [get_cons, get_cons]
    by_cases hk : k' = a
    · rw [if_pos hk, if_pos hk]; exact .inr ⟨v, w, rfl, rfl, h2⟩
    · rw [if_neg hk, if_neg hk]; exact ih

theorem lookup_kept {a b : Scopes} (h : KeptScopes a b) (k : Str) :
    (Scopes.lookup a k = none ∧ Scopes.lookup b k = none) ∨
      ∃ v w, Scopes.lookup a k = some v ∧ Scopes.lookup b k = some w ∧ (w = v ∨ Inert w) := by
  unfold KeptScopes at h
  induction h with
  | nil => exact .inl ⟨rfl, rfl⟩
  | cons hf hr ih =>
    unfold Scopes.lookup
    rcases frame_get_kept hf k with ⟨h1, h2⟩ | ⟨v, w, h1, h2, h3⟩
    · rw [h1, h2]; exact ih
    · rw [h1, h2]; exact .inr ⟨v, w, rfl, rfl, h3⟩

theorem fits_kept {Γ : NamesAt} {a b : Scopes} (h : Fits Γ a) (hk : KeptScopes a b) : Fits Γ b := by
  refine ⟨fun k v hw hl => ?_, fun k hs => ?_⟩
  · rcases lookup_kept hk k with ⟨_, h2⟩ | ⟨u, w, h1, h2, h3⟩
    · rw [h2] at hl; cases hl
    · rw [h2] at hl; cases hl
      rcases h3 with rfl | h3
      · exact h.data k _ hw h1
      · exact h3
  · rcases lookup_kept hk k with ⟨h1, _⟩ | ⟨u, w, h1, h2, h3⟩
    · have := h.sure k hs; rw [h1] at this; cases this
    · rw [h2]; rfl

theorem fits_hide {Γ : NamesAt} {env : Scopes} (h : Fits Γ env) (ns : List Str) :
    Fits (Γ.hide ns) (ns.map (fun a => (a, Node.bound)) :: env) := by
  have hg : ∀ k, Frame.get (ns.map (fun a => (a, Node.bound))) k = if k ∈ ns then some .bound else none := by
    intro k
    induction ns with
    | nil => rfl
    | cons a ns ih =>
      rw [List.map_cons, get_cons]
      by_cases hk : a = k
      · subst hk; simp
      · rw [if_neg hk, ih]
        simp [Ne.symm hk]
  refine ⟨fun k v hw hl => ?_, fun k hs => ?_⟩
  · unfold Scopes.lookup at hl
    rw [hg, if_neg (fun hk => hw (.inl hk))] at hl
    exact h.data k v (fun hk => hw (.inr hk)) hl
  · unfold Scopes.lookup
    rw [hg]
    by_cases hk : k ∈ ns
    · rw [if_pos hk]; rfl
    · rw [if_neg hk]; exact h.sure k hs

theorem fits_bind {Γ : NamesAt} {env : Scopes} (h : Fits Γ env) {f : Frame} (hd : ∀ p ∈ f, Inert p.2) :
    Fits (Γ.bind (f.map (·.1))) (f :: env) := by
  have hg : ∀ k, (k ∉ f.map (·.1) ∧ Frame.get f k = none) ∨ ∃ v, Frame.get f k = some v ∧ Inert v := by
    intro k
    induction f with
    | nil => exact .inl ⟨by simp, rfl⟩
    | cons p f ih =>
      obtain ⟨a, v⟩ := p
      rw [get_cons]
      by_cases hk : a = k
      · rw [if_pos hk]; exact .inr ⟨v, rfl, hd _ List.mem_cons_self⟩
      · rw [if_neg hk]
        rcases ih (fun p hp => hd p (List.mem_cons_of_mem _ hp)) with ⟨h1, h2⟩ | h1
        · exact .inl ⟨by simp only [List.map_cons, List.mem_cons]; rintro (rfl | h); exact hk rfl; exact h1 h, h2⟩
        · exact .inr h1
  refine ⟨fun k v hw hl => ?_, fun k hs => ?_⟩
  · unfold Scopes.lookup at hl
    rcases hg k with ⟨h1, h2⟩ | ⟨w, h2, h3⟩
    · rw [h2] at hl
      exact h.data k v (fun hk => hw ⟨h1, hk⟩) hl
    · rw [h2] at hl; cases hl; exact h3
  · unfold Scopes.lookup
    rcases hg k with ⟨h1, h2⟩ | ⟨w, h2, h3⟩
    · rw [h2]
      exact h.sure k (hs.resolve_left h1)
    · rw [h2]; rfl

theorem each2_put (f : Frame) (k : Str) {v : Node} (hv : Inert v) : Each2 SameOrData f (Frame.put f k v) := by
  unfold Frame.put
  induction f with
  | nil => exact .nil
  | cons p f ih =>
    refine .cons ?_ ih
    simp only
    split
    · rename_i h; exact ⟨by simp, .inr hv⟩
    · exact sameOrData_refl _

theorem update_kept {k : Str} {v : Node} (hv : Inert v) : ∀ env : Scopes, KeptScopes env ((Scopes.update env k v).getD env) := by
  intro env
  induction env with
  | nil => exact .nil
  | cons f fs ih =>
    unfold Scopes.update
    cases hg : Frame.get f k with
    | some w => exact .cons (each2_put f k hv) (keptScopes_refl fs)
    | none =>
      simp only
      cases hu : Scopes.update fs k v with
      | none => exact keptScopes_refl _
      | some gs =>
        rw [hu] at ih
        exact .cons (each2_refl sameOrData_refl f) ih

/-! ## Data applied to data -/

variable {e : EEnv}

/-- A list of data. -/
def Solid (vs : List Node) : Prop := ∀ v ∈ vs, Inert v

theorem solid_append {vs ws : List Node} (h : Solid vs) (h' : Solid ws) : Solid (vs ++ ws) := by
  intro v hv
  rcases List.mem_append.1 hv with hv | hv
  · exact h v hv
  · exact h' v hv

theorem inert_term {v : Node} (h : Inert v) : isTerm v = true := by
  induction h with
  | list xs _ ih => exact (areTerms_iff xs).2 ih
  | _ => rfl

theorem solid_terms {vs : List Node} (h : Solid vs) : areTerms vs = true := (areTerms_iff vs).2 (fun v hv => inert_term (h v hv))

theorem inert_setCall {v : Node} (h : Inert v) (c : Option Src) : v.setCall c = v := by cases h <;> rfl

theorem spread_inert {v : Node} (h : Inert v) : spread v = [] ∧ v = .none ∨ spread v = [v] := by
  cases h <;> simp [spread]

theorem spread_solid {v : Node} (h : Inert v) : Solid (spread v) := by
  rcases spread_inert h with ⟨h1, _⟩ | h1
  · rw [h1]; exact nofun
  · rw [h1]; intro w hw; rw [List.mem_singleton] at hw; exact hw ▸ h

theorem embed_solid {v : Node} (h : Inert v) : Solid (spread (.embed v)) := by
  cases h with
  | list xs h1 => exact h1
  | _ => intro w hw; simp only [spread, List.mem_singleton] at hw; subst hw; constructor

theorem consSome_solid {v : Node} {vs : List Node} (h : Inert v) (h' : Solid vs) : Solid (consSome v vs) := by
  unfold consSome
  split
  · exact h'
  · intro w hw
    rcases List.mem_cons.1 hw with rfl | hw
    · exact h
    · exact h' w hw

/-- Data evaluate to data, without effects. -/
theorem ev_inert {v : Node} (h : Inert v) : ∀ σ, ∃ w, ev e v σ = .ok (w, σ) ∧ Inert w ∧ sizeOf w ≤ sizeOf v := by
  induction h with
  | list xs hd ih =>
    intro σ
    have hl : ∃ ys, evalList (ev e) xs σ = .ok (ys, σ) ∧ Solid ys ∧ sizeOf ys ≤ sizeOf xs := by
      clear hd
      induction xs with
      | nil => exact ⟨[], rfl, nofun, Nat.le_refl _⟩
      | cons x xs ihx =>
        obtain ⟨ys, h1, h2, h3⟩ := ihx (fun y hy => ih y (List.mem_cons_of_mem _ hy))
        obtain ⟨w, g1, g2, g3⟩ := ih x List.mem_cons_self σ
        refine ⟨spread w ++ ys, ?_, solid_append (spread_solid g2) h2, ?_⟩
        · unfold evalList
          rw [em_bind_ok g1, em_bind_ok h1]
          rfl
        · simp only [List.cons.sizeOf_spec]
          rcases spread_inert g2 with ⟨h, _⟩ | h
          · rw [h, List.nil_append]; omega
          · rw [h]; simp only [List.cons_append, List.nil_append, List.cons.sizeOf_spec]; omega
    obtain ⟨ys, h1, h2, h3⟩ := hl
    refine ⟨.list ys, ?_, .list ys h2, by simp only [Node.list.sizeOf_spec]; omega⟩
    rw [ev_at]
    change (evalList (ev e) xs >>= fun ys => pure (Node.list ys)) σ = _
    rw [em_bind_ok h1]
    rfl
  | _ => exact fun σ => ⟨_, by rw [ev_at]; rfl, by constructor, Nat.le_refl _⟩

theorem subscript_inert {l : List Node} (h : Solid l) {i : Int} {v : Node} (hs : subscript l i = some v) : Inert v := by
  unfold subscript at hs
  split at hs
  · cases hs; exact .none
  · split at hs
    · exact h v (List.mem_of_getElem? hs)
    · split at hs
      · exact h v (List.mem_of_getElem? hs)
      · cases hs

theorem applyNumber_halts {fn : Node} (hf : Inert fn) (pos : Option Int) {args : List Node} (ha : Solid args) (ns : List (Src × Node))
    (loc : Option Loc) (σ : ESt) : Halts (applyNumber fn pos args ns loc) σ (fun v σ' => Inert v ∧ σ' = σ) := by
  unfold applyNumber
  split
  · exact halts_err
  · split
    · exact halts_pure ⟨hf, rfl⟩
    · rw [solid_terms ha]
      simp only [Bool.not_true, Bool.false_eq_true, if_false]
      cases pos with
      | none => exact halts_err
      | some pos =>
        have hs : ∀ l : List Node, Solid l → Halts (EM.ofOption (subscript l pos)) σ (fun v σ' => Inert v ∧ σ' = σ) :=
          fun l hl => halts_ofOption (fun v hv => ⟨subscript_inert hl hv, rfl⟩)
        match args, ha with
        | [], ha => exact hs _ ha
        | [x], ha =>
          have hx := ha x (by simp)
          simp only
          cases hl : x.asList with
          | none => exact hs _ ha
          | some xs =>
            refine hs _ ?_
            cases hx with
            | list ys h1 => cases hl; exact h1
            | _ => cases hl
        | x :: y :: zs, ha => exact hs _ ha

/-- What is needed of the named arguments; `K` tells what they change. -/
def NamedOk (e : EEnv) (K : ESt → ESt → Prop) (ns : List (Src × Node)) (σ : ESt) : Prop :=
  Halts (evalNamed (ev e) ns) σ (fun ns' σ' => (∀ p ∈ ns', Inert p.2) ∧ K σ σ')

variable {K : ESt → ESt → Prop}

theorem applyStr_halts {fn : Node} (hf : Inert fn) {args : List Node} (ha : Solid args) {ns : List (Src × Node)}
    (loc : Option Loc) {σ : ESt} (hk : K σ σ) (hn : NamedOk e K ns σ) :
    Halts (applyStr e (ev e) fn args ns loc) σ (fun v σ' => Inert v ∧ K σ σ') := by
  unfold applyStr
  split
  · exact halts_pure ⟨hf, hk⟩
  · refine halts_bind hn (fun ns' σ' ⟨h1, h2⟩ => ?_)
    have : (ns'.all (fun p => isTerm p.2) && areTerms args) = true := by
      rw [solid_terms ha, Bool.and_true, List.all_eq_true]
      exact fun p hp => inert_term (h1 p hp)
    rw [if_pos this]
    exact halts_bind (halts_get (Q := fun s s' => s' = σ') rfl) (fun s s' hs => halts_pure ⟨.str _, hs ▸ h2⟩)

theorem applyTo_halts {fn : Node} (hf : Inert fn) {args : List Node} (ha : Solid args) {ns : List (Src × Node)}
    (loc : Option Loc) {σ : ESt} (hk : K σ σ) (hn : NamedOk e K ns σ)
    (he : ∀ xs, fn = .list xs → Halts (foreach (ev e) args xs) σ (fun ys σ' => Solid ys ∧ σ' = σ)) :
    Halts (applyTo e (ev e) fn args ns loc) σ (fun v σ' => Inert v ∧ K σ σ') := by
  have hm : ∀ {m : EM Node}, Halts m σ (fun v σ' => Inert v ∧ σ' = σ) → Halts m σ (fun v σ' => Inert v ∧ K σ σ') :=
    fun h => halts_mono h (fun v σ' h => ⟨h.1, h.2 ▸ hk⟩)
  unfold applyTo
  cases hf with
  | none => exact halts_pure ⟨.none, hk⟩
  | atom s =>
    simp only
    split
    · exact halts_pure ⟨.atom s, hk⟩
    · exact halts_err
  | remark s => exact applyStr_halts (.remark s) ha loc hk hn
  | str s => exact applyStr_halts (.str s) ha loc hk hn
  | plain s i t => exact applyStr_halts (.plain s i t) ha loc hk hn
  | pstr s => exact applyStr_halts (.pstr s) ha loc hk hn
  | result r => exact applyStr_halts (.result r) ha loc hk hn
  | int n => exact hm (applyNumber_halts (.int n) _ ha ns loc σ)
  | bool b => exact hm (applyNumber_halts (.bool b) _ ha ns loc σ)
  | float f => exact hm (applyNumber_halts (.float f) _ ha ns loc σ)
  | list xs h1 =>
    simp only
    split
    · exact halts_bind (he xs rfl) (fun ys σ' h => halts_pure ⟨.list ys h.1, h.2 ▸ hk⟩)
    · exact halts_err

theorem foreach_halts {fs : List Node} : ∀ {xs : List Node},
    (∀ y ∈ xs, ∀ σ, Halts (applyEach (ev e) fs y) σ (fun v σ' => Inert v ∧ σ' = σ)) → ∀ σ,
    Halts (foreach (ev e) fs xs) σ (fun ys σ' => Solid ys ∧ σ' = σ)
  | [], _, σ => halts_pure ⟨nofun, rfl⟩
  | y :: ys, h, σ => by
    unfold foreach
    refine halts_bind (h y List.mem_cons_self σ) (fun v σ' hv => ?_)
    obtain ⟨hv, rfl⟩ := hv
    refine halts_bind (foreach_halts (fun z hz => h z (List.mem_cons_of_mem _ hz)) σ') (fun ws σ2 hw => ?_)
    exact halts_pure ⟨consSome_solid hv hw.1, hw.2⟩

/-- Data applied to one datum. -/
def Applies (e : EEnv) (f x : Node) : Prop :=
  ∀ σ, Halts (ev e (.apply f [x] [] none)) σ (fun v σ' => Inert v ∧ σ' = σ)

theorem data_applies_sized : ∀ (k : Nat) {f x : Node}, sizeOf f + sizeOf x ≤ k → Inert f → Inert x → Applies e f x
  | 0, f, x, h, _, _ => by cases f <;> simp at h
  | k + 1, f, x, h, hf, hx => by
    intro σ
    obtain ⟨f', h1, hf', hs1⟩ := ev_inert (e := e) hf σ
    obtain ⟨x', h2, hx', hs2⟩ := ev_inert (e := e) hx σ
    have h3 : evalList (ev e) [x] σ = .ok (spread x' ++ [], σ) := by
      unfold evalList
      rw [em_bind_ok h2]
      rfl
    have key : Halts (applyTo e (ev e) f' (spread x') [] none) σ (fun v σ' => Inert v ∧ σ' = σ) := by
      refine applyTo_halts (K := fun a b => b = a) hf' (spread_solid hx') none rfl (halts_pure ⟨nofun, rfl⟩) ?_
      rintro xs rfl
      refine foreach_halts (fun y hy σ => ?_) σ
      cases hf' with
      | list _ hd =>
        rcases spread_inert hx' with ⟨h4, _⟩ | h4
        · rw [h4]; exact halts_pure ⟨hd y hy, rfl⟩
        · rw [h4]
          unfold applyEach
          refine halts_bind (data_applies_sized k ?_ hx' (hd y hy) σ) (fun v σ' hv => halts_pure hv)
          have := List.sizeOf_lt_of_mem hy
          simp only [Node.list.sizeOf_spec] at hs1
          omega
    have heq : ev e (.apply f [x] [] none) σ = applyTo e (ev e) f' (spread x') [] none σ := by
      rw [ev_apply_eq, em_bind_ok h1, em_bind_ok h3, inert_setCall hf', List.append_nil]
    unfold Halts at key ⊢
    rw [heq]
    exact key

/-- Data applied to data come to an end. -/
theorem data_applies {f x : Node} (hf : Inert f) (hx : Inert x) : Applies e f x := data_applies_sized _ (Nat.le_refl _) hf hx

theorem applyEach_data : ∀ {fs : List Node}, Solid fs → ∀ {x : Node}, Inert x → ∀ σ,
    Halts (applyEach (ev e) fs x) σ (fun v σ' => Inert v ∧ σ' = σ)
  | [], _, x, hx, σ => halts_pure ⟨hx, rfl⟩
  | f :: fs, h, x, hx, σ => by
    unfold applyEach
    refine halts_bind (data_applies (h f List.mem_cons_self) hx σ) (fun v σ' hv => ?_)
    obtain ⟨hv, rfl⟩ := hv
    exact applyEach_data (fun g hg => h g (List.mem_cons_of_mem _ hg)) hv σ'

theorem applyTo_data {fn : Node} (hf : Inert fn) {args : List Node} (ha : Solid args) {ns : List (Src × Node)}
    (loc : Option Loc) {σ : ESt} (hn : NamedOk e KeepsData ns σ) :
    Halts (applyTo e (ev e) fn args ns loc) σ (fun v σ' => Inert v ∧ KeepsData σ σ') :=
  applyTo_halts hf ha loc (keepsData_refl σ) hn (fun xs h => by
    subst h
    cases hf with
    | list _ hd => exact foreach_halts (fun y hy σ => applyEach_data ha (hd y hy) σ) σ)

/-! ## Scopes -/

theorem halts_inFrame {f : Frame} {m : EM Node} {σ : ESt}
    (h : Halts m (push σ f) (fun v σ' => Inert v ∧ KeepsData (push σ f) σ')) :
    Halts (EM.inFrame f m) σ (fun r σ' => Inert r.1 ∧ Each2 SameOrData f r.2 ∧ KeepsData σ σ') := by
  rcases h with h | ⟨v, σ', h, hv, hp, hk⟩
  · refine .inl ?_
    unfold EM.inFrame
    rw [show m { σ with env := f :: σ.env } = _ from h]
  · change KeptScopes (f :: σ.env) σ'.env at hk
    cases he : σ'.env with
    | nil => rw [he] at hk; cases hk
    | cons g env =>
      rw [he] at hk
      cases hk with
      | cons h1 h2 =>
        refine .inr ⟨(v, g), { σ' with env := env }, ?_, hv, h1, hp, h2⟩
        unfold EM.inFrame
        rw [show m { σ with env := f :: σ.env } = _ from h]
        simp only [he]

theorem each2_names {f g : Frame} (h : Each2 SameOrData f g) : g.map (·.1) = f.map (·.1) := by
  induction h with
  | nil => rfl
  | cons hp _ ih => rw [List.map_cons, List.map_cons, ih, hp.1]

theorem distribute_data : ∀ (as : List Str) {vs : List Node}, Solid vs → ∀ p ∈ distribute as vs, Inert p.2
  | [], _, _, p, hp => by cases hp
  | a :: as, [], h, p, hp => by
    rcases List.mem_cons.1 hp with rfl | hp
    · exact .none
    · exact distribute_data as h p hp
  | a :: as, v :: vs, h, p, hp => by
    rcases List.mem_cons.1 hp with rfl | hp
    · exact h v List.mem_cons_self
    · exact distribute_data as (fun w hw => h w (List.mem_cons_of_mem _ hw)) p hp

theorem bindings_data (lval : LVal) {v : Node} (h : Inert v) :
    (∀ p ∈ bindings lval v, Inert p.2) ∧ (bindings lval v).map (·.1) = lvalNames lval := by
  cases lval with
  | one a =>
    refine ⟨fun p hp => ?_, rfl⟩
    simp only [bindings, List.mem_singleton] at hp
    subst hp
    exact h
  | many as =>
    have hall : (∀ p ∈ as.map (fun a => (a.txt, v)), Inert p.2) ∧ (as.map (fun a => (a.txt, v))).map (·.1) = as.map (·.txt) := by
      refine ⟨fun p hp => ?_, by rw [List.map_map]; rfl⟩
      obtain ⟨a, _, rfl⟩ := List.mem_map.1 hp
      exact h
    cases h with
    | list xs hd => exact ⟨distribute_data _ hd, distribute_names _ _⟩
    | _ => exact hall

theorem evalAssign_halts {lval : LVal} {ast : Node} {σ : ESt} (hn : (lvalNames lval).Nodup)
    (h : Halts (ev e ast) (push σ ((lvalNames lval).map (fun a => (a, .bound))))
      (fun v σ' => Inert v ∧ KeepsData (push σ ((lvalNames lval).map (fun a => (a, .bound)))) σ')) :
    Halts (evalAssign (ev e) lval ast) σ
      (fun f σ' => (∀ p ∈ f, Inert p.2) ∧ f.map (·.1) = lvalNames lval ∧ KeepsData σ σ') := by
  unfold evalAssign
  rw [lval_frame hn]
  refine halts_bind (halts_inFrame h) (fun r σ' hr => ?_)
  obtain ⟨v, f⟩ := r
  obtain ⟨h1, h2, h3⟩ := hr
  have hf : f.map (·.1) = lvalNames lval := by
    rw [each2_names h2, List.map_map]
    exact (List.map_congr_left (fun a _ => rfl)).trans (List.map_id _)
  refine halts_pure ?_
  change (∀ p ∈ assign f lval v, Inert p.2) ∧ (assign f lval v).map (·.1) = _ ∧ _
  rw [assign_eq hf hn]
  exact ⟨(bindings_data lval h1).1, (bindings_data lval h1).2, h3⟩

/-! ## Built-in functions -/

theorem strResult_inert {v : Node} (h : Inert v) : Inert (strResult v) := by
  cases h <;> first | (rename_i h; exact .list _ h) | constructor

theorem special_halts {f : Src} {args : List Node} {loc : Option Loc} {sc : List Str} (ht : MakesData e sc f.txt) (hs : isSpecial f.txt = true)
    (ha : Solid args) (σ : ESt) : Halts (applySpecial e f args loc) σ (fun v σ' => Inert v ∧ KeepsData σ σ') := by
  have hvar : ∀ {x : Node}, Inert x → x.isVar = false := fun h => by cases h <;> rfl
  unfold applySpecial
  simp only [ht.lazy, ht.reduce, if_false]
  split
  · match args, ha with
    | [], _ => exact halts_err
    | [x], ha =>
      simp only [hvar (ha x (by simp)), Bool.false_eq_true, if_false]
      exact halts_pure ⟨.pstr _, keepsData_refl σ⟩
    | _ :: _ :: _, _ => exact halts_err
  · rename_i hr
    split
    · match args, ha with
      | [], _ => exact halts_err
      | [x], ha => exact halts_pure ⟨.int _, keepsData_refl σ⟩
      | _ :: _ :: _, _ => exact halts_err
    · rename_i hi
      split
      · match args, ha with
        | [], _ => exact halts_err
        | [x], ha =>
          simp only
          cases hl : x.asList with
          | none => exact halts_err
          | some xs =>
            have hd : Solid xs := by
              cases ha x (by simp) with
              | list ys h1 => cases hl; exact h1
              | _ => cases hl
            refine .inr ⟨_, _, rfl, ?_, rfl, keptScopes_refl _⟩
            cases hx : xs[e.passage]? with
            | none => exact .none
            | some y => exact hd y (List.mem_of_getElem? hx)
        | _ :: _ :: _, _ => exact halts_err
      · rename_i hp
        exfalso
        unfold isSpecial at hs
        simp only [List.mem_cons, List.not_mem_nil, or_false, decide_eq_true_eq] at hs
        rcases hs with h | h | h | h | h | h
        · exact hp h
        · exact hi h
        · exact ht.lazy h
        · exact ht.skip h
        · exact ht.reduce h
        · exact hr h

theorem builtin_halts {f : Src} {args : List Node} {ns : List (Src × Node)} {loc : Option Loc} {σ : ESt}
    (ht : MakesData e σ.p.scripts f.txt) (ha : Solid args) {sp : Bool} (hs : sp = true → isSpecial f.txt = true) :
    Halts (applyBuiltin e f sp args ns loc) σ (fun v σ' => Inert v ∧ KeepsData σ σ') := by
  unfold applyBuiltin
  split
  · exact halts_err
  · cases sp with
    | true => exact special_halts ht (hs rfl) ha σ
    | false =>
      simp only [Bool.false_eq_true, if_false]
      refine halts_bind (halts_get (Q := fun s s' => s = σ ∧ s' = σ) ⟨rfl, rfl⟩) ?_
      rintro _ _ ⟨rfl, rfl⟩
      split
      · rename_i v hv
        unfold applyConst
        split
        · exact halts_pure ⟨ht.const v hv, keepsData_refl _⟩
        · exact halts_err
      · unfold applyFunction
        rename_i σ _ _
        cases hc : e.call σ.py f.txt args σ.seen with
        | none =>
          refine .inl ?_
          simp only [solid_terms ha, if_true, hc]
        | some r =>
          obtain ⟨v, seen⟩ := r
          refine .inr ⟨callResult v, { σ with seen := seen }, ?_, ht.call _ _ _ _ _ ha hc, rfl, keptScopes_refl _⟩
          simp only [solid_terms ha, if_true, hc]

/-! ## Programs -/

theorem evalVar_halts {Γ : NamesAt} {late : Bool} {reg : List Src} {a : Src} {σ : ESt} (hf : Fits Γ σ.env) (hw : ¬ Γ.waiting a.txt)
    (h : Γ.sure a.txt ∨ late = false ∧ Itself e σ.p.scripts a.txt) :
    Halts (ev e (.var late reg a)) σ (fun v σ' => Inert v ∧ KeepsData σ σ') := by
  have heq : ev e (.var late reg a) σ = evalVar e late reg a σ := by rw [ev_at]; rfl
  unfold Halts
  rw [heq]
  unfold evalVar
  cases hl : Scopes.lookup σ.env a.txt with
  | some v =>
    have hv := hf.data _ _ hw hl
    have hb : v.isBound = false := by cases hv <;> rfl
    exact .inr ⟨v, σ, by simp only [hb]; rfl, hv, keepsData_refl σ⟩
  | none =>
    rcases h with h | ⟨rfl, h⟩
    · have := hf.sure _ h; rw [hl] at this; cases this
    · simp only [Bool.false_eq_true, if_false]
      cases reg with
      | cons r reg => exact .inl rfl
      | nil =>
        simp only [List.isEmpty_nil, Bool.not_true, Bool.false_eq_true, if_false, h.builtin, h.special, if_neg h.hyphen]
        exact .inr ⟨_, σ, rfl, .atom a, keepsData_refl σ⟩

/-- What a name that is called stands for. -/
theorem callee_halts {Γ : NamesAt} {reg : List Src} {f : Src} {σ : ESt} (hf : Fits Γ σ.env) (hw : ¬ Γ.waiting f.txt)
    (ht : '-' ∈ f.txt → e.builtin σ.p.scripts f.txt ≠ none) :
    Halts (ev e (.var false reg f)) σ (fun v σ' => σ' = σ ∧
      (Inert v ∨ ∃ sp, v = .builtin f sp ∧ (sp = true → isSpecial f.txt = true))) := by
  have heq : ev e (.var false reg f) σ = evalVar e false reg f σ := by rw [ev_at]; rfl
  unfold Halts
  rw [heq]
  unfold evalVar
  cases hl : Scopes.lookup σ.env f.txt with
  | some v =>
    have hv := hf.data _ _ hw hl
    have hb : v.isBound = false := by cases hv <;> rfl
    exact .inr ⟨v, σ, by simp only [hb]; rfl, rfl, .inl hv⟩
  | none =>
    simp only [Bool.false_eq_true, if_false]
    cases reg with
    | cons r reg => exact .inl rfl
    | nil =>
      simp only [List.isEmpty_nil, Bool.not_true, Bool.false_eq_true, if_false]
      cases hb : e.builtin σ.p.scripts f.txt with
      | some b => exact .inr ⟨_, σ, rfl, rfl, .inr ⟨false, rfl, nofun⟩⟩
      | none =>
        simp only
        cases hs : isSpecial f.txt with
        | true => exact .inr ⟨_, σ, rfl, rfl, .inr ⟨true, rfl, fun _ => rfl⟩⟩
        | false =>
          simp only [Bool.false_eq_true, if_false]
          rw [if_neg (fun hh => ht hh hb)]
          exact .inr ⟨_, σ, rfl, rfl, .inl (.atom f)⟩

/-- What becomes of the pieces of a text. -/
def TermItems (ys : List Node) : Prop := ∀ y ∈ ys, isTerm y = true

theorem t_halts {xs : List Node} {i : Indent} {σ : ESt}
    (h : Halts (evalT (ev e) i 0 false xs) σ (fun ys σ' => TermItems ys ∧ KeepsData σ σ')) :
    Halts (ev e (.t xs i)) σ (fun v σ' => Inert v ∧ KeepsData σ σ') := by
  have heq : ev e (.t xs i) σ = (evalT (ev e) i 0 false xs >>= fun ys => finishT e i ys) σ := by rw [ev_at]; rfl
  unfold Halts
  rw [heq]
  refine halts_bind h (fun ys σ' hy => ?_)
  refine .inr ⟨_, σ', rfl, ?_, hy.2⟩
  rw [(areTerms_iff ys).2 hy.1]
  simp only [if_true]
  split
  · exact .result _
  · exact .pstr _

theorem evalT_afterSet (rec : Node → EM Node) (i : Indent) (xs : List Node) :
    evalT rec i 0 false (trimNext i xs) = evalT rec i 0 i.isStr xs := by
  cases xs with
  | nil => unfold trimNext evalT; rfl
  | cons x xs =>
    unfold trimNext
    cases hi : i.isStr with
    | false => rfl
    | true => simp only [if_true]; unfold evalT; simp only [if_true, Bool.false_eq_true, if_false]

theorem setTrim_inert {x : Node} (h : Inert x) : Inert (setTrim x) := by
  cases h <;> first | (rename_i h; exact .list _ h) | constructor

/-- A piece whose value is data. -/
theorem piece_halts {i : Indent} {tr : Bool} {x : Node} {rest : List Node} {σ : ESt}
    (hx : ∀ x', (x' = x ∨ x' = setTrim x) → Halts (ev e x') σ (fun v σ' => (Inert v ∨ ∃ w, v = .embed w ∧ Inert w) ∧ KeepsData σ σ'))
    (hr : ∀ i tr σ', KeepsData σ σ' → Halts (evalT (ev e) i 0 tr rest) σ' (fun ys σ'' => TermItems ys ∧ KeepsData σ' σ'')) :
    Halts (evalT (ev e) i 0 tr (x :: rest)) σ (fun ys σ' => TermItems ys ∧ KeepsData σ σ') := by
  unfold evalT
  simp only
  have hx' := hx (if tr = true then setTrim x else x) (by cases tr <;> simp)
  generalize hxx : (if tr = true then setTrim x else x) = x' at hx'
  split
  · exact hr _ _ _ (keepsData_refl σ)
  · refine halts_bind hx' (fun v σ' hv => ?_)
    obtain ⟨hv, hk⟩ := hv
    have hr' : ∀ i tr, Halts (evalT (ev e) i 0 tr rest) σ' (fun ys σ'' => TermItems ys ∧ KeepsData σ σ'') :=
      fun i tr => halts_mono (hr i tr σ' hk) (fun ys σ'' h => ⟨h.1, keepsData_trans hk h.2⟩)
    have hitem : ∀ w, isTerm w = true → ∀ j, Halts ((evalT (ev e) j 0 false rest) >>= fun ys =>
        pure ((if x'.isApply then Node.trim w i.orEmpty else w) :: ys)) σ' (fun ys σ'' => TermItems ys ∧ KeepsData σ σ'') := by
      intro w hw j
      refine halts_bind (hr' j false) (fun ys σ'' hy => halts_pure ⟨?_, hy.2⟩)
      intro y hm
      rcases List.mem_cons.1 hm with rfl | hm
      · split
        · exact hw
        · exact hw
      · exact hy.1 y hm
    rcases hv with hv | ⟨w, rfl, hw⟩
    · cases hv with
      | none => exact hr' _ _
      | list xs hd => exact hitem _ (inert_term (.list xs hd)) _
      | _ => exact hitem _ rfl _
    · have hp : pieceOf (.embed w) = .item w := by cases hw <;> rfl
      simp only [hp]
      exact hitem _ (inert_term hw) _

/-- What is claimed of a part of a program. -/
def PartHalts (e : EEnv) (σ : ESt) : Part → Prop
  | .expr x => Halts (ev e x) σ (fun v σ' => Inert v ∧ KeepsData σ σ')
  | .items xs => Halts (evalList (ev e) xs) σ (fun vs σ' => Solid vs ∧ KeepsData σ σ')
  | .named ns => NamedOk e KeepsData ns σ
  | .pieces xs => ∀ i tr, Halts (evalT (ev e) i 0 tr xs) σ (fun ys σ' => TermItems ys ∧ KeepsData σ σ')
  | .skipped n xs => ∀ i, Halts (evalT (ev e) i n false xs) σ (fun ys σ' => TermItems ys ∧ KeepsData σ σ')

theorem halts_step {x : Node} {m : EM Node} {σ : ESt} {Q : Node → ESt → Prop} (h : ev e x σ = m σ) (hm : Halts m σ Q) :
    Halts (ev e x) σ Q := by
  unfold Halts
  rw [h]
  exact hm

theorem takeFirst_inert {v : Node} (h : Inert v) : Inert (takeFirst v).1 ∧ Inert (takeFirst v).2 := by
  cases h with
  | list xs hd =>
    cases xs with
    | nil => exact ⟨.none, .list _ hd⟩
    | cons x xs => exact ⟨hd x List.mem_cons_self, .list _ (fun y hy => hd y (List.mem_cons_of_mem _ hy))⟩
  | _ => exact ⟨by constructor, by constructor⟩

theorem update_halts (a : Str) {v : Node} (h : Inert v) (σ : ESt) : Halts (EM.update a v) σ (fun _ σ' => KeepsData σ σ') :=
  .inr ⟨(), _, rfl, rfl, update_kept h σ.env⟩

theorem evalLocal_vars {Γ : NamesAt} : ∀ {f : Frame} {σ : ESt}, Fits Γ σ.env →
    (∀ p ∈ f, p.2 = .var false [] { txt := p.1 } ∧ ¬ Γ.waiting p.1 ∧ (Scopes.lookup σ.env p.1).isSome) →
    ∃ g, evalLocal (ev e) f σ = .ok (g, σ) ∧ ∀ p ∈ g, Inert p.2
  | [], σ, _, _ => ⟨[], rfl, nofun⟩
  | (k, x) :: f, σ, hf, h => by
    obtain ⟨h1, h2, h3⟩ := h (k, x) List.mem_cons_self
    simp only at h1 h2 h3
    subst h1
    obtain ⟨v, hl⟩ := Option.isSome_iff_exists.1 h3
    have hv := hf.data k v h2 hl
    have hev : ev e (.var false [] { txt := k }) σ = .ok (v, σ) := by
      rw [ev_at]
      change evalVar e false [] { txt := k } σ = _
      unfold evalVar
      rw [hl]
      have hb : v.isBound = false := by cases hv <;> rfl
      simp only [hb]; rfl
    obtain ⟨g, hg, hd⟩ := evalLocal_vars hf (fun p hp => h p (List.mem_cons_of_mem _ hp))
    refine ⟨(k, v) :: g, ?_, ?_⟩
    · unfold evalLocal
      rw [em_bind_ok hev, em_bind_ok hg]
      rfl
    · intro p hp
      rcases List.mem_cons.1 hp with rfl | hp
      · exact hv
      · exact hd p hp

theorem mem_set {f : Frame} {k : Str} {v : Node} {p : Str × Node} (h : p ∈ Frame.set f k v) : p ∈ f ∨ p = (k, v) := by
  unfold Frame.set Frame.del at h
  rcases List.mem_append.1 h with h | h
  · exact .inl (List.mem_filter.1 h).1
  · exact .inr (List.mem_singleton.1 h)

theorem mem_ofList_aux : ∀ (l : List (Str × Node)) (f : Frame) (p : Str × Node),
    p ∈ l.foldl (fun f q => Frame.set f q.1 q.2) f → p ∈ f ∨ p ∈ l
  | [], f, p, h => .inl h
  | q :: l, f, p, h => by
    rcases mem_ofList_aux l _ p h with h | h
    · rcases mem_set h with h | rfl
      · exact .inl h
      · exact .inr List.mem_cons_self
    · exact .inr (List.mem_cons_of_mem _ h)

theorem straight_halts {sc : List Str} {Γ : NamesAt} {p : Part} (h : Straight e sc Γ p) :
    ∀ σ : ESt, σ.p.scripts = sc → Fits Γ σ.env → PartHalts e σ p := by
  have next : ∀ {σ σ' : ESt} {Γ : NamesAt}, KeepsData σ σ' → σ.p.scripts = sc → Fits Γ σ.env → σ'.p.scripts = sc ∧ Fits Γ σ'.env :=
    fun hk hs hf => ⟨by rw [hk.1]; exact hs, fits_kept hf hk.2⟩
  induction h with
  | data hx =>
    intro σ _ _
    obtain ⟨w, h1, h2, _⟩ := ev_inert (e := e) hx σ
    exact .inr ⟨w, σ, h1, h2, keepsData_refl σ⟩
  | name hw h =>
    rintro σ rfl hf
    exact evalVar_halts hf hw h
  | @list Γ xs _ ih =>
    intro σ hs hf
    refine halts_step (m := evalList (ev e) xs >>= fun ys => pure (Node.list ys)) (by rw [ev_at]; rfl) ?_
    exact halts_bind (ih σ hs hf) (fun ys σ' hy => halts_pure ⟨.list ys hy.1, hy.2⟩)
  | @apply Γ fn args ns loc _ _ _ ih1 ih2 ih3 =>
    intro σ hs hf
    refine halts_step (ev_apply_eq fn args ns loc σ) ?_
    refine halts_bind (ih1 σ hs hf) (fun f σ1 h1 => ?_)
    obtain ⟨hs1, hf1⟩ := next h1.2 hs hf
    refine halts_bind (ih2 σ1 hs1 hf1) (fun vs σ2 h2 => ?_)
    obtain ⟨hs2, hf2⟩ := next h2.2 hs1 hf1
    rw [inert_setCall h1.1]
    exact halts_mono (applyTo_data h1.1 h2.1 loc (ih3 σ2 hs2 hf2))
      (fun v σ3 h3 => ⟨h3.1, keepsData_trans h1.2 (keepsData_trans h2.2 h3.2)⟩)
  | @call Γ reg f args ns loc hw ht _ _ ih2 ih3 =>
    rintro σ rfl hf
    refine halts_step (ev_apply_eq _ args ns loc σ) ?_
    refine halts_bind (callee_halts hf hw ht.hyphen) (fun f' σ1 h1 => ?_)
    obtain ⟨rfl, h1⟩ := h1
    refine halts_bind (ih2 σ1 rfl hf) (fun vs σ2 h2 => ?_)
    obtain ⟨hs2, hf2⟩ := next h2.2 rfl hf
    rcases h1 with h1 | ⟨sp, rfl, h1⟩
    · rw [inert_setCall h1]
      exact halts_mono (applyTo_data h1 h2.1 loc (ih3 σ2 hs2 hf2)) (fun v σ3 h3 => ⟨h3.1, keepsData_trans h2.2 h3.2⟩)
    · refine halts_mono (builtin_halts (f := f) (loc := loc) (ns := ns) (by rw [hs2]; exact ht) h2.1 h1)
        (fun v σ3 h3 => ⟨h3.1, keepsData_trans h2.2 h3.2⟩)
  | @letn Γ lval ast form hn _ _ ih1 ih2 =>
    intro σ hs hf
    refine halts_step (m := evalLet (ev e) lval ast form) (by rw [ev_at]; rfl) ?_
    unfold evalLet
    refine halts_bind (evalAssign_halts hn (ih1 _ hs (fits_hide hf _))) (fun f σ1 h1 => ?_)
    obtain ⟨hd, hnm, hk⟩ := h1
    obtain ⟨hs1, hf1⟩ := next hk hs hf
    refine halts_bind (halts_inFrame (ih2 (push σ1 f) hs1 (hnm ▸ fits_bind hf1 hd))) (fun r σ2 h2 => ?_)
    exact halts_pure ⟨h2.1, keepsData_trans hk h2.2.2⟩
  | @cond Γ c l1 l0 _ _ _ ih1 ih2 ih3 =>
    intro σ hs hf
    refine halts_step (m := evalCond (ev e) c l1 l0) (by rw [ev_at]; rfl) ?_
    unfold evalCond
    refine halts_bind (ih1 σ hs hf) (fun v σ1 h1 => ?_)
    obtain ⟨hs1, hf1⟩ := next h1.2 hs hf
    rw [if_pos (inert_term h1.1)]
    split
    · exact halts_mono (ih2 σ1 hs1 hf1) (fun w σ2 h2 => ⟨h2.1, keepsData_trans h1.2 h2.2⟩)
    · exact halts_mono (ih3 σ1 hs1 hf1) (fun w σ2 h2 => ⟨h2.1, keepsData_trans h1.2 h2.2⟩)
  | @python Γ t i loc h =>
    intro σ hs hf
    refine halts_step (m := evalInfix e (ev e) (.text [.plain t i false]) loc) (by rw [ev_at]; rfl) ?_
    unfold evalInfix
    obtain ⟨v, hv, hstr, htx⟩ := infix_text (e := e) t i σ
    refine halts_bind (Q := fun w σ' => w = v ∧ σ' = σ) (.inr ⟨v, σ, hv, rfl, rfl⟩) ?_
    rintro _ _ ⟨rfl, rfl⟩
    rename_i σ
    rw [hstr]
    simp only [Bool.not_true, Bool.false_eq_true, if_false]
    refine halts_bind (halts_get (Q := fun s s' => s = σ ∧ s' = σ) ⟨rfl, rfl⟩) ?_
    rintro _ _ ⟨rfl, rfl⟩
    rename_i σ
    rw [htx]
    refine halts_bind (Q := fun code σ' => e.pyParse (lstrip t.txt) = some code ∧ σ' = σ) (halts_ofOption (fun c hc => ⟨hc, rfl⟩)) ?_
    rintro code _ ⟨hc, rfl⟩
    rename_i σ
    obtain ⟨h1, h2⟩ := h code hc
    refine halts_step (m := evalInfixClosure e (ev e) code _ loc) (by rw [ev_at]; rfl) ?_
    unfold evalInfixClosure
    obtain ⟨g, hg, hd⟩ := evalLocal_vars (e := e) (f := Frame.ofList ((code.names.filter (fun k => (Scopes.lookup σ.env k).isSome)).map
      (fun k => (k, Node.var false [] { txt := k })))) hf (by
        intro p hp
        rcases mem_ofList_aux _ _ _ hp with hp | hp
        · cases hp
        · obtain ⟨k, hk, rfl⟩ := List.mem_map.1 hp
          obtain ⟨hk1, hk2⟩ := List.mem_filter.1 hk
          exact ⟨rfl, h1 k hk1, hk2⟩)
    refine halts_bind (Q := fun g' σ' => g' = g ∧ σ' = σ) (.inr ⟨g, σ, hg, rfl, rfl⟩) ?_
    rintro _ _ ⟨rfl, rfl⟩
    rename_i g σ
    have ht : Frame.terms g = true := by
      unfold Frame.terms
      rw [List.all_eq_true]
      exact fun p hp => inert_term (hd p hp)
    rw [if_pos ht]
    refine halts_bind (halts_get (Q := fun s s' => s' = σ) rfl) ?_
    rintro s _ rfl
    exact halts_ofOption (fun v hv => ⟨h2 _ _ _ hd hv, keepsData_refl _⟩)
  | @emit Γ late reg a ast hw _ ih =>
    intro σ hs hf
    refine halts_step (m := evalEmit (ev e) late reg a ast) (by rw [ev_at]; rfl) ?_
    unfold evalEmit
    refine halts_bind (halts_get (Q := fun s s' => s = σ ∧ s' = σ) ⟨rfl, rfl⟩) ?_
    rintro _ _ ⟨rfl, rfl⟩
    rename_i σ
    cases hl : Scopes.lookup σ.env a.txt with
    | none => exact halts_err
    | some v =>
      have hv := hf.data _ _ hw hl
      have hb : v.isBound = false := by cases hv <;> rfl
      obtain ⟨h1, h2⟩ := takeFirst_inert hv
      simp only [hb, Bool.false_eq_true, if_false]
      generalize takeFirst v = q at h1 h2
      obtain ⟨x, rest⟩ := q
      simp only at h1 h2 ⊢
      refine halts_bind (update_halts a.txt h2 σ) (fun _ σ1 hk1 => ?_)
      obtain ⟨hs1, hf1⟩ := next hk1 hs hf
      split
      · refine halts_bind (Q := fun v σ' => Inert v ∧ KeepsData σ1 σ') ?_ (fun w σ2 h3 => ?_)
        · refine halts_step (ev_apply_eq _ _ _ _ _) ?_
          refine halts_bind (ih σ1 hs1 hf1) (fun f σ2 h3 => ?_)
          obtain ⟨rest', h4, h5, _⟩ := ev_inert (e := e) h2 σ2
          have h6 : evalList (ev e) [rest] σ2 = .ok (spread rest' ++ [], σ2) := by
            unfold evalList
            rw [em_bind_ok h4]
            rfl
          refine halts_bind (Q := fun vs σ' => vs = spread rest' ++ [] ∧ σ' = σ2) (.inr ⟨_, σ2, h6, rfl, rfl⟩) ?_
          rintro _ _ ⟨rfl, rfl⟩
          rename_i σ2
          rw [inert_setCall h3.1, List.append_nil]
          refine halts_mono (applyTo_data h3.1 (spread_solid h5) none (halts_pure ⟨nofun, keepsData_refl _⟩)) ?_
          exact fun v σ3 h7 => ⟨h7.1, keepsData_trans h3.2 h7.2⟩
        · refine halts_bind (update_halts a.txt h3.1 σ2) (fun _ σ3 hk3 => ?_)
          exact halts_pure ⟨h1, keepsData_trans hk1 (keepsData_trans h3.2 hk3)⟩
      · exact halts_pure ⟨h1, hk1⟩
  | @text Γ xs _ ih =>
    intro σ hs hf
    refine halts_step (m := ev e (.t xs (.str []))) (by rw [ev_at]; rfl) ?_
    exact t_halts (ih σ hs hf _ _)
  | block _ ih =>
    intro σ hs hf
    exact t_halts (ih σ hs hf _ _)
  | noItems => exact fun σ _ _ => halts_pure ⟨nofun, keepsData_refl σ⟩
  | item _ _ ih1 ih2 =>
    intro σ hs hf
    unfold PartHalts evalList
    refine halts_bind (ih1 σ hs hf) (fun v σ1 h1 => ?_)
    obtain ⟨hs1, hf1⟩ := next h1.2 hs hf
    refine halts_bind (ih2 σ1 hs1 hf1) (fun vs σ2 h2 => ?_)
    exact halts_pure ⟨solid_append (spread_solid h1.1) h2.1, keepsData_trans h1.2 h2.2⟩
  | @embed Γ x xs _ _ ih1 ih2 =>
    intro σ hs hf
    unfold PartHalts evalList
    refine halts_bind (Q := fun v σ' => ∃ w, v = .embed w ∧ Inert w ∧ KeepsData σ σ') ?_ ?_
    · refine halts_step (m := ev e x >>= fun v => pure (Node.embed v)) (by rw [ev_at]; rfl) ?_
      exact halts_bind (ih1 σ hs hf) (fun v σ1 h1 => halts_pure ⟨v, rfl, h1⟩)
    · rintro _ σ1 ⟨w, rfl, h1, hk⟩
      obtain ⟨hs1, hf1⟩ := next hk hs hf
      refine halts_bind (ih2 σ1 hs1 hf1) (fun vs σ2 h2 => ?_)
      exact halts_pure ⟨solid_append (embed_solid h1) h2.1, keepsData_trans hk h2.2⟩
  | noNamed => exact fun σ _ _ => halts_pure ⟨nofun, keepsData_refl σ⟩
  | named _ _ ih1 ih2 =>
    intro σ hs hf
    unfold PartHalts NamedOk evalNamed
    refine halts_bind (ih1 σ hs hf) (fun v σ1 h1 => ?_)
    obtain ⟨hs1, hf1⟩ := next h1.2 hs hf
    refine halts_bind (ih2 σ1 hs1 hf1) (fun vs σ2 h2 => ?_)
    refine halts_pure ⟨fun p hp => ?_, keepsData_trans h1.2 h2.2⟩
    rcases List.mem_cons.1 hp with rfl | hp
    · exact h1.1
    · exact h2.1 p hp
  | noPieces => exact fun σ _ _ i tr => by unfold evalT; exact halts_pure ⟨nofun, keepsData_refl σ⟩
  | @piece Γ x xs hx _ ih1 ih2 =>
    intro σ hs hf i tr
    refine piece_halts (fun x' hx' => ?_) (fun i tr σ' hk => ih2 σ' (next hk hs hf).1 (next hk hs hf).2 i tr)
    rcases hx' with rfl | rfl
    · exact halts_mono (ih1 σ hs hf) (fun v σ' h => ⟨.inl h.1, h.2⟩)
    · by_cases hp : setTrim x = x
      · rw [hp]; exact halts_mono (ih1 σ hs hf) (fun v σ' h => ⟨.inl h.1, h.2⟩)
      · cases x <;> first | exact absurd rfl hp | skip
        rename_i s j u
        obtain ⟨w, h1, h2, _⟩ := ev_inert (e := e) (.plain s j true) σ
        exact .inr ⟨w, σ, h1, .inl h2, keepsData_refl σ⟩
  | @embedded Γ x xs hx _ ih1 ih2 =>
    intro σ hs hf i tr
    refine piece_halts (fun x' hx' => ?_) (fun i tr σ' hk => ih2 σ' (next hk hs hf).1 (next hk hs hf).2 i tr)
    have : x' = .embed x := by rcases hx' with rfl | rfl <;> rfl
    subst this
    refine halts_step (m := ev e x >>= fun v => pure (Node.embed v)) (by rw [ev_at]; rfl) ?_
    exact halts_bind (ih1 σ hs hf) (fun v σ1 h1 => halts_pure ⟨.inr ⟨v, rfl, h1.1⟩, h1.2⟩)
  | @comment Γ xs _ ih =>
    intro σ hs hf i tr
    have : evalT (ev e) i 0 tr (.comment :: xs) = evalT (ev e) i 0 i.isStr xs := by
      conv => lhs; unfold evalT
      cases tr <;> rfl
    rw [this]
    exact ih σ hs hf _ _
  | @opens Γ xs _ ih =>
    intro σ hs hf i tr
    have : evalT (ev e) i 0 tr (.importBegin :: xs) σ = evalT (ev e) i 0 false xs σ := by
      conv => lhs; unfold evalT
      have h1 : ev e .importBegin σ = .ok (.importBegin, σ) := by rw [ev_at]; rfl
      cases tr <;> exact em_bind_ok h1
    unfold Halts
    rw [this]
    exact ih σ hs hf _ _
  | @closes Γ xs _ ih =>
    intro σ hs hf i tr
    have : evalT (ev e) i 0 tr (.importEnd :: xs) σ = evalT (ev e) i 0 false xs σ := by
      conv => lhs; unfold evalT
      have h1 : ev e .importEnd σ = .ok (.importEnd, σ) := by rw [ev_at]; rfl
      cases tr <;> exact em_bind_ok h1
    unfold Halts
    rw [this]
    exact ih σ hs hf _ _
  | @skip Γ a loc xs ha hb hw _ _ ih1 ih2 =>
    rintro σ rfl hf i tr
    cases hl : Scopes.lookup σ.env a.txt with
    | some v =>
      have hv := hf.data _ _ hw hl
      refine piece_halts (fun x' hx' => ?_) (fun i tr σ' hk => ih1 σ' (next hk rfl hf).1 (next hk rfl hf).2 i tr)
      have : x' = .apply (.var false [] a) [] [] loc := by rcases hx' with rfl | rfl <;> rfl
      subst this
      refine halts_step (ev_apply_eq _ _ _ _ _) ?_
      have hvv : ev e (.var false [] a) σ = .ok (v, σ) := by
        rw [ev_at]
        change evalVar e false [] a σ = _
        unfold evalVar
        rw [hl]
        have hb : v.isBound = false := by cases hv <;> rfl
        simp only [hb]; rfl
      refine halts_bind (Q := fun w σ' => w = v ∧ σ' = σ) (.inr ⟨v, σ, hvv, rfl, rfl⟩) ?_
      rintro w σ1 ⟨hw1, hs1⟩
      rw [hw1, hs1]
      refine halts_bind (Q := fun vs σ' => vs = [] ∧ σ' = σ) (.inr ⟨[], σ, rfl, rfl, rfl⟩) ?_
      rintro vs σ2 ⟨hw2, hs2⟩
      rw [hw2, hs2, inert_setCall hv]
      exact halts_mono (applyTo_data hv (args := []) (fun _ h => nomatch h) loc (halts_pure ⟨nofun, keepsData_refl _⟩)) (fun v σ' h => ⟨.inl h.1, h.2⟩)
    | none =>
      have hvv : ev e (.var false [] a) σ = .ok (.builtin a true, σ) := by
        rw [ev_at]
        change evalVar e false [] a σ = _
        unfold evalVar
        rw [hl]
        have h2 : isSpecial a.txt = true := by rw [ha]; decide
        simp only [hb, h2]; rfl
      have hsk : ev e (.apply (.var false [] a) [] [] loc) σ = .ok (.skip, σ) := by
        rw [ev_apply_eq, em_bind_ok hvv]
        have h0 : evalList (ev e) [] σ = .ok ([], σ) := rfl
        rw [em_bind_ok h0]
        change applySpecial e a [] loc σ = _
        unfold applySpecial
        rw [ha]
        rfl
      have : evalT (ev e) i 0 tr (.apply (.var false [] a) [] [] loc :: xs) σ = evalT (ev e) i 1 false xs σ := by
        conv => lhs; unfold evalT
        cases tr <;> exact em_bind_ok hsk
      unfold Halts
      rw [this]
      exact ih2 σ rfl hf i
  | @set Γ lval ast xs hn ho _ _ ih1 ih2 =>
    intro σ hs hf i tr
    have hout : lval.isOutput = false := by
      cases lval with
      | one a =>
        unfold LVal.isOutput
        simp only [beq_eq_false_iff_ne, ne_eq]
        exact ho a rfl
      | many _ => rfl
    have heq : ev e (.set lval ast) σ = (evalAssign (ev e) lval ast >>= fun f => pure (Node.env f)) σ := by
      rw [ev_at]
      change evalSet e (ev e) lval ast σ = _
      unfold evalSet
      rw [hout]
      rfl
    have hgo : evalT (ev e) i 0 tr (.set lval ast :: xs) σ = (ev e (.set lval ast) >>= fun y =>
        match pieceOf y with
        | .nothing => evalT (ev e) i 0 false xs
        | .skip => evalT (ev e) i 1 false xs
        | .scope f =>
          if xs.isEmpty then pure []
          else do
            let z ← ev e (.setClosure (.t (trimNext i xs) i) f)
            pure [z]
        | .splice ys => do
          let z ← ev e (.t (addIndents i ys ++ xs) i)
          pure (asItems z)
        | .item y => do
          let ys ← evalT (ev e) (nextIndent i (.set lval ast)) 0 false xs
          pure (y :: ys)) σ := by
      conv => lhs; unfold evalT
      cases tr <;> rfl
    unfold Halts
    rw [hgo]
    refine halts_bind (Q := fun y σ' => ∃ f, y = .env f ∧ (∀ p ∈ f, Inert p.2) ∧ f.map (·.1) = lvalNames lval ∧ KeepsData σ σ') ?_ ?_
    · refine halts_step heq ?_
      exact halts_bind (evalAssign_halts hn (ih1 _ hs (fits_hide hf _))) (fun f σ' h => halts_pure ⟨f, rfl, h⟩)
    · rintro _ σ1 ⟨f, rfl, hd, hnm, hk⟩
      obtain ⟨hs1, hf1⟩ := next hk hs hf
      change Halts (if xs.isEmpty then pure [] else do
            let z ← ev e (.setClosure (.t (trimNext i xs) i) f)
            pure [z]) σ1 _
      split
      · exact halts_pure ⟨nofun, hk⟩
      · refine halts_bind (Q := fun z σ' => Inert z ∧ KeepsData σ1 σ') ?_ (fun z σ2 h2 => halts_pure ⟨?_, keepsData_trans hk h2.2⟩)
        · refine halts_step (m := evalSetClosure (ev e) (.t (trimNext i xs) i) f) (by rw [ev_at]; rfl) ?_
          unfold evalSetClosure
          have hin : Halts (ev e (.t (trimNext i xs) i)) (push σ1 f) (fun v σ' => Inert v ∧ KeepsData (push σ1 f) σ') := by
            refine t_halts ?_
            rw [evalT_afterSet]
            exact ih2 (push σ1 f) hs1 (hnm ▸ fits_bind hf1 hd) i _
          refine halts_bind (halts_inFrame hin) (fun r σ2 h2 => ?_)
          obtain ⟨v, g⟩ := r
          change Halts (if isTerm v = true then pure v else pure (v.setClosure g)) σ2 _
          rw [if_pos (inert_term h2.1)]
          exact halts_pure ⟨h2.1, h2.2.2⟩
        · intro y hy
          rw [List.mem_singleton.1 hy]
          exact inert_term h2.1
  | @output Γ a ast xs ha _ _ ih1 ih2 =>
    intro σ hs hf i tr
    have heq : ev e (.set (.one a) ast) σ = (ev e ast >>= fun v => setOutput e v >>= fun _ => pure Node.none) σ := by
      rw [ev_at]
      change evalSet e (ev e) (.one a) ast σ = _
      have ho : LVal.isOutput (.one a) = true := by
        change (a.txt == lit "__OUTPUT_FILE__") = true
        rw [ha]
        exact beq_self_eq_true _
      unfold evalSet
      rw [ho]
      rfl
    refine piece_halts (fun x' hx' => ?_) (fun i tr σ' hk => ih2 σ' (next hk hs hf).1 (next hk hs hf).2 i tr)
    have : x' = .set (.one a) ast := by rcases hx' with rfl | rfl <;> rfl
    subst this
    refine halts_step heq ?_
    refine halts_bind (ih1 σ hs hf) (fun v σ1 h1 => ?_)
    refine halts_bind (Q := fun _ σ' => KeepsData σ1 σ') (.inr ⟨(), _, rfl, ?_⟩) (fun _ σ2 h2 => halts_pure ⟨.inl .none, keepsData_trans h1.2 h2⟩)
    split
    · exact ⟨rfl, keptScopes_refl _⟩
    · exact keepsData_refl _
  | skipEnd _ ih => exact fun σ hs hf i => ih σ hs hf i false
  | skipNone => exact fun σ _ _ i => by unfold evalT; exact halts_pure ⟨nofun, keepsData_refl σ⟩
  | @skipOne Γ n x xs _ ih =>
    intro σ hs hf i
    have : evalT (ev e) i (n + 1) false (x :: xs) = evalT (ev e) i (skipStep (n + 1) x) false xs := by
      conv => lhs; unfold evalT
    rw [this]
    exact ih σ hs hf i

end Yupp
