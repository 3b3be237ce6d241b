import Verif.Spec.Beta
import Verif.Props.Subst
/-!
# Evaluating the body of a function while some parameters have no value yet
-/

namespace Yupp

open Spec

theorem data_value {v : Node} (h : Data v) : Value v := by
  induction h with
  | list xs _ hn ih => exact .list xs ih hn
  | none => exact .none
  | atom => exact .atom _
  | remark => exact .remark _
  | str => exact .str _
  | plain => exact .plain _ _ _
  | pstr => exact .pstr _
  | result => exact .result _
  | int => exact .int _
  | bool => exact .bool _
  | float => exact .float _

/-- Heads of results: nothing that a list or a text treats in a special way. -/
def normal : Node → Bool
  | .none | .atom _ | .remark _ | .str _ | .plain _ _ _ | .pstr _ | .result _ | .int _ | .bool _ | .float _ => true
  | .list xs => xs.all (fun x => match x with | .none => false | _ => true)
  | .var _ _ _ | .t _ _ | .apply _ _ _ _ | .condClosure _ _ _ | .infixClosure _ _ _ => true
  | _ => false

theorem normal_list {xs : List Node} : normal (.list xs) = true ↔ ∀ x ∈ xs, x ≠ .none := by
  simp only [normal, List.all_eq_true]
  constructor
  · intro h x hx hn
    have := h x hx
    rw [hn] at this
    simp at this
  · intro h x hx
    have := h x hx
    cases x <;> simp_all

theorem data_normal {v : Node} (h : Data v) : normal v = true := by
  cases h with
  | list xs hx hn => exact normal_list.2 hn
  | _ => rfl

theorem data_live {v : Node} (h : Data v) : detectDeadlock v = false := by
  induction h with
  | list xs hx hn ih =>
    unfold detectDeadlock
    clear hx hn
    induction xs with
    | nil => rfl
    | cons x xs ihx =>
      unfold detectDeadlocks
      rw [ih x (by simp), ihx (fun y hy => ih y (by simp [hy]))]; rfl
  | _ => rfl

theorem data_term {v : Node} (h : Data v) : isTerm v = true := value_term (data_value h)

theorem data_not_bound {v : Node} (h : Data v) : v.isBound = false := by cases h <;> rfl

theorem ev_data (e : EEnv) {v : Node} (h : Data v) (s : ESt) : ev e v s = .ok (v, s) := ev_value e (data_value h) s

theorem normal_spread {y : Node} (h : normal y = true) : spread y = single y := by
  cases y <;> first | rfl | simp [normal] at h

theorem normal_setCall {y : Node} (h : normal y = true) (c : Option Src) : y.setCall c = y := by
  cases y <;> first | rfl | simp [normal] at h

theorem normal_piece {y : Node} (h : normal y = true) (hn : y ≠ .none) : pieceOf y = .item y := by
  cases y <;> first | rfl | exact absurd rfl hn | simp [normal] at h

/-- The names have their final values or none yet. -/
def Toward (K : Str → Prop) (ρ : Str → Option Node) (env : Scopes) : Prop :=
  ∀ k, K k → Scopes.lookup env k = ρ k ∨ (Scopes.lookup env k = some .bound ∧ (ρ k).isSome = true)

/-- The names have their final values. -/
def AllKnown (K : Str → Prop) (ρ : Str → Option Node) (env : Scopes) : Prop :=
  ∀ k, K k → Scopes.lookup env k = ρ k

def withEnv (s : ESt) (env : Scopes) : ESt := { s with env := env }

/-- What evaluation with missing names gives: `y` in the place of `x`. -/
structure Settles (D : Node → Option Node → Prop) (closed : Prop) (x y : Node) (r : Option Node) : Prop where
  reads : D y r
  normal : normal y = true
  term : isTerm y = true → Data y
  closed : closed → Data y
  live : detectDeadlock y = false
  simple : Simple x → Simple y
  embeds : Embeds x → Data y ∨ Embeds y

section
variable {e : EEnv} {s : ESt} {K : Str → Prop} {ρ : Str → Option Node}

theorem reads_of_data {n : Nat} {v : Node} (h : Data v) : Reads e s K ρ n v (some v) := by
  induction n with
  | zero => exact .data h
  | succ n ih => exact .up ih

theorem reads_up {n : Nat} {x : Node} {r : Option Node} (h : Reads e s K ρ n x r) : Reads e s K ρ (n + 1) x r := .up h

/-- Data stand for themselves. -/
theorem items_of_data {D : Node → Option Node → Prop} (hD : ∀ v r, D v r → Data v → r = some v) {xs : List Node}
    {rs : Option (List Node)} (h : ReadsItems D xs rs) (hx : ∀ x ∈ xs, Data x) (hn : ∀ x ∈ xs, x ≠ .none) : rs = some xs := by
  induction h with
  | nil => rfl
  | @item x r xs rs h1 _ ih =>
    have := hD x r h1 (hx x (by simp))
    rw [this, ih (fun y hy => hx y (by simp [hy])) (fun y hy => hn y (by simp [hy]))]
    have hx' := hn x (by simp)
    cases x <;> first | rfl | exact absurd rfl hx'
  | embed => exact absurd (hx _ (List.mem_cons_self ..)) (by intro h; cases h)

theorem reads_data : ∀ {n : Nat} {v : Node} {r : Option Node}, Reads e s K ρ n v r → Data v → r = some v := by
  intro n
  induction n with
  | zero =>
    intro v r h hv
    cases h with
    | data _ => rfl
    | name => cases hv
    | self => cases hv
  | succ n ih =>
    intro v r h hv
    cases h with
    | up h => exact ih h hv
    | list h =>
      cases hv with
      | list _ hx hn => rw [items_of_data (fun v r => ih) h hx hn]; rfl
    | _ => cases hv

theorem reads_var : ∀ {n : Nat} {a : Src} {r : Option Node}, Reads e s K ρ n (.var false [] a) r →
    ReadsLeaf e s K ρ (.var false [] a) r := by
  intro n
  induction n with
  | zero => intro a r h; exact h
  | succ n ih =>
    intro a r h
    cases h with
    | up h => exact ih h

theorem items_data {D : Node → Option Node → Prop} (hD : ∀ v, Data v → D v (some v)) {ys : List Node} {rs : Option (List Node)}
    (h : ReadsItems D ys rs) : ∀ {zs : List Node}, (∀ z ∈ zs, Data z) → (∀ z ∈ zs, z ≠ .none) →
    ReadsItems D (zs ++ ys) (rs.map (zs ++ ·)) := by
  intro zs
  induction zs with
  | nil => intro _ _; cases rs <;> exact h
  | cons z zs ih =>
    intro hd hn
    have := ReadsItems.item (hD z (hd z (by simp))) (ih (fun y hy => hd y (by simp [hy])) (fun y hy => hn y (by simp [hy])))
    have hs : single z = [z] := by
      have := hn z (by simp)
      cases z <;> first | rfl | exact absurd rfl this
    cases rs with
    | none => simpa using this
    | some r => simpa [hs] using this

theorem settles_data {D : Node → Option Node → Prop} (hD : ∀ v, Data v → D v (some v)) {c : Prop} {x v : Node} (h : Data v) :
    Settles D c x v (some v) :=
  ⟨hD v h, data_normal h, fun _ => h, fun _ => h, data_live h, fun _ => .inl h, fun _ => .inl h⟩

theorem settles_up {n : Nat} {c : Prop} {x y : Node} {r : Option Node} (h : Settles (Reads e s K ρ n) c x y r) :
    Settles (Reads e s K ρ (n + 1)) c x y r :=
  ⟨.up h.reads, h.normal, h.term, h.closed, h.live, h.simple, h.embeds⟩

/-- Evaluation of `x` in scopes where names may have no value yet: it fails, if that is what `x` stands for, or ends
    without effects with something that stands for the same. -/
def Partly (e : EEnv) (s : ESt) (K : Str → Prop) (ρ : Str → Option Node) (D : Node → Option Node → Prop) (env : Scopes)
    (x : Node) (r : Option Node) : Prop :=
  (ev e x (withEnv s env) = .err ∧ r = none) ∨
  ∃ y, ev e x (withEnv s env) = .ok (y, withEnv s env) ∧ Settles D (AllKnown K ρ env) x y r

theorem em_bind_err {m : EM α} {f : α → EM β} {s : ESt} (h : m s = .err) : (m >>= f) s = .err := by rw [em_bind, h]

/-- Names. -/
theorem partly_leaf {env : Scopes} (he : Toward K ρ env) {x : Node} {r : Option Node} (h : ReadsLeaf e s K ρ x r) :
    Partly e s K ρ (ReadsLeaf e s K ρ) env x r := by
  refine .inr ?_
  cases h with
  | data hv => exact ⟨_, ev_data e hv _, settles_data (fun v h => .data h) hv⟩
  | @name a v hk hv hd =>
    have hev : ∀ w, Scopes.lookup env a.txt = some w → ev e (.var false [] a) (withEnv s env) =
        .ok (if w.isBound then .var false [] a else w, withEnv s env) := by
      intro w hw
      rw [ev_at]
      change evalVar e false [] a (withEnv s env) = _
      unfold evalVar
      change (match Scopes.lookup env a.txt with | none => _ | some v => _) = _
      rw [hw]
      simp only
      split <;> rfl
    rcases he _ hk with h | ⟨h, _⟩
    · rw [hv] at h
      refine ⟨v, ?_, settles_data (fun v h => .data h) hd⟩
      rw [hev v h, data_not_bound hd]; rfl
    · refine ⟨.var false [] a, by rw [hev _ h]; rfl, ⟨.name hk hv hd, rfl, by simp [isTerm], ?_, rfl, fun h => h, fun h => .inr h⟩⟩
      intro hc
      rw [hc _ hk, hv] at h
      cases h; cases hd
  | @self a hk hv hs =>
    rcases he _ hk with h | ⟨_, h⟩
    · rw [hv] at h
      refine ⟨.atom a, ?_, settles_data (fun v h => .data h) (.atom a)⟩
      rw [ev_at]
      change evalVar e false [] a (withEnv s env) = _
      unfold evalVar
      change (match Scopes.lookup env a.txt with | none => _ | some v => _) = _
      rw [h]
      simp only
      have hb : e.builtin (withEnv s env).p.scripts a.txt = none := hs.builtin
      rw [hb, hs.special]
      simp [hs.hyphen]
    · rw [hv] at h; cases h

/-- Items of lists and arguments. -/
theorem partly_items {D : Node → Option Node → Prop} {env : Scopes} (hd : ∀ v r, D v r → Data v → r = some v)
    (hD : ∀ v, Data v → D v (some v)) (hP : ∀ x r, D x r → Partly e s K ρ D env x r) {xs : List Node}
    {rs : Option (List Node)} (h : ReadsItems D xs rs) :
    (evalList (ev e) xs (withEnv s env) = .err ∧ rs = none) ∨
    ∃ ys, evalList (ev e) xs (withEnv s env) = .ok (ys, withEnv s env) ∧ ReadsItems D ys rs ∧ (∀ y ∈ ys, y ≠ .none) ∧
      (areTerms ys = true → ∀ y ∈ ys, Data y) ∧ (AllKnown K ρ env → ∀ y ∈ ys, Data y) ∧ detectDeadlocks ys = false := by
  induction h with
  | nil => exact .inr ⟨[], rfl, .nil, by simp, by simp, by simp, rfl⟩
  | @item x r xs rs h1 _ ih =>
    unfold evalList
    rcases hP x r h1 with ⟨he, hr⟩ | ⟨y, he, hy⟩
    · exact .inl ⟨em_bind_err he, by rw [hr]; rfl⟩
    · rw [em_bind_ok he]
      rcases ih with ⟨he', hr'⟩ | ⟨ys, he', hys, hn, ht, hc, hl⟩
      · refine .inl ⟨em_bind_err he', ?_⟩
        rw [hr']; cases r <;> rfl
      · refine .inr ⟨single y ++ ys, ?_, ?_⟩
        · rw [em_bind_ok he', em_pure, normal_spread hy.normal]
        · by_cases hyn : y = .none
          · subst hyn
            have := hd _ _ hy.reads .none
            subst this
            refine ⟨?_, hn, ht, hc, hl⟩
            cases rs <;> simpa [single] using hys
          · have hs : single y = [y] := by cases y <;> first | rfl | exact absurd rfl hyn
            rw [hs]
            refine ⟨.item hy.reads hys, ?_, ?_, ?_, ?_⟩
            · intro z hz; simp at hz; rcases hz with rfl | hz
              · exact hyn
              · exact hn z hz
            · intro hts z hz
              simp [areTerms] at hts hz
              rcases hz with rfl | hz
              · exact hy.term hts.1
              · exact ht hts.2 z hz
            · intro hcl z hz
              simp at hz; rcases hz with rfl | hz
              · exact hy.closed hcl
              · exact hc hcl z hz
            · simp [detectDeadlocks, hy.live, hl]
  | @embed x r xs rs hem h1 hrn _ ih =>
    unfold evalList
    have hemb : ∀ s, ev e (.embed x) s = (ev e x >>= fun v => pure (Node.embed v)) s := by intro s; rw [ev_at]; rfl
    rcases hP x r h1 with ⟨he, hr⟩ | ⟨y, he, hy⟩
    · refine .inl ⟨em_bind_err ?_, by rw [hr]; rfl⟩
      rw [hemb, em_bind_err he]
    · have he2 : ev e (.embed x) (withEnv s env) = .ok (.embed y, withEnv s env) := by rw [hemb, em_bind_ok he]; rfl
      rw [em_bind_ok he2]
      rcases ih with ⟨he', hr'⟩ | ⟨ys, he', hys, hn, ht, hc, hl⟩
      · refine .inl ⟨em_bind_err he', ?_⟩
        rw [hr']; cases r <;> rfl
      · rw [em_bind_ok he', em_pure]
        rcases hy.embeds hem with hdy | hey
        · have hr := hd _ _ hy.reads hdy
          subst hr
          have hyn : y ≠ .none := fun h => hrn (by rw [h])
          have hsp : spread (.embed y) = several y := by cases hdy <;> rfl
          have hall : (∀ z ∈ several y, Data z) ∧ ∀ z ∈ several y, z ≠ .none := by
            cases hdy with
            | list zs hz hzn => exact ⟨hz, hzn⟩
            | none => exact absurd rfl hyn
            | _ => simp only [several, List.mem_singleton]; exact ⟨by rintro z rfl; constructor, by rintro z rfl; simp⟩
          refine .inr ⟨several y ++ ys, by rw [hsp], ?_, ?_, ?_, ?_, ?_⟩
          · have := items_data hD hys hall.1 hall.2
            simpa using this
          · intro z hz; rcases List.mem_append.1 hz with hz | hz
            · exact hall.2 z hz
            · exact hn z hz
          · intro hts z hz
            rcases List.mem_append.1 hz with hz | hz
            · exact hall.1 z hz
            · rw [areTerms_iff] at hts
              exact ht ((areTerms_iff ys).2 (fun w hw => hts w (by simp [hw]))) z hz
          · intro hcl z hz; rcases List.mem_append.1 hz with hz | hz
            · exact hall.1 z hz
            · exact hc hcl z hz
          · generalize several y = zs at hall
            have hz := hall.1
            clear hsp hall
            induction zs with
            | nil => exact hl
            | cons z zs ihz =>
              rw [List.cons_append, detectDeadlocks, data_live (hz z (by simp)), ihz (fun w hw => hz w (by simp [hw]))]; rfl
        · have hsp : spread (.embed y) = [.embed y] := by cases hey <;> rfl
          refine .inr ⟨.embed y :: ys, by rw [hsp]; rfl, .embed hey hy.reads hrn hys, ?_, ?_, ?_, ?_⟩
          · intro z hz; simp at hz; rcases hz with rfl | hz
            · simp
            · exact hn z hz
          · intro hts; simp [areTerms, isTerm] at hts
          · intro hcl
            have := hy.closed hcl
            cases hey <;> cases this
          · simp [detectDeadlocks, detectDeadlock, hl]

/-- Parts of texts. -/
theorem partly_parts {D : Node → Option Node → Prop} {env : Scopes} (hd : ∀ v r, D v r → Data v → r = some v)
    (hP : ∀ x r, D x r → Partly e s K ρ D env x r) {i : Indent} {t : Bool} {xs : List Node}
    {rs : Option (List Node)} (h : ReadsParts D i t xs rs) :
    (evalT (ev e) i 0 t xs (withEnv s env) = .err ∧ rs = none) ∨
    ∃ ys, evalT (ev e) i 0 t xs (withEnv s env) = .ok (ys, withEnv s env) ∧ ReadsParts D i false ys rs ∧
      (areTerms ys = true → rs = some ys) ∧ (AllKnown K ρ env → areTerms ys = true) ∧ detectDeadlocks ys = false := by
  have hmap : ∀ {v : Node} {rs : Option (List Node)} {ys : List Node}, rs = some ys →
      (rs.map fun vs => v :: vs) = some (v :: ys) := by intro v rs ys h; rw [h]; rfl
  induction h with
  | nil => exact .inr ⟨[], by unfold evalT; rfl, .nil, fun _ => rfl, fun _ => rfl, rfl⟩
  | @plain i t s0 j u xs rs _ ih =>
    have hst : (if t = true then setTrim (.plain s0 j u) else .plain s0 j u) = .plain s0 j (t || u) := by
      cases t <;> simp [setTrim]
    unfold evalT
    simp only [hst]
    rw [em_bind_ok (ev_data e (.plain s0 j (t || u)) _)]
    simp only [pieceOf]
    have hni : nextIndent i (.plain s0 j (t || u)) = nextIndent i (.plain s0 j u) := by cases j <;> rfl
    rw [hni]
    rcases ih with ⟨he, hr⟩ | ⟨ys, he, hys, ht, hc, hl⟩
    · exact .inl ⟨em_bind_err he, by rw [hr]; rfl⟩
    · refine .inr ⟨.plain s0 j (t || u) :: ys, by rw [em_bind_ok he]; rfl, ?_, ?_, ?_, ?_⟩
      · have := ReadsParts.plain (t := false) (u := t || u) (s := s0) (j := j) (i := i) (by rw [hni]; exact hys)
        simpa using this
      · intro h; simp only [areTerms, isTerm, Bool.true_and] at h; exact hmap (ht h)
      · intro h; simp only [areTerms, isTerm, Bool.true_and]; exact hc h
      · simp [detectDeadlocks, detectDeadlock, hl]
  | @comment i t xs rs _ ih =>
    have hst : (if t = true then setTrim .comment else .comment) = .comment := by cases t <;> rfl
    have hev : evalT (ev e) i 0 t (.comment :: xs) = evalT (ev e) i 0 i.isStr xs := by
      rw [evalT]; simp only [hst]
    rw [hev]
    exact ih
  | @data i t v xs rs hv hn hp _ ih =>
    have hst : (if t = true then setTrim v else v) = v := by
      cases t
      · rfl
      · cases hv <;> first | rfl | exact absurd ⟨_, _, _, rfl⟩ hp
    have hni : nextIndent i v = .no := by cases hv <;> first | rfl | exact absurd ⟨_, _, _, rfl⟩ hp
    have hia : v.isApply = false := by cases hv <;> rfl
    have hev : ∀ σ, evalT (ev e) i 0 t (v :: xs) σ = (ev e v >>= fun y => match pieceOf y with
        | .nothing => evalT (ev e) i 0 false xs
        | .skip => evalT (ev e) i 1 false xs
        | .scope f =>
          if xs.isEmpty then pure []
          else do
            let z ← ev e (.setClosure (.t (trimNext i xs) i) f)
            pure [z]
        | .splice zs => do
          let z ← ev e (.t (addIndents i zs ++ xs) i)
          pure (asItems z)
        | .item y => do
          let ys ← evalT (ev e) (nextIndent i v) 0 false xs
          pure ((if v.isApply then .trim y i.orEmpty else y) :: ys)) σ := by
      intro σ
      rw [evalT]
      simp only [hst]
      cases hv <;> rfl
    rw [hev, em_bind_ok (ev_data e hv _), normal_piece (data_normal hv) hn]
    simp only [hni, hia]
    rcases ih with ⟨he, hr⟩ | ⟨ys, he, hys, ht, hc, hl⟩
    · exact .inl ⟨em_bind_err he, by rw [hr]; rfl⟩
    · refine .inr ⟨v :: ys, by rw [em_bind_ok he]; rfl, .data hv hn hp hys, ?_, ?_, ?_⟩
      · intro h; simp only [areTerms, data_term hv, Bool.true_and] at h; exact hmap (ht h)
      · intro h; simp only [areTerms, data_term hv, Bool.true_and]; exact hc h
      · simp [detectDeadlocks, data_live hv, hl]
  | @insert i t fn args named loc r xs rs h1 hrn _ ih =>
    have hst : (if t = true then setTrim (.apply fn args named loc) else .apply fn args named loc) = .apply fn args named loc := by
      cases t <;> rfl
    unfold evalT
    simp only [hst]
    rcases hP _ _ h1 with ⟨he, hr⟩ | ⟨y, he, hy⟩
    · exact .inl ⟨em_bind_err he, by rw [hr]; rfl⟩
    · rw [em_bind_ok he]
      have hyn : y ≠ .none := by
        rintro rfl
        exact hrn (hd _ _ hy.reads .none)
      rw [normal_piece hy.normal hyn]
      simp only [Node.isApply, if_true, nextIndent]
      rcases ih with ⟨he', hr'⟩ | ⟨ys, he', hys, ht, hc, hl⟩
      · exact .inl ⟨em_bind_err he', by rw [hr']; cases r <;> rfl⟩
      · refine .inr ⟨.trim y i.orEmpty :: ys, by rw [em_bind_ok he']; rfl, .trimmed hy.reads hys, ?_, ?_, ?_⟩
        · intro h; simp only [areTerms, isTerm, Bool.and_eq_true] at h
          rw [hd _ _ hy.reads (hy.term h.1), ht h.2]; rfl
        · intro h; simp only [areTerms, isTerm, data_term (hy.closed h), Bool.true_and]; exact hc h
        · simp [detectDeadlocks, detectDeadlock, hy.live, hl]
  | @trimmed i t a j r xs rs h1 _ ih =>
    have hst : (if t = true then setTrim (.trim a j) else .trim a j) = .trim a j := by cases t <;> rfl
    have hev : ∀ σ, ev e (.trim a j) σ = (ev e a >>= fun v => pure (Node.trim v j)) σ := by intro σ; rw [ev_at]; rfl
    unfold evalT
    simp only [hst]
    rcases hP _ _ h1 with ⟨he, hr⟩ | ⟨y, he, hy⟩
    · exact .inl ⟨em_bind_err (by rw [hev, em_bind_err he]), by rw [hr]; rfl⟩
    · have he2 : ev e (.trim a j) (withEnv s env) = .ok (.trim y j, withEnv s env) := by rw [hev, em_bind_ok he]; rfl
      rw [em_bind_ok he2]
      simp only [pieceOf, Node.isApply, nextIndent]
      rcases ih with ⟨he', hr'⟩ | ⟨ys, he', hys, ht, hc, hl⟩
      · exact .inl ⟨em_bind_err he', by rw [hr']; cases r <;> rfl⟩
      · refine .inr ⟨.trim y j :: ys, by rw [em_bind_ok he']; rfl, .trimmed hy.reads hys, ?_, ?_, ?_⟩
        · intro h; simp only [areTerms, isTerm, Bool.and_eq_true] at h
          rw [hd _ _ hy.reads (hy.term h.1), ht h.2]; rfl
        · intro h; simp only [areTerms, isTerm, data_term (hy.closed h), Bool.true_and]; exact hc h
        · simp [detectDeadlocks, detectDeadlock, hy.live, hl]

/-- Names of Python expressions. -/
theorem partly_names {D : Node → Option Node → Prop} {env : Scopes} (hd : ∀ v r, D v r → Data v → r = some v)
    (hP : ∀ x r, D x r → Partly e s K ρ D env x r) {f g : Frame} (h : ReadsNames D f g) :
    ∃ f', evalLocal (ev e) f (withEnv s env) = .ok (f', withEnv s env) ∧ ReadsNames D f' g ∧
      (Frame.terms f' = true → f' = g) ∧ (AllKnown K ρ env → Frame.terms f' = true) := by
  induction h with
  | nil => exact ⟨[], rfl, .nil, fun _ => rfl, fun _ => rfl⟩
  | @cons k x v f g h1 _ ih =>
    unfold evalLocal
    rcases hP _ _ h1 with ⟨_, hr⟩ | ⟨y, he, hy⟩
    · cases hr
    · obtain ⟨f', he', hf, ht, hc⟩ := ih
      refine ⟨(k, y) :: f', by rw [em_bind_ok he, em_bind_ok he']; rfl, .cons hy.reads hf, ?_, ?_⟩
      · intro h
        simp only [Frame.terms, List.all_cons, Bool.and_eq_true] at h
        have := hd _ _ hy.reads (hy.term h.1)
        cases this
        rw [ht h.2]
      · intro h
        simp only [Frame.terms, List.all_cons, Bool.and_eq_true]
        exact ⟨data_term (hy.closed h), hc h⟩

theorem foreach_nothing (rec : Node → EM Node) : ∀ {xs : List Node}, (∀ x ∈ xs, x ≠ .none) → ∀ σ, foreach rec [] xs σ = .ok (xs, σ) := by
  intro xs
  induction xs with
  | nil => intro _ σ; rfl
  | cons x xs ih =>
    intro h σ
    unfold foreach
    have : applyEach rec [] x σ = .ok (x, σ) := rfl
    rw [em_bind_ok this, em_bind_ok (ih (fun y hy => h y (by simp [hy])) σ), em_pure, consSome_cons (h x (by simp))]

theorem ev_apply_eq (fn : Node) (args : List Node) (named : List (Src × Node)) (loc : Option Loc) (σ : ESt) :
    ev e (.apply fn args named loc) σ = (ev e fn >>= fun f => evalList (ev e) args >>= fun vs =>
      applyTo e (ev e) (f.setCall (callOf fn)) vs named loc) σ := by
  rw [ev_at]; rfl

theorem ev_builtin (f : Src) (sp : Bool) (σ : ESt) : ev e (.builtin f sp) σ = .ok (.builtin f sp, σ) := by rw [ev_at]; rfl

theorem data_index {w : Node} {i : Int} (h : Index w i) : Data w := by cases h <;> constructor

theorem data_template {w : Node} {t : Str} (h : Template w t) : Data w := by cases h <;> constructor

theorem items_nil {D : Node → Option Node → Prop} {rs : Option (List Node)} (h : ReadsItems D [] rs) : rs = some [] := by
  cases h; rfl

theorem sequence_data {vs : List Node} (h : ∀ v ∈ vs, Data v) : ∀ v ∈ sequence vs, Data v := by
  unfold sequence
  split
  · next xs => cases h (.list xs) (by simp); assumption
  · exact h

theorem subscript_data {l : List Node} (h : ∀ v ∈ l, Data v) {i : Int} {v : Node} (hs : subscript l i = some v) : Data v := by
  unfold subscript at hs
  split at hs
  · cases hs; exact .none
  · split at hs
    · exact h v (List.mem_of_getElem? hs)
    · split at hs
      · exact h v (List.mem_of_getElem? hs)
      · cases hs

theorem applyTo_number {rec : Node → EM Node} {w : Node} {i : Int} (h : Index w i) (call : Option Src) (args : List Node)
    (loc : Option Loc) : applyTo e rec (w.setCall call) args [] loc = applyNumber w (some i) args [] loc := by
  cases h with
  | float f i hf => rw [← hf]; rfl
  | _ => rfl

theorem ofOption_subscript (xs : List Node) (i : Int) (σ : ESt) :
    (EM.ofOption (subscript xs i) : EM Node) σ = match subscript xs i with | some v => .ok (v, σ) | none => .err := by
  cases subscript xs i <;> rfl

/-- A number applied to data. -/
theorem number_data {w : Node} {i : Int} {args : List Node} {loc : Option Loc} (hne : args ≠ []) (h : ∀ v ∈ args, Data v) (σ : ESt) :
    applyNumber w (some i) args [] loc σ = match subscript (sequence args) i with | some v => .ok (v, σ) | none => .err := by
  have ht : areTerms args = true := (areTerms_iff args).2 (fun v hv => data_term (h v hv))
  have hi : args.isEmpty = false := by cases args <;> simp_all
  unfold applyNumber
  simp only [List.isEmpty_nil, Bool.not_true, Bool.false_eq_true, if_false, hi, ht]
  match args, h with
  | [x], h =>
    have hx := h x (by simp)
    cases hx <;> exact ofOption_subscript _ i σ
  | [], _ => exact absurd rfl hne
  | x :: y :: zs, _ =>
    have : sequence (x :: y :: zs) = x :: y :: zs := by cases x <;> rfl
    rw [this]
    exact ofOption_subscript (x :: y :: zs) i σ

/-- A built-in function with evaluated arguments. -/
theorem partly_builtin {n : Nat} {env : Scopes} {x : Node} {f : Src} {args : List Node} {rs : Option (List Node)} {loc : Option Loc}
    (hd : ∀ v r, Reads e s K ρ n v r → Data v → r = some v)
    (hD' : ∀ v, Data v → Reads e s K ρ (n + 1) v (some v)) (hf : Harmless e s f.txt) (hns : ∀ {z : Node}, Simple x → Simple z)
    (hitems : (evalList (ev e) args (withEnv s env) = .err ∧ rs = none) ∨
      ∃ ys, evalList (ev e) args (withEnv s env) = .ok (ys, withEnv s env) ∧ ReadsItems (Reads e s K ρ n) ys rs ∧ (∀ y ∈ ys, y ≠ .none) ∧
        (areTerms ys = true → ∀ y ∈ ys, Data y) ∧ (AllKnown K ρ env → ∀ y ∈ ys, Data y) ∧ detectDeadlocks ys = false)
    (hre : ∀ ys, ReadsItems (Reads e s K ρ n) ys rs → Reads e s K ρ (n + 1) (.apply (.builtin f false) ys [] loc)
      (rs.bind fun vs => (e.call s.py f.txt vs s.seen).map fun p => callResult p.1)) (call : Option Src := none) :
    ((evalList (ev e) args >>= fun vs => applyTo e (ev e) ((Node.builtin f false).setCall call) vs [] loc) (withEnv s env) = .err ∧
      (rs.bind fun vs => (e.call s.py f.txt vs s.seen).map fun p => callResult p.1) = none) ∨
    ∃ y, (evalList (ev e) args >>= fun vs => applyTo e (ev e) ((Node.builtin f false).setCall call) vs [] loc) (withEnv s env) =
        .ok (y, withEnv s env) ∧
      Settles (Reads e s K ρ (n + 1)) (AllKnown K ρ env) x y
        (rs.bind fun vs => (e.call s.py f.txt vs s.seen).map fun p => callResult p.1) := by
  rcases hitems with ⟨hae, hr⟩ | ⟨ys, hae, hys, hn, ht, hc, hl⟩
  · exact .inl ⟨em_bind_err hae, by rw [hr]; rfl⟩
  · rw [em_bind_ok hae]
    have hto : applyTo e (ev e) ((Node.builtin f false).setCall call) ys [] loc (withEnv s env) =
        applyFunction e f false ys loc (withEnv s env) := by
      change applyBuiltin e f false ys [] loc (withEnv s env) = _
      unfold applyBuiltin
      simp only [List.isEmpty_nil, Bool.not_true, Bool.false_eq_true, if_false, em_bind, em_get]
      have hb : e.builtin (withEnv s env).p.scripts f.txt = some .fn := hf.table
      rw [hb]
    rw [hto]
    unfold applyFunction
    cases hterm : areTerms ys with
    | true =>
      have hdata := ht hterm
      rw [items_of_data hd hys hdata hn]
      simp only [if_true, Option.bind_some]
      have hseen : e.call (withEnv s env).py f.txt ys (withEnv s env).seen = e.call s.py f.txt ys s.seen := rfl
      rw [hseen]
      cases hcall : e.call s.py f.txt ys s.seen with
      | none => exact .inl ⟨rfl, rfl⟩
      | some p =>
        obtain ⟨v, seen⟩ := p
        obtain ⟨h1, h2⟩ := hf.call ys v seen hdata hcall
        subst h1
        exact .inr ⟨callResult v, rfl, settles_data hD' h2⟩
    | false =>
      refine .inr ⟨.apply (.builtin f false) ys [] loc, by simp [hl], ⟨hre ys hys, rfl, by simp [isTerm], ?_, rfl, hns, fun _ => .inr (.called _ _ _)⟩⟩
      intro hcl
      rw [(areTerms_iff ys).2 (fun v hv => data_term (hc hcl v hv))] at hterm
      cases hterm

/-- The text of a Python expression. -/
theorem infix_text (t : Src) (i : Indent) (σ : ESt) : ∃ v, ev e (.text [.plain t i false]) σ = .ok (v, σ) ∧ v.isStr = true ∧
    strOf (textExt e σ) v = t.txt := by
  have hev : ev e (.text [.plain t i false]) σ = (evalT (ev e) (.str []) 0 false [.plain t i false] >>= fun ys => finishT e (.str []) ys) σ := by
    rw [ev_at]
    change ev e (.t _ _) σ = _
    rw [ev_at]; rfl
  have hT : evalT (ev e) (.str []) 0 false [.plain t i false] σ = .ok ([.plain t i false], σ) := by
    unfold evalT
    simp only [Bool.false_eq_true, if_false]
    rw [em_bind_ok (ev_data e (.plain t i false) σ)]
    unfold evalT
    rfl
  rw [hev, em_bind_ok hT]
  unfold finishT
  simp only [areTerms, isTerm, Bool.true_and, if_true]
  by_cases hb : e.cfg.browse = true
  · rw [if_pos hb]
    refine ⟨_, rfl, rfl, ?_⟩
    simp [strOf, plainBrowse, plainBrowses, addTexts, srcRes, getTrimmedWithBrowse]
  · rw [if_neg hb]
    refine ⟨_, rfl, rfl, ?_⟩
    simp [strOf, plainStr, plainStrs, getTrimmed]

theorem partly_infix {n : Nat} {env : Scopes} {x : Node} {code : PyCode} {f g : Frame} {loc : Option Loc}
    (hd : ∀ v r, Reads e s K ρ n v r → Data v → r = some v) (hD' : ∀ v, Data v → Reads e s K ρ (n + 1) v (some v))
    (hP : ∀ x r, Reads e s K ρ n x r → Partly e s K ρ (Reads e s K ρ n) env x r) (h : ReadsNames (Reads e s K ρ n) f g)
    (hdata : ∀ v, e.pyEval s.py code g = some v → Data v) (hns : ∀ {z : Node}, Simple x → Simple z)
    (hne : ∀ {z : Node}, Embeds x → Data z ∨ Embeds z) :
    (ev e (.infixClosure code f loc) (withEnv s env) = .err ∧ e.pyEval s.py code g = none) ∨
    ∃ y, ev e (.infixClosure code f loc) (withEnv s env) = .ok (y, withEnv s env) ∧
      Settles (Reads e s K ρ (n + 1)) (AllKnown K ρ env) x y (e.pyEval s.py code g) := by
  obtain ⟨f', he, hf, ht, hc⟩ := partly_names hd hP h
  have hev : ∀ σ, ev e (.infixClosure code f loc) σ = evalInfixClosure e (ev e) code f loc σ := by intro σ; rw [ev_at]; rfl
  rw [hev]
  unfold evalInfixClosure
  rw [em_bind_ok he]
  cases hterm : Frame.terms f' with
  | true =>
    have := ht hterm
    subst this
    simp only [if_true, em_bind, em_get]
    change ((EM.ofOption (e.pyEval s.py code f') : EM Node) _ = _ ∧ _) ∨ ∃ y, (EM.ofOption (e.pyEval s.py code f') : EM Node) _ = _ ∧ _
    cases hv : e.pyEval s.py code f' with
    | none => exact .inl ⟨rfl, rfl⟩
    | some v => exact .inr ⟨v, rfl, settles_data hD' (hdata v hv)⟩
  | false =>
    refine .inr ⟨.infixClosure code f' loc, rfl, ⟨.pythonClosure hf hdata, rfl, by simp [isTerm], ?_, rfl, hns, hne⟩⟩
    intro hcl; rw [hc hcl] at hterm; cases hterm

theorem partly_t {n : Nat} {env : Scopes} {x : Node} {xs : List Node} {i : Indent} {rs : Option (List Node)}
    (hd : ∀ v r, Reads e s K ρ n v r → Data v → r = some v) (hD' : ∀ v, Data v → Reads e s K ρ (n + 1) v (some v))
    (hP : ∀ x r, Reads e s K ρ n x r → Partly e s K ρ (Reads e s K ρ n) env x r) (h : ReadsParts (Reads e s K ρ n) i false xs rs)
    (hns : ∀ {z : Node}, Simple x → Simple z) (hne : ∀ {z : Node}, Embeds x → Data z ∨ Embeds z) :
    (ev e (.t xs i) (withEnv s env) = .err ∧ rs.map (textValue e s i) = none) ∨
    ∃ y, ev e (.t xs i) (withEnv s env) = .ok (y, withEnv s env) ∧
      Settles (Reads e s K ρ (n + 1)) (AllKnown K ρ env) x y (rs.map (textValue e s i)) := by
  have hev : ∀ σ, ev e (.t xs i) σ = (evalT (ev e) i 0 false xs >>= fun ys => finishT e i ys) σ := by intro σ; rw [ev_at]; rfl
  rw [hev]
  rcases partly_parts hd hP h with ⟨he, hr⟩ | ⟨ys, he, hys, ht, hc, hl⟩
  · exact .inl ⟨em_bind_err he, by rw [hr]; rfl⟩
  · rw [em_bind_ok he]
    unfold finishT
    cases hterm : areTerms ys with
    | true =>
      rw [ht hterm]
      have hdt : Data (textValue e s i ys) := by unfold textValue; split <;> constructor
      exact .inr ⟨textValue e s i ys, rfl, settles_data hD' hdt⟩
    | false =>
      refine .inr ⟨.t ys i, rfl, ⟨.t hys, rfl, ?_, ?_, ?_, hns, hne⟩⟩
      · intro h; unfold isTerm at h; rw [hterm] at h; cases h
      · intro h; rw [hc h] at hterm; cases hterm
      · unfold detectDeadlock; exact hl

/-- Partial evaluation keeps the meaning. -/
theorem partly {env : Scopes} (henv : Toward K ρ env) : ∀ {n : Nat} {x : Node} {r : Option Node}, Reads e s K ρ n x r →
    Partly e s K ρ (Reads e s K ρ n) env x r := by
  intro n
  induction n with
  | zero => intro x r h; exact partly_leaf henv h
  | succ n ih =>
    intro x r h
    have hd : ∀ v r, Reads e s K ρ n v r → Data v → r = some v := fun v r => reads_data
    have hD : ∀ v, Data v → Reads e s K ρ n v (some v) := fun v => reads_of_data
    have hD' : ∀ v, Data v → Reads e s K ρ (n + 1) v (some v) := fun v => reads_of_data
    have hP : ∀ x r, Reads e s K ρ n x r → Partly e s K ρ (Reads e s K ρ n) env x r := fun x r => ih
    have hitems := @partly_items e s K ρ (Reads e s K ρ n) env hd hD hP
    cases h with
    | up h =>
      rcases ih h with h | ⟨y, he, hy⟩
      · exact .inl h
      · exact .inr ⟨y, he, settles_up hy⟩
    | @list xs rs h =>
      have hev : ∀ σ, ev e (.list xs) σ = (evalList (ev e) xs >>= fun ys => pure (.list ys)) σ := by intro σ; rw [ev_at]; rfl
      unfold Partly
      rw [hev]
      rcases hitems h with ⟨he, hr⟩ | ⟨ys, he, hys, hn, ht, hc, hl⟩
      · exact .inl ⟨em_bind_err he, by rw [hr]; rfl⟩
      · refine .inr ⟨.list ys, by rw [em_bind_ok he]; rfl, ⟨.list hys, normal_list.2 hn, ?_, ?_, ?_, ?_, ?_⟩⟩
        · intro h; exact .list ys (ht h) hn
        · intro h; exact .list ys (hc h) hn
        · unfold detectDeadlock; exact hl
        · intro h
          rcases h with h | ⟨a, h⟩
          · have h1 := hev (withEnv s env)
            rw [ev_data e h, em_bind_ok he, em_pure] at h1
            cases h1
            exact .inl h
          · cases h
        · intro h; cases h
    | @insert x r loc h =>
      rcases ih h with ⟨he, hr⟩ | ⟨y, he, hy⟩
      · exact .inl ⟨by rw [ev_apply_eq, em_bind_err he], hr⟩
      · have hev : ev e (.apply x [] [] loc) (withEnv s env) = applyTo e (ev e) y [] [] loc (withEnv s env) := by
          rw [ev_apply_eq, em_bind_ok he, normal_setCall hy.normal]; rfl
        have hsh : Embeds (.apply x [] [] loc) → Simple y := by
          intro h
          cases h with
          | app _ _ hs => exact hy.simple hs
          | called f =>
            have h1 := ev_builtin (e := e) f false (withEnv s env)
            rw [h1] at he; cases he; exact absurd hy.normal (by simp [normal])
        have hns : ∀ {z : Node}, Simple (.apply x [] [] loc) → Simple z := by
          rintro z (h | ⟨a, h⟩) <;> cases h
        have hstay : ¬ Data y → Settles (Reads e s K ρ (n + 1)) (AllKnown K ρ env) (.apply x [] [] loc) (.apply y [] [] loc) r :=
          fun hnd => ⟨.insert hy.reads, rfl, by simp [isTerm], fun h => absurd (hy.closed h) hnd, rfl, hns,
            fun h => .inr (.app _ _ (hsh h))⟩
        have hkeep : (∀ a, y ≠ .var false [] a) → Settles (Reads e s K ρ (n + 1)) (AllKnown K ρ env) (.apply x [] [] loc) y r := by
          refine fun hv => ⟨.up hy.reads, hy.normal, hy.term, hy.closed, hy.live, hns, fun h => ?_⟩
          rcases hsh h with h | ⟨a, h⟩
          · exact .inl h
          · exact absurd h (hv a)
        have hyn := hy.normal
        cases y with
        | list xs =>
          refine .inr ⟨.list xs, ?_, hkeep (by simp)⟩
          rw [hev]
          change (foreach (ev e) [] xs >>= fun ys => pure (Node.list ys)) (withEnv s env) = _
          rw [em_bind_ok (foreach_nothing _ (normal_list.1 hyn) _)]; rfl
        | t ys i =>
          have hev2 : ev e (.apply x [] [] loc) (withEnv s env) = ev e (.t ys i) (withEnv s env) := hev
          unfold Partly
          rw [hev2]
          rcases ih hy.reads with h | ⟨z, hz, hs⟩
          · exact .inl h
          · refine .inr ⟨z, hz, ⟨.up hs.reads, hs.normal, hs.term, hs.closed, hs.live, hns, fun h => ?_⟩⟩
            rcases hsh h with h | ⟨a, h⟩ <;> cases h
        | var => exact .inr ⟨_, hev, hstay (by intro h; cases h)⟩
        | apply => exact .inr ⟨_, hev, hstay (by intro h; cases h)⟩
        | condClosure => exact .inr ⟨_, hev, hstay (by intro h; cases h)⟩
        | infixClosure => exact .inr ⟨_, hev, hstay (by intro h; cases h)⟩
        | none => exact .inr ⟨_, hev, hkeep (by simp)⟩
        | atom => exact .inr ⟨_, hev, hkeep (by simp)⟩
        | remark => exact .inr ⟨_, hev, hkeep (by simp)⟩
        | str => exact .inr ⟨_, hev, hkeep (by simp)⟩
        | plain => exact .inr ⟨_, hev, hkeep (by simp)⟩
        | pstr => exact .inr ⟨_, hev, hkeep (by simp)⟩
        | result => exact .inr ⟨_, hev, hkeep (by simp)⟩
        | int => exact .inr ⟨_, hev, hkeep (by simp)⟩
        | bool => exact .inr ⟨_, hev, hkeep (by simp)⟩
        | float => exact .inr ⟨_, hev, hkeep (by simp)⟩
        | _ => simp [normal] at hyn
    | @subscript x w i args rs loc hs h hi ha =>
      have hns : ∀ {z : Node}, Simple (.apply x args [] loc) → Simple z := by
        rintro z (h | ⟨a, h⟩) <;> cases h
      rcases ih h with ⟨_, hr⟩ | ⟨y, he, hy⟩
      · cases hr
      · unfold Partly
        rw [ev_apply_eq, em_bind_ok he, normal_setCall hy.normal]
        rcases hitems ha with ⟨hae, hr⟩ | ⟨ys, hae, hys, hn, ht, hc, hl⟩
        · exact .inl ⟨em_bind_err hae, by rw [hr]; rfl⟩
        · rw [em_bind_ok hae]
          rcases hy.simple hs with hdy | ⟨a, rfl⟩
          · have := hd _ _ hy.reads hdy
            cases this
            have hto := applyTo_number (e := e) (rec := ev e) hi none ys loc
            rw [normal_setCall hy.normal] at hto
            rw [hto]
            by_cases hem : ys = []
            · subst hem
              rw [items_nil hys]
              exact .inr ⟨w, rfl, settles_data hD' hdy⟩
            · cases hterm : areTerms ys with
              | true =>
                have hdata := ht hterm
                rw [number_data hem hdata, items_of_data hd hys hdata hn]
                have : ys.isEmpty = false := by cases ys <;> simp_all
                simp only [Option.bind_some, this]
                cases hsub : subscript (sequence ys) i with
                | none => exact .inl ⟨rfl, rfl⟩
                | some v => exact .inr ⟨v, rfl, settles_data hD' (subscript_data (sequence_data hdata) hsub)⟩
              | false =>
                refine .inr ⟨.apply w ys [] loc, ?_, ⟨.subscript (.inl hdy) hy.reads hi hys, rfl, by simp [isTerm], ?_, rfl, hns, fun _ => .inr (.app _ _ (.inl hdy))⟩⟩
                · have : ys.isEmpty = false := by cases ys <;> simp_all
                  simp [applyNumber, this, hterm, em_pure]
                · intro hcl
                  rw [(areTerms_iff ys).2 (fun v hv => data_term (hc hcl v hv))] at hterm
                  cases hterm
          · refine .inr ⟨.apply (.var false [] a) ys [] loc, rfl, ⟨.subscript (.inr ⟨a, rfl⟩) hy.reads hi hys, rfl, by simp [isTerm], ?_, rfl, hns, fun _ => .inr (.app _ _ (.inr ⟨a, rfl⟩))⟩⟩
            intro hcl; cases hy.closed hcl
    | @format x w t args rs loc hs h hi ha =>
      have hns : ∀ {z : Node}, Simple (.apply x args [] loc) → Simple z := by
        rintro z (h | ⟨a, h⟩) <;> cases h
      rcases ih h with ⟨_, hr⟩ | ⟨y, he, hy⟩
      · cases hr
      · unfold Partly
        rw [ev_apply_eq, em_bind_ok he, normal_setCall hy.normal]
        rcases hitems ha with ⟨hae, hr⟩ | ⟨ys, hae, hys, hn, ht, hc, hl⟩
        · exact .inl ⟨em_bind_err hae, by rw [hr]; rfl⟩
        · rw [em_bind_ok hae]
          rcases hy.simple hs with hdy | ⟨a, rfl⟩
          · have := hd _ _ hy.reads hdy
            cases this
            have hto : applyTo e (ev e) w ys [] loc = applyStr e (ev e) w ys [] loc := by cases hi <;> rfl
            have hst : strOf (textExt e (withEnv s env)) w = t := by cases hi <;> rfl
            rw [hto]
            by_cases hem : ys = []
            · subst hem
              rw [items_nil hys]
              exact .inr ⟨w, rfl, settles_data hD' hdy⟩
            · have hie : ys.isEmpty = false := by cases ys <;> simp_all
              cases hterm : areTerms ys with
              | true =>
                have hdata := ht hterm
                rw [items_of_data hd hys hdata hn]
                simp only [Option.map_some, hie, Bool.false_eq_true, if_false]
                refine .inr ⟨_, ?_, settles_data hD' (.str _)⟩
                simp only [applyStr, hie, Bool.and_false, Bool.false_eq_true, if_false, evalNamed, em_bind, em_pure, em_get, hterm,
                  List.all_nil, Bool.true_and, if_true, hst, List.map_nil, List.append_nil]
                rfl
              | false =>
                refine .inr ⟨.apply w ys [] loc, ?_, ⟨.format (.inl hdy) hy.reads hi hys, rfl, by simp [isTerm], ?_, rfl, hns, fun _ => .inr (.app _ _ (.inl hdy))⟩⟩
                · simp only [applyStr, hie, Bool.and_false, Bool.false_eq_true, if_false, evalNamed, em_bind, em_pure, hterm]
                · intro hcl
                  rw [(areTerms_iff ys).2 (fun v hv => data_term (hc hcl v hv))] at hterm
                  cases hterm
          · refine .inr ⟨.apply (.var false [] a) ys [] loc, rfl, ⟨.format (.inr ⟨a, rfl⟩) hy.reads hi hys, rfl, by simp [isTerm], ?_, rfl, hns, fun _ => .inr (.app _ _ (.inr ⟨a, rfl⟩))⟩⟩
            intro hcl; cases hy.closed hcl
    | @call f args rs loc hk hρ hf ha =>
      have hns : ∀ {z : Node}, Simple (.apply (.var false [] f) args [] loc) → Simple z := by
        rintro z (h | ⟨a, h⟩) <;> cases h
      have hlk : Scopes.lookup env f.txt = none := by
        rcases henv _ hk with h | ⟨_, h⟩
        · rw [h, hρ]
        · rw [hρ] at h; cases h
      have hev : ev e (.var false [] f) (withEnv s env) = .ok (.builtin f false, withEnv s env) := by
        rw [ev_at]
        change evalVar e false [] f (withEnv s env) = _
        unfold evalVar
        change (match Scopes.lookup env f.txt with | none => _ | some v => _) = _
        rw [hlk]
        simp only
        have hb : e.builtin (withEnv s env).p.scripts f.txt = some .fn := hf.table
        rw [hb]
        rfl
      unfold Partly
      rw [ev_apply_eq, em_bind_ok hev]
      exact partly_builtin hd hD' hf hns (hitems ha) (fun ys h => .called hf h)
    | @called f args rs loc hf ha =>
      have hns : ∀ {z : Node}, Simple (.apply (.builtin f false) args [] loc) → Simple z := by
        rintro z (h | ⟨a, h⟩) <;> cases h
      unfold Partly
      rw [ev_apply_eq, em_bind_ok (ev_builtin f false _)]
      exact partly_builtin hd hD' hf hns (hitems ha) (fun ys h => .called hf h)
    | @cond c a b r v w hc ha hb =>
      have hns : ∀ {z : Node}, Simple (.cond c a b) → Simple z := by rintro z (h | ⟨a, h⟩) <;> cases h
      have hne : ∀ {z : Node}, Embeds (.cond c a b) → Data z ∨ Embeds z := by intro z h; cases h
      have hev : ∀ σ, ev e (.cond c a b) σ = evalCond (ev e) c a b σ := by intro σ; rw [ev_at]; rfl
      unfold Partly
      rw [hev]
      unfold evalCond
      rcases ih hc with ⟨he, hr⟩ | ⟨y, he, hy⟩
      · exact .inl ⟨em_bind_err he, by rw [hr]; rfl⟩
      · rw [em_bind_ok he]
        cases hterm : isTerm y with
        | true =>
          have hdy := hy.term hterm
          rw [hd _ _ hy.reads hdy]
          simp only [if_true, Option.map_some]
          have hleg : Reads e s K ρ n (if truthy y = true then a else b) (some (if truthy y = true then v else w)) := by
            split <;> assumption
          rcases ih hleg with ⟨_, hr⟩ | ⟨z, he', hz⟩
          · cases hr
          · exact .inr ⟨z, he', ⟨.up hz.reads, hz.normal, hz.term, hz.closed, hz.live, hns, hne⟩⟩
        | false =>
          refine .inr ⟨.condClosure y a b, by simp [em_pure], ⟨.condClosure hy.reads ha hb, rfl, by simp [isTerm], ?_, rfl, hns, hne⟩⟩
          intro hcl; rw [data_term (hy.closed hcl)] at hterm; cases hterm
    | @condClosure c a b r v w hc ha hb =>
      have hns : ∀ {z : Node}, Simple (.condClosure c a b) → Simple z := by rintro z (h | ⟨a, h⟩) <;> cases h
      have hne : ∀ {z : Node}, Embeds (.condClosure c a b) → Data z ∨ Embeds z := by intro z h; cases h
      have hev : ∀ σ, ev e (.condClosure c a b) σ = evalCondClosure (ev e) c a b σ := by intro σ; rw [ev_at]; rfl
      unfold Partly
      rw [hev]
      unfold evalCondClosure
      rcases ih hc with ⟨he, hr⟩ | ⟨y, he, hy⟩
      · exact .inl ⟨em_bind_err he, by rw [hr]; rfl⟩
      · rw [em_bind_ok he]
        cases hterm : isTerm y with
        | true =>
          have hdy := hy.term hterm
          rw [hd _ _ hy.reads hdy]
          simp only [if_true, Option.map_some]
          have hleg : Reads e s K ρ n (if truthy y = true then a else b) (some (if truthy y = true then v else w)) := by
            split <;> assumption
          rcases ih hleg with ⟨_, hr⟩ | ⟨z, he', hz⟩
          · cases hr
          · rcases ih hz.reads with ⟨_, hr⟩ | ⟨z', he2, hz'⟩
            · cases hr
            · exact .inr ⟨z', by rw [em_bind_ok he', he2], ⟨.up hz'.reads, hz'.normal, hz'.term, hz'.closed, hz'.live, hns, hne⟩⟩
        | false =>
          rcases ih ha with ⟨_, hr⟩ | ⟨a', hae, ha'⟩
          · cases hr
          · rcases ih hb with ⟨_, hr⟩ | ⟨b', hbe, hb'⟩
            · cases hr
            · refine .inr ⟨.condClosure y a' b', ?_, ⟨.condClosure hy.reads ha'.reads hb'.reads, rfl, by simp [isTerm], ?_, rfl, hns, hne⟩⟩
              · simp only [Bool.false_eq_true, if_false]
                rw [em_bind_ok hae, em_bind_ok hbe, em_pure]
              · intro hcl; rw [data_term (hy.closed hcl)] at hterm; cases hterm
    | @python t i code g loc hp hk hnames hdata =>
      have hns : ∀ {z : Node}, Simple (.infix (.text [.plain t i false]) loc) → Simple z := by rintro z (h | ⟨a, h⟩) <;> cases h
      have hne : ∀ {z : Node}, Embeds (.infix (.text [.plain t i false]) loc) → Data z ∨ Embeds z := by intro z h; cases h
      obtain ⟨v, hv, hvs, hvt⟩ := infix_text (e := e) t i (withEnv s env)
      have hev : ev e (.infix (.text [.plain t i false]) loc) (withEnv s env) =
          ev e (.infixClosure code (Frame.ofList ((code.names.filter (fun k => (ρ k).isSome)).map (fun k => (k, Node.var false [] { txt := k })))) loc) (withEnv s env) := by
        rw [ev_at]
        change evalInfix e (ev e) _ loc (withEnv s env) = _
        unfold evalInfix
        rw [em_bind_ok hv, hvs]
        simp only [Bool.not_true, Bool.false_eq_true, if_false, em_bind, em_get, hvt, hp]
        have hfil : (code.names.filter (fun k => (Scopes.lookup (withEnv s env).env k).isSome)) = code.names.filter (fun k => (ρ k).isSome) := by
          refine List.filter_congr (fun k hkn => ?_)
          rcases henv k (hk k hkn) with h | ⟨h, h'⟩
          · change (Scopes.lookup env k).isSome = _; rw [h]
          · change (Scopes.lookup env k).isSome = _; rw [h, h']; rfl
        simp only [EM.ofOption, EM.pure, hfil]
      unfold Partly
      rw [hev]
      exact partly_infix hd hD' hP hnames hdata hns hne
    | @pythonClosure code f g loc hnames hdata =>
      have hns : ∀ {z : Node}, Simple (.infixClosure code f loc) → Simple z := by rintro z (h | ⟨a, h⟩) <;> cases h
      have hne : ∀ {z : Node}, Embeds (.infixClosure code f loc) → Data z ∨ Embeds z := by intro z h; cases h
      exact partly_infix hd hD' hP hnames hdata hns hne
    | @text xs rs h =>
      have hns : ∀ {z : Node}, Simple (.text xs) → Simple z := by rintro z (h | ⟨a, h⟩) <;> cases h
      have hne : ∀ {z : Node}, Embeds (.text xs) → Data z ∨ Embeds z := by intro z h; cases h
      have hev : ev e (.text xs) (withEnv s env) = ev e (.t xs (.str [])) (withEnv s env) := by rw [ev_at]; rfl
      unfold Partly
      rw [hev]
      exact partly_t hd hD' hP h hns hne
    | @t xs i rs h =>
      have hns : ∀ {z : Node}, Simple (.t xs i) → Simple z := by rintro z (h | ⟨a, h⟩) <;> cases h
      have hne : ∀ {z : Node}, Embeds (.t xs i) → Data z ∨ Embeds z := by intro z h; cases h
      exact partly_t hd hD' hP h hns hne


/-! ## Closures -/

/-- The outcome is `r`, without effects. -/
def Outcome (o : PRes (Node × ESt)) (s : ESt) (r : Option Node) : Prop :=
  (o = .err ∧ r = none) ∨ ∃ v, o = .ok (v, s) ∧ r = some v

/-- The outcome of `x` is `r`, without effects. -/
def Ends (e : EEnv) (x : Node) (s : ESt) (r : Option Node) : Prop := Outcome (ev e x s) s r

theorem ends_gives {x : Node} {r : Option Node} : Ends e x s r → Gives e x s r := by
  rintro (⟨h, rfl⟩ | ⟨v, h, rfl⟩)
  · exact raises_iff.2 h
  · exact evaluates_iff.2 h

/-- `f` is the scope `g` with some values missing. -/
def Filling (f g : Frame) : Prop :=
  ∀ k, Frame.get f k = Frame.get g k ∨ (Frame.get f k = some .bound ∧ (Frame.get g k).isSome = true)

theorem filling_toward {f g : Frame} (h : Filling f g) (env : Scopes) :
    Toward K (Scopes.lookup (g :: env)) (f :: env) := by
  intro k _
  rcases h k with h | ⟨h, h'⟩
  · left; simp only [Scopes.lookup, h]
  · right
    simp only [Scopes.lookup, h]
    cases hg : Frame.get g k with
    | none => rw [hg] at h'; cases h'
    | some v => simp

/-- A body with all names known. -/
theorem body_ends {env : Scopes} {n : Nat} {x : Node} {r : Option Node} (he : AllKnown K ρ env)
    (h : Reads e s K ρ n x r) : Ends e x (withEnv s env) r := by
  rcases partly (fun k hk => .inl (he k hk)) h with h | ⟨y, hy, hs⟩
  · exact .inl h
  · exact .inr ⟨y, hy, reads_data hs.reads (hs.closed he)⟩

theorem ev_lclosure (x : Node) (f : Frame) (late) (dflt : Frame) (σ : ESt) :
    ev e (.lclosure x f late dflt) σ = evalClosure (ev e) x f late dflt σ := by rw [ev_at]; rfl

theorem closure_err {x : Node} {f : Frame} {dflt : Frame} (h : ev e x (withEnv s (f :: s.env)) = .err) :
    ev e (.lclosure x f [] dflt) s = .err := by
  rw [ev_lclosure]
  unfold evalClosure
  refine em_bind_err ?_
  unfold EM.inFrame
  unfold withEnv at h
  rw [h]

theorem closure_ok {x y : Node} {f : Frame} {dflt : Frame} (h : ev e x (withEnv s (f :: s.env)) = .ok (y, withEnv s (f :: s.env))) :
    ev e (.lclosure x f [] dflt) s = .ok (match Frame.unassigned f with | some _ => .lclosure y f [] dflt | none => y, s) := by
  rw [ev_lclosure]
  unfold evalClosure
  have : EM.inFrame f (ev e x) s = .ok ((y, f), s) := inFrame_ok (s := s) (s1 := withEnv s (f :: s.env)) (env := s.env) h rfl
  rw [em_bind_ok this]
  cases Frame.unassigned f <;> rfl

/-- The closure of a body some of whose parameters have no value. -/
theorem closure_pending {n : Nat} {x : Node} {r : Option Node} {f g dflt : Frame} (hf : Filling f g) {q : Str}
    (hu : Frame.unassigned f = some q) (h : Reads e s K (Scopes.lookup (g :: s.env)) n x r) :
    (ev e (.lclosure x f [] dflt) s = .err ∧ r = none) ∨
    ∃ y, ev e (.lclosure x f [] dflt) s = .ok (.lclosure y f [] dflt, s) ∧
      Reads e s K (Scopes.lookup (g :: s.env)) n y r := by
  rcases partly (filling_toward hf s.env) h with ⟨h, hr⟩ | ⟨y, hy, hs⟩
  · exact .inl ⟨closure_err h, hr⟩
  · refine .inr ⟨y, ?_, hs.reads⟩
    rw [closure_ok hy, hu]

/-- The closure of a body all of whose parameters have values. -/
theorem closure_full {n : Nat} {x : Node} {r : Option Node} {f g dflt : Frame} (hf : ∀ k, Frame.get f k = Frame.get g k)
    (hu : Frame.unassigned f = none) (h : Reads e s K (Scopes.lookup (g :: s.env)) n x r) :
    Ends e (.lclosure x f [] dflt) s r := by
  have hc : AllKnown K (Scopes.lookup (g :: s.env)) (f :: s.env) := by
    intro k _; simp only [Scopes.lookup, hf k]
  rcases body_ends hc h with ⟨h, hr⟩ | ⟨y, hy, hr⟩
  · exact .inl ⟨closure_err h, hr⟩
  · refine .inr ⟨y, ?_, hr⟩
    rw [closure_ok hy, hu]

theorem get_append (f g : Frame) (k : Str) : Frame.get (f ++ g) k = (Frame.get f k).or (Frame.get g k) := by
  unfold Frame.get
  rw [List.find?_append]
  cases List.find? (fun e => e.1 == k) f <;> rfl

theorem get_cons (p : Str) (v : Node) (f : Frame) (k : Str) :
    Frame.get ((p, v) :: f) k = if p = k then some v else Frame.get f k := by
  unfold Frame.get
  rw [List.find?_cons]
  by_cases h : p = k
  · simp [h]
  · have : (p == k) = false := by simpa using h
    simp [h, this]

theorem get_bounds (qs : List Str) (k : Str) :
    Frame.get (qs.map (fun p => (p, Node.bound))) k = if k ∈ qs then some .bound else none := by
  induction qs with
  | nil => rfl
  | cons q qs ih =>
    rw [List.map_cons, get_cons, ih]
    by_cases h : q = k
    · simp [h]
    · have : k ≠ q := Ne.symm h
      simp [h, this]

theorem parameters_get {named dflt : List (Str × Node)} : ∀ {qs : List Str} {vs : List Node} {b : List (Str × Node)},
    parameters named dflt qs vs = some b → ∀ k, (Frame.get b k).isSome = true ↔ k ∈ qs := by
  intro qs
  induction qs with
  | nil =>
    intro vs b h k
    cases vs with
    | nil => simp [parameters] at h; subst h; simp [Frame.get]
    | cons => simp [parameters] at h
  | cons q qs ih =>
    intro vs b h k
    have hstep : ∀ {vs' : List Node} {v : Node} {b : List (Str × Node)},
        (parameters named dflt qs vs').map ((q, v) :: ·) = some b → ((Frame.get b k).isSome = true ↔ k ∈ q :: qs) := by
      intro vs' v b h
      rw [Option.map_eq_some_iff] at h
      obtain ⟨b', hb', rfl⟩ := h
      rw [get_cons]
      by_cases hk : q = k
      · simp [hk]
      · have : k ≠ q := Ne.symm hk
        simp [hk, this, ih hb' k]
    unfold parameters at h
    split at h
    · exact hstep h
    · split at h
      · exact hstep h
      · exact hstep h
    · exact hstep h
    · cases h

/-- A named argument may be bound first. -/
theorem parameters_named {named dflt : List (Str × Node)} {p : Str} {v : Node} : ∀ {qs : List Str} {vs : List Node}
    {b : List (Str × Node)}, parameters ((p, v) :: named) dflt qs vs = some b → p ∈ qs → qs.Nodup →
    ∃ b', parameters named dflt (qs.erase p) vs = some b' ∧ ∀ k, Frame.get ((p, v) :: b') k = Frame.get b k := by
  intro qs
  induction qs with
  | nil => intro vs b _ h; simp at h
  | cons q qs ih =>
    intro vs b h hp hnd
    rw [List.nodup_cons] at hnd
    by_cases hq : q = p
    · subst hq
      have hnot : ∀ {qs : List Str}, q ∉ qs → ∀ vs, parameters ((q, v) :: named) dflt qs vs = parameters named dflt qs vs := by
        intro qs
        induction qs with
        | nil => intro _ vs; cases vs <;> rfl
        | cons k ks ihk =>
          intro hk vs
          simp only [List.mem_cons, not_or] at hk
          unfold parameters
          have : List.lookup k ((q, v) :: named) = List.lookup k named := by
            rw [List.lookup_cons]
            have : (k == q) = false := by simpa using Ne.symm hk.1
            rw [this]
          rw [this]
          split <;> simp only [ihk hk.2]
      rw [List.erase_cons_head]
      unfold parameters at h
      have hl : List.lookup q ((q, v) :: named) = some v := by simp [List.lookup_cons]
      rw [hl] at h
      simp only [hnot hnd.1] at h
      rw [Option.map_eq_some_iff] at h
      obtain ⟨b', hb', rfl⟩ := h
      exact ⟨b', hb', fun k => rfl⟩
    · have hp' : p ∈ qs := by
        rcases List.mem_cons.1 hp with h | h
        · exact absurd h.symm hq
        · exact h
      rw [List.erase_cons_tail (by simpa using hq)]
      have hl : List.lookup q ((p, v) :: named) = List.lookup q named := by
        rw [List.lookup_cons]
        have : (q == p) = false := by simpa using hq
        rw [this]
      unfold parameters at h ⊢
      rw [hl] at h
      have hstep : ∀ {vs' : List Node} {w : Node}, (parameters ((p, v) :: named) dflt qs vs').map ((q, w) :: ·) = some b →
          ∃ b', (parameters named dflt (qs.erase p) vs').map ((q, w) :: ·) = some b' ∧
            ∀ k, Frame.get ((p, v) :: b') k = Frame.get b k := by
        intro vs' w h
        rw [Option.map_eq_some_iff] at h
        obtain ⟨b1, hb1, rfl⟩ := h
        obtain ⟨b2, hb2, hg⟩ := ih hb1 hp' hnd.2
        refine ⟨(q, w) :: b2, by rw [hb2]; rfl, fun k => ?_⟩
        have := hg k
        rw [get_cons] at this
        rw [get_cons, get_cons, get_cons, ← this]
        by_cases h1 : p = k
        · subst h1; simp [hq]
        · simp [h1]
      split at h
      · exact hstep h
      · split at h
        · rename_i hva; rw [if_pos hva]; exact hstep h
        · rename_i hva; rw [if_neg hva]; exact hstep h
      · exact hstep h
      · cases h

theorem pending_erase {p : Str} {qs : List Str} {done : Frame} {v : Node} (hp : qs.Nodup) (hd : ∀ q ∈ done, q.1 ≠ p) :
    Frame.set (pendingFrame qs done) p v = pendingFrame (qs.erase p) (done ++ [(p, v)]) := by
  have h1 : Frame.del (pendingFrame qs done) p = pendingFrame (qs.erase p) done := by
    unfold Frame.del pendingFrame
    rw [List.filter_append, hp.erase_eq_filter, List.filter_map]
    congr 1
    rw [List.filter_eq_self]
    intro q hq
    simpa using hd q hq
  unfold Frame.set
  rw [h1]
  simp [pendingFrame]

theorem pending_get (qs : List Str) (done : Frame) (k : Str) :
    Frame.get (pendingFrame qs done) k = if k ∈ qs then some .bound else Frame.get done k := by
  unfold pendingFrame
  rw [get_append, get_bounds]
  split <;> rfl

theorem get_none_of {f : Frame} {k : Str} (h : ∀ q ∈ f, q.1 ≠ k) : Frame.get f k = none := by
  unfold Frame.get
  rw [List.find?_eq_none.2]
  · rfl
  · intro q hq; simpa using h q hq

theorem get_data {f : Frame} (h : ∀ q ∈ f, Data q.2) {k : Str} {v : Node} (hg : Frame.get f k = some v) : Data v := by
  unfold Frame.get at hg
  rw [Option.map_eq_some_iff] at hg
  obtain ⟨q, hq, rfl⟩ := hg
  exact h q (List.mem_of_find?_eq_some hq)

/-- The frame with the missing parameters first and the final one. -/
theorem pending_filling {qs : List Str} {done b g : Frame} (hg : ∀ k, Frame.get (done ++ b) k = Frame.get g k)
    (hb : ∀ k, (Frame.get b k).isSome = true ↔ k ∈ qs) (hd : ∀ q ∈ done, q.1 ∉ qs) : Filling (pendingFrame qs done) g := by
  intro k
  rw [pending_get, ← hg, get_append]
  by_cases hk : k ∈ qs
  · right
    have h1 : Frame.get done k = none := get_none_of (fun q hq h => hd q hq (h ▸ hk))
    rw [h1]
    simp [hk, (hb k).2 hk]
  · left
    have : Frame.get b k = none := by
      cases hbk : Frame.get b k with
      | none => rfl
      | some v => exact absurd ((hb k).1 (by rw [hbk]; rfl)) hk
    rw [this]
    simp [hk]

theorem unassigned_done {done : Frame} (h : ∀ q ∈ done, Data q.2) : Frame.unassigned (pendingFrame [] done) = none := by
  unfold Frame.unassigned pendingFrame
  rw [List.find?_eq_none.2]
  · rfl
  · intro q hq; rw [data_not_bound (h q (by simpa using hq))]; simp

theorem ends_congr {x y : Node} {r : Option Node} (h : ev e x s = ev e y s) (hy : Ends e y s r) : Ends e x s r := by
  unfold Ends at *; rw [h]; exact hy

theorem lookup_get {f : Frame} {k : Str} : f.lookup k = Frame.get f k := by
  induction f with
  | nil => rfl
  | cons q f ih =>
    obtain ⟨p, v⟩ := q
    rw [List.lookup_cons, get_cons, ih]
    by_cases h : k = p
    · subst h; simp
    · have h1 : (k == p) = false := by simpa using h
      have h2 : ¬ p = k := fun h' => h h'.symm
      simp [h1, h2]

theorem head_pending {q : Str} {qs : List Str} {done : Frame} : Frame.unassigned (pendingFrame (q :: qs) done) = some q :=
  pending_unassigned

/-- The rounds of an application. -/
theorem rounds {g : Frame} {n : Nat} {r : Option Node} {dflt : Frame} {loc : Option Loc} (hdd : ∀ q ∈ dflt, Data q.2) :
    ∀ (k : Nat) (qs : List Str) (done : Frame) (named : List (Src × Node)) (nvs : List (Str × Node)) (args vs : List Node) (b : Frame)
      (fn y : Node), qs.length ≤ k → qs ≠ [] → qs.Nodup → (∀ q ∈ done, q.1 ∉ qs) → (∀ q ∈ done, Data q.2) →
      ev e fn s = .ok (.lclosure y (pendingFrame qs done) [] dflt, s) →
      Args e args s vs s → (∀ v ∈ vs, Data v) → (∀ v ∈ vs, v ≠ .none) →
      Tagged e s named nvs → (nvs.map (·.1)).Nodup → (∀ p ∈ nvs, p.1 ∈ qs) →
      parameters nvs dflt qs vs = some b → (∀ k, Frame.get (done ++ b) k = Frame.get g k) →
      Reads e s K (Scopes.lookup (g :: s.env)) n y r →
      Ends e (.apply fn args named loc) s r := by
  intro k
  induction k with
  | zero =>
    intro qs done named nvs args vs b fn y hk hne
    cases qs with
    | nil => exact absurd rfl hne
    | cons => simp at hk
  | succ k ih =>
    intro qs done named nvs args vs b fn y hk hne hnd hdq hdd' hf ha hv hn htag hnn hnq hpar hg hr
    -- binding one parameter
    have hbind : ∀ (p : Str) (v : Node) (named' : List (Src × Node)) (nvs' : List (Str × Node)) (vs' : List Node) (b' : Frame),
        p ∈ qs → Data v → (∀ v ∈ vs', Data v) → (∀ v ∈ vs', v ≠ .none) → Tagged e s named' nvs' → (nvs'.map (·.1)).Nodup →
        (∀ q ∈ nvs', q.1 ∈ qs.erase p) → parameters nvs' dflt (qs.erase p) vs' = some b' →
        (∀ k, Frame.get (done ++ [(p, v)] ++ b') k = Frame.get g k) →
        Outcome (bindArg (ev e) (.lclosure y (pendingFrame qs done) [] dflt) (pendingFrame qs done) [] dflt p v vs' named' loc s) s r := by
      intro p v named' nvs' vs' b' hp hdv hv' hn' htag' hnn' hnq' hpar' hg'
      unfold bindArg
      have hlate : lateVal (ev e) [] p v s = .ok (v, s) := rfl
      rw [em_bind_ok hlate, pending_erase hnd (fun q hq h => hdq q hq (h ▸ hp))]
      unfold applyNext
      have hdone : ∀ q ∈ done ++ [(p, v)], Data q.2 := by
        intro q hq
        simp at hq
        rcases hq with hq | rfl
        · exact hdd' q hq
        · exact hdv
      have hlen : (qs.erase p).length ≤ k := by
        have := List.length_erase_of_mem hp
        have : 0 < qs.length := List.length_pos_iff.2 hne
        omega
      have hnd' : (qs.erase p).Nodup := hnd.erase p
      have hdq' : ∀ q ∈ done ++ [(p, v)], q.1 ∉ qs.erase p := by
        intro q hq
        simp at hq
        rcases hq with hq | rfl
        · exact fun h => hdq q hq (List.mem_of_mem_erase h)
        · exact fun h => (hnd.mem_erase_iff.1 h).1 rfl
      simp only [Node.setFrame]
      cases hqs : qs.erase p with
      | nil =>
        rw [hqs] at hpar' hnq'
        have hvs : vs' = [] := by
          cases vs' with
          | nil => rfl
          | cons => simp [parameters] at hpar'
        subst hvs
        have hb : b' = [] := by simp [parameters] at hpar'; exact hpar'
        subst hb
        have hnm : named' = [] := by
          cases htag' with
          | nil => rfl
          | @cons a x v xs vs _ _ _ => exact absurd (hnq' _ (List.mem_cons_self ..)) (by simp)
        subst hnm
        rw [unassigned_done hdone]
        simp only [List.isEmpty_nil, hasDefault, Bool.not_false, Bool.and_self, if_true]
        refine closure_full (g := g) (K := K) (n := n) ?_ (unassigned_done hdone) hr
        intro k
        rw [pending_get]
        simpa using hg' k
      | cons q qs' =>
        rw [hqs] at hpar' hnq' hlen hnd' hdq'
        rw [head_pending]
        have hcond : (named'.isEmpty && vs'.isEmpty && !hasDefault dflt (some q)) = false := by
          cases hnm : named' with
          | cons => rfl
          | nil =>
            subst hnm
            cases htag'
            cases vs' with
            | cons => rfl
            | nil =>
              unfold parameters at hpar'
              rw [lookup_get, lookup_get] at hpar'
              have : Frame.get ([] : Frame) q = none := rfl
              rw [this] at hpar'
              unfold hasDefault Frame.has
              cases hgd : Frame.get dflt q with
              | none => rw [hgd] at hpar'; cases hpar'
              | some => simp [hgd]
        rw [hcond]
        simp only [Bool.false_eq_true, if_false]
        have hfill : Filling (pendingFrame (q :: qs') (done ++ [(p, v)])) g :=
          pending_filling hg' (parameters_get hpar') hdq'
        rcases closure_pending (dflt := dflt) hfill head_pending hr with ⟨he, hr'⟩ | ⟨z, he, hz⟩
        · left
          refine ⟨?_, hr'⟩
          rw [ev_apply_eq, em_bind_err he]
        · exact ih (q :: qs') (done ++ [(p, v)]) named' nvs' vs' vs' b' _ z hlen (by simp) hnd' hdq' hdone he
            (evalList_values (fun v h => data_value (hv' v h)) hn' s) hv' hn' htag' hnn' hnq' hpar' hg' hz
    unfold Ends
    rw [ev_apply (evaluates_iff.2 hf) ha]
    change Outcome (applyClosure (ev e) (.lclosure y (pendingFrame qs done) [] dflt) (pendingFrame qs done) [] dflt vs named loc s) s r
    unfold applyClosure
    cases htag with
    | @cons a x v xs nvs' hx hdv htag' =>
      have hpq : a.txt ∈ qs := hnq _ (List.mem_cons_self ..)
      have hhas : Frame.has (pendingFrame qs done) a.txt = true := by
        unfold Frame.has; rw [pending_get]; simp [hpq]
      simp only [hhas, if_true]
      rw [em_bind_ok (evaluates_iff.1 hx)]
      simp only [List.map_cons, List.nodup_cons] at hnn
      obtain ⟨b', hb', hgb⟩ := parameters_named hpar hpq hnd
      refine hbind a.txt v xs nvs' vs b' hpq hdv hv hn htag' hnn.2 ?_ hb' ?_
      · intro q hq
        refine (hnd.mem_erase_iff).2 ⟨?_, hnq q (List.mem_cons_of_mem _ hq)⟩
        intro h
        exact hnn.1 (h ▸ List.mem_map_of_mem hq)
      · intro k
        rw [← hg k, List.append_assoc, get_append, get_append (g := b)]
        change (Frame.get done k).or (Frame.get ((a.txt, v) :: b') k) = _
        rw [hgb k]
    | nil =>
      cases qs with
      | nil => exact absurd rfl hne
      | cons q qs =>
        rw [head_pending]
        unfold parameters at hpar
        rw [lookup_get, lookup_get] at hpar
        have hemp : Frame.get ([] : Frame) q = none := rfl
        rw [hemp] at hpar
        have hfin : ∀ (v : Node) (vs' : List Node), Data v → (∀ v ∈ vs', Data v) → (∀ v ∈ vs', v ≠ .none) →
            (parameters [] dflt qs vs').map ((q, v) :: ·) = some b →
            Outcome (bindArg (ev e) (.lclosure y (pendingFrame (q :: qs) done) [] dflt) (pendingFrame (q :: qs) done) [] dflt q v vs' [] loc s) s r := by
          intro v vs' hdv hv' hn' h
          rw [Option.map_eq_some_iff] at h
          obtain ⟨b', hb', rfl⟩ := h
          refine hbind q v [] [] vs' b' (by simp) hdv hv' hn' .nil (by simp) (by simp) (by simpa using hb') ?_
          intro k
          rw [← hg k, List.append_assoc]; rfl
        cases vs with
        | cons v vs =>
          by_cases hq : q = vaArgs
          · have hq' : q = lit "__va_args__" := hq
            simp only [if_pos hq'] at hpar
            simp only [if_pos hq]
            exact hfin (.list (v :: vs)) [] (.list _ hv hn) (by simp) (by simp) hpar
          have hq' : ¬ q = lit "__va_args__" := hq
          simp only [if_neg hq'] at hpar
          simp only [hq, if_false]
          rw [em_bind_ok (value_not_embed (data_value (hv v (by simp))) vs e s)]
          exact hfin v vs (hv v (by simp)) (fun w hw => hv w (by simp [hw])) (fun w hw => hn w (by simp [hw])) hpar
        | nil =>
          simp only
          cases hgd : Frame.get dflt q with
          | none => rw [hgd] at hpar; cases hpar
          | some d =>
            rw [hgd] at hpar
            have hdd1 : Data d := get_data hdd hgd
            simp only
            rw [em_bind_ok (ev_data e hdd1 s)]
            exact hfin d [] hdd1 (by simp) (by simp) hpar

/-- Fewer positional arguments than parameters. -/
theorem rounds_few {g : Frame} {n : Nat} {r : Option Node} {loc : Option Loc} {qs2 : List Str} (hq2 : qs2 ≠ []) :
    ∀ (qs1 : List Str) (done : Frame) (args vs : List Node) (b : Frame) (fn y : Node), vs.length = qs1.length → (qs1 ++ qs2).Nodup →
      vaArgs ∉ qs1 → (∀ q ∈ done, q.1 ∉ qs1 ++ qs2) →
      ev e fn s = .ok (.lclosure y (pendingFrame (qs1 ++ qs2) done) [] [], s) →
      Args e args s vs s → (∀ v ∈ vs, Data v) → (∀ v ∈ vs, v ≠ .none) →
      (∀ k, (Frame.get b k).isSome = true ↔ k ∈ qs2) → (∀ k, Frame.get (done ++ qs1.zip vs ++ b) k = Frame.get g k) →
      Reads e s K (Scopes.lookup (g :: s.env)) n y r →
      (ev e (.apply fn args [] loc) s = .err ∧ r = none) ∨
      ∃ z, ev e (.apply fn args [] loc) s = .ok (.lclosure z (pendingFrame qs2 (done ++ qs1.zip vs)) [] [], s) ∧
        Reads e s K (Scopes.lookup (g :: s.env)) n z r := by
  intro qs1
  induction qs1 with
  | nil =>
    intro done args vs b fn y hl hnd hva hdq hf ha hv hn hb hg hr
    have : vs = [] := List.length_eq_zero_iff.1 hl
    subst this
    refine .inr ⟨y, ?_, hr⟩
    rw [ev_apply (evaluates_iff.2 hf) ha]
    change applyClosure (ev e) (.lclosure y (pendingFrame ([] ++ qs2) done) [] []) (pendingFrame ([] ++ qs2) done) [] [] [] [] loc s = _
    unfold applyClosure
    cases qs2 with
    | nil => exact absurd rfl hq2
    | cons q qs2 => rw [List.nil_append, head_pending]; simp [Frame.get, em_pure]
  | cons q qs1 ih =>
    intro done args vs b fn y hl hnd hva hdq hf ha hv hn hb hg hr
    cases vs with
    | nil => simp at hl
    | cons v vs =>
      simp only [List.length_cons, Nat.add_right_cancel_iff] at hl
      simp only [List.mem_cons, not_or] at hva
      rw [List.cons_append] at hf hnd hdq
      rw [List.nodup_cons] at hnd
      rw [ev_apply (evaluates_iff.2 hf) ha]
      have hstep : applyTo e (ev e) ((Node.lclosure y (pendingFrame (q :: (qs1 ++ qs2)) done) [] []).setCall (callOf fn)) (v :: vs) [] loc s =
          applyNext (ev e) (.lclosure y (pendingFrame (q :: (qs1 ++ qs2)) done) [] []) (pendingFrame (qs1 ++ qs2) (done ++ [(q, v)])) []
            vs [] loc s := by
        change applyClosure (ev e) (.lclosure y (pendingFrame (q :: (qs1 ++ qs2)) done) [] []) (pendingFrame (q :: (qs1 ++ qs2)) done) [] []
          (v :: vs) [] loc s = _
        unfold applyClosure
        rw [head_pending]
        simp only [Ne.symm hva.1, if_false]
        rw [em_bind_ok (value_not_embed (data_value (hv v (by simp))) vs e s)]
        simp only
        unfold bindArg
        have hlate : lateVal (ev e) [] q v s = .ok (v, s) := rfl
        rw [em_bind_ok hlate, pending_set hnd.1 (fun p hp h => hdq p hp (by simp [h]))]
      rw [hstep]
      have hz : (done ++ [(q, v)]) ++ qs1.zip vs = done ++ (q :: qs1).zip (v :: vs) := by simp
      have hdq' : ∀ p ∈ done ++ [(q, v)], p.1 ∉ qs1 ++ qs2 := by
        intro p hp
        simp at hp
        rcases hp with hp | rfl
        · exact fun h => hdq p hp (List.mem_cons_of_mem _ h)
        · exact hnd.1
      have hne : qs1 ++ qs2 ≠ [] := by simp [hq2]
      obtain ⟨q', qs', hqs'⟩ : ∃ q' qs', qs1 ++ qs2 = q' :: qs' := by
        cases h : qs1 ++ qs2 with
        | nil => exact absurd h hne
        | cons a b => exact ⟨a, b, rfl⟩
      have hfill : Filling (pendingFrame (qs1 ++ qs2) (done ++ [(q, v)])) g := by
        refine pending_filling (b := qs1.zip vs ++ b) ?_ ?_ hdq'
        · intro k
          rw [← hg k, ← hz, List.append_assoc (done ++ [(q, v)])]
        · intro k
          rw [get_append]
          have hzip : ∀ (qs : List Str) (vs : List Node), vs.length = qs.length → ((Frame.get (qs.zip vs) k).isSome = true ↔ k ∈ qs) := by
            intro qs
            induction qs with
            | nil => intro vs _; simp [Frame.get]
            | cons p ps ihp =>
              intro vs hl
              cases vs with
              | nil => simp at hl
              | cons w ws =>
                rw [List.zip_cons_cons, get_cons]
                by_cases h : p = k
                · simp [h]
                · have h2 : k ≠ p := Ne.symm h
                  simp [h, h2, ihp ws (by simpa using hl)]
          have h1 := hzip qs1 vs hl
          have h2 := hb k
          rw [List.mem_append, ← h1, ← h2]
          cases Frame.get (qs1.zip vs) k <;> simp
      have hun : Frame.unassigned (pendingFrame (qs1 ++ qs2) (done ++ [(q, v)])) = some q' := by rw [hqs']; exact head_pending
      unfold applyNext
      rw [hun]
      have hdef : hasDefault [] (some q') = false := rfl
      rw [hdef]
      simp only [List.isEmpty_nil, Bool.true_and, Bool.not_false, Bool.and_true, Node.setFrame]
      rcases closure_pending (dflt := []) hfill hun hr with ⟨he, hr'⟩ | ⟨z, he, hzr⟩
      · left
        refine ⟨?_, hr'⟩
        split
        · exact he
        · rw [ev_apply_eq, em_bind_err he]
      · cases vs with
        | nil =>
          have : qs1 = [] := List.length_eq_zero_iff.1 hl.symm
          subst this
          simp only [List.isEmpty_nil, if_true]
          refine .inr ⟨z, ?_, hzr⟩
          rw [he]; simp
        | cons w vs =>
          simp only [List.isEmpty_cons, Bool.false_eq_true, if_false]
          have := ih (done ++ [(q, v)]) (w :: vs) (w :: vs) b _ z hl hnd.2 hva.2 hdq' he
            (evalList_values (fun v h => data_value (hv v (by simp [h]))) (fun x hx => hn x (by simp [hx])) s)
            (fun x hx => hv x (by simp [hx])) (fun x hx => hn x (by simp [hx])) hb (by rw [hz]; exact hg) hzr
          rw [hz] at this
          exact this

/-! ## Lambdas -/

theorem params_names {bs : List (List Src × Src × Option Node)} {ps : List Str} {ds : List (Str × Node)} (h : Params e s bs ps ds) :
    ∀ p ∈ ds, p.1 ∈ ps := by
  induction h with
  | nil => simp
  | cons _ _ ih => intro p hp; exact List.mem_cons_of_mem _ (ih p hp)
  | dots _ _ ih => intro p hp; exact List.mem_cons_of_mem _ (ih p hp)
  | dflt _ _ _ _ ih =>
    intro p hp
    rcases List.mem_cons.1 hp with rfl | hp
    · exact List.mem_cons_self ..
    · exact List.mem_cons_of_mem _ (ih p hp)

theorem params_data {bs : List (List Src × Src × Option Node)} {ps : List Str} {ds : List (Str × Node)} (h : Params e s bs ps ds) :
    ∀ p ∈ ds, Data p.2 := by
  induction h with
  | nil => simp
  | cons _ _ ih => exact ih
  | dots _ _ ih => exact ih
  | dflt _ _ hd _ ih =>
    intro p hp
    rcases List.mem_cons.1 hp with rfl | hp
    · exact hd
    · exact ih p hp

/-- The scope and the defaults of a lambda. -/
theorem evalBound_params {bs : List (List Src × Src × Option Node)} {ps : List Str} {ds : List (Str × Node)}
    (h : Params e s bs ps ds) : ∀ (f dflt : Frame), (f.map (·.1) ++ ps).Nodup → (∀ p ∈ dflt, p.1 ∈ f.map (·.1)) →
    evalBound (ev e) bs f [] dflt s = .ok ((f ++ ps.map (fun p => (p, Node.bound)), [], dflt ++ ds), s) := by
  induction h with
  | nil => intro f dflt _ _; simp [evalBound, em_pure]
  | @cons a bs ps ds ha _ ih =>
    intro f dflt hnd hd
    unfold evalBound
    simp only [List.isEmpty_nil, if_true]
    have hp : (pure dflt : EM Frame) s = .ok (dflt, s) := rfl
    rw [em_bind_ok hp]
    simp only [ha, if_false]
    have hfa : a.txt ∉ f.map (·.1) := by
      intro hin
      rw [List.nodup_append] at hnd
      exact hnd.2.2 _ hin _ (by simp) rfl
    rw [set_fresh hfa, ih _ _ (by simpa using hnd) (fun p hp => by simp [hd p hp])]
    simp
  | @dots a bs ps ds ha _ ih =>
    intro f dflt hnd hd
    unfold evalBound
    simp only [List.isEmpty_nil, if_true]
    have hp : (pure dflt : EM Frame) s = .ok (dflt, s) := rfl
    rw [em_bind_ok hp]
    simp only [ha, if_true]
    have hva : lit "__va_args__" = vaArgs := rfl
    rw [hva] at hnd
    have hfa : vaArgs ∉ f.map (·.1) := by
      intro hin
      rw [List.nodup_append] at hnd
      exact hnd.2.2 _ hin _ (List.mem_cons_self ..) rfl
    rw [set_fresh hfa, ih _ _ (by simpa using hnd) (fun p hp => by simp [hd p hp]), hva]
    simp
  | @dflt a d v bs ps ds ha hev hdv _ ih =>
    intro f dflt hnd hd
    unfold evalBound
    simp only [List.isEmpty_nil, if_true]
    have hfa : a.txt ∉ f.map (·.1) := by
      intro hin
      rw [List.nodup_append] at hnd
      exact hnd.2.2 _ hin _ (by simp) rfl
    have hda : a.txt ∉ dflt.map (·.1) := by
      intro hin
      rw [List.mem_map] at hin
      obtain ⟨p, hp, h⟩ := hin
      exact hfa (h ▸ hd p hp)
    have hp : (ev e d >>= fun v => pure (Frame.set dflt a.txt v) : EM Frame) s = .ok (dflt ++ [(a.txt, v)], s) := by
      rw [em_bind_ok (evaluates_iff.1 hev), em_pure, set_fresh hda]
    rw [em_bind_ok hp]
    simp only [ha, if_false]
    rw [set_fresh hfa, ih _ _ (by simpa using hnd) ?_]
    · simp
    · intro p hp
      simp only [List.mem_append, List.mem_singleton] at hp
      rcases hp with hp | rfl
      · simp only [List.map_append, List.mem_append]; exact .inl (hd p hp)
      · simp

theorem ev_lambda (bs : List (List Src × Src × Option Node)) (form : Node) {ps : List Str} {ds : List (Str × Node)}
    (h : Params e s bs ps ds) (hnd : ps.Nodup) :
    ev e (.lambda bs form) s = ev e (.lclosure form (ps.map (fun p => (p, Node.bound))) [] ds) s := by
  rw [ev_at]
  change evalLambda (ev e) bs form s = _
  unfold evalLambda
  rw [em_bind_ok (evalBound_params h [] [] (by simpa using hnd) (by simp))]
  simp

end

end Yupp
