import Verif.Spec.Scope
/-!
# Variables that change, for C55
-/

namespace Yupp.Spec

/-- After an assignment of `v` to the variable `a`: no other name changes, nor does a variable `a` of a scope further out. -/
structure Assigned (s : ESt) (a : Str) (v : Node) (s' : ESt) : Prop where
  value : Scopes.lookup s'.env a = some v
  others : ∀ k, k ≠ a → Scopes.lookup s'.env k = Scopes.lookup s.env k
  names : names s'.env = names s.env
  scopes : ∃ pre f f' post, s.env = pre ++ f :: post ∧ s'.env = pre ++ f' :: post ∧ (∀ g ∈ pre, a ∉ g.map (·.1)) ∧ a ∈ f.map (·.1)
  state : s' = { s with env := s'.env }

/-- Evaluation of the same expression again and again: the values. -/
inductive Successive (e : EEnv) (x : Node) : ESt → List Node → ESt → Prop
  | nil (s) : Successive e x s [] s
  | cons {s v s1 vs s2} : Evaluates e x s v s1 → Successive e x s1 vs s2 → Successive e x s (v :: vs) s2

/-- No scope holds a name twice, as they are dictionaries. -/
def Dictionaries (s : ESt) : Prop := ∀ f ∈ s.env, (f.map (·.1)).Nodup

end Yupp.Spec
