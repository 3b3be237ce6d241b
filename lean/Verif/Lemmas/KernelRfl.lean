import Lean.Elab.Tactic
/-!
# Reflexivity left to the kernel

`by rfl` first compares the two sides in the elaborator, which is too slow for a run of the evaluator. This tactic hands
`Eq.refl` to the kernel unseen; the kernel accepts it only if the two sides compute to the same term.
-/

namespace Yupp

/-- Proves `a = b` by `Eq.refl b`, compared by the kernel alone. -/
elab "kernel_rfl" : tactic => do
  let g ← Lean.Elab.Tactic.getMainGoal
  g.assign (← Lean.Meta.mkEqRefl (← g.getType).appArg!)

end Yupp
