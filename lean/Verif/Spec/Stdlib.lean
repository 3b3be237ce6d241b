import Verif.Spec.Beta
import Verif.Spec.Texts
/-!
# The functions of the library `stdlib.yu`, for C76
-/

namespace Yupp.Spec

/-- What a leg of `$if` may be: data, or the value of `($skip)`. -/
def Leg (v : Node) : Prop := (Data v ∧ v ≠ .none) ∨ v = .skip

/-- The choice between two legs, a missing one being the empty text. -/
def Chosen (c : Node) (yes no : Option Node) (v : Node) : Prop :=
  (¬ False' c ∧ (yes = some v ∨ yes = none ∧ v.text? = some [])) ∨ (False' c ∧ (no = some v ∨ no = none ∧ v.text? = some []))

/-- The tree of `($set name \cond.\then:[].\else:[].($ first ? cond | second))`, locations left open. -/
inductive Choice (first second : Str) : Str → Node → Prop
  | mk {n c t f c' a b : Src} {loc : Option Loc} : c.txt = lit "cond" → t.txt = lit "then" → f.txt = lit "else" → c'.txt = lit "cond" →
      a.txt = first → b.txt = second →
      Choice first second n.txt (.set (.one n) (.lambda [([], c, none), ([], t, some (.text [])), ([], f, some (.text []))]
        (.apply (.cond (.var false [] c') (.var false [] a) (.var false [] b)) [] [] loc)))

/-- The tree of `($set BIN \b.($atoi b 2))`. -/
inductive Binary : Node → Prop
  | mk {n b f b' : Src} {loc : Option Loc} : n.txt = lit "BIN" → b.txt = ['b'] → f.txt = lit "atoi" → b'.txt = ['b'] →
      Binary (.set (.one n) (.lambda [([], b, none)] (.apply (.var false [] f) [.var false [] b', .int 2] [] loc)))

end Yupp.Spec
