import Verif.Spec.Builtin
/-!
# Bits of whole numbers, for C84
-/

namespace Yupp.Spec

/-- The bit `i` of a whole number: whether the quotient by `2 ^ i`, rounded down, is odd. (Of a negative number all bits
    from some position on are set.) -/
def bitOf (m : Int) (i : Nat) : Bool := decide (m / 2 ^ i % 2 = 1)

end Yupp.Spec
