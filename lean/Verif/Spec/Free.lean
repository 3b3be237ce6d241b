import Verif.Model.Engine
/-!
# Texts without macros, and translations, for C01
-/

namespace Yupp

/-- The translation of the text ends with that result. -/
def Translates (e : EEnv) (readable : Node → Str) (input : Option Str) (seen : List Node) (text : Str) (run : Run) : Prop :=
  ∃ n, runAt e readable n input seen text = .ok run

namespace Spec

/-- Neither `($` nor `` (` `` occurs. -/
def MacroFree (t : Str) : Prop := ∀ a b, t ≠ a ++ ['(', '$'] ++ b ∧ t ≠ a ++ ['(', '`'] ++ b

/-- TAB, LF and the characters from U+0020 to U+00FF. -/
def Admissible (t : Str) : Prop := ∀ c ∈ t, c = '\t' ∨ c = '\n' ∨ (0x20 ≤ c.toNat ∧ c.toNat ≤ 0xff)

/-- The two characters that are not kept. -/
def steady (c : Char) : Char := if c = 'ÿ' then '\t' else if c = 'þ' then ' ' else c

end Spec

end Yupp
