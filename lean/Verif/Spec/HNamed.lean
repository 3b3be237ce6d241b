import Verif.Spec.HBegin
import Verif.Spec.Start
/-!
# The header with the name of the module, for C104
-/

namespace Yupp.Spec

/-- The text of the macro `h-begin-named`, `lib/h.yu:115-118`, `lib/h-light.yu:58-61`. -/
def hNamedText : Str := lit "\n($set h-name ($__MODULE_NAME__))\n($h-begin ($__MODULE_NAME__))\n"

/-- `lib/h.yu:115-118`. -/
def hNamedLines : Str := lit "($macro h-begin-named ()" ++ hNamedText ++ lit ")"

/-- The text of the macro `implement-named`, `lib/h.yu:124`. -/
def implementNamedText : Str := lit "($implement ($__MODULE_NAME__))"

/-- `lib/h.yu:124`. -/
def implementNamedLine : Str := lit "($macro implement-named ()" ++ implementNamedText ++ lit ")"

end Yupp.Spec
