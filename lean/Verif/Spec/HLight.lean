import Verif.Spec.HBegin
/-!
# The header guard of `lib/h-light.yu`, for C104
-/

namespace Yupp.Spec

/-- The text of the macro `h-begin` behind its definition, `lib/h-light.yu:23-48`. -/
def hLightBody : Str :=
  lit "\n" ++
  lit "#ifndef ($h-name)_H\n" ++
  lit "#define ($h-name)_H\n" ++
  lit "\n" ++
  lit "#ifdef  ($h-name)_IMPLEMENT\n" ++
  lit "#define ($h-name)_VAR( decl ) \\\n" ++
  lit "\tdecl\n" ++
  lit "#define ($h-name)_VAR_INIT( decl, ... ) \\\n" ++
  lit "\tdecl = __VA_ARGS__\n" ++
  lit "\n" ++
  lit "#define ($h-name)_INL\n" ++
  lit "\n" ++
  lit "#else  /* ($h-name)_IMPLEMENT */\n" ++
  lit "#define ($h-name)_VAR( decl ) \\\n" ++
  lit "\textern decl\n" ++
  lit "#define ($h-name)_VAR_INIT( decl, ... ) \\\n" ++
  lit "\textern decl\n" ++
  lit "\n" ++
  lit "#if __GNUC__ && !__GNUC_STDC_INLINE__\n" ++
  lit "#define ($h-name)_INL \\\n" ++
  lit "\textern inline\n" ++
  lit "#else\n" ++
  lit "#define ($h-name)_INL \\\n" ++
  lit "\tinline\n" ++
  lit "#endif\n" ++
  lit "\n" ++
  lit "#endif /* ($h-name)_IMPLEMENT */\n"

/-- The text of the macro `h-begin`, `lib/h-light.yu:21-49`. -/
def hLightText : Str := lit "\n($set h-name ($upper ($name)))" ++ hLightBody

/-- `lib/h-light.yu:21-49`. -/
def hLightLines : Str := lit "($macro h-begin (name)" ++ hLightText ++ lit ")"

/-- The text of the macro `h-end`, `lib/h-light.yu:51-56`. -/
def hLightEndText : Str := lit "\n#undef ($h-name)_VAR\n#undef ($h-name)_VAR_INIT\n#undef ($h-name)_INL\n#endif\n"

/-- `lib/h-light.yu:51-56`. -/
def hLightEndLines : Str := lit "($macro h-end ()" ++ hLightEndText ++ lit ")"

/-- The beginning of the light header with the name `n`. -/
def lightBegin (n : Str) : Str := substitute [(hName, n)] hLightBody

/-- The macros of the light header. -/
def lightMacros : List Str := [lit "_VAR", lit "_VAR_INIT", lit "_INL"]

/-- The end of the light header with the name `n`. -/
def lightEnd (n : Str) : Str := lit "\n" ++ lightMacros.flatMap (fun x => lit "#undef " ++ n ++ x ++ lit "\n") ++ lit "#endif\n"

end Yupp.Spec
