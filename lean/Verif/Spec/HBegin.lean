import Verif.Spec.HLib
/-!
# The header guard of `lib/h.yu`, for C104
-/

namespace Yupp.Spec

/-- The text of the macro `h-begin` behind its definition, `lib/h.yu:27-100`. -/
def hBeginBody : Str :=
  lit "\n" ++
  lit "#ifndef ($h-name)_H\n" ++
  lit "#define ($h-name)_H\n" ++
  lit "\n" ++
  lit "#ifdef  ($h-name)_IMPLEMENT\n" ++
  lit "#define ($h-name)_EXT\n" ++
  lit "#define ($h-name)_INIT( ... ) \\\n" ++
  lit "\t= __VA_ARGS__\n" ++
  lit "\n" ++
  lit "#ifdef __cplusplus\n" ++
  lit "#define ($h-name)_EXT_C \\\n" ++
  lit "\textern \"C\"\n" ++
  lit "#else\n" ++
  lit "#define ($h-name)_EXT_C \\\n" ++
  lit "\textern\n" ++
  lit "#endif\n" ++
  lit "\n" ++
  lit "#define ($h-name)_VAR( decl ) \\\n" ++
  lit "\tdecl\n" ++
  lit "#define ($h-name)_VAR_INIT( decl, ... ) \\\n" ++
  lit "\tdecl = __VA_ARGS__\n" ++
  lit "\n" ++
  lit "#ifdef __cplusplus\n" ++
  lit "#define ($h-name)_VAR_C( decl ) \\\n" ++
  lit "\textern \"C\" decl; decl\n" ++
  lit "#define ($h-name)_VAR_C_INIT( decl, ... ) \\\n" ++
  lit "\textern \"C\" decl; decl = __VA_ARGS__\n" ++
  lit "#else\n" ++
  lit "#define ($h-name)_VAR_C( decl ) \\\n" ++
  lit "\tdecl\n" ++
  lit "#define ($h-name)_VAR_C_INIT( decl, ... ) \\\n" ++
  lit "\tdecl = __VA_ARGS__\n" ++
  lit "#endif\n" ++
  lit "\n" ++
  lit "#define ($h-name)_INL\n" ++
  lit "\n" ++
  lit "#else  /* ($h-name)_IMPLEMENT */\n" ++
  lit "#define ($h-name)_EXT \\\n" ++
  lit "\textern\n" ++
  lit "#define ($h-name)_INIT( ... )\n" ++
  lit "\n" ++
  lit "#ifdef __cplusplus\n" ++
  lit "#define ($h-name)_EXT_C \\\n" ++
  lit "\textern \"C\"\n" ++
  lit "#else\n" ++
  lit "#define ($h-name)_EXT_C \\\n" ++
  lit "\textern\n" ++
  lit "#endif\n" ++
  lit "\n" ++
  lit "#define ($h-name)_VAR( decl ) \\\n" ++
  lit "\textern decl\n" ++
  lit "#define ($h-name)_VAR_INIT( decl, ... ) \\\n" ++
  lit "\textern decl\n" ++
  lit "\n" ++
  lit "#ifdef __cplusplus\n" ++
  lit "#define ($h-name)_VAR_C( decl ) \\\n" ++
  lit "\textern \"C\" decl\n" ++
  lit "#define ($h-name)_VAR_C_INIT( decl, ... ) \\\n" ++
  lit "\textern \"C\" decl\n" ++
  lit "#else\n" ++
  lit "#define ($h-name)_VAR_C( decl ) \\\n" ++
  lit "\textern decl\n" ++
  lit "#define ($h-name)_VAR_C_INIT( decl, ... ) \\\n" ++
  lit "\textern decl\n" ++
  lit "#endif\n" ++
  lit "\n" ++
  lit "#if __GNUC__ && !__GNUC_STDC_INLINE__\n" ++
  lit "#define ($h-name)_INL \\\n" ++
  lit "\textern inline\n" ++
  lit "#else\n" ++
  lit "#define ($h-name)_INL \\\n" ++
  lit "\tinline\n" ++
  lit "#endif\n" ++
  lit "\n" ++
  lit "#endif /* ($h-name)_IMPLEMENT */\n"

/-- The text of the macro `h-begin`, `lib/h.yu:25-101`. -/
def hBeginText : Str := lit "\n($set h-name ($upper ($name)))" ++ hBeginBody

/-- `lib/h.yu:25-101`. -/
def hBeginLines : Str := lit "($macro h-begin (name)" ++ hBeginText ++ lit ")"

/-- The text of the macro `implement`, `lib/h.yu:120-122`. -/
def implementText : Str := lit "\n#define ($upper ($name))_IMPLEMENT\n"

/-- `lib/h.yu:120-122`. -/
def implementLines : Str := lit "($macro implement (name)" ++ implementText ++ lit ")"

/-- The beginning of the header with the name `n`: the text of the macro with this name in it. -/
def headerBegin (n : Str) : Str := substitute [(hName, n)] hBeginBody

/-- The next character of a C text: the beginning of the current line, up to seven characters, and the number of conditionals
    that are open; none if one is closed that is not open. -/
def condStep : Str × Option Nat → Char → Str × Option Nat
  | (l, d), c =>
    if c = '\n' then ([], d)
    else if l.length = 7 then (l, d)
    else if l ++ [c] = ['#', 'i', 'f'] then (l ++ [c], d.map (· + 1))
    else if l ++ [c] = ['#', 'e', 'n', 'd', 'i', 'f'] then (l ++ [c], d.bind fun | 0 => none | k + 1 => some k)
    else (l ++ [c], d)

/-- Between two lines where `d` conditionals are open the text is read; then `d'` are open, and a new line begins. -/
def Conditionals (d : Nat) (t : Str) (d' : Nat) : Prop := t.foldl condStep ([], some d) = ([], some d')

/-- `Leads f ind cut xs ind' cut'`: behind the text `xs` the indent is `ind'`, and white space is to be removed if `cut'`. -/
inductive Leads : Bool → Indent → Bool → ExprText → Indent → Bool → Prop where
  | nil {f ind cut} : Leads f ind cut .nil ind cut
  | chars {f ind cut w i xs ind' cut'} : Indented f w i → Leads false (indentBehind ind i) false xs ind' cut' →
      Leads f ind cut (.chars w xs) ind' cut'
  | str {f ind cut w xs ind' cut'} : Leads false .no false xs ind' cut' → Leads f ind cut (.str w xs) ind' cut'
  | remark {f ind cut w xs ind' cut'} : Leads false .no false xs ind' cut' → Leads f ind cut (.remark w xs) ind' cut'
  | comment {f ind cut xs ind' cut'} : Leads false ind (atLineStart ind) xs ind' cut' → Leads f ind cut (.comment xs) ind' cut'
  | expr {f ind cut x xs ind' cut'} : Leads false .no false xs ind' cut' → Leads f ind cut (.expr x xs) ind' cut'

end Yupp.Spec
