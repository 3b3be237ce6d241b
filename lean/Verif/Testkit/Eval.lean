import Verif.Testkit.Base
set_option maxRecDepth 1000000
/-!
# Records of the evaluator, `test_yup.py:155-735`

Generated by `tools/testkit/gen.py`.
-/

namespace Yupp.Testkit

/-- Source of record 1 of `t_eval_kit`, `test_yup.py:159-187`. -/
def eval01Src : Str := lit "\n/*  Hello world! */\nint main()\n{\n    // Entry point...\n    printf( \"Hello world!\" );\n\n    return 1;\n}\n"
/-- Text of record 1 of `t_eval_kit`, `test_yup.py:159-187`. -/
def eval01Out : Str := lit "\n/*  Hello world! */\nint main()\n{\n    // Entry point...\n    printf( \"Hello world!\" );\n\n    return 1;\n}\n"

/-- The model translates the source to the expected text. -/
theorem eval01_out : output 300 eval01Src = some eval01Out := by decide +kernel

/-- Source of record 5 of `t_eval_kit`, `test_yup.py:298-341`. -/
def eval05Src : Str := lit "\n($set def-fn-argv \\type.\\name.\\type..\\arg-begin..\\arg-count..\\arg-value..\\arg-end..\\body.]\n($type) ($name)( int argcnt, ... )\n{\n    ($body \\type type \\arg-begin ]\n        va_list argptr;\n        va_start( argptr, argcnt );\n    [\\arg-count ]\n        argcnt\n    [\\arg-value \\type.]\n        va_arg( argptr, ($type) )\n    [\\arg-end ]\n        va_end( argptr );\n    \\[\\body )\n}\n[\\set )\n\n($def-fn-argv \\type int \\name sumi ]\n    int result = 0;\n    ($ &arg-begin)\n    while ( ($ &arg-count)-- ) result += ($ &arg-value &type);\n    ($ &arg-end)\n    return ( result );\n\\[\\def-fn-argv )\n"
/-- Text of record 5 of `t_eval_kit`, `test_yup.py:298-341`. -/
def eval05Out : Str := lit "\nint sumi( int argcnt, ... )\n{\n    int result = 0;\n    va_list argptr;\n    va_start( argptr, argcnt );\n    while ( argcnt-- ) result += va_arg( argptr, int );\n    va_end( argptr );\n    return ( result );\n}\n"

/-- The model translates the source to the expected text. -/
theorem eval05_out : output 300 eval05Src = some eval05Out := by decide +kernel

/-- Source of record 6 of `t_eval_kit`, `test_yup.py:341-389`. -/
def eval06Src : Str := lit "\n($macro m (a b)($add ($a) ($b)))\n($set a \\b.($m 1 b))\n($a 2)\n($macro m1 ()\"C, forever!\")\n($m1)\n($macro m2 (m a)($($m) ($a) (b)($($m) ($b) (c)($($m) ($c) ()Yes!))))\n($m2 macro new_m2)\n($new_m2 new_new_m2)\n($new_new_m2 new_new_new_m2)\n($new_new_new_m2)\n($set n 22)\n($\"($p1)+($0)+($1)+($2)=($p0)\" +1 +2 +4 \\p1 15 \\p0 n)\n($set s '($sub ($n1) ($n2))')\n($$s \\n1 10 \\n2 2)\n($$\"($add 2 2)\")\n($macro a (){\n    ($set b 5)\n    ($b),\n})\n{\n    {\n        ($a)\n    }\n}\n"
/-- Text of record 6 of `t_eval_kit`, `test_yup.py:341-389`. -/
def eval06Out : Str := lit "\n3\n\"C, forever!\"\nYes!\n\"15+1+2+4=22\"\n8\n4\n{\n    {\n        {\n            5,\n        }\n    }\n}\n"

/-- The model translates the source to the expected text. -/
theorem eval06_out : output 300 eval06Src = some eval06Out := by decide +kernel

/-- Source of record 7 of `t_eval_kit`, `test_yup.py:389-402`. -/
def eval07Src : Str := lit "\n($($\\y:u.\\m.\\...(m y($\\C.\\p.(r)e p)($\\ro.(ce)s)))so r)\n"
/-- Text of record 7 of `t_eval_kit`, `test_yup.py:389-402`. -/
def eval07Out : Str := lit "\nsource\n"

/-- The model translates the source to the expected text. -/
theorem eval07_out : output 300 eval07Src = some eval07Out := by decide +kernel

/-- Source of record 14 of `t_eval_kit`, `test_yup.py:712-723`. -/
def eval14Src : Str := lit "\n"
/-- Text of record 14 of `t_eval_kit`, `test_yup.py:712-723`. -/
def eval14Out : Str := lit "\n"

/-- The model translates the source to the expected text. -/
theorem eval14_out : output 300 eval14Src = some eval14Out := by decide +kernel

end Yupp.Testkit
