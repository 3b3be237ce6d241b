import Verif.Testkit.Base
set_option maxRecDepth 1000000
/-!
# The records of the parser, `test_yup.py:43-150`

Generated by `tools/testkit/gen.py`.
-/

namespace Yupp.Testkit

/-- Source of record 1 of `t_parse_kit`, `test_yup.py:45-59`. -/
def parse01Src : Str := lit "\nwhile( ($m::app) > 10 ) {\n    /* cycle ($app) */\n}\n"
/-- Tree of record 1 of `t_parse_kit`, `test_yup.py:45-59`. -/
def parse01Tree : Node := (.text [(.plain ⟨lit "\nwhile( ", none⟩ .none false), (.apply (.var false [⟨lit "m", none⟩] ⟨lit "app", none⟩) [] [] none), (.plain ⟨lit " > 10 ) {\n    /* cycle ", none⟩ .none false), (.apply (.var false [] ⟨lit "app", none⟩) [] [] none), (.plain ⟨lit " */\n}\n", none⟩ .none false)])

/-- The model parses the source to the expected tree. -/
theorem parse01_tree : parses parse01Src parse01Tree = true := by decide +kernel

/-- Source of record 2 of `t_parse_kit`, `test_yup.py:59-71`. -/
def parse02Src : Str := lit "\n($set (a b c) (($e) 'hi!' ($q u)))($_123)/**/($set a 10 \\set) // q...\n($! Comment into the TEXT(). )\n"
/-- Tree of record 2 of `t_parse_kit`, `test_yup.py:59-71`. -/
def parse02Tree : Node := (.text [(.plain ⟨lit "\n", none⟩ .none false), (.set (.many [⟨lit "a", none⟩, ⟨lit "b", none⟩, ⟨lit "c", none⟩]) (.list [(.apply (.var false [] ⟨lit "e", none⟩) [] [] none), (.str ⟨lit "'hi!'", none⟩), (.apply (.var false [] ⟨lit "q", none⟩) [(.var false [] ⟨lit "u", none⟩)] [] none)])), (.apply (.var false [] ⟨lit "_123", none⟩) [] [] none), (.plain ⟨lit "/**/", none⟩ .none false), (.set (.one ⟨lit "a", none⟩) (.int (10))), (.plain ⟨lit " // q...\n", none⟩ .none false), .comment, (.plain ⟨lit "\n", none⟩ .none false)])

/-- The model parses the source to the expected tree. -/
theorem parse02_tree : parses parse02Src parse02Tree = true := by decide +kernel

/-- Source of record 3 of `t_parse_kit`, `test_yup.py:71-84`. -/
def parse03Src : Str := lit "\n// fn()!\n($u1::u2::u3::fn \\p1 par1 &par2 \\p3 par3 \\fn)\n($fn2 \\p1 a \\b.(c) \\p3 \\d.\\e.($d e) \\fn2)\n"
/-- Tree of record 3 of `t_parse_kit`, `test_yup.py:71-84`. -/
def parse03Tree : Node := (.text [(.plain ⟨lit "\n// fn()!\n", none⟩ .none false), (.apply (.var false [⟨lit "u1", none⟩, ⟨lit "u2", none⟩, ⟨lit "u3", none⟩] ⟨lit "fn", none⟩) [(.var true [] ⟨lit "par2", none⟩)] [(⟨lit "p1", none⟩, (.var false [] ⟨lit "par1", none⟩)), (⟨lit "p3", none⟩, (.var false [] ⟨lit "par3", none⟩))] none), (.plain ⟨lit "\n", none⟩ .none false), (.apply (.var false [] ⟨lit "fn2", none⟩) [(.lambda [([], ⟨lit "b", none⟩, none)] (.list [(.var false [] ⟨lit "c", none⟩)]))] [(⟨lit "p1", none⟩, (.var false [] ⟨lit "a", none⟩)), (⟨lit "p3", none⟩, (.lambda [([], ⟨lit "d", none⟩, none), ([], ⟨lit "e", none⟩, none)] (.apply (.var false [] ⟨lit "d", none⟩) [(.var false [] ⟨lit "e", none⟩)] [] none)))] none), (.plain ⟨lit "\n", none⟩ .none false)])

/-- The model parses the source to the expected tree. -/
theorem parse03_tree : parses parse03Src parse03Tree = true := by decide +kernel

/-- Source of record 4 of `t_parse_kit`, `test_yup.py:84-102`. -/
def parse04Src : Str := lit "\ndo {($fn \\code ]\n    abc( d ) + ($ee f) * 10\n[[(gh[i[j]] == k)\"]\"]\n($code l(m(n(o(')'))))) ]p[\"]]]\"]\\[\\fn)} while( 1 )\n($fn ]\n// eol:)\n\\[)\n($emit l)($emit l\\n.(n)\\emit)\n"
/-- Tree of record 4 of `t_parse_kit`, `test_yup.py:84-102`. -/
def parse04Tree : Node := (.text [(.plain ⟨lit "\ndo {", none⟩ .none false), (.apply (.var false [] ⟨lit "fn", none⟩) [(.text [(.plain ⟨lit "(gh[i[j]] == k)", none⟩ .none false), (.str ⟨lit "\"]\"", none⟩)]), (.text [(.plain ⟨lit " l(m(n(o(", none⟩ .none false), (.str ⟨lit "')'", none⟩), (.plain ⟨lit "))))", none⟩ .none false)]), (.text [(.plain ⟨lit "p[", none⟩ .none false), (.str ⟨lit "\"]]]\"", none⟩), (.plain ⟨lit "]", none⟩ .none false)])] [(⟨lit "code", none⟩, (.text [(.plain ⟨lit "    abc( d ) + ", none⟩ .none false), (.apply (.var false [] ⟨lit "ee", none⟩) [(.var false [] ⟨lit "f", none⟩)] [] none), (.plain ⟨lit " * 10", none⟩ .none false)]))] none), (.plain ⟨lit "} while( 1 )\n", none⟩ .none false), (.apply (.var false [] ⟨lit "fn", none⟩) [(.text [(.remark ⟨lit "// eol:)", none⟩)])] [] none), (.plain ⟨lit "\n", none⟩ .none false), (.emit false [] ⟨lit "l", none⟩ .none), (.emit false [] ⟨lit "l", none⟩ (.lambda [([], ⟨lit "n", none⟩, none)] (.list [(.var false [] ⟨lit "n", none⟩)]))), (.plain ⟨lit "\n", none⟩ .none false)])

/-- The model parses the source to the expected tree. -/
theorem parse04_tree : parses parse04Src parse04Tree = true := by decide +kernel

/-- Source of record 5 of `t_parse_kit`, `test_yup.py:102-115`. -/
def parse05Src : Str := lit "\n($ \\p.\\pp1..\\pp2..\\pp:abc.\\...\\ppp1..\\ppp.\\pppp.($f p1) *(1 a b))\n($set lst (pa pb pc))\n($ \\(lst).($f2))\n"
/-- Tree of record 5 of `t_parse_kit`, `test_yup.py:102-115`. -/
def parse05Tree : Node := (.text [(.plain ⟨lit "\n", none⟩ .none false), (.apply (.lambda [([], ⟨lit "p", none⟩, none), ([⟨lit "pp1", none⟩, ⟨lit "pp2", none⟩], ⟨lit "pp", none⟩, (some (.var false [] ⟨lit "abc", none⟩))), ([], ⟨lit "...", none⟩, none), ([⟨lit "ppp1", none⟩], ⟨lit "ppp", none⟩, none), ([], ⟨lit "pppp", none⟩, none)] (.apply (.var false [] ⟨lit "f", none⟩) [(.var false [] ⟨lit "p1", none⟩)] [] none)) [(.embed (.list [(.int (1)), (.var false [] ⟨lit "a", none⟩), (.var false [] ⟨lit "b", none⟩)]))] [] none), (.plain ⟨lit "\n", none⟩ .none false), (.set (.one ⟨lit "lst", none⟩) (.list [(.var false [] ⟨lit "pa", none⟩), (.var false [] ⟨lit "pb", none⟩), (.var false [] ⟨lit "pc", none⟩)])), (.plain ⟨lit "\n", none⟩ .none false), (.apply (.lambdaVar false [] ⟨lit "lst", none⟩ (.apply (.var false [] ⟨lit "f2", none⟩) [] [] none)) [] [] none), (.plain ⟨lit "\n", none⟩ .none false)])

/-- The model parses the source to the expected tree. -/
theorem parse05_tree : parses parse05Src parse05Tree = true := by decide +kernel

/-- Source of record 6 of `t_parse_kit`, `test_yup.py:115-126`. -/
def parse06Src : Str := lit "\n($l (-0.123 -48 0o77 \"\\\\Hello \\\"world\\\"!\\n\" 3.14e-29 0xFF1 *a *() ($b) '\\x000' '\\'' '\\n' \\c.(d)))\n"
/-- Tree of record 6 of `t_parse_kit`, `test_yup.py:115-126`. -/
def parse06Tree : Node := (.text [(.plain ⟨lit "\n", none⟩ .none false), (.apply (.var false [] ⟨lit "l", none⟩) [(.list [(.float ⟨lit "-0.123", false, none⟩), (.int (-48)), (.int (63)), (.str ⟨lit "\"\\\\Hello \\\"world\\\"!\\n\"", none⟩), (.float ⟨lit "3.14e-29", false, none⟩), (.int (4081)), (.embed (.var false [] ⟨lit "a", none⟩)), (.embed (.list [])), (.apply (.var false [] ⟨lit "b", none⟩) [] [] none), (.str ⟨lit "'\\x000'", none⟩), (.str ⟨lit "'\\''", none⟩), (.str ⟨lit "'\\n'", none⟩), (.lambda [([], ⟨lit "c", none⟩, none)] (.list [(.var false [] ⟨lit "d", none⟩)]))])] [] none), (.plain ⟨lit "\n", none⟩ .none false)])

/-- The model parses the source to the expected tree. -/
theorem parse06_tree : parses parse06Src parse06Tree = true := by decide +kernel

/-- Source of record 7 of `t_parse_kit`, `test_yup.py:126-141`. -/
def parse07Src : Str := lit "\n($z {pi + e/2 - ($w) + len(\"hi{!}\")} ($quoteHello()))\n($macro m1 (a b) ($add a b))\n($macro m2 () ]printf(\"Hello %s!\", \"Nike\");[/*HACK:]*/)\n($$ \"(${f} {0} {1})\" 2 3 \\f sub)\n($$ a \"yes\" \"no\")\n"
/-- Tree of record 7 of `t_parse_kit`, `test_yup.py:126-141`. -/
def parse07Tree : Node := (.text [(.plain ⟨lit "\n", none⟩ .none false), (.apply (.var false [] ⟨lit "z", none⟩) [(.infix (.text [(.plain ⟨lit "pi + e/2 - ", none⟩ .none false), (.apply (.var false [] ⟨lit "w", none⟩) [] [] none), (.plain ⟨lit " + len(", none⟩ .none false), (.str ⟨lit "\"hi{!}\"", none⟩), (.plain ⟨lit ")", none⟩ .none false)]) none), (.str ⟨lit "Hello()", none⟩)] [] none), (.plain ⟨lit "\n", none⟩ .none false), (.macro ⟨lit "m1", none⟩ [⟨lit "a", none⟩, ⟨lit "b", none⟩] ⟨lit " ($add a b)", none⟩), (.plain ⟨lit "\n", none⟩ .none false), (.macro ⟨lit "m2", none⟩ [] ⟨lit " ]printf(\"Hello %s!\", \"Nike\");[/*HACK:]*/", none⟩), (.plain ⟨lit "\n", none⟩ .none false), (.eval (.apply (.str ⟨lit "\"(${f} {0} {1})\"", none⟩) [(.int (2)), (.int (3))] [(⟨lit "f", none⟩, (.var false [] ⟨lit "sub", none⟩))] none) none none), (.plain ⟨lit "\n", none⟩ .none false), (.eval (.apply (.var false [] ⟨lit "a", none⟩) [(.str ⟨lit "\"yes\"", none⟩), (.str ⟨lit "\"no\"", none⟩)] [] none) none none), (.plain ⟨lit "\n", none⟩ .none false)])

/-- The model parses the source to the expected tree. -/
theorem parse07_tree : parses parse07Src parse07Tree = true := by decide +kernel

/-- Source of record 8 of `t_parse_kit`, `test_yup.py:141-152`. -/
def parse08Src : Str := lit "\n($f 1L ? c | 2 ($e) ?(2) d ?($f) | dd?1 | ddd ?'2' | dddd)\n"
/-- Tree of record 8 of `t_parse_kit`, `test_yup.py:141-152`. -/
def parse08Tree : Node := (.text [(.plain ⟨lit "\n", none⟩ .none false), (.apply (.var false [] ⟨lit "f", none⟩) [(.cond (.var false [] ⟨lit "c", none⟩) (.int (1)) (.int (2))), (.cond (.list [(.int (2))]) (.apply (.var false [] ⟨lit "e", none⟩) [] [] none) .none), (.cond (.apply (.var false [] ⟨lit "f", none⟩) [] [] none) (.var false [] ⟨lit "d", none⟩) (.cond (.int (1)) (.var false [] ⟨lit "dd", none⟩) (.cond (.str ⟨lit "'2'", none⟩) (.var false [] ⟨lit "ddd", none⟩) (.var false [] ⟨lit "dddd", none⟩))))] [] none), (.plain ⟨lit "\n", none⟩ .none false)])

/-- The model parses the source to the expected tree. -/
theorem parse08_tree : parses parse08Src parse08Tree = true := by decide +kernel

end Yupp.Testkit
