import Verif.Spec.ModuleScope
import Verif.Props.StdDefine
import Verif.Props.StdlibText
import Verif.Lemmas.Modules
import Verif.Lemmas.KernelRfl
/-!
# The library is read

The parser is run by the kernel on the text of the library, for each mode; the rest of the environment is left open.
-/

namespace Yupp
open Spec (Choice Binary DefineFn EndOfLine)

def isDefPiece : Node → Bool
  | .plain .. | .comment | .set .. | .macro .. => true
  | _ => false

theorem isDefPiece_sound {y : Node} (h : isDefPiece y = true) : DefPiece y := by
  cases y <;> first | (cases h; done) | constructor

def isMacroOf (a : Str) (ps : List Str) (b : Str) : Node → Bool
  | .macro m qs t => decide (m.txt = a) && decide (qs.map (·.txt) = ps) && decide (t.txt = b)
  | _ => false

theorem isMacroOf_sound {a : Str} {ps : List Str} {b : Str} {d : Node} (h : isMacroOf a ps b d = true) : MacroOf a ps b d := by
  unfold isMacroOf at h
  split at h
  · simp only [Bool.and_eq_true, decide_eq_true_eq] at h
    exact .mk h.1.1 h.1.2 h.2
  · cases h

/-- The pieces are those of the library. -/
def isStd (ys : List Node) : Bool :=
  ys.all isDefPiece && decide (singleNames ys = some stdNames) &&
  ys.any (isChoice (lit "then") (lit "else") (lit "if")) && ys.any (isChoice (lit "else") (lit "then") (lit "unless")) &&
  ys.any isBinary && ys.any isDefineFn && ys.any isEndOfLine && stdMacros.all (fun m => ys.any (isMacroOf m.1 m.2.1 m.2.2))

theorem isStd_sound {ys : List Node} (h : isStd ys = true) : StdPieces ys := by
  unfold isStd at h
  simp only [Bool.and_eq_true, List.all_eq_true, decide_eq_true_eq, List.any_eq_true] at h
  obtain ⟨⟨⟨⟨⟨⟨⟨h1, h2⟩, d3, m3, h3⟩, d4, m4, h4⟩, d5, m5, h5⟩, d6, m6, h6⟩, d7, m7, h7⟩, h8⟩ := h
  refine ⟨fun y hy => isDefPiece_sound (h1 y hy), h2, ⟨d3, m3, isChoice_sound h3⟩, ⟨d4, m4, isChoice_sound h4⟩, ⟨d5, m5, isBinary_sound h5⟩,
    ⟨d6, m6, isDefineFn_sound h6⟩, ⟨d7, m7, isEndOfLine_sound h7⟩, fun m hm => ?_⟩
  obtain ⟨d, hd, h⟩ := h8 m hm
  exact ⟨d, hd, isMacroOf_sound h⟩

def stdSource : Src := { txt := stdText, loc := some ⟨['s', 't', 'd', 'l', 'i', 'b', '.', 'y', 'u'], 0⟩ }

/-- The pieces of `lib/stdlib.yu`, with the places they stand at. The literal `"#define"` has a place (`o`) in Python mode only:
    in the other mode it is made anew from its text. -/
def stdTree (o : Option Loc) : List Node :=
  [.comment,
   (.plain ⟨['\n'], (some ⟨stdKey, 254⟩)⟩ (.str []) false),
   (.macro ⟨['d', 'i', 'c', 't'], (some ⟨stdKey, 263⟩)⟩ [⟨['i', 'd'], (some ⟨stdKey, 269⟩)⟩, ⟨['c', 'o', 'l', 's'], (some ⟨stdKey, 272⟩)⟩, ⟨['b', 'o', 'd', 'y'], (some ⟨stdKey, 277⟩)⟩] ⟨['\n', '\t', '(', '$', 's', 'e', 't', ' ', 'c', 'o', 'l', 's', '-', '(', '$', 'i', 'd', ')', ' ', '(', '$', 'r', 'a', 'n', 'g', 'e', ' ', '(', '$', 'l', 'e', 'n', ' ', '(', '(', '$', 'c', 'o', 'l', 's', ')', ')', ' ', ')', ')', ')', '\n', '\t', '(', '$', 's', 'e', 't', ' ', 'e', 'a', 'c', 'h', '-', '(', '$', 'i', 'd', ')', ' ', '(', '$', 'r', 'a', 'n', 'g', 'e', ' ', '(', '$', 'l', 'e', 'n', ' ', '(', '(', '$', 'b', 'o', 'd', 'y', ')', ')', ' ', ')', ')', ')', '\n', '\t', '(', '$', 's', 'e', 't', ' ', '(', '(', '$', 'c', 'o', 'l', 's', ')', ')', '\n', '\t', '\t', '(', '$', 'c', 'o', 'l', 's', '-', '(', '$', 'i', 'd', ')', ' ', '\\', '_', '_', 'i', '.', '(', '$', ' ', '(', '(', '$', 'b', 'o', 'd', 'y', ')', ')', ' ', '\\', '_', '_', 'v', 'a', 'r', '.', '(', '$', '_', '_', 'i', ' ', '_', '_', 'v', 'a', 'r', ')', ')', ')', '\n', '\t', ')', '\n'], .none⟩),
   (.plain ⟨['\n', '\n'], (some ⟨stdKey, 451⟩)⟩ (.str []) false),
   .comment,
   (.plain ⟨['\n'], (some ⟨stdKey, 486⟩)⟩ (.str []) false),
   (.set (.one ⟨['i', 'f'], (some ⟨stdKey, 493⟩)⟩) (.lambda [([], ⟨['c', 'o', 'n', 'd'], (some ⟨stdKey, 497⟩)⟩, Option.none), ([], ⟨['t', 'h', 'e', 'n'], (some ⟨stdKey, 503⟩)⟩, Option.some (.text [])), ([], ⟨['e', 'l', 's', 'e'], (some ⟨stdKey, 512⟩)⟩, Option.some (.text []))] (.apply (.cond (.var false [] ⟨['c', 'o', 'n', 'd'], (some ⟨stdKey, 530⟩)⟩) (.var false [] ⟨['t', 'h', 'e', 'n'], (some ⟨stdKey, 523⟩)⟩) (.var false [] ⟨['e', 'l', 's', 'e'], (some ⟨stdKey, 537⟩)⟩)) [] [] ((some ⟨stdKey, 521⟩))))),
   (.plain ⟨['\n', '\n'], (some ⟨stdKey, 543⟩)⟩ (.str []) false),
   .comment,
   (.plain ⟨['\n'], (some ⟨stdKey, 582⟩)⟩ (.str []) false),
   (.set (.one ⟨['u', 'n', 'l', 'e', 's', 's'], (some ⟨stdKey, 589⟩)⟩) (.lambda [([], ⟨['c', 'o', 'n', 'd'], (some ⟨stdKey, 597⟩)⟩, Option.none), ([], ⟨['t', 'h', 'e', 'n'], (some ⟨stdKey, 603⟩)⟩, Option.some (.text [])), ([], ⟨['e', 'l', 's', 'e'], (some ⟨stdKey, 612⟩)⟩, Option.some (.text []))] (.apply (.cond (.var false [] ⟨['c', 'o', 'n', 'd'], (some ⟨stdKey, 630⟩)⟩) (.var false [] ⟨['e', 'l', 's', 'e'], (some ⟨stdKey, 623⟩)⟩) (.var false [] ⟨['t', 'h', 'e', 'n'], (some ⟨stdKey, 637⟩)⟩)) [] [] ((some ⟨stdKey, 621⟩))))),
   (.plain ⟨['\n', '\n'], (some ⟨stdKey, 643⟩)⟩ (.str []) false),
   .comment,
   (.plain ⟨['\n'], (some ⟨stdKey, 699⟩)⟩ (.str []) false),
   (.set (.one ⟨['u', 'n', 'f', 'o', 'l', 'd'], (some ⟨stdKey, 706⟩)⟩) (.lambda [([], ⟨['c', 'o', 'u', 'n', 't'], (some ⟨stdKey, 714⟩)⟩, Option.none), ([], ⟨['.', '.', '.'], .none⟩, Option.none)] (.letn (.many [⟨['_', '_', 'l', 'a', 's', 't'], (some ⟨stdKey, 732⟩)⟩, ⟨['_', '_', 'f', 'u', 'n', 'c'], (some ⟨stdKey, 739⟩)⟩]) (.list [(.apply (.var false [] ⟨['s', 'u', 'b'], (some ⟨stdKey, 750⟩)⟩) [(.apply (.var false [] ⟨['l', 'e', 'n'], (some ⟨stdKey, 756⟩)⟩) [(.apply (.var false [] ⟨['l', 'a', 'z', 'y'], (some ⟨stdKey, 762⟩)⟩) [(.var false [] ⟨['_', '_', 'v', 'a', '_', 'a', 'r', 'g', 's', '_', '_'], (some ⟨stdKey, 767⟩)⟩)] [] ((some ⟨stdKey, 761⟩)))] [] ((some ⟨stdKey, 755⟩))), (.int 1)] [] ((some ⟨stdKey, 749⟩))), (.apply (.var false [] ⟨['_', '_', 'l', 'a', 's', 't'], (some ⟨stdKey, 786⟩)⟩) [(.apply (.var false [] ⟨['l', 'a', 'z', 'y'], (some ⟨stdKey, 795⟩)⟩) [(.var false [] ⟨['_', '_', 'v', 'a', '_', 'a', 'r', 'g', 's', '_', '_'], (some ⟨stdKey, 800⟩)⟩)] [] ((some ⟨stdKey, 794⟩)))] [] ((some ⟨stdKey, 785⟩)))]) (.apply (.apply (.var false [] ⟨['r', 'a', 'n', 'g', 'e'], (some ⟨stdKey, 820⟩)⟩) [(.var false [] ⟨['c', 'o', 'u', 'n', 't'], (some ⟨stdKey, 826⟩)⟩)] [] ((some ⟨stdKey, 819⟩))) [(.lambda [([], ⟨['_', '_', 'i'], (some ⟨stdKey, 834⟩)⟩, Option.none)] (.apply (.var false [] ⟨['i', 'f'], (some ⟨stdKey, 840⟩)⟩) [(.infix (.text [(.plain ⟨[' ', '_', '_', 'i', ' ', '<', ' ', '_', '_', 'l', 'a', 's', 't', ' '], (some ⟨stdKey, 844⟩)⟩ .no false)]) ((some ⟨stdKey, 843⟩))), (.apply (.var false [] ⟨['_', '_', 'i'], (some ⟨stdKey, 862⟩)⟩) [(.apply (.var false [] ⟨['l', 'a', 'z', 'y'], (some ⟨stdKey, 868⟩)⟩) [(.var false [] ⟨['_', '_', 'v', 'a', '_', 'a', 'r', 'g', 's', '_', '_'], (some ⟨stdKey, 873⟩)⟩)] [] ((some ⟨stdKey, 867⟩)))] [] ((some ⟨stdKey, 861⟩))), (.apply (.var false [] ⟨['_', '_', 'f', 'u', 'n', 'c'], (some ⟨stdKey, 889⟩)⟩) [(.var false [] ⟨['_', '_', 'i'], (some ⟨stdKey, 896⟩)⟩)] [] ((some ⟨stdKey, 888⟩)))] [] ((some ⟨stdKey, 839⟩))))] [] ((some ⟨stdKey, 817⟩)))))),
   (.plain ⟨['\n', '\n'], (some ⟨stdKey, 905⟩)⟩ (.str []) false),
   .comment,
   (.plain ⟨['\n'], (some ⟨stdKey, 935⟩)⟩ (.str []) false),
   (.macro ⟨['d', 'o'], (some ⟨stdKey, 944⟩)⟩ [⟨['b', 'o', 'd', 'y'], (some ⟨stdKey, 948⟩)⟩] ⟨['d', 'o', ' ', '{', '\n', '(', '$', 'b', 'o', 'd', 'y', ')', '\n', '}', ' ', 'w', 'h', 'i', 'l', 'e', ' ', '(', ' ', '0', ' ', ')'], .none⟩),
   (.plain ⟨['\n', '\n'], (some ⟨stdKey, 980⟩)⟩ (.str []) false),
   .comment,
   (.plain ⟨['\n'], (some ⟨stdKey, 1013⟩)⟩ (.str []) false),
   (.macro ⟨['f', 'o', 'o'], (some ⟨stdKey, 1022⟩)⟩ [⟨['b', 'o', 'd', 'y'], (some ⟨stdKey, 1027⟩)⟩] ⟨['(', '{', '\n', '(', '$', 'b', 'o', 'd', 'y', ')', '\n', '}', ')'], .none⟩),
   (.plain ⟨['\n', '\n'], (some ⟨stdKey, 1046⟩)⟩ (.str []) false),
   .comment,
   (.plain ⟨['\n'], (some ⟨stdKey, 1120⟩)⟩ (.str []) false),
   (.set (.one ⟨['_', '_', 'E', 'O', 'L', '_', '_'], (some ⟨stdKey, 1127⟩)⟩) (.cond (.apply (.var false [] ⟨['n', 'o', 't'], (some ⟨stdKey, 1143⟩)⟩) [(.apply (.var false [] ⟨['i', 's', 'a', 't', 'o', 'm'], (some ⟨stdKey, 1149⟩)⟩) [(.var false [] ⟨['E', 'O', 'L'], (some ⟨stdKey, 1156⟩)⟩)] [] ((some ⟨stdKey, 1148⟩)))] [] ((some ⟨stdKey, 1142⟩))) (.var false [] ⟨['E', 'O', 'L'], (some ⟨stdKey, 1135⟩)⟩) (.text [(.plain ⟨['\n'], (some ⟨stdKey, 1166⟩)⟩ (.str []) false)]))),
   (.plain ⟨['\n'], (some ⟨stdKey, 1168⟩)⟩ (.str []) false),
   (.set (.one ⟨['d', 'e', 'f', 'i', 'n', 'e'], (some ⟨stdKey, 1175⟩)⟩) (.lambda [([], ⟨['s', 'i', 'g'], (some ⟨stdKey, 1183⟩)⟩, Option.none), ([], ⟨['b', 'o', 'd', 'y'], (some ⟨stdKey, 1188⟩)⟩, Option.none)] (.apply (.var false [] ⟨['j', 'o', 'i', 'n'], (some ⟨stdKey, 1195⟩)⟩) [(.apply (.var false [] ⟨['s', 'p', 'l', 'i', 't'], (some ⟨stdKey, 1202⟩)⟩) [(.text [(.apply (.var false [] ⟨['u', 'n', 'q'], (some ⟨stdKey, 1211⟩)⟩) [(.str ⟨['"', '#', 'd', 'e', 'f', 'i', 'n', 'e', '"'], o⟩)] [] ((some ⟨stdKey, 1210⟩))), (.plain ⟨[' '], (some ⟨stdKey, 1225⟩)⟩ .none false), (.apply (.var false [] ⟨['s', 'i', 'g'], (some ⟨stdKey, 1228⟩)⟩) [] [] ((some ⟨stdKey, 1227⟩))), (.plain ⟨[' '], (some ⟨stdKey, 1232⟩)⟩ .none false), (.apply (.var false [] ⟨['b', 'o', 'd', 'y'], (some ⟨stdKey, 1235⟩)⟩) [] [] ((some ⟨stdKey, 1234⟩)))]), (.var false [] ⟨['_', '_', 'E', 'O', 'L', '_', '_'], (some ⟨stdKey, 1242⟩)⟩)] [] ((some ⟨stdKey, 1201⟩))), (.text [(.plain ⟨[' ', '\\'], (some ⟨stdKey, 1252⟩)⟩ .no false), (.apply (.var false [] ⟨['_', '_', 'E', 'O', 'L', '_', '_'], (some ⟨stdKey, 1256⟩)⟩) [] [] ((some ⟨stdKey, 1255⟩)))])] [] ((some ⟨stdKey, 1194⟩))))),
   (.plain ⟨['\n', '\n'], (some ⟨stdKey, 1266⟩)⟩ (.str []) false),
   .comment,
   (.plain ⟨['\n'], (some ⟨stdKey, 1293⟩)⟩ (.str []) false),
   (.macro ⟨['d', 'e', 'f'], (some ⟨stdKey, 1302⟩)⟩ [⟨['n', 'a', 'm', 'e'], (some ⟨stdKey, 1307⟩)⟩] ⟨['(', '$', 's', 'e', 't', ' ', '(', '$', 'n', 'a', 'm', 'e', ')', ' ', '1', ')', '\n', '(', '$', 'u', 'n', 'q', ' ', '"', '#', 'd', 'e', 'f', 'i', 'n', 'e', '"', ')', ' ', '(', '$', 'n', 'a', 'm', 'e', ')'], .none⟩),
   (.plain ⟨['\n', '\n'], (some ⟨stdKey, 1354⟩)⟩ (.str []) false),
   .comment,
   (.plain ⟨['\n'], (some ⟨stdKey, 1383⟩)⟩ (.str []) false),
   (.macro ⟨['u', 'n', 'd', 'e', 'f'], (some ⟨stdKey, 1392⟩)⟩ [⟨['n', 'a', 'm', 'e'], (some ⟨stdKey, 1399⟩)⟩] ⟨['(', '$', 's', 'e', 't', ' ', '(', '$', 'n', 'a', 'm', 'e', ')', ' ', '0', ')', '\n', '(', '$', 'u', 'n', 'q', ' ', '"', '#', 'u', 'n', 'd', 'e', 'f', '"', ')', ' ', ' ', '(', '$', 'n', 'a', 'm', 'e', ')'], .none⟩),
   (.plain ⟨['\n', '\n'], (some ⟨stdKey, 1446⟩)⟩ (.str []) false),
   .comment,
   (.plain ⟨['\n'], (some ⟨stdKey, 1493⟩)⟩ (.str []) false),
   (.macro ⟨['d', 'e', 'f', '-', 'i', 'f'], (some ⟨stdKey, 1502⟩)⟩ [⟨['c', 'o', 'n', 'd'], (some ⟨stdKey, 1510⟩)⟩, ⟨['n', 'a', 'm', 'e'], (some ⟨stdKey, 1515⟩)⟩] ⟨['(', '$', 's', 'e', 't', ' ', '(', '$', 'n', 'a', 'm', 'e', ')', ' ', '1', ' ', '?', ' ', '(', '$', 'c', 'o', 'n', 'd', ')', ' ', '|', ' ', '0', ')', '\n', '(', '$', 'i', 'f', ' ', '(', '$', 'n', 'a', 'm', 'e', ')', ' ', '[', '(', '$', 'u', 'n', 'q', ' ', '"', '#', 'd', 'e', 'f', 'i', 'n', 'e', '"', ')', ' ', '(', '$', 'n', 'a', 'm', 'e', ')', ']', ')'], .none⟩),
   (.plain ⟨['\n', '\n'], (some ⟨stdKey, 1592⟩)⟩ (.str []) false),
   .comment,
   (.plain ⟨['\n'], (some ⟨stdKey, 1627⟩)⟩ (.str []) false),
   (.macro ⟨['s', 'k', 'i', 'p', '-', 'i', 'f'], (some ⟨stdKey, 1636⟩)⟩ [⟨['c', 'o', 'n', 'd'], (some ⟨stdKey, 1645⟩)⟩] ⟨['(', '$', 'i', 'f', ' ', '(', '$', 'c', 'o', 'n', 'd', ')', ' ', '(', '$', 's', 'k', 'i', 'p', ')', ')'], .none⟩),
   (.plain ⟨['\n'], (some ⟨stdKey, 1672⟩)⟩ (.str []) false),
   (.macro ⟨['s', 'k', 'i', 'p', '-', 'i', 'f', '-', 'n', 'o', 't'], (some ⟨stdKey, 1681⟩)⟩ [⟨['c', 'o', 'n', 'd'], (some ⟨stdKey, 1694⟩)⟩] ⟨['(', '$', 'i', 'f', ' ', '(', '$', 'n', 'o', 't', ' ', '(', '$', 'c', 'o', 'n', 'd', ')', ')', ' ', '(', '$', 's', 'k', 'i', 'p', ')', ')'], .none⟩),
   (.plain ⟨['\n', '\n'], (some ⟨stdKey, 1728⟩)⟩ (.str []) false),
   .comment,
   (.plain ⟨['\n'], (some ⟨stdKey, 1765⟩)⟩ (.str []) false),
   (.set (.one ⟨['B', 'I', 'N'], (some ⟨stdKey, 1772⟩)⟩) (.lambda [([], ⟨['b'], (some ⟨stdKey, 1777⟩)⟩, Option.none)] (.apply (.var false [] ⟨['a', 't', 'o', 'i'], (some ⟨stdKey, 1781⟩)⟩) [(.var false [] ⟨['b'], (some ⟨stdKey, 1786⟩)⟩), (.int 2)] [] ((some ⟨stdKey, 1780⟩))))),
   (.plain ⟨['\n', '\n'], (some ⟨stdKey, 1791⟩)⟩ (.str []) false),
   .comment,
   (.plain ⟨['\n'], (some ⟨stdKey, 1845⟩)⟩ (.str []) false),
   (.set (.one ⟨['B', 'B'], (some ⟨stdKey, 1852⟩)⟩) (.lambda [([], ⟨['.', '.', '.'], .none⟩, Option.none)] (.apply (.var false [] ⟨['s', 'u', 'm'], (some ⟨stdKey, 1861⟩)⟩) [(.apply (.apply (.var false [] ⟨['r', 'a', 'n', 'g', 'e'], (some ⟨stdKey, 1869⟩)⟩) [(.apply (.var false [] ⟨['l', 'e', 'n'], (some ⟨stdKey, 1877⟩)⟩) [(.var false [] ⟨['_', '_', 'v', 'a', '_', 'a', 'r', 'g', 's', '_', '_'], (some ⟨stdKey, 1881⟩)⟩)] [] ((some ⟨stdKey, 1876⟩)))] [] ((some ⟨stdKey, 1868⟩))) [(.lambda [([], ⟨['_', '_', 'i'], (some ⟨stdKey, 1896⟩)⟩, Option.none)] (.infix (.text [(.plain ⟨[' '], (some ⟨stdKey, 1901⟩)⟩ (.str [' ']) false), (.apply (.var false [] ⟨['B', 'I', 'N'], (some ⟨stdKey, 1904⟩)⟩) [(.apply (.var false [] ⟨['_', '_', 'i'], (some ⟨stdKey, 1910⟩)⟩) [(.apply (.var false [] ⟨['r', 'e', 'v', 'e', 'r', 's', 'e', 'd'], (some ⟨stdKey, 1916⟩)⟩) [(.var false [] ⟨['_', '_', 'v', 'a', '_', 'a', 'r', 'g', 's', '_', '_'], (some ⟨stdKey, 1925⟩)⟩)] [] ((some ⟨stdKey, 1915⟩)))] [] ((some ⟨stdKey, 1909⟩)))] [] ((some ⟨stdKey, 1903⟩))), (.plain ⟨[' ', '<', '<', ' '], (some ⟨stdKey, 1939⟩)⟩ .no false), (.apply (.var false [] ⟨['_', '_', 'i'], (some ⟨stdKey, 1945⟩)⟩) [] [] ((some ⟨stdKey, 1944⟩))), (.plain ⟨[' ', '*', ' ', '8', ' '], (some ⟨stdKey, 1949⟩)⟩ .no false)]) ((some ⟨stdKey, 1900⟩))))] [] ((some ⟨stdKey, 1866⟩)))] [] ((some ⟨stdKey, 1860⟩))))),
   (.plain ⟨['\n', '\n'], (some ⟨stdKey, 1958⟩)⟩ (.str []) false),
   .comment,
   (.plain ⟨['\n'], (some ⟨stdKey, 2128⟩)⟩ (.str []) false),
   (.set (.one ⟨['d', 'e', 'f', '-', 'f', 'n', '-', 'a', 'r', 'g', 'v'], (some ⟨stdKey, 2135⟩)⟩) (.lambda [([], ⟨['t', 'y', 'p', 'e'], (some ⟨stdKey, 2148⟩)⟩, Option.none), ([], ⟨['n', 'a', 'm', 'e'], (some ⟨stdKey, 2154⟩)⟩, Option.none), ([⟨['t', 'y', 'p', 'e'], (some ⟨stdKey, 2160⟩)⟩, ⟨['a', 'r', 'g', '-', 'b', 'e', 'g', 'i', 'n'], (some ⟨stdKey, 2167⟩)⟩, ⟨['a', 'r', 'g', '-', 'c', 'o', 'u', 'n', 't'], (some ⟨stdKey, 2179⟩)⟩, ⟨['a', 'r', 'g', '-', 'v', 'a', 'l', 'u', 'e'], (some ⟨stdKey, 2191⟩)⟩, ⟨['a', 'r', 'g', '-', 'e', 'n', 'd'], (some ⟨stdKey, 2203⟩)⟩], ⟨['b', 'o', 'd', 'y'], (some ⟨stdKey, 2213⟩)⟩, Option.none)] (.text [(.apply (.var false [] ⟨['t', 'y', 'p', 'e'], (some ⟨stdKey, 2222⟩)⟩) [] [] ((some ⟨stdKey, 2221⟩))), (.plain ⟨[' '], (some ⟨stdKey, 2227⟩)⟩ .none false), (.apply (.var false [] ⟨['n', 'a', 'm', 'e'], (some ⟨stdKey, 2230⟩)⟩) [] [] ((some ⟨stdKey, 2229⟩))), (.plain ⟨['(', ' ', 'i', 'n', 't', ' ', 'a', 'r', 'g', 'c', 'n', 't', ',', ' ', '.', '.', '.', ' ', ')', '\n', '{', '\n', '\t'], (some ⟨stdKey, 2235⟩)⟩ (.str ['\t']) false), (.apply (.var false [] ⟨['b', 'o', 'd', 'y'], (some ⟨stdKey, 2260⟩)⟩) [] [(⟨['t', 'y', 'p', 'e'], (some ⟨stdKey, 2266⟩)⟩, (.var false [] ⟨['t', 'y', 'p', 'e'], (some ⟨stdKey, 2271⟩)⟩)), (⟨['a', 'r', 'g', '-', 'b', 'e', 'g', 'i', 'n'], (some ⟨stdKey, 2277⟩)⟩, (.text [(.plain ⟨['\t', '\t', 'v', 'a', '_', 'l', 'i', 's', 't', ' ', 'a', 'r', 'g', 'p', 't', 'r', ';', '\n', '\t', '\t', 'v', 'a', '_', 's', 't', 'a', 'r', 't', '(', ' ', 'a', 'r', 'g', 'p', 't', 'r', ',', ' ', 'a', 'r', 'g', 'c', 'n', 't', ' ', ')', ';'], (some ⟨stdKey, 2289⟩)⟩ .no false)])), (⟨['a', 'r', 'g', '-', 'c', 'o', 'u', 'n', 't'], (some ⟨stdKey, 2340⟩)⟩, (.text [(.plain ⟨['\t', '\t', 'a', 'r', 'g', 'c', 'n', 't'], (some ⟨stdKey, 2352⟩)⟩ .no false)])), (⟨['a', 'r', 'g', '-', 'v', 'a', 'l', 'u', 'e'], (some ⟨stdKey, 2364⟩)⟩, (.lambda [([], ⟨['t', 'y', 'p', 'e'], (some ⟨stdKey, 2375⟩)⟩, Option.none)] (.text [(.plain ⟨['\t', '\t', 'v', 'a', '_', 'a', 'r', 'g', '(', ' ', 'a', 'r', 'g', 'p', 't', 'r', ',', ' '], (some ⟨stdKey, 2382⟩)⟩ .no false), (.apply (.var false [] ⟨['t', 'y', 'p', 'e'], (some ⟨stdKey, 2402⟩)⟩) [] [] ((some ⟨stdKey, 2401⟩))), (.plain ⟨[' ', ')'], (some ⟨stdKey, 2407⟩)⟩ .no false)]))), (⟨['a', 'r', 'g', '-', 'e', 'n', 'd'], (some ⟨stdKey, 2413⟩)⟩, (.text [(.plain ⟨['\t', '\t', 'v', 'a', '_', 'e', 'n', 'd', '(', ' ', 'a', 'r', 'g', 'p', 't', 'r', ' ', ')', ';'], (some ⟨stdKey, 2423⟩)⟩ .no false)]))] ((some ⟨stdKey, 2259⟩))), (.plain ⟨['\n', '}'], (some ⟨stdKey, 2452⟩)⟩ .no false)]))),
   (.plain ⟨['\n', '\n'], (some ⟨stdKey, 2458⟩)⟩ (.str []) false),
   (.set (.one ⟨['I', 'N', 'T', '_', 'M', 'A', 'X'], (some ⟨stdKey, 2466⟩)⟩) (.infix (.text [(.plain ⟨[' ', 's', 'y', 's', '.', 'm', 'a', 'x', 's', 'i', 'z', 'e', ' '], (some ⟨stdKey, 2475⟩)⟩ .no false)]) ((some ⟨stdKey, 2474⟩)))),
   (.plain ⟨['\n', '\n'], (some ⟨stdKey, 2490⟩)⟩ (.str []) false),
   (.set (.one ⟨['I', 'N', 'T', '_', 'M', 'I', 'N'], (some ⟨stdKey, 2498⟩)⟩) (.infix (.text [(.plain ⟨[' ', '-', 's', 'y', 's', '.', 'm', 'a', 'x', 's', 'i', 'z', 'e', ' ', '-', ' ', '1', ' '], (some ⟨stdKey, 2507⟩)⟩ .no false)]) ((some ⟨stdKey, 2506⟩)))),
   (.plain ⟨['\n'], (some ⟨stdKey, 2527⟩)⟩ (.str []) false)]

set_option maxRecDepth 1000000 in
theorem stdTree_is (o : Option Loc) : StdPieces (stdTree o) := isStd_sound (by kernel_rfl)

/-- Where the parser is at the end of the text. -/
def stdEnd : Src := { txt := [], loc := some ⟨stdKey, 2528⟩ }

theorem std_false_none (f r l v u fl w st) :
    (P ⟨f, false, .none, r, l, v, u, fl, w⟩ 200).text .eof { sou := stdSource } st = .ok ((stdEnd, stdTree none), st) := by kernel_rfl

theorem std_false_c (f r l v u fl w st) :
    (P ⟨f, false, .c, r, l, v, u, fl, w⟩ 200).text .eof { sou := stdSource } st = .ok ((stdEnd, stdTree none), st) := by kernel_rfl

theorem std_false_python (f r l v u fl w st) :
    (P ⟨f, false, .python, r, l, v, u, fl, w⟩ 200).text .eof { sou := stdSource } st = .ok ((stdEnd, stdTree none), st) := by kernel_rfl

theorem std_true_none (f r l v u fl w st) :
    (P ⟨f, true, .none, r, l, v, u, fl, w⟩ 200).text .eof { sou := stdSource } st = .ok ((stdEnd, stdTree (some ⟨stdKey, 1215⟩)), st) := by kernel_rfl

theorem std_true_c (f r l v u fl w st) :
    (P ⟨f, true, .c, r, l, v, u, fl, w⟩ 200).text .eof { sou := stdSource } st = .ok ((stdEnd, stdTree (some ⟨stdKey, 1215⟩)), st) := by kernel_rfl

theorem std_true_python (f r l v u fl w st) :
    (P ⟨f, true, .python, r, l, v, u, fl, w⟩ 200).text .eof { sou := stdSource } st = .ok ((stdEnd, stdTree (some ⟨stdKey, 1215⟩)), st) := by kernel_rfl

/-- The text of the library is read, in every mode. -/
theorem std_text (e : PEnv) (st : PSt) : ∃ src o, GivesAt e (fun p => psText e p .eof { sou := stdSource }) st (src, stdTree o) st := by
  have key : ∃ o, (P e 200).text .eof { sou := stdSource } st = .ok ((stdEnd, stdTree o), st) := by
    obtain ⟨f, b, k, r, l, v, u, fl, w⟩ := e
    cases b <;> cases k
    · exact ⟨_, std_false_none ..⟩
    · exact ⟨_, std_false_c ..⟩
    · exact ⟨_, std_false_python ..⟩
    · exact ⟨_, std_true_none ..⟩
    · exact ⟨_, std_true_c ..⟩
    · exact ⟨_, std_true_python ..⟩
  obtain ⟨o, hr⟩ := key
  refine ⟨stdEnd, o, 199, fun n hn => ?_⟩
  have := (P_le e (show 200 ≤ n + 1 by omega)).text .eof { sou := stdSource } st
  rw [hr] at this
  rcases this with h | h
  · cases h
  · exact h.symm

end Yupp
