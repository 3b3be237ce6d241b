import Verif.Model.Ast
/-!
# From evaluated trees to text (`pp/yugen.py:322-366, 2810-2997`)
-/

namespace Yupp

/-- Parts of Python the text of a value depends on: `repr` of a node that is neither a string nor
    a number, and the references of a location (`RESULT.loc`, modelled in `Model/World`).
    `pp/yugen.py:2873-2998`. -/
structure TextExt where
  repr : Node → Str
  locs : Loc → Browse

/-- `str(node)`, `pp/yugen.py:399, 416, 2898`. -/
def strOf (x : TextExt) : Node → Str
  | .atom s => s.txt
  | .remark s => s.txt
  | .str s => s.txt
  | .plain s _ _ => s.txt
  | .pstr s => s
  | .result r => r.txt
  | .int n => (toString n).toList
  | .bool b => if b then lit "True" else lit "False"
  | .float f => f.str
  | n => x.repr n

/-- `PLAIN.get_trimmed`, `pp/yugen.py:340-347`. -/
def getTrimmed (cfg : Config) (s : Src) (tr : Bool) : Str :=
  if cfg.trimAppIndent && tr then lstrip s.txt else s.txt

/-- `PLAIN.get_trimmed_with_browse`, `pp/yugen.py:350-355`. -/
def getTrimmedWithBrowse (cfg : Config) (s : Src) (tr : Bool) : Src :=
  if cfg.trimAppIndent && tr then s.drop (s.txt.length - (lstrip s.txt).length) else s

/-- `SOURCE` branch of `_plain_with_browse`, `pp/yugen.py:2993-2994`. -/
def srcRes (x : TextExt) (s : Src) : Res :=
  { txt := s.txt
    browse := if s.txt.isEmpty then [] else match s.loc with | some l => x.locs l | none => [] }

/-- `reduce(RESULT.add_text, list)` or `RESULT('')`, `pp/yugen.py:2982`. -/
def addTexts : List Res → Res
  | [] => { txt := [] }
  | r :: rs => rs.foldl Res.addText r

mutual
/-- `_plain`, `pp/yugen.py:2873-2898`. -/
def plainStr (cfg : Config) (x : TextExt) : Node → Str
  | .none => []
  | .trim a indent => trim cfg indent (plainStr cfg x a)
  | .list xs => plainStrs cfg x xs
  | .t xs _ => plainStrs cfg x xs
  | .lazy a => plainStr cfg x a
  | .plain s _ tr => getTrimmed cfg s tr
  | n => strOf x n
/-- `''.join(map(_plain, node))`, `pp/yugen.py:2887`. -/
def plainStrs (cfg : Config) (x : TextExt) : List Node → Str
  | [] => []
  | n :: ns => plainStr cfg x n ++ plainStrs cfg x ns
end

mutual
/-- `_plain_with_browse`, `pp/yugen.py:2963-2997`. -/
def plainBrowse (cfg : Config) (x : TextExt) : Node → Res
  | .none => { txt := [] }
  | .result r => r
  | .trim a indent => trimWithBrowse cfg indent (plainBrowse cfg x a)
  | .list xs => addTexts (plainBrowses cfg x xs)
  | .t xs _ => addTexts (plainBrowses cfg x xs)
  | .lazy a => plainBrowse cfg x a
  | .plain s _ tr => srcRes x (getTrimmedWithBrowse cfg s tr)
  | .atom s => srcRes x s
  | .remark s => srcRes x s
  | .str s => srcRes x s
  | n => { txt := strOf x n }
/-- `list(map(_plain_with_browse, node))`, `pp/yugen.py:2982`. -/
def plainBrowses (cfg : Config) (x : TextExt) : List Node → List Res
  | [] => []
  | n :: ns => plainBrowse cfg x n :: plainBrowses cfg x ns
end

mutual
/-- `_is_term`, `pp/yugen.py:2814-2842`. -/
def isTerm : Node → Bool
  | .none => true
  | .trim a _ => isTerm a
  | .list xs => areTerms xs
  | .t xs _ => areTerms xs
  | .lazy _ => true
  | .atom _ | .remark _ | .str _ | .plain _ _ _ | .pstr _ | .result _ => true
  | .int _ | .bool _ | .float _ => true
  | _ => false
/-- `_is_term` of a list, `pp/yugen.py:2827-2832`. -/
def areTerms : List Node → Bool
  | [] => true
  | n :: ns => isTerm n && areTerms ns
end

mutual
/-- `_detect_deadlock`, `pp/yugen.py:2845-2870`. -/
def detectDeadlock : Node → Bool
  | .trim a _ => detectDeadlock a
  | .list xs => detectDeadlocks xs
  | .t xs _ => detectDeadlocks xs
  | .builtin _ _ => true
  | _ => false
/-- `_detect_deadlock` of a list, `pp/yugen.py:2858-2863`. -/
def detectDeadlocks : List Node → Bool
  | [] => false
  | n :: ns => detectDeadlock n || detectDeadlocks ns
end

/-- `PLAIN.add_indent`, `pp/yugen.py:358-366` (the parser makes no empty `PLAIN`; on an empty one
    `self[-1]` would raise). The joined text is a plain string, so the location is lost. -/
def addIndent (indent : Str) (s : Src) (ind : Indent) (tr : Bool) : Node :=
  match ind with
  | .none => .plain s ind tr
  | _ =>
    let ln := splitKeep s.txt
    let ln := match s.txt.getLast? with
      | some c => if c == '\n' || c == '\r' then ln ++ [[]] else ln
      | none => ln
    .plain { txt := joinStr indent ln } (match ind with | .str i => .str (indent ++ i) | i => i) tr

/-- `_plain_back`, `pp/yugen.py:2810-2811`. -/
def plainBack (x : TextExt) : Node → Str
  | .list [] => lit "()"
  | .t [] _ => lit "()"
  | n => strOf x n

end Yupp
