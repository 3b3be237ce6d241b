import Verif.Model.Eval
import Verif.Model.Shell
/-!
# A translation as a whole (`pp/yup.py:290-368, 400-402`)
-/

namespace Yupp

/-- `isinstance( plain, str )`, `pp/yup.py:335`: what the value of the whole text is. `readable` is
    `make_ast_readable`. -/
def rawOf (e : EEnv) (readable : Node → Str) (s : ESt) (v : Node) : Raw :=
  match v with
  | .result r => .res r
  | v => if v.isStr then .str (strOf (textExt e s) v) else .tree (readable v)

/-- `yushell( text, _input, _output )`, `yueval( yuparse( yushell.input_file ))`, `pp/yup.py:290-368, 400-402`, with
    nesting limited to `n`. `seen` is what `$unique` remembers from earlier translations of the process. If an
    exception is raised, what the evaluation did to `feedback` before that is left out. -/
def runAt (e : EEnv) (readable : Node → Str) (n : Nat) (input : Option Str) (seen : List Node) (text : Str) : PRes Run :=
  match (P e.pe n).parse e.pe.inputFile (PSt.start e.pe input text) with
  | .err => .ok { raw := .raised }
  | .timeout => .timeout
  | .ok (xs, st) =>
    match E e n (.text xs) { p := st, seen := seen } with
    | .err => .ok { raw := .raised }
    | .timeout => .timeout
    | .ok (v, s) => .ok { raw := rawOf e readable s v, outputFile := s.outputFile, rept := s.rept, shrink := s.p.shrink }

end Yupp
