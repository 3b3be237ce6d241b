import Verif.Model.Shell
/-!
# The `yupp` codec (`__init__.py`)
-/

namespace Yupp

/-- The codec a `yupp` codec is based on. `__init__.py:125-147`. -/
inductive BaseCodec
  | utf8
  | named (enc : Str)
deriving DecidableEq, Repr

/-- `yupp_search_function`, `__init__.py:125-157`; `known enc` says that `encodings.search_function(enc)` is
    not `None`. -/
def searchFunction (known : Str → Bool) (coding : Str) : Option BaseCodec :=
  if !startsWith (lowerStr coding) (lit "yupp") then none
  else
    match findIdx ['.'] coding with
    | some dot =>
      if dot ≠ (lit "yupp").length then none
      else if known (coding.drop (dot + 1)) then some (.named (coding.drop (dot + 1)))
      else none
    | none =>
      if coding.length ≠ (lit "yupp").length then none
      else some .utf8

/-- `read_header`, `__init__.py:39-51`: the first line, and the second one unless the first has `coding:`. -/
def readHeader (content : Option Str) : Str :=
  match content with
  | none => []
  | some t =>
    let l1 := readline t
    if contains l1 (lit "coding:") then l1 else l1 ++ readline (t.drop l1.length)

/-- `decode_stream`, `__init__.py:54-76`: the text, and what is registered for tracebacks (`substitution( fn, fn_o, shrink )`).
    `parses` says that `ast.parse` accepts the text. `py3`: the module `yutraceback` of Python 3 has no `print_exc`
    (`pylib/yutraceback.py:5-8`, `pylib/yutraceback3.py`), so that reporting an error is an error. -/
def decodeStream (py3 : Bool) (parses : Str → Bool) (proc : Prog (Bool × Plain × Str × Nat)) :
    Prog (Str × Option (Str × Nat)) := fun o s =>
  match proc o s with
  | .crashed s' => .crashed s'
  | .raised s' => if py3 then .raised s' else .done ([], none) s'
  | .done (ok, code, fno, shrink) s' =>
    if !ok then .done ([], none) s'
    else if parses code.txt then .done (code.txt, some (fno, shrink)) s'
    else if py3 then .raised s' else .done ([], some (fno, shrink)) s'

/-- `decode` of `decoder_factory`, `__init__.py:79-93`: the text and the number of bytes. `base` is the `decode` of the base codec
    (`none`: it raises), `content` the text of the file `argv[ 0 ]` if it can be read, `proc` is `proc_stream`. -/
def decode (py3 : Bool) (parses : Str → Bool) (proc : Str → Prog (Bool × Plain × Str × Nat)) (base : List UInt8 → Option (Str × Nat))
    (content : Option Str) (input : List UInt8) : Prog (Str × Nat) := fun o s =>
  match base input with
  | none => .raised s
  | some (data, n) =>
    match decodeStream py3 parses (proc (readHeader content ++ data)) o s with
    | .done (code, _) s' => .done (code, n) s'
    | .raised s' => .raised s'
    | .crashed s' => .crashed s'

/-- State and step of `codecs.BufferedIncrementalDecoder.decode` with `_buffer_decode` of
    `__init__.py:96-108`. `dec` is `decoder_factory(basecodec)`: the text and the number of bytes consumed
    (`none`: it raises). The state is the buffer. -/
def incDecode (dec : List UInt8 → Option (Str × Nat)) (buffer input : List UInt8) (final : Bool) :
    Option (Str × List UInt8) :=
  let data := buffer ++ input
  if !data.isEmpty && final then
    match dec data with
    | some (txt, consumed) => some (txt, data.drop consumed)
    | none => none
  else some ([], data)

/-- Feeding chunks, the last one with `final`: the list of the results.
    Calls of `__init__.py:96-108` by a reader. -/
def feed (dec : List UInt8 → Option (Str × Nat)) (buffer : List UInt8) : List (List UInt8) → List UInt8 → Option (List Str)
  | [], last => (incDecode dec buffer last true).map fun r => [r.1]
  | c :: cs, last =>
    match incDecode dec buffer c false with
    | none => none
    | some (txt, buffer') => (feed dec buffer' cs last).map (txt :: ·)

end Yupp
