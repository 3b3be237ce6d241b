/-!
# Python strings

Model of the `str` methods of CPython 3 the code relies on. A string is the list
of its Unicode scalar values (lone surrogates are not modelled). These
definitions describe the Python library, not yupp; they are part of the trusted
base.
-/

namespace Yupp

/-- A Python `str`. -/
abbrev Str := List Char

/-- Literal helper: the characters of a Lean string. -/
abbrev lit (s : String) : Str := s.toList

/-- Characters at which `str.splitlines` ends a line (besides the pair CR LF). -/
def isLineBreak (c : Char) : Bool :=
  let n := c.toNat
  (0x0a ≤ n && n ≤ 0x0d) || (0x1c ≤ n && n ≤ 0x1e) || n == 0x85 || n == 0x2028 || n == 0x2029

/-- `str.isspace` of one character; the set stripped by `strip`, `lstrip`, `rstrip`. -/
def isSpace (c : Char) : Bool :=
  let n := c.toNat
  (0x09 ≤ n && n ≤ 0x0d) || (0x1c ≤ n && n ≤ 0x20) || n == 0x85 || n == 0xa0 || n == 0x1680
    || (0x2000 ≤ n && n ≤ 0x200a) || n == 0x2028 || n == 0x2029 || n == 0x202f || n == 0x205f
    || n == 0x3000

/-- `s.splitlines(True)`: the lines with their terminators. -/
def splitKeep : Str → List Str
  | [] => []
  | '\r' :: '\n' :: t => ['\r', '\n'] :: splitKeep t
  | c :: t =>
    if isLineBreak c then [c] :: splitKeep t
    else match splitKeep t with
      | [] => [[c]]
      | l :: ls => (c :: l) :: ls

/-- `s.splitlines()`: the lines without their terminators. -/
def splitLines (s : Str) : List Str :=
  (splitKeep s).map (·.takeWhile (fun c => !isLineBreak c))

/-- `s.lstrip()` -/
def lstrip (s : Str) : Str := s.dropWhile isSpace

/-- `s.rstrip()` -/
def rstrip (s : Str) : Str := (s.reverse.dropWhile isSpace).reverse

/-- `s.strip()` -/
def strip (s : Str) : Str := rstrip (lstrip s)

/-- `sep.join(xs)` -/
def joinStr (sep : Str) : List Str → Str
  | [] => []
  | [x] => x
  | x :: y :: ys => x ++ sep ++ joinStr sep (y :: ys)

/-- `s.startswith(p)` -/
def startsWith (s p : Str) : Bool := p.isPrefixOf s

/-- `s.replace(old, new)` for a non-empty `old`: leftmost, non-overlapping occurrences.
    `skip` counts the characters of the current occurrence still to be dropped. -/
def replaceGo (old new : Str) : Nat → Str → Str
  | _, [] => []
  | k + 1, _ :: t => replaceGo old new k t
  | 0, c :: t =>
    if old.isPrefixOf (c :: t) then new ++ replaceGo old new (old.length - 1) t
    else c :: replaceGo old new 0 t

/-- `s.replace(old, new)`; every call in the code has a non-empty `old`. -/
def replace (old new s : Str) : Str := replaceGo old new 0 s

/-- `s.find(sub)`, `none` standing for `-1`. -/
def findIdx (sub : Str) : Str → Option Nat
  | [] => if sub.isEmpty then some 0 else none
  | c :: t => if sub.isPrefixOf (c :: t) then some 0 else (findIdx sub t).map (· + 1)

/-- `sub in s` -/
def contains (s sub : Str) : Bool := (findIdx sub s).isSome

/-- `str.lower` on ASCII letters. (The code compares the result with `yupp` and `.py` only; no other
    character has a lower case form that holds one of their letters, so the tests are exact.) -/
def lowerStr (s : Str) : Str := s.map Char.toLower

/-- `s.split(sep)` for a non-empty `sep`: `skip` counts the characters of the current separator still to be
    dropped, `cur` is the piece read so far. -/
def splitGo (sep : Str) : Nat → Str → Str → List Str
  | _, cur, [] => [cur]
  | k + 1, cur, _ :: t => splitGo sep k cur t
  | 0, cur, c :: t =>
    if sep.isPrefixOf (c :: t) then cur :: splitGo sep (sep.length - 1) [] t
    else splitGo sep 0 (cur ++ [c]) t

/-- `s.split(sep)` for a non-empty `sep` -/
def splitStr (sep s : Str) : List Str := splitGo sep 0 [] s

/-- The piece read so far, unless it is empty. -/
def pieceStr (cur : Str) : List Str := if cur.isEmpty then [] else [cur]

/-- `s.split()`: `cur` is the word read so far. -/
def wordsGo : Str → Str → List Str
  | cur, [] => pieceStr cur
  | cur, c :: t => if isSpace c then pieceStr cur ++ wordsGo [] t else wordsGo (cur ++ [c]) t

/-- `s.split()` -/
def wordsStr (s : Str) : List Str := wordsGo [] s

/-- `s.lstrip(chars)`, the characters given by a test -/
def lstripBy (p : Char → Bool) (s : Str) : Str := s.dropWhile p

/-- `s.rstrip(chars)` -/
def rstripBy (p : Char → Bool) (s : Str) : Str := (s.reverse.dropWhile p).reverse

/-- `s.strip(chars)` -/
def stripBy (p : Char → Bool) (s : Str) : Str := rstripBy p (lstripBy p s)

/-- A bound of a slice of a sequence of length `n`. -/
def sliceBound (n : Nat) (i : Int) : Nat := if i < 0 then (i + n).toNat else min i.toNat n

/-- `xs[a:b]`, `none` being a bound left out -/
def sliceList {α : Type} (a b : Option Int) (xs : List α) : List α :=
  (xs.take ((b.map (sliceBound xs.length)).getD xs.length)).drop ((a.map (sliceBound xs.length)).getD 0)

/-- The digits of a number in a base from 2 to 16, in lower case. -/
def digitsStr (b n : Nat) : Str := if n < b ∨ b < 2 then [n.digitChar] else digitsStr b (n / b) ++ [(n % b).digitChar]
termination_by n
decreasing_by
  have : 2 ≤ b := by omega
  exact Nat.div_lt_self (by omega) (by omega)

/-- `hex(n)` -/
def hexStr : Int → Str
  | .ofNat n => ['0', 'x'] ++ digitsStr 16 n
  | .negSucc n => ['-', '0', 'x'] ++ digitsStr 16 (n + 1)

end Yupp
