import Verif.Base.PyStr
/-!
# Escape sequences of Python (`codecs.unicode_escape_encode`, `codecs.unicode_escape_decode`, string literals)

These definitions describe the Python library, not yupp; they are part of the trusted base.
-/

namespace Yupp

/-- A hexadecimal digit, in lower case. -/
def hexDigit (n : Nat) : Char := if n < 10 then Char.ofNat (48 + n) else Char.ofNat (87 + n)

/-- `n` with `k` hexadecimal digits. -/
def hexOf : Nat → Nat → Str
  | 0, _ => []
  | k + 1, n => hexOf k (n / 16) ++ [hexDigit (n % 16)]

/-- One character, encoded. -/
def escChar (c : Char) : Str :=
  if c = '\\' then ['\\', '\\']
  else if c = '\t' then ['\\', 't']
  else if c = '\n' then ['\\', 'n']
  else if c = '\r' then ['\\', 'r']
  else if 0x20 ≤ c.toNat ∧ c.toNat < 0x7f then [c]
  else if c.toNat < 0x100 then '\\' :: 'x' :: hexOf 2 c.toNat
  else if c.toNat < 0x10000 then '\\' :: 'u' :: hexOf 4 c.toNat
  else '\\' :: 'U' :: hexOf 8 c.toNat

/-- `codecs.unicode_escape_encode(s)[0].decode()`: quotes are not escaped. -/
def escEncode (s : Str) : Str := s.flatMap escChar

/-- The value of a hexadecimal digit. -/
def hexVal (c : Char) : Option Nat :=
  if '0' ≤ c ∧ c ≤ '9' then some (c.toNat - 48)
  else if 'a' ≤ c ∧ c ≤ 'f' then some (c.toNat - 87)
  else if 'A' ≤ c ∧ c ≤ 'F' then some (c.toNat - 55)
  else none

/-- Exactly `k` hexadecimal digits: the number and the rest. -/
def hexRead : Nat → Nat → Str → Option (Nat × Str)
  | 0, acc, s => some (acc, s)
  | _ + 1, _, [] => none
  | k + 1, acc, c :: s =>
    match hexVal c with
    | some d => hexRead k (16 * acc + d) s
    | none => none

/-- The character with that code. A lone surrogate, which the strings of the model cannot hold, counts as an
    error. -/
def codeChar (n : Nat) : Option Char :=
  if n < 0xd800 ∨ (0xdfff < n ∧ n < 0x110000) then some (Char.ofNat n) else none

/-- At most `k` octal digits: the number and the rest. -/
def octRead : Nat → Nat → Str → Nat × Str
  | 0, acc, s => (acc, s)
  | _ + 1, acc, [] => (acc, [])
  | k + 1, acc, c :: s => if '0' ≤ c ∧ c ≤ '7' then octRead k (8 * acc + (c.toNat - 48)) s else (acc, c :: s)

/-- What follows a backslash: the text it stands for and the rest; `none`: an error. `\N{…}` is not modelled
    and counts as an error. -/
def escRead : Str → Option (Str × Str)
  | [] => none
  | c :: s =>
    match c with
    | '\n' => some ([], s)
    | '\\' => some (['\\'], s)
    | '\'' => some (['\''], s)
    | '"' => some (['"'], s)
    | 'a' => some (['\x07'], s)
    | 'b' => some (['\x08'], s)
    | 'f' => some (['\x0c'], s)
    | 'n' => some (['\n'], s)
    | 'r' => some (['\r'], s)
    | 't' => some (['\t'], s)
    | 'v' => some (['\x0b'], s)
    | 'x' => (hexRead 2 0 s).bind fun (n, s) => (codeChar n).map fun c => ([c], s)
    | 'u' => (hexRead 4 0 s).bind fun (n, s) => (codeChar n).map fun c => ([c], s)
    | 'U' => (hexRead 8 0 s).bind fun (n, s) => (codeChar n).map fun c => ([c], s)
    | 'N' => none
    | c =>
      if '0' ≤ c ∧ c ≤ '7' then
        let (n, s) := octRead 2 (c.toNat - 48) s
        (codeChar n).map fun c => ([c], s)
      else some (['\\', c], s)

/-- Text with escape sequences, decoded; `n` bounds the length. -/
def escDecodeGo : Nat → Str → Option Str
  | _, [] => some []
  | 0, _ :: _ => none
  | n + 1, c :: s =>
    if c = '\\' then (escRead s).bind fun (t, s) => (escDecodeGo n s).map (t ++ ·)
    else (escDecodeGo n s).map (c :: ·)

/-- Text with escape sequences, decoded; `none`: an error. -/
def escDecode (s : Str) : Option Str := escDecodeGo s.length s

/-- One character in UTF-8, each byte as the character with that code. -/
def utf8Char (c : Char) : Str :=
  let n := c.toNat
  if n < 0x80 then [c]
  else if n < 0x800 then [Char.ofNat (0xc0 + n / 0x40), Char.ofNat (0x80 + n % 0x40)]
  else if n < 0x10000 then
    [Char.ofNat (0xe0 + n / 0x1000), Char.ofNat (0x80 + n / 0x40 % 0x40), Char.ofNat (0x80 + n % 0x40)]
  else
    [Char.ofNat (0xf0 + n / 0x40000), Char.ofNat (0x80 + n / 0x1000 % 0x40), Char.ofNat (0x80 + n / 0x40 % 0x40),
      Char.ofNat (0x80 + n % 0x40)]

/-- `codecs.unicode_escape_decode(s)[0]` of a `str`: its UTF-8 bytes are decoded, bytes outside escape
    sequences as Latin-1. -/
def unicodeEscapeDecode (s : Str) : Option Str := escDecode (s.flatMap utf8Char)

/-- The characters up to the quote that closes a literal, and what follows it. `none`: it is not closed, or a
    line end or NUL occurs. -/
def literalBody (q : Char) : Str → Option (Str × Str)
  | [] => none
  | '\\' :: c :: s =>
    if c = '\n' ∨ c = '\r' ∨ c = '\x00' then none else (literalBody q s).map fun (b, r) => ('\\' :: c :: b, r)
  | c :: s =>
    if c = q then some ([], s)
    else if c = '\n' ∨ c = '\r' ∨ c = '\x00' then none
    else (literalBody q s).map fun (b, r) => (c :: b, r)

/-- `str(literal_eval(s))` of a text that starts with a quote; `none`: an exception. What is one string literal
    on one line is modelled; everything else is left to `other`. -/
def literalEval (other : Str → Option Str) (s : Str) : Option Str :=
  match s with
  | [] => other s
  | q :: t =>
    match literalBody q t with
    | some (b, []) => escDecode b
    | _ => other s

end Yupp
