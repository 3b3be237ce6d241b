import Verif.Model.World
import Verif.Base.Dedent
/-!
# Terminal symbols of the grammar (`pp/yugen.py:734-838, 1409-1464, 1510-1603, 1990-2207`)

Everything here looks at the text only. A scanner returns the number of characters it takes.
Digits are ASCII digits; `\d` of the regular expressions also accepts other Unicode digits.
-/

namespace Yupp

/-- `ps_EOL`, `pp/yugen.py:751`. -/
def isEol (c : Char) : Bool := c == '\n' || c == '\r'

/-- `ps_EOL | ps_SPACE`, `pp/yugen.py:2040` (`ps_SPACE`, line 753, is `isBlank`). -/
def isGap (c : Char) : Bool := isEol c || isBlank c

/-- `ps_LETTER`, `pp/yugen.py:755`. -/
def isLetter (c : Char) : Bool :=
  ('a' ≤ c && c ≤ 'z') || ('A' ≤ c && c ≤ 'Z') || c == '_'

/-- An ASCII digit. Part of `ps_FIGURE`, `pp/yugen.py:757`. -/
def isDig (c : Char) : Bool := '0' ≤ c && c ≤ '9'

/-- `ps_FIGURE`, `pp/yugen.py:757`. -/
def isFigure (c : Char) : Bool := isDig c || c == '-'

/-- `ps_ANY`, `pp/yugen.py:759`. -/
def isAny (c : Char) : Bool := isEol c || c == '\t' || (0x20 ≤ c.toNat && c.toNat ≤ 0xff)

/-! ## Marks, `pp/yugen.py:760-809` -/

/-- `pp/yugen.py:761`. -/
def kCode : Str := ['(', '$', 'c', 'o', 'd', 'e']
/-- `pp/yugen.py:764`. -/
def kComma : Str := [',', ',']
/-- `pp/yugen.py:767`. -/
def kSemi : Str := [';', ';']
/-- `pp/yugen.py:770`. -/
def kInfix : Str := ['(', '$', '{', '}']
/-- `pp/yugen.py:773`. -/
def kSet : Str := ['(', '$', 's', 'e', 't']
/-- `pp/yugen.py:776`. -/
def kSetT : Str := ['\\', 's', 'e', 't']
/-- `pp/yugen.py:779`. -/
def kLet : Str := ['(', '$', 'l', 'e', 't']
/-- `pp/yugen.py:782`. -/
def kLetT : Str := ['\\', 'l', 'e', 't']
/-- `pp/yugen.py:785`. -/
def kImport : Str := ['(', '$', 'i', 'm', 'p', 'o', 'r', 't']
/-- `pp/yugen.py:788`. -/
def kImportT : Str := ['\\', 'i', 'm', 'p', 'o', 'r', 't']
/-- `pp/yugen.py:791`. -/
def kQuote : Str := ['(', '$', 'q', 'u', 'o', 't', 'e']
/-- `pp/yugen.py:794`. -/
def kBquote : Str := ['(', '`']
/-- `pp/yugen.py:797`. -/
def kMacro : Str := ['(', '$', 'm', 'a', 'c', 'r', 'o']
/-- `pp/yugen.py:800`. -/
def kComment : Str := ['(', '$', '!']
/-- `pp/yugen.py:803`. -/
def kEmit : Str := ['(', '$', 'e', 'm', 'i', 't']
/-- `pp/yugen.py:806`. -/
def kEmitT : Str := ['\\', 'e', 'm', 'i', 't']
/-- `pp/yugen.py:1312`. -/
def kApply : Str := ['(', '$']

/-- `sou[ :len( k )] == k`, used all over the grammar. E.g. `pp/yugen.py:1077, 1103, 1178`. -/
def Src.starts (s : Src) (k : Str) : Bool := k.isPrefixOf s.txt

/-! ## Atoms and gaps -/

/-- Length of the leading run of characters satisfying `f`. As in `pp/yugen.py:1998-2002, 2012-2016`. -/
def spanLen (f : Char → Bool) (s : Str) : Nat := (s.takeWhile f).length

/-- Length of the atom at the start of the text, `pp/yugen.py:1996-2000`; 0: there is none. -/
def atomLen : Str → Nat
  | [] => 0
  | c :: t => if isLetter c then 1 + spanLen (fun c => isLetter c || isFigure c) t else 0

/-- `ps_atom`, `pp/yugen.py:1990-2002`. -/
def psAtom (s : Src) : Src × Option Src :=
  let i := atomLen s.txt
  (s.drop i, if i = 0 then none else some (s.take i))

/-- `ps_space`, `pp/yugen.py:2006-2016`: the rest (the space itself is not used by the parser). -/
def psSpace (s : Src) : Src := s.drop (spanLen isBlank s.txt)

/-- `ps_eol`, `pp/yugen.py:2020-2029`. -/
def psEol (s : Src) : Src × Option Src :=
  match s.txt with
  | c :: _ => if isEol c then (s.drop 1, some (s.take 1)) else (s, none)
  | [] => (s, none)

/-- `ps_gap`, `pp/yugen.py:2033-2043`: the rest. -/
def psGap (s : Src) : Src := s.drop (spanLen isGap s.txt)

/-! ## String literals -/

/-- `re_STR`, `re_CHR` (`pp/yugen.py:823-825`) after the opening quote `q`: the number of characters
    up to and including the closing one. `.` does not match a line feed; the complement set does. -/
def cStrTail (q : Char) : Str → Option Nat
  | [] => none
  | c :: t =>
    if c = q then some 1
    else if c = '\\' then
      match t with
      | [] => none
      | d :: u => if d = '\n' then none else (cStrTail q u).map (· + 2)
    else (cStrTail q t).map (· + 1)

/-- `re_STR.match`, then `re_CHR.match`, `pp/yugen.py:2063-2072`. -/
def cStrLen : Str → Option Nat
  | '"' :: t => (cStrTail '"' t).map (· + 1)
  | '\'' :: t => (cStrTail '\'' t).map (· + 1)
  | _ => none

/-- Length of the first line with its line feed, `_getline`, `pp/yugen.py:2092-2096`. -/
def lineLen : Str → Nat
  | [] => 0
  | c :: t => if c = '\n' then 1 else 1 + lineLen t

/-- Tail of `re_STR_HEAD` for a one-quote string (`pp/yugen.py:3766-3768`), after the opening quote:
    the number of characters up to the closing quote or to a continued line end. -/
def py1Head (q : Char) : Str → Option Nat
  | [] => none
  | c :: t =>
    if c = q then some 1
    else if c = '\n' then none
    else if c = '\\' then
      match t with
      | [] => none
      | d :: u => if d = '\n' then some 2 else (py1Head q u).map (· + 2)
    else (py1Head q t).map (· + 1)

/-- `re_STR_1x1_TAIL`, `re_STR_1x2_TAIL`, `pp/yugen.py:3773-3775`, on one line. -/
def py1Tail (q : Char) : Str → Option Nat
  | [] => none
  | c :: t =>
    if c = q then some 1
    else if c = '\\' then
      match t with
      | [] => none
      | d :: u => if d = '\n' then none else (py1Tail q u).map (· + 2)
    else (py1Tail q t).map (· + 1)

/-- `re_STR_3x1_TAIL`, `re_STR_3x2_TAIL`, `pp/yugen.py:3777-3779`, on one line. -/
def py3Tail (q : Char) : Str → Option Nat
  | [] => none
  | c :: t =>
    if c = q ∧ [q, q].isPrefixOf t then some 3
    else if c = '\\' then
      match t with
      | [] => none
      | d :: u => if d = '\n' then none else (py3Tail q u).map (· + 2)
    else (py3Tail q t).map (· + 1)

/-- Outcome of a scanner that may raise. As `pp/yugen.py:1409-1443, 2100-2153`. -/
inductive Scan where
  | no                 -- no match
  | yes (n : Nat)      -- the number of characters taken
  | raises
deriving DecidableEq, Repr

/-- The loop over the following lines, `pp/yugen.py:2135-2153`. `sk` characters are still to be
    skipped before the next line starts; `p` is `sou_p`. (A line is recognised where it starts.) -/
def pyLines (one : Bool) (tail : Str → Option Nat) : (sk : Nat) → (p : Nat) → Str → Scan
  | 0, _, [] => .raises
  | 0, p, c :: t =>
    let ln := (c :: t).take (lineLen (c :: t))
    match tail ln with
    | some k => .yes (p + k)
    | none =>
      if one && !(['\n', '\\'].isPrefixOf ln.reverse) then .raises
      else pyLines one tail (ln.length - 1) (p + ln.length) t
  | _ + 1, _, [] => .raises
  | k + 1, p, _ :: t => pyLines one tail k p t

/-- Length of `[uU]?[rR]?`. `pp/yugen.py:3761-3770`. -/
def pyPrefix : Str → Nat
  | c :: t =>
    if c = 'u' ∨ c = 'U' then
      match t with
      | d :: _ => if d = 'r' ∨ d = 'R' then 2 else 1
      | [] => 1
    else if c = 'r' ∨ c = 'R' then 1
    else 0
  | [] => 0

/-- `ps_string_python`, `pp/yugen.py:2100-2153`, with the regular expressions of `yuinit`,
    `pp/yugen.py:3757-3779`: the length of the literal. -/
def pyStrLen (s : Str) : Scan :=
  let n := pyPrefix s
  let ln := s.take (lineLen s)
  match s.drop n with
  | [] => .no
  | q :: t =>
    if q = '\'' ∨ q = '"' then
      if [q, q].isPrefixOf t then
        match py3Tail q (ln.drop (n + 3)) with
        | some k => .yes (n + 3 + k)
        | none => pyLines false (py3Tail q) ln.length ln.length s
      else
        match py1Head q t with
        | none => .no
        | some k =>
          if (t.take k).getLast? == some '\n' then
            -- `"'" in head`, pp/yugen.py:2129: an apostrophe anywhere in the head decides
            let q' := if '\'' ∈ q :: t.take k then '\'' else '"'
            pyLines true (py1Tail q') ln.length ln.length s
          else .yes (n + 1 + k)
    else .no

/-! ## Numbers -/

/-- Length of `[1-9]\d*`, `0[0-7]*` and the prefixed forms of `re_INT` without sign, blanks and
    suffix, `pp/yugen.py:811-819`; the number of `l` allowed after it comes second. 0: no match. -/
def intBody : Str → Nat × Nat
  | '0' :: t =>
    match t with
    | x :: u =>
      if (x = 'x' ∨ x = 'X') ∧ 0 < spanLen (fun c => isDig c || ('a' ≤ c && c ≤ 'f') || ('A' ≤ c && c ≤ 'F')) u then
        (2 + spanLen (fun c => isDig c || ('a' ≤ c && c ≤ 'f') || ('A' ≤ c && c ≤ 'F')) u, 2)
      else if (x = 'b' ∨ x = 'B') ∧ 0 < spanLen (fun c => c == '0' || c == '1') u then
        (2 + spanLen (fun c => c == '0' || c == '1') u, 1)
      else if (x = 'o' ∨ x = 'O') ∧ 0 < spanLen (fun c => '0' ≤ c && c ≤ '7') u then
        (2 + spanLen (fun c => '0' ≤ c && c ≤ '7') u, 1)
      else (1 + spanLen (fun c => '0' ≤ c && c ≤ '7') t, 1)
    | [] => (1, 1)
  | c :: t => if '1' ≤ c ∧ c ≤ '9' then (1 + spanLen isDig t, 1) else (0, 0)
  | [] => (0, 0)

/-- Length of the run of at most `k` letters `l`, `L`. `pp/yugen.py:811-819`. -/
def elLen (k : Nat) (s : Str) : Nat := min k (spanLen (fun c => c == 'l' || c == 'L') s)

/-- Length of `[+-]?`. `pp/yugen.py:811-821`. -/
def signLen : Str → Nat
  | c :: _ => if c = '+' ∨ c = '-' then 1 else 0
  | [] => 0

/-- Value of a digit in a base up to 16. For `pp/yugen.py:2199-2205`. -/
def digVal (c : Char) : Nat :=
  if isDig c then c.toNat - 48
  else if 'a' ≤ c && c ≤ 'f' then c.toNat - 87
  else if 'A' ≤ c && c ≤ 'F' then c.toNat - 55
  else 99

/-- Value of a digit string. For `pp/yugen.py:2199-2205`. -/
def baseVal (b : Nat) (s : Str) : Nat := s.foldl (fun n c => n * b + digVal c) 0

/-- `int(s, 0)` of an unsigned literal without blanks; `none`: `ValueError`. (Underscores and the
    limit on the number of digits of recent versions are left out.). `pp/yugen.py:2199-2205`. -/
def intLit : Str → Option Nat
  | '0' :: t =>
    match t with
    | x :: u =>
      if x = 'x' ∨ x = 'X' then (if u ≠ [] ∧ u.all (digVal · < 16) then some (baseVal 16 u) else none)
      else if x = 'b' ∨ x = 'B' then (if u ≠ [] ∧ u.all (digVal · < 2) then some (baseVal 2 u) else none)
      else if x = 'o' ∨ x = 'O' then (if u ≠ [] ∧ u.all (digVal · < 8) then some (baseVal 8 u) else none)
      else if t.all (· == '0') then some 0
      else none
    | [] => some 0
  | [] => none
  | s => if s.all isDig then some (baseVal 10 s) else none

/-- `INT( leg, 0 )`: leading white space, then a sign directly before the digits, `pp/yugen.py:2205`. -/
def intOf (leg : Str) : Option Int :=
  match leg.dropWhile isSpace with
  | '-' :: t => (intLit t).map (fun (n : Nat) => -(n : Int))
  | '+' :: t => (intLit t).map (fun (n : Nat) => (n : Int))
  | t => (intLit t).map (fun (n : Nat) => (n : Int))

/-- `leg[ :-1 ]` if `leg[ -1 ] in [ 'l', 'L' ]`, `pp/yugen.py:2203-2204`. -/
def dropEl (leg : Str) : Str :=
  match leg.getLast? with
  | some c => if c = 'l' ∨ c = 'L' then leg.dropLast else leg
  | none => leg

/-- `re_INT.match`, `pp/yugen.py:811-819`: the length of the match, 0 if there is none. -/
def intLen (s : Str) : Nat :=
  let a := signLen s
  let b := spanLen isBlank (s.drop a)
  let body := intBody (s.drop (a + b))
  if body.1 = 0 then 0 else a + b + body.1 + elLen body.2 (s.drop (a + b + body.1))

/-- Length of `(?:[eE][+-]?\d+)?`. `pp/yugen.py:821`. -/
def expLen : Str → Nat
  | c :: t =>
    if c = 'e' ∨ c = 'E' then
      let a := signLen t
      let d := spanLen isDig (t.drop a)
      if d = 0 then 0 else 1 + a + d
    else 0
  | [] => 0

/-- `re_FLOAT.match`, `pp/yugen.py:821`: the length of the match, 0 if there is none. -/
def floatLen (s : Str) : Nat :=
  let a := signLen s
  let b := spanLen (· == ' ') (s.drop a)
  let d := spanLen isDig (s.drop (a + b))
  match s.drop (a + b + d) with
  | '.' :: t =>
    let e := spanLen isDig t
    if d = 0 ∨ e = 0 then 0 else a + b + d + 1 + e + expLen (t.drop e)
  | _ => 0

/-- `float(s)` accepts what `re_FLOAT` matches unless blanks separate sign and digits.
    `pp/yugen.py:2194-2197`. -/
def floatOk (leg : Str) : Bool :=
  match leg with
  | c :: d :: _ => !((c == '+' || c == '-') && d == ' ')
  | _ => true

/-! ## Remarks, quotes and plain text -/

/-- `ps_remark_c`, `pp/yugen.py:1409-1442`. -/
def remarkCLen (s : Str) : Scan :=
  if ['/', '/'].isPrefixOf s then .yes (2 + spanLen (fun c => !isEol c) (s.drop 2))
  else if ['/', '*'].isPrefixOf s then
    match findIdx ['*', '/'] (s.drop 2) with
    | some i => .yes (i + 4)
    | none => .raises
  else .no

/-- `ps_remark_python`, `pp/yugen.py:1446-1464`. -/
def remarkPyLen (s : Str) : Scan :=
  match s with
  | '#' :: t => .yes (1 + spanLen (fun c => !isEol c) t)
  | _ => .no

/-- A square bracket counter or a parenthesis counter after one character, `pp/yugen.py:1537-1546`. -/
def depthStep (op cl : Char) (d : Nat) (c : Char) : Nat :=
  if c = op then d + 1 else if c = cl then d - 1 else d

/-- The indent after one character, `pp/yugen.py:1548-1554`. -/
def indentStep (indent : Indent) (c : Char) : Indent :=
  if isEol c then .str []
  else if isBlank c then
    match indent with
    | .str i => .str (i ++ [c])
    | i => i
  else .no

/-- The loops `while True: next( plain )` of `ps_quote`, `ps_comment` and `ps_macro`
    (`pp/yugen.py:1258-1264, 2081-2087, 2171-2177`) over `ps_plain` (`pp/yugen.py:1510-1557`): how many
    characters are taken before the closing parenthesis; `none` if an exception is raised. -/
def plainLen : Nat → Str → Option Nat
  | _, [] => none
  | d, c :: t =>
    if !isAny c then none
    else
      let d := depthStep '(' ')' d c
      if t.head? = some ')' ∧ d = 0 then some 1
      else (plainLen d t).map (· + 1)

/-- The part common to `ps_quote`, `ps_comment` and `ps_macro` after the mark: the length of the body
    (0 if a closing parenthesis follows at once, `pp/yugen.py:1255, 2078, 2168`). -/
def bodyLen (s : Str) : Option Nat :=
  if s.head? = some ')' then some 0 else plainLen 0 s

/-! ## Header of a Python file -/

/-- ASCII case folding for `re.IGNORECASE`. (The pattern is ASCII; the only other character `re` takes for
    one of its letters is the dotless i, which is left out.). `pp/yugen.py:827`. -/
def lowerChar (c : Char) : Char := if 'A' ≤ c ∧ c ≤ 'Z' then Char.ofNat (c.toNat + 32) else c

/-- `\W` or the end; `word` tells which non-ASCII characters are word characters (it is not asked about
    others). `pp/yugen.py:827`. -/
def nonWord (word : Char → Bool) : Str → Bool
  | [] => true
  | c :: _ => !(isLetter c || isDig c || (decide (0x80 ≤ c.toNat) && word c))

/-- Characters of an encoding name, `[-_a-zA-Z0-9]`. `pp/yugen.py:827`. -/
def isEnc (c : Char) : Bool := isLetter c || isFigure c

/-- Is there an `n`, `1 ≤ n ≤ k`, such that `(?:\W|$)` matches after `n` characters?. `pp/yugen.py:827`. -/
def encEnd (word : Char → Bool) (s : Str) : Nat → Bool
  | 0 => false
  | k + 1 => nonWord word (s.drop (k + 1)) || encEnd word s k

/-- `re_CODING` at the start of the text, `pp/yugen.py:827`: `some b` if it matches, `b` telling
    whether group 1 (the encoding) took part. -/
def codingAt (word : Char → Bool) (s : Str) : Option Bool :=
  if (s.take 6).map lowerChar = ['c', 'o', 'd', 'i', 'n', 'g'] ∧
      ((s.drop 6).head? = some ':' ∨ (s.drop 6).head? = some '=') then
    let t := (s.drop 7).dropWhile isBlank
    if (t.take 4).map lowerChar = ['y', 'u', 'p', 'p'] then
      let u := t.drop 4
      if u.head? = some '.' ∧ encEnd word (u.drop 1) (spanLen isEnc (u.drop 1)) then some true
      else if nonWord word u then some false
      else none
    else none
  else none

/-- `re_CODING.search`, `pp/yugen.py:1485`. -/
def codingSearch (word : Char → Bool) : Str → Option Bool
  | [] => none
  | c :: t => match codingAt word (c :: t) with
    | some b => some b
    | none => codingSearch word t

/-- `ps_CODING`, `pp/yugen.py:828`. -/
def kCoding : Str := ['y', 'u', 'p', 'p', '.']

end Yupp
