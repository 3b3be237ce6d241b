import Verif.Base.Escape
import Verif.Model.Eval
/-!
# Built-in functions (`pp/yugen.py:840-863, 2693-2785`)
-/

namespace Yupp

/-- Python as the built-ins use it: `repr`; `==` if one side is neither a string nor a whole number nor a
    list; `literal_eval` of other texts than one string literal; functions and arguments not modelled here.
    What the table at `pp/yugen.py:2701-2785` relies on. -/
structure BExt where
  repr : Node → Str := fun _ => []
  eq : Node → Node → Bool := fun _ _ => false
  literal : Str → Option Str := fun _ => none
  other : Str → List Node → List Node → Option (Node × List Node) := fun _ _ _ => none

/-- `str(val)`. As in `pp/yugen.py:2765, 2769-2770, 2778`. -/
def BExt.str (x : BExt) (n : Node) : Str := strOf { repr := x.repr, locs := fun _ => [] } n

/-- The text of a string, of whatever class. `isinstance( val, str )`, classes at `pp/yugen.py:276-366`. -/
def Node.text? : Node → Option Str
  | .atom s => some s.txt
  | .remark s => some s.txt
  | .str s => some s.txt
  | .plain s _ _ => some s.txt
  | .pstr s => some s
  | .result r => some r.txt
  | _ => Option.none

/-- The value of a whole number; `bool` is one. `pp/yugen.py:407-421`. -/
def Node.whole? : Node → Option Int
  | .int n => some n
  | .bool b => some (if b then 1 else 0)
  | _ => Option.none

/-- `a == b` if `a` is not a list: strings compare as texts, `pp/yugen.py:285-286`, whole numbers as numbers. -/
def simpleEq (x : BExt) (a b : Node) : Bool :=
  match a.text?, b.text? with
  | some s, some t => s == t
  | some _, none => false
  | none, some _ => false
  | none, none =>
    match a.whole?, b.whole? with
    | some m, some n => m == n
    | _, _ => if b.asList.isSome then false else x.eq a b

mutual
/-- `a == b`. `__eq__` of the classes, `pp/yugen.py:285-286, 456-457, 505-506` and the like. -/
def pyEq (x : BExt) : Node → Node → Bool
  | .list as, b => match b.asList with | some bs => pyEqs x as bs | none => false
  | .t as _, b => match b.asList with | some bs => pyEqs x as bs | none => false
  | a, b => simpleEq x a b
/-- `==` of lists. See `pp/yugen.py:369-379`. -/
def pyEqs (x : BExt) : List Node → List Node → Bool
  | [], [] => true
  | a :: as, b :: bs => pyEq x a b && pyEqs x as bs
  | _, _ => false
end

/-- Can the value be put into a set? Objects that define `__eq__` cannot, nor can lists.
    `pp/yugen.py:285-290`; `x in s` and `s.add( x )`, `pp/yugen.py:2783`. -/
def hashable : Node → Bool
  | .none => true
  | .int _ | .bool _ | .float _ => true
  | n => n.isStr

/-- `l.index( val ) if val in l else -1`, for lists. `pp/yugen.py:2758`. -/
def indexOf (eq : Node → Bool) (l : List Node) : Int :=
  match l.findIdx? eq with
  | some i => i
  | none => -1

/-- `( len( l ) - 1 ) - l[ ::-1 ].index( val ) if val in l else -1`, for lists. `pp/yugen.py:2775`. -/
def rindexOf (eq : Node → Bool) (l : List Node) : Int :=
  match l.reverse.findIdx? eq with
  | some i => (l.length : Int) - 1 - i
  | none => -1

/-- `index`, `pp/yugen.py:2758`: lists, and texts in texts. -/
def bIndex (x : BExt) (l val : Node) : Option Node :=
  match l.asList, l.text? with
  | some xs, _ => some (.int (indexOf (fun y => pyEq x y val) xs))
  | none, some s => val.text?.map fun v => .int (match findIdx v s with | some i => (i : Int) | none => -1)
  | none, none => none

/-- `rindex`, `pp/yugen.py:2775`: for texts `val` itself is searched in the reversed text, which raises if it
    is not there. -/
def bRindex (x : BExt) (l val : Node) : Option Node :=
  match l.asList, l.text? with
  | some xs, _ => some (.int (rindexOf (fun y => pyEq x y val) xs))
  | none, some s => val.text?.bind fun v =>
      if contains s v then (findIdx v s.reverse).map fun i => .int ((s.length : Int) - 1 - (i : Nat)) else some (.int (-1))
  | none, none => none

/-- A slice of a list or a text, by what it does to them. A slice of a list is a plain `list`.
    `pp/yugen.py:2747-2748, 2754, 2772`. -/
def bSlice (f : {α : Type} → List α → List α) (l : Node) : Option Node :=
  match l.asList, l.text? with
  | some xs, _ => some (.list (f xs))
  | none, some s => some (.pstr (f s))
  | none, none => none

/-- `range( start, stop, step )`: `n` items. `pp/yugen.py:2771`. -/
def rangeFrom (start step : Int) : Nat → List Node
  | 0 => []
  | n + 1 => .int start :: rangeFrom (start + step) step n

/-- The number of items of `range( start, stop, step )`. `pp/yugen.py:2771`. -/
def rangeLen (start stop step : Int) : Nat :=
  if 0 < step then ((stop - start + step - 1) / step).toNat
  else ((start - stop - step - 1) / -step).toNat

/-- `range`, `pp/yugen.py:2771`. -/
def bRange (args : List Node) : Option Node :=
  match args.mapM Node.whole? with
  | some [stop] => some (.list (rangeFrom 0 1 (rangeLen 0 stop 1)))
  | some [start, stop] => some (.list (rangeFrom start 1 (rangeLen start stop 1)))
  | some [start, stop, step] => if step = 0 then none else some (.list (rangeFrom start step (rangeLen start stop step)))
  | _ => none

/-- `x for x in l if not ( x in s or s.add( x ))`, `pp/yugen.py:2783`: the items kept, and the set. `none`: an
    item cannot be put into a set. (What was added before the exception is left out.) -/
def uniqueGo (x : BExt) : List Node → List Node → Option (List Node × List Node)
  | [], s => some ([], s)
  | a :: as, s =>
    if !hashable a then none
    else if s.any (fun y => pyEq x y a) then uniqueGo x as s
    else (uniqueGo x as (a :: s)).map fun (ys, s) => (a :: ys, s)

/-- The items of a list, or the characters of a text. `for x in l`, `pp/yugen.py:2783`. -/
def Node.iter : Node → Option (List Node)
  | .list xs => some xs
  | .t xs _ => some xs
  | n => n.text?.map fun s => s.map fun c => .pstr [c]

/-- `_unq`, `pp/yugen.py:841-862`: for every `str` the class of the result does not matter, as it becomes a
    plain `str` (3256). -/
def bUnq (x : BExt) (n : Node) : Str :=
  match n.text? with
  | none => x.str n
  | some s =>
    if s.head? = some '"' ∨ s.head? = some '\'' then (literalEval x.literal s).getD s
    else (unicodeEscapeDecode s).getD s

/-- `q` and `qs`, `pp/yugen.py:2769-2770`. -/
def bQuote (x : BExt) (q : Char) (n : Node) : Str := q :: escEncode (x.str n) ++ [q]

/-- A function of two whole numbers, for other arguments not modelled: the functions of `operator`,
    `pp/yugen.py:2734`. -/
def bWhole2 (x : BExt) (f : Str) (g : Int → Int → Option Node) (a b : Node) (seen : List Node) : Option (Node × List Node) :=
  match a.whole?, b.whole? with
  | some m, some n => (g m n).map fun v => (v, seen)
  | _, _ => x.other f [a, b] seen

/-- A function of one whole number, for other arguments not modelled. `pp/yugen.py:2734-2735`. -/
def bWhole1 (x : BExt) (f : Str) (g : Int → Int) (a : Node) (seen : List Node) : Option (Node × List Node) :=
  match a.whole? with
  | some m => some (.int (g m), seen)
  | _ => x.other f [a] seen

/-- The prefix `0x`, `0b` or `0o` that `int( s, base )` skips. `pp/yugen.py:2722`. -/
def dropPrefix (b : Nat) : Str → Str
  | '0' :: c :: t =>
    if b = 16 ∧ (c = 'x' ∨ c = 'X') ∨ b = 2 ∧ (c = 'b' ∨ c = 'B') ∨ b = 8 ∧ (c = 'o' ∨ c = 'O') then t else '0' :: c :: t
  | s => s

/-- `int( s, base )` of ASCII text without underscores, `pp/yugen.py:2722`, without a sign: `none` is a `ValueError`. (The limit on
    the number of decimal digits of recent versions is left out.) -/
def pyNat (b : Nat) (s : Str) : Option Nat :=
  let u := dropPrefix b s
  if u ≠ [] ∧ u.all (digVal · < b) then some (baseVal b u) else none

/-- `int( s, base )` of ASCII text without underscores, `pp/yugen.py:2722`. -/
def pyInt (b : Nat) (s : Str) : Option Int :=
  match strip s with
  | '-' :: t => (pyNat b t).map fun (n : Nat) => -(n : Int)
  | '+' :: t => (pyNat b t).map fun (n : Nat) => (n : Int)
  | t => (pyNat b t).map fun (n : Nat) => (n : Int)

/-- `atoi`, `pp/yugen.py:2722`: other bases and other texts are not modelled. -/
def bAtoi (x : BExt) (args : List Node) (a : Node) (b : Int) (seen : List Node) : Option (Node × List Node) :=
  match a.text? with
  | some s =>
    if (b = 2 ∨ b = 8 ∨ b = 10 ∨ b = 16) ∧ s.all (fun c => c.toNat < 128 && c != '_') then
      (pyInt b.toNat s).map fun n => (.int n, seen)
    else x.other (lit "atoi") args seen
  | none => x.other (lit "atoi") args seen

/-- The texts that `sep.join( words )` takes, `pp/yugen.py:2716`: `none` is a `TypeError`. -/
def joinWords (words : Node) : Option (List Str) := words.iter.bind fun xs => xs.mapM Node.text?

/-- A bound of `getslice`, `pp/yugen.py:2750`: `None` for an empty text. -/
def boundOf (a : Node) : Option (Option Int) :=
  match a.text?, a.whole? with
  | some [], _ => some none
  | none, some n => some (some n)
  | _, _ => none

/-- `getslice`, `pp/yugen.py:2750`: one bound is the end. -/
def bGetslice (l : Node) (a b : Node) : Option Node :=
  match boundOf a, boundOf b with
  | some a, some b => bSlice (fun xs => sliceList a b xs) l
  | _, _ => none

/-- `ljust` and `rjust`, `pp/yugen.py:2724-2725`. -/
def bJust (left : Bool) (a w : Node) (fill : Str) : Option Node :=
  match a.text?, w.whole?, fill with
  | some s, some n, [c] =>
    let pad := List.replicate (n.toNat - s.length) c
    some (.pstr (if left then s ++ pad else pad ++ s))
  | _, _, _ => none

/-- `ord`, `pp/yugen.py:2765`: of a quoted literal the quotes belong to the text. -/
def bOrd (x : BExt) (a : Node) : Option Node :=
  match (match a with | .str s => s.txt | a => x.str a) with
  | [c] => some (.int c.toNat)
  | _ => none

/-- `strlen`, `pp/yugen.py:2779`. -/
def bStrlen (x : BExt) (a : Node) : Node :=
  match a with
  | .str s => .int (bUnq x (.str s)).length
  | a => .int (x.str a).length

/-- A function of texts, for other arguments it raises. `pp/yugen.py:2706-2731`. -/
def bText1 (g : Str → Option Node) (a : Node) (seen : List Node) : Option (Node × List Node) :=
  (a.text?.bind g).map fun v => (v, seen)

/-- A function of two texts, for other second arguments not modelled (`None` is one). `pp/yugen.py:2706-2731`. -/
def bText2 (x : BExt) (f : Str) (g : Str → Str → Option Node) (a b : Node) (seen : List Node) : Option (Node × List Node) :=
  match a.text?, b.text? with
  | some s, some t => (g s t).map fun v => (v, seen)
  | _, _ => x.other f [a, b] seen

/-- `a & b` of whole numbers, in two's complement without end. `operator.and_`, `pp/yugen.py:2734, 2746`. -/
def intAnd : Int → Int → Int
  | .ofNat m, .ofNat n => .ofNat (m &&& n)
  | .ofNat m, .negSucc n => .ofNat (m ^^^ (m &&& n))
  | .negSucc m, .ofNat n => .ofNat (n ^^^ (m &&& n))
  | .negSucc m, .negSucc n => .negSucc (m ||| n)

/-- `a | b`. `operator.or_`, `pp/yugen.py:2734, 2766`. -/
def intOr : Int → Int → Int
  | .ofNat m, .ofNat n => .ofNat (m ||| n)
  | .ofNat m, .negSucc n => .negSucc (n ^^^ (m &&& n))
  | .negSucc m, .ofNat n => .negSucc (m ^^^ (m &&& n))
  | .negSucc m, .negSucc n => .negSucc (m &&& n)

/-- `a ^ b`. `operator.xor`, `pp/yugen.py:2734`. -/
def intXor : Int → Int → Int
  | .ofNat m, .ofNat n => .ofNat (m ^^^ n)
  | .ofNat m, .negSucc n => .negSucc (m ^^^ n)
  | .negSucc m, .ofNat n => .negSucc (m ^^^ n)
  | .negSucc m, .negSucc n => .ofNat (m ^^^ n)

/-- `a << b` and `a >> b`; a negative count raises. `operator.lshift`, `operator.rshift`, `pp/yugen.py:2734`. -/
def bShift (left : Bool) (m n : Int) : Option Node :=
  if n < 0 then none else some (.int (if left then m * 2 ^ n.toNat else m.fdiv (2 ^ n.toNat)))

/-- `a + b` of two sequences. `operator.add`, `operator.concat`, `pp/yugen.py:2734`. -/
def seqAdd (a b : Node) : Option Node :=
  match a.text?, b.text?, a.asList, b.asList with
  | some s, some t, _, _ => some (.pstr (s ++ t))
  | _, _, some xs, some ys => some (.list (xs ++ ys))
  | _, _, _, _ => none

/-- `b in a`. `operator.contains`, `pp/yugen.py:2734`: in a text only texts can be looked for. -/
def bContains (x : BExt) (a b : Node) : Option Node :=
  match a.text?, b.text?, a.asList with
  | some s, some t, _ => some (.bool (findIdx t s).isSome)
  | none, _, some xs => some (.bool (xs.any (pyEq x b)))
  | _, _, _ => none

/-- The item `k`, from the end if `k` is negative. `pp/yugen.py:2734`. -/
def pyItem (k : Int) (xs : List α) : Option α :=
  if 0 ≤ k then xs[k.toNat]? else if -k ≤ xs.length then xs[xs.length - (-k).toNat]? else none

/-- `a[b]`. `operator.getitem`, `pp/yugen.py:2734`. -/
def bGetitem (a b : Node) : Option Node :=
  match b.whole?, a.asList, a.text? with
  | some k, some xs, _ => pyItem k xs
  | some k, none, some s => (pyItem k s).map fun c => .pstr [c]
  | _, _, _ => none

/-- `s.rfind( t )`. `pp/yugen.py:2720`: the last of the places. -/
def rfindIdx (t : Str) : Str → Option Nat
  | [] => if t = [] then some 0 else none
  | c :: s => match rfindIdx t s with
    | some i => some (i + 1)
    | none => if t.isPrefixOf (c :: s) then some 0 else none

/-- `s.swapcase()` of an ASCII character, `pp/yugen.py:2709`. -/
def swapChar (c : Char) : Char := if c.isUpper then c.toLower else c.toUpper

/-- `s.capitalize()` of an ASCII text, `pp/yugen.py:2730`. -/
def capitalizeStr : Str → Str
  | [] => []
  | c :: t => c.toUpper :: t.map Char.toLower

/-- A function of ASCII texts, not modelled for other texts. `pp/yugen.py:2707-2709, 2730`. -/
def bAscii (x : BExt) (f : Str) (g : Str → Node) (a : Node) (seen : List Node) : Option (Node × List Node) :=
  match a.text? with
  | some s => if s.all (·.toNat < 128) then some (g s, seen) else x.other f [a] seen
  | none => none

/-- `s.zfill( width )`, `pp/yugen.py:2727`. -/
def zfillStr (n : Int) (s : Str) : Str :=
  match s with
  | c :: t =>
    if c = '+' ∨ c = '-' then c :: (List.replicate (n.toNat - s.length) '0' ++ t)
    else List.replicate (n.toNat - s.length) '0' ++ s
  | [] => List.replicate n.toNat '0'

/-- `s.center( width, fill )`, `pp/yugen.py:2726`: the odd one goes to the left if the width is odd. -/
def centerStr (n : Int) (c : Char) (s : Str) : Str :=
  let pad := n.toNat - s.length
  let left := pad / 2 + (if pad % 2 = 1 ∧ n.toNat % 2 = 1 then 1 else 0)
  List.replicate left c ++ s ++ List.replicate (pad - left) c

/-- `oct( n )`, `pp/yugen.py:2765`. -/
def octStr : Int → Str
  | .ofNat n => ['0', 'o'] ++ digitsStr 8 n
  | .negSucc n => ['-', '0', 'o'] ++ digitsStr 8 (n + 1)

/-- More functions: of the module `operator`, `pp/yugen.py:2734, 2746, 2766`, of texts, `pp/yugen.py:2707-2730`, `isdigit`, `oct`,
    `int_`, `pp/yugen.py:2759-2765`. `zfill` of numbers is not modelled (it pads the `repr` of the node). -/
def moreCall (x : BExt) (f : Str) (args seen : List Node) : Option (Node × List Node) :=
  let same (r : Option Node) : Option (Node × List Node) := r.map fun v => (v, seen)
  match String.ofList f, args with
  | "and", [a, b] => bWhole2 x f (fun m n => some (.int (intAnd m n))) a b seen
  | "or", [a, b] => bWhole2 x f (fun m n => some (.int (intOr m n))) a b seen
  | "xor", [a, b] => bWhole2 x f (fun m n => some (.int (intXor m n))) a b seen
  | "invert", [a] => bWhole1 x f (fun m => -m - 1) a seen
  | "lshift", [a, b] => bWhole2 x f (bShift true) a b seen
  | "rshift", [a, b] => bWhole2 x f (bShift false) a b seen
  | "pos", [a] => bWhole1 x f (fun m => m) a seen
  | "truth", [a] => same (some (.bool (truthy a)))
  | "concat", [a, b] => (match seqAdd a b with
      | some v => some (v, seen)
      | none => x.other f [a, b] seen)
  | "contains", [a, b] => same (bContains x a b)
  | "getitem", [a, b] => same (bGetitem a b)
  | "rfind", [a, b] => bText2 x f (fun s t => some (.int (match rfindIdx t s with | some i => (i : Int) | none => -1))) a b seen
  | "lower", [a] => bAscii x f (fun s => .pstr (s.map Char.toLower)) a seen
  | "upper", [a] => bAscii x f (fun s => .pstr (s.map Char.toUpper)) a seen
  | "swapcase", [a] => bAscii x f (fun s => .pstr (s.map swapChar)) a seen
  | "capitalize", [a] => bAscii x f (fun s => .pstr (capitalizeStr s)) a seen
  | "isdigit", [a] => bAscii x f (fun s => .bool (s != [] && s.all Char.isDigit)) (.pstr (x.str a)) seen
  | "zfill", [a, w] => (match a.text?, w.whole? with
      | some s, some n => some (.pstr (zfillStr n s), seen)
      | some _, none => none
      | none, _ => x.other f [a, w] seen)
  | "center", [a, w] => same (match a.text?, w.whole? with
      | some s, some n => some (.pstr (centerStr n ' ' s))
      | _, _ => none)
  | "oct", [a] => same (a.whole?.map fun n => .pstr (octStr n))
  | "int_", [a] => (match a.whole? with
      | some n => some (.int n, seen)
      | none => bAtoi x args a 10 seen)
  | _, args => x.other f args seen

/-- The functions of texts, `pp/yugen.py:2704-2731`, and `abs`, `chr`, `cmp`, `getslice`, `hex`, `ord`, `str`, `strlen`, `sum`,
    `pp/yugen.py:2747-2780`. -/
def textCall (x : BExt) (f : Str) (args seen : List Node) : Option (Node × List Node) :=
  let same (r : Option Node) : Option (Node × List Node) := r.map fun v => (v, seen)
  match String.ofList f, args with
  | "split", [a] => bText1 (fun s => some (.list ((wordsStr s).map .pstr))) a seen
  | "split", [a, b] => bText2 x f (fun s t => if t = [] then none else some (.list ((splitStr t s).map .pstr))) a b seen
  | "join", [w] => same ((joinWords w).map fun ws => .pstr (joinStr [' '] ws))
  | "join", [w, b] => same (match joinWords w, b.text? with
      | some ws, some t => some (.pstr (joinStr t ws))
      | _, _ => none)
  | "replace", [a, b, c] => (match a.text?, b.text?, c.text? with
      | some s, some (o :: os), some n => some (.pstr (replace (o :: os) n s), seen)
      | _, _, _ => x.other f [a, b, c] seen)
  | "find", [a, b] => bText2 x f (fun s t => some (.int (match findIdx t s with | some i => (i : Int) | none => -1))) a b seen
  | "count", [a, b] => bText2 x f (fun s t => some (.int (if t = [] then s.length + 1 else (splitStr t s).length - 1))) a b seen
  | "strip", [a] => bText1 (fun s => some (.pstr (strip s))) a seen
  | "lstrip", [a] => bText1 (fun s => some (.pstr (lstrip s))) a seen
  | "rstrip", [a] => bText1 (fun s => some (.pstr (rstrip s))) a seen
  | "strip", [a, b] => bText2 x f (fun s t => some (.pstr (stripBy (t.contains ·) s))) a b seen
  | "lstrip", [a, b] => bText2 x f (fun s t => some (.pstr (lstripBy (t.contains ·) s))) a b seen
  | "rstrip", [a, b] => bText2 x f (fun s t => some (.pstr (rstripBy (t.contains ·) s))) a b seen
  | "ljust", [a, w] => same (bJust true a w [' '])
  | "rjust", [a, w] => same (bJust false a w [' '])
  | "ljust", [a, w, c] => same (c.text?.bind (bJust true a w))
  | "rjust", [a, w, c] => same (c.text?.bind (bJust false a w))
  | "atoi", [a] => bAtoi x args a 10 seen
  | "atoi", [a, b] => (match b.whole? with
      | some n => bAtoi x args a n seen
      | none => x.other f [a, b] seen)
  | "abs", [a] => bWhole1 x f (fun m => (m.natAbs : Int)) a seen
  | "cmp", [a, b] => bWhole2 x f (fun m n => some (.int ((if m > n then 1 else 0) - (if m < n then 1 else 0)))) a b seen
  | "getslice", [l, b] => same (bGetslice l (.pstr []) b)
  | "getslice", [l, a, b] => same (bGetslice l a b)
  | "hex", [a] => same (a.whole?.map fun n => .pstr (hexStr n))
  | "chr", [a] => (match a.whole? with
      | some n =>
        if 0 ≤ n ∧ n.toNat.isValidChar then some (.pstr [Char.ofNat n.toNat], seen)
        else x.other f [a] seen
      | none => none)
  | "ord", [a] => same (bOrd x a)
  | "str", [a] => same (some (.pstr (x.str a)))
  | "strlen", [a] => same (some (bStrlen x a))
  | "sum", [a] => (match a.asList.bind fun xs => xs.mapM Node.whole? with
      | some ns => some (.int ns.sum, seen)
      | none => x.other f [a] seen)
  | _, args => moreCall x f args seen

/-- The call of a built-in function, `pp/yugen.py:2701-2785`; the last argument is the set that `unique` keeps
    between calls. -/
def builtinCall (x : BExt) (f : Str) (args seen : List Node) : Option (Node × List Node) :=
  let same (r : Option Node) : Option (Node × List Node) := r.map fun v => (v, seen)
  match String.ofList f, args with
  | "car", [l] => same (bSlice (fun xs => xs.take 1) l)
  | "cdr", [l] => same (bSlice (fun xs => xs.drop 1) l)
  | "reversed", [l] => same (bSlice (fun xs => xs.reverse) l)
  | "index", [l, v] => same (bIndex x l v)
  | "rindex", [l, v] => same (bRindex x l v)
  | "range", args => same (bRange args)
  | "list", args => same (some (.list args))
  | "islist", [l] => same (some (.bool l.asList.isSome))
  | "len", [l] => same (match l.asList, l.text? with
      | some xs, _ => some (.int xs.length)
      | none, some s => some (.int s.length)
      | none, none => none)
  | "unique", [l] => match l.iter with
      | some xs => (uniqueGo x xs seen).map fun (ys, s) => (.list ys, s)
      | none => none
  | "q", [v] => same (some (.pstr (bQuote x '"' v)))
  | "qs", [v] => same (some (.pstr (bQuote x '\'' v)))
  | "unq", [v] => same (some (.pstr (bUnq x v)))
  | "SPACE", [] => same (some (.pstr [steadySpace]))
  | "TAB", [] => same (some (.pstr [steadyTab]))
  | "add", [a, b] => (match seqAdd a b with
      | some v => some (v, seen)
      | none => bWhole2 x f (fun m n => some (.int (m + n))) a b seen)
  | "sub", [a, b] => bWhole2 x f (fun m n => some (.int (m - n))) a b seen
  | "mul", [a, b] => bWhole2 x f (fun m n => some (.int (m * n))) a b seen
  | "floordiv", [a, b] => bWhole2 x f (fun m n => if n = 0 then none else some (.int (m.fdiv n))) a b seen
  | "mod", [a, b] => bWhole2 x f (fun m n => if n = 0 then none else some (.int (m.fmod n))) a b seen
  | "lt", [a, b] => bWhole2 x f (fun m n => some (.bool (m < n))) a b seen
  | "le", [a, b] => bWhole2 x f (fun m n => some (.bool (m ≤ n))) a b seen
  | "gt", [a, b] => bWhole2 x f (fun m n => some (.bool (m > n))) a b seen
  | "ge", [a, b] => bWhole2 x f (fun m n => some (.bool (m ≥ n))) a b seen
  | "eq", [a, b] => same (some (.bool (pyEq x a b)))
  | "ne", [a, b] => same (some (.bool (!pyEq x a b)))
  | "not", [a] => same (some (.bool (!truthy a)))
  | "neg", [a] => bWhole1 x f (fun m => -m) a seen
  | "inc", [a] => bWhole1 x f (fun m => m + 1) a seen
  | "dec", [a] => bWhole1 x f (fun m => m - 1) a seen
  | _, args => textCall x f args seen

/-- `functools.reduce` from a first value on; `call` is the raw Python function, `none`: it raises.
    `pp/yugen.py:2805, 3219`. -/
def foldCall (call : List Node → Option Node) : Node → List Node → Option Node
  | acc, [] => some acc
  | acc, x :: xs => match call [acc, x] with
    | some v => foldCall call v xs
    | none => none

/-- `node.fn.fn( node.args[ 0 ].fn, *node.args[ 1: ])` for `reduce`, `pp/yugen.py:2805, 3219`. -/
def pyReduce (call : List Node → Option Node) : List Node → Option Node
  | [seq] => match seq.iter with
    | some (x :: xs) => foldCall call x xs
    | _ => none
  | [seq, init] => match seq.iter with
    | some xs => foldCall call init xs
    | none => none
  | _ => none

end Yupp
