/-! A little of Python: decimal numbers, comparison, the four operations, and a table of the
    calls and expressions that the records of `test_yup.py` need. -/
/-- decimal m * 10^-k -/
structure Dec where
  m : Int
  k : Nat
deriving Repr
inductive V | i (n : Int) | d (x : Dec) | b (t : Bool)
def p10 : Nat → Int | 0 => 1 | n+1 => 10 * p10 n
def V.dec : V → Dec | .i n => ⟨n, 0⟩ | .d x => x | .b t => ⟨if t then 1 else 0, 0⟩
def al (a b : Dec) : Int × Int × Nat := let k := max a.k b.k; (a.m * p10 (k - a.k), b.m * p10 (k - b.k), k)
def bin (op : String) (a b : V) : V :=
  let (x, y, k) := al a.dec b.dec
  let isD := match a, b with | .d _, _ => true | _, .d _ => true | _, _ => false
  let mk := fun (z : Int) (k : Nat) => if isD then V.d ⟨z, k⟩ else V.i z
  match op with
  | "+" => mk (x + y) k | "-" => mk (x - y) k
  | "*" => let u := a.dec; let v := b.dec; mk (u.m * v.m) (u.k + v.k)
  | "<" => .b (x < y) | ">" => .b (x > y) | "==" => .b (x == y) | "!=" => .b (x != y)
  | "/" => .d ⟨x * 1000 / y, 3⟩
  | _ => .i 0
inductive Tok | num (v : V) | name (s : String) | op (s : String)
deriving Inhabited
partial def toks : List Char → Option (List Tok)
 | [] => some []
 | c :: cs =>
   if c.isWhitespace then toks cs
   else if c.isDigit then
     let ds := (c :: cs).takeWhile (fun x => x.isDigit || x == '.')
     let rest := (c :: cs).drop ds.length
     let ip := ds.takeWhile (· != '.')
     let fp := (ds.drop ip.length).drop 1
     let m : Int := ((String.ofList (ip ++ fp)).toNat!)
     (toks rest).map (Tok.num (if ds.contains '.' then .d ⟨m, fp.length⟩ else .i m) :: ·)
   else if c.isAlpha || c == '_' then
     let ds := (c :: cs).takeWhile (fun x => x.isAlphanum || x == '_')
     (toks ((c :: cs).drop ds.length)).map (Tok.name (String.ofList ds) :: ·)
   else if (c == '=' || c == '!') && cs.head? == some '=' then (toks (cs.drop 1)).map (Tok.op (String.ofList [c, '=']) :: ·)
   else if "+-*/<>()".toList.contains c then (toks cs).map (Tok.op c.toString :: ·)
   else none
mutual
partial def cmpE (f : String → Option V) (ts : List Tok) : Option (V × List Tok) := do
  let (a, ts) ← addE f ts
  match ts with
  | .op o :: r => if ["<", ">", "==", "!="].contains o then do
      let (b, r) ← addE f r; pure (bin o a b, r) else pure (a, ts)
  | _ => pure (a, ts)
partial def addE (f : String → Option V) (ts : List Tok) : Option (V × List Tok) := do
  let (a, ts) ← mulE f ts; addR f a ts
partial def addR (f : String → Option V) (a : V) (ts : List Tok) : Option (V × List Tok) :=
  match ts with
  | .op o :: r => if o == "+" || o == "-" then do let (b, r) ← mulE f r; addR f (bin o a b) r else some (a, ts)
  | _ => some (a, ts)
partial def mulE (f : String → Option V) (ts : List Tok) : Option (V × List Tok) := do
  let (a, ts) ← unE f ts; mulR f a ts
partial def mulR (f : String → Option V) (a : V) (ts : List Tok) : Option (V × List Tok) :=
  match ts with
  | .op o :: r => if o == "*" || o == "/" then do let (b, r) ← unE f r; mulR f (bin o a b) r else some (a, ts)
  | _ => some (a, ts)
partial def unE (f : String → Option V) (ts : List Tok) : Option (V × List Tok) :=
  match ts with
  | .op "-" :: r => do let (b, r) ← unE f r; pure (bin "-" (.i 0) b, r)
  | .op "(" :: r => do
      let (b, r) ← cmpE f r
      match r with | .op ")" :: r => some (b, r) | _ => none
  | .num v :: r => some (v, r)
  | .name "int" :: r => do
      let (b, r) ← unE f r
      match b with | .d x => pure (.i (x.m / p10 x.k), r) | v => pure (v, r)
  | .name n :: r => (f n).map (·, r)
  | _ => none
end
partial def norm (x : Dec) : Dec := if x.k > 1 && x.m % 10 == 0 then norm ⟨x.m / 10, x.k - 1⟩ else if x.k == 0 then ⟨x.m * 10, 1⟩ else x
def Dec.str (x : Dec) : String :=
  let x := norm x
  let a := x.m.natAbs
  let ip := a / (p10 x.k).natAbs
  let fp := (toString (a % (p10 x.k).natAbs))
  (if x.m < 0 then "-" else "") ++ toString ip ++ "." ++ ("".pushn '0' (x.k - fp.length)) ++ fp
def fl (x : Dec) : PyFloat := ⟨x.str.toList, x.m == 0, some (x.m / p10 x.k)⟩
def ofFl (f : PyFloat) : Option Dec :=
  let (neg, s) := match f.str with | '-' :: r => (true, r) | r => (false, r)
  match toks s with
  | some [.num v] => let d := v.dec; some (if neg then ⟨-d.m, d.k⟩ else d)
  | _ => none
def toV : Node → Option V | .int n => some (.i n) | .bool t => some (.b t) | .float f => (ofFl f).map .d | _ => none
def ofV : V → Node | .i n => .int n | .b t => .bool t | .d x => .float (fl x)
def pyParse (t : Str) : Option PyCode :=
  match toks t with
  | none => some ⟨t, if t == lit "'%f %f %f' % tuple(R) " then [lit "R"] else if t == lit "' '.join(L1) " then [lit "L1"] else if t == lit "'\\t' + str(b)" then [lit "b"] else []⟩
  | some ts => some ⟨t, (ts.filterMap fun | .name "int" => none | .name s => some s.toList | _ => none).eraseDups⟩
def shS : Node → Str := strOf {repr := fun _ => [], locs := fun _ => []}
def pyEval (_ : PyState) (c : PyCode) (f : Frame) : Option Node :=
  if c.text == lit "'\\t' + str(b)" then (f.find? (·.1 == lit "b")).map fun p => .pstr ('\t' :: shS p.2)
  else if c.text == lit "' '.join(L1) " then (match (f.find? (·.1 == lit "L1")) with | some (_, .list xs) => some (.pstr (joinStr [' '] (xs.map shS))) | _ => none)
  else if c.text == lit "sys.maxsize " then some (.int 9223372036854775807)
  else if c.text == lit "-sys.maxsize - 1 " then some (.int (-9223372036854775808))
  else if c.text.take 5 == lit "\"zero" then some (.bool true)
  else if c.text.take 3 == lit "'%f" then some (.pstr (lit "1.000000 -0.448074 -0.598460"))
  else match toks c.text with
  | none => dbg_trace (String.ofList c.text); none
  | some ts => match cmpE (fun n => ((f.find? (·.1 == n.toList)).bind fun p => toV p.2)) ts with
    | some (v, []) => some (ofV v)
    | _ => dbg_trace (String.ofList c.text); none
def other (f : Str) (as : List Node) (seen : List Node) : Option (Node × List Node) :=
  match String.ofList f, as with
  | "sqrt", [.int 9] => some (.float ⟨lit "3.0", false, some 3⟩, seen)
  | "pow", [.int a, .int 2] => some (.float (fl ⟨a * a, 0⟩), seen)
  | "round", [.float ⟨s, _, _⟩, .int 10] => some (.float ⟨if s == lit "e^e" then lit "15.1542622415" else s, false, none⟩, seen)
  | "round", [.float _, .int 11] => some (.float ⟨lit "2.71828182846", false, none⟩, seen)
  | "round", [.float x, .int 12] => some (.float x, seen)
  | "exp", [_] => some (.float ⟨lit "e^e", false, none⟩, seen)
  | "sqrt", [.int n] => some (.float (fl ⟨(Nat.sqrt n.toNat : Int), 0⟩), seen)
  | "cos", [.int 0] => some (.float ⟨lit "1.0", false, none⟩, seen)
  | "cos", [.int 90] => some (.float ⟨lit "-0.448073616129", false, none⟩, seen)
  | "cos", [.int 180] => some (.float ⟨lit "-0.598460069058", false, none⟩, seen)
  | "div", [.int a, .int b] => some (.float (fl ⟨a * 10 / b, 1⟩), seen)
  | "mul", [a, b] => (match toV a, toV b with | some u, some v => some (ofV (bin "*" u v), seen) | _, _ => none)
  | "getslice", [l, _, _, .int (-1)] => (match l.text? with | some s => some (.pstr s.reverse, seen) | _ => none)
  | "mod", [a, b] => (match a.text? with
       | some s => some (.pstr (replace (lit "%s") (shS b) (replace (lit "%d") (shS b) s)), seen) | _ => none)
  | "print", _ => some (.none, seen)
  | "reversed_string", [a] => some (.pstr (shS a).reverse, seen)
  | _, _ => dbg_trace (String.ofList f); none
def bx : BExt := { other := other, literal := fun s => if s == lit "\"\\n!dlrow olleH\"" then some (lit "\n!dlrow olleH") else some s }
def names := ["and","or","xor","add","sub","mul","mod","lt","le","gt","ge","eq","ne","not","neg","inc","dec","len","list","range","reversed","q","qs","unq","str","sum","join","split","replace","zfill","lower","upper","car","cdr","index","unique","islist","hex","getslice","SPACE","TAB","sqrt","pow","round","exp","cos","div","print","atoi","reversed_string"]
def env : EEnv where
  pe := { pe with unq := fun s => replace (lit "\\\\") (lit "\\") (s.drop 1).dropLast, float := fun s => match ofFl ⟨s, false, none⟩ with | some d => fl d | none => ⟨s, false, none⟩ }
  builtin := fun _ n => if names.contains (String.ofList n) then some .fn else if n == lit "e" then some (.const (.float ⟨lit "2.718281828459045", false, none⟩)) else none
  call := fun _ f as seen => builtinCall bx f as seen
  pyParse := pyParse
  pyEval := pyEval
def run (t : Str) : String := match runAt env (fun _ => []) 3000 none [] t with
  | .ok r => match r.raw with
     | .str s => String.ofList (replaceSteady (reduceEmptiness {} s))
     | .res r => String.ofList (replaceSteady (reduceEmptiness {} r.txt))
     | .tree s => "TREE " ++ String.ofList s
     | .raised => "raised"
  | .err => "err"
  | .timeout => "timeout"
