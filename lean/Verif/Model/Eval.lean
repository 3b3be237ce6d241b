import Verif.Model.Parse
import Verif.Model.Env
import Verif.Model.World
/-!
# The evaluator (`pp/yugen.py:2999-3750`)

`yueval` reduces a tree in a chain of scopes. The code changes trees, scopes and `yushell` in place; the
model threads them as values. What makes this faithful:
* a subtree is evaluated at most once before it is replaced by its value (variables and the functions of
  a "for each" loop are copied, `pp/yugen.py:3409, 3462`);
* of a closure only its own scope is ever used: `parent` is set again before every use
  (`pp/yugen.py:3497, 3553`), so closures carry one scope.
Not modelled: `$emit` of a variable that holds a closure hands out the stored object itself, so a later
application changes the variable too (`pp/yugen.py:3690`); `yushell.hazard` and other warnings
(`pp/yugen.py:3703-3704`); texts of messages; tracing; the recursion limit of Python. A built-in is looked up when it is applied, the code
looks it up when its name is evaluated (they differ if a script redefines it in between).

`E n` is the evaluator whose calls may be nested `n` deep (rounds of the loop count); `E 0` gives up.
-/

namespace Yupp

/-- An entry of the table `builtin`, `pp/yugen.py:2701-2785`. -/
inductive BVal where
  | fn                  -- callable
  | const (v : Node)    -- anything else

/-- What Python code may look at: the scripts loaded so far and the name of the output file if it was set.
    `yushell.script`, `yushell.output_file`, `pp/yugen.py:904, 2738, 3516`. -/
structure PyState where
  scripts : List Str := []
  outputFile : Option Str := none

/-- What the evaluator is given: the parser's surroundings, options, `config.passage`; Python: `repr`,
    the table of built-ins (scripts loaded so far add to it), parsing an expression, evaluating it,
    calling a built-in function (`none`: it raises; the state is what `unique` remembers), `reduce`.
    `pp/yugen.py:54-79, 2657-2684, 2701-2785`. -/
structure EEnv where
  pe : PEnv
  cfg : Config := {}
  passage : Nat := 0
  repr : Node → Str := fun _ => []
  builtin : List Str → Str → Option BVal := fun _ _ => none
  pyParse : Str → Option PyCode := fun _ => none
  pyEval : PyState → PyCode → Frame → Option Node := fun _ _ _ => none
  call : PyState → Str → List Node → List Node → Option (Node × List Node) := fun _ _ _ _ => none
  reduce : PyState → Node → List Node → Option Node := fun _ _ _ => none

/-- What evaluation changes: the scopes (innermost first), the tables of `yushell`,
    `feedback.output_file`, `feedback.repeat`, the items `unique` has seen.
    `pp/yugen.py:67-71, 2657-2684, 2783`. -/
structure ESt where
  env : Scopes := []
  p : PSt := {}
  outputFile : Option Str := none
  rept : Bool := false
  seen : List Node := []

/-- What Python code may look at. `pp/yugen.py:904, 2738, 3516`. -/
def ESt.py (s : ESt) : PyState := { scripts := s.p.scripts, outputFile := s.outputFile }

/-- A computation that may change `ESt`, raise, or nest too deep. No counterpart in the code: sequencing of Python, with exceptions and a bound on nesting. -/
def EM (α : Type) := ESt → PRes (α × ESt)

namespace EM
/-- A value. No counterpart in the code. -/
def pure (a : α) : EM α := fun s => .ok (a, s)
/-- One after the other. No counterpart in the code. -/
def bind (m : EM α) (f : α → EM β) : EM β := fun s =>
  match m s with
  | .ok (a, s') => f a s'
  | .err => .err
  | .timeout => .timeout
/-- `raise`. As in `pp/yugen.py:3728-3749`. -/
def err : EM α := fun _ => .err
/-- Nested too deep. No counterpart in the code. -/
def timeout : EM α := fun _ => .timeout
/-- The state. No counterpart in the code. -/
def get : EM ESt := fun s => .ok (s, s)
/-- Replaces the state. No counterpart in the code. -/
def set (s : ESt) : EM Unit := fun _ => .ok ((), s)
/-- an exception unless there is a value. As in `pp/yugen.py:3728-3749`. -/
def ofOption : Option α → EM α
  | some a => EM.pure a
  | none => EM.err
/-- No counterpart in the code: sequencing of Python, with exceptions and a bound on nesting. -/
instance : Monad EM where
  pure := EM.pure
  bind := EM.bind
/-- A parser step. The calls of the parser at `pp/yugen.py:3593`. -/
def parse (m : PM α) : EM α := fun s =>
  match m s.p with
  | .ok (a, p) => .ok (a, { s with p := p })
  | .err => .err
  | .timeout => .timeout
/-- Evaluation in a new innermost scope, which is returned as it is left. (There is always one.).
    `pp/yugen.py:3497-3503, 3523-3548, 3553-3554`. -/
def inFrame (f : Frame) (m : EM α) : EM (α × Frame) := fun s =>
  match m { s with env := f :: s.env } with
  | .ok (a, s') =>
    match s'.env with
    | f' :: env => .ok ((a, f'), { s' with env := env })
    | [] => .err
  | .err => .err
  | .timeout => .timeout
end EM

/-- `isinstance(node, str)`. As in `pp/yugen.py:3372, 3582`. -/
def Node.isStr : Node → Bool
  | .atom _ | .remark _ | .str _ | .plain _ _ _ | .pstr _ | .result _ => true
  | _ => false

/-- `bool(node)`: strings, lists and numbers; every other object is true. `pp/yugen.py:3611, 3626`. -/
def truthy (n : Node) : Bool :=
  match n with
  | .none => false
  | .atom s | .remark s | .str s | .plain s _ _ => !s.txt.isEmpty
  | .pstr s => !s.isEmpty
  | .result r => !r.txt.isEmpty
  | .int n => n != 0
  | .bool b => b
  | .float f => !f.isZero
  | .list xs => !xs.isEmpty
  | .t xs _ => !xs.isEmpty
  | .env f => !f.isEmpty
  | _ => true

/-- `TRIM.__init__`, `pp/yugen.py:2408-2410`. -/
def Indent.orEmpty : Indent → Str
  | .str s => s
  | _ => []

/-- How text is made of values in a state; the references follow declarations and calls that are
    registered already. `pp/yugen.py:2873-2998`. -/
def textExt (e : EEnv) (s : ESt) : TextExt :=
  { repr := e.repr, locs := s.p.world.loc (s.p.world.inclusion.length + 1) }

/-! ## Text -/

/-- `x_indent`, `pp/yugen.py:3109-3117`. -/
def nextIndent (indent : Indent) : Node → Indent
  | .plain _ .none _ => indent
  | .plain _ i _ => i
  | _ => .no

/-- `node[ nx ].trim = True` for a `PLAIN`, `pp/yugen.py:3120-3122, 3146-3148`. -/
def setTrim : Node → Node
  | .plain s i _ => .plain s i true
  | x => x

/-- `isinstance( node.indent, str )`. `pp/yugen.py:3120, 3146`. -/
def Indent.isStr : Indent → Bool
  | .str _ => true
  | _ => false

/-- The first of the remaining nodes after `$set`, `$macro` or a comment. `pp/yugen.py:3120-3122, 3146-3148`. -/
def trimNext (indent : Indent) : List Node → List Node
  | [] => []
  | x :: xs => (if indent.isStr then setTrim x else x) :: xs

/-- `if node.indent:` with the loop, `pp/yugen.py:3161-3164`. -/
def addIndents (indent : Indent) (xs : List Node) : List Node :=
  match indent with
  | .str [] => xs
  | .str i => xs.map (fun x => match x with
    | .plain s ind tr => addIndent i s ind tr
    | x => x)
  | _ => xs

/-- `isinstance( x, APPLY )`. `pp/yugen.py:3099`. -/
def Node.isApply : Node → Bool
  | .apply _ _ _ _ => true
  | _ => false

/-- `t.extend( tail )` or `t.append( tail )`, `pp/yugen.py:3171-3174`. -/
def asItems : Node → List Node
  | .list xs => xs
  | .t xs _ => xs
  | x => [x]

/-- Skipping a text up to the end of the module, `pp/yugen.py:3101-3107`: the new `skip_level`. -/
def skipStep (level : Nat) : Node → Nat
  | .importBegin => level + 1
  | .importEnd => level - 1
  | _ => level

/-- What a round of the loop over a text makes of an evaluated node, `pp/yugen.py:3127-3181`. -/
inductive Piece where
  | nothing                  -- `continue`
  | skip                     -- `skip_level = 1`
  | scope (f : Frame)        -- an `ENV`
  | splice (xs : List Node)  -- `EMBED( T )`
  | item (x : Node)

/-- The cases of the loop over a text, `pp/yugen.py:3126-3180`. -/
def pieceOf : Node → Piece
  | .none => .nothing
  | .skip => .skip
  | .importBegin => .nothing
  | .importEnd => .nothing
  | .env f => .scope f
  | .embed (.t xs _) => .splice xs
  | .embed a => .item a
  | x => .item x

/-- The loop over the nodes of a text, `pp/yugen.py:3094-3181`: the items of the new text. `indent` is
    `node.indent`, `level` is `skip_level`; `tr`: the next node is a `PLAIN` whose `trim` is set. -/
def evalT (rec : Node → EM Node) : Indent → Nat → Bool → List Node → EM (List Node)
  | _, _, _, [] => pure []
  | indent, level + 1, _, x :: rest => evalT rec indent (skipStep (level + 1) x) false rest
  | indent, 0, tr, x :: rest =>
    let x := if tr then setTrim x else x
    match x with
    | .comment => evalT rec indent 0 indent.isStr rest
    | x => do
      let y ← rec x
      match pieceOf y with
      | .nothing => evalT rec indent 0 false rest
      | .skip => evalT rec indent 1 false rest
      | .scope f =>
        if rest.isEmpty then pure []
        else do
          let z ← rec (.setClosure (.t (trimNext indent rest) indent) f)
          pure [z]
      | .splice xs => do
        let z ← rec (.t (addIndents indent xs ++ rest) indent)
        pure (asItems z)
      | .item y => do
        let ys ← evalT rec (nextIndent indent x) 0 false rest
        pure ((if x.isApply then .trim y indent.orEmpty else y) :: ys)

/-- The end of a text, `pp/yugen.py:3183-3187`. -/
def finishT (e : EEnv) (indent : Indent) (ys : List Node) : EM Node := fun s =>
  .ok (if areTerms ys then
      if e.cfg.browse then .result (plainBrowse e.cfg (textExt e s) (.t ys indent))
      else .pstr (plainStr e.cfg (textExt e s) (.t ys indent))
    else .t ys indent, s)

/-! ## Lists -/

/-- What an evaluated item adds to a list, `pp/yugen.py:3706-3720`. -/
def spread : Node → List Node
  | .none => []
  | .embed (.list xs) => xs
  | .embed (.t xs _) => xs
  | .embed (.var l r a) => [.embed (.var l r a)]
  | .embed (.apply f a n l) => [.embed (.apply f a n l)]
  | .embed a => [a]
  | x => [x]

/-- `LIST | list`, `pp/yugen.py:3698-3721`. -/
def evalList (rec : Node → EM Node) : List Node → EM (List Node)
  | [] => pure []
  | x :: xs => do
    let y ← rec x
    let ys ← evalList rec xs
    pure (spread y ++ ys)

/-- `_list_eval_1`, `pp/yugen.py:3018-3042`: the value (`none` for `NOT_FOUND`) and the rest. -/
def listEval1 (rec : Node → EM Node) : List Node → EM (Option Node × List Node)
  | [] => pure (some .none, [])
  | a :: as => do
    let y ← rec a
    match y with
    | .embed (.list (b :: bs)) => pure (some b, bs ++ as)
    | .embed (.t (b :: bs) _) => pure (some b, bs ++ as)
    | .embed (.list []) => listEval1 rec as
    | .embed (.t [] _) => listEval1 rec as
    | .embed (.var _ _ _) => pure (none, y :: as)
    | .embed (.apply _ _ _ _) => pure (none, y :: as)
    | .embed b => pure (some b, as)
    | b => pure (some b, as)

/-- `ENV.eval_local`, `pp/yugen.py:2543-2550`. -/
def evalLocal (rec : Node → EM Node) : Frame → EM Frame
  | [] => pure []
  | (k, v) :: f => do
    let v ← rec v
    let f ← evalLocal rec f
    pure ((k, v) :: f)

/-- All values of a scope are terms, the result of `eval_local`. `pp/yugen.py:2543-2550`. -/
def Frame.terms (f : Frame) : Bool := f.all (fun e => isTerm e.2)

/-! ## Application -/

/-- `node.fn.env` replaced. `pp/yugen.py:3353`. -/
def Node.setFrame (f : Frame) : Node → Node
  | .lclosure form _ late dflt => .lclosure form f late dflt
  | .mclosure txt _ decl call => .mclosure txt f decl call
  | x => x

/-- `node.fn.call = _call`, `pp/yugen.py:3306` (used for macros only). -/
def Node.setCall (call : Option Src) : Node → Node
  | .mclosure txt f decl _ => .mclosure txt f decl call
  | x => x

/-- `__va_args__`, `pp/yugen.py:2496`. -/
def vaArgs : Str := lit "__va_args__"

/-- `var in node.fn.default` for `var = node.fn.env.unassigned()`. `pp/yugen.py:3344, 3355`. -/
def hasDefault (dflt : Frame) : Option Str → Bool
  | some v => Frame.has dflt v
  | none => false

/-- "have no more arguments and default", `pp/yugen.py:3354-3357`; `frame` is the new scope of `fn`. -/
def applyNext (rec : Node → EM Node) (fn : Node) (frame dflt : Frame) (args : List Node) (named : List (Src × Node))
    (loc : Option Loc) : EM Node :=
  if named.isEmpty && args.isEmpty && !hasDefault dflt (Frame.unassigned frame) then rec (fn.setFrame frame)
  else rec (.apply (fn.setFrame frame) args named loc)

/-- The value for a parameter, `pp/yugen.py:3350-3352`. -/
def lateVal (rec : Node → EM Node) (late : List (Str × List Str)) (var : Str) (val : Node) : EM Node :=
  match Frame.get late var with
  | some keys => rec (.lclosure val (Frame.ofList (keys.map (fun k => (k, Node.bound)))) [] [])
  | none => pure val

/-- A parameter gets its value, `pp/yugen.py:3350-3357`. -/
def bindArg (rec : Node → EM Node) (fn : Node) (frame : Frame) (late : List (Str × List Str)) (dflt : Frame)
    (var : Str) (val : Node) (args : List Node) (named : List (Src × Node)) (loc : Option Loc) : EM Node := do
  let val ← lateVal rec late var val
  applyNext rec fn (Frame.set frame var val) dflt args named loc

/-- `APPLY -- L_CLOSURE | M_CLOSURE`, `pp/yugen.py:3302-3357`. -/
def applyClosure (rec : Node → EM Node) (fn : Node) (frame : Frame) (late : List (Str × List Str)) (dflt : Frame)
    (args : List Node) (named : List (Src × Node)) (loc : Option Loc) : EM Node :=
  match named with
  | (var, val) :: named =>
    if Frame.has frame var.txt then do
      let val ← rec val
      bindArg rec fn frame late dflt var.txt val args named loc
    else EM.err
  | [] =>
    match args, Frame.unassigned frame with
    | _ :: _, none => rec fn
    | _ :: _, some var =>
      if var = vaArgs then bindArg rec fn frame late dflt var (.list args) [] [] loc
      else do
        let (val, args) ← listEval1 rec args
        match val with
        | none => pure (.apply fn args [] loc)
        | some val => bindArg rec fn frame late dflt var val args [] loc
    | [], none => rec fn
    | [], some var =>
      match Frame.get dflt var with
      | none => pure fn
      | some d => do
        let val ← rec d
        bindArg rec fn frame late dflt var val [] [] loc

/-- `int( val ) if isinstance( val, bool ) else str( val ) if isinstance( val, native_str ) else val`,
    `pp/yugen.py:3256, 3270`: every kind of string becomes a plain one. (For 3270 `bool` stays.) -/
def strResult : Node → Node
  | .atom s => .pstr s.txt
  | .remark s => .pstr s.txt
  | .str s => .pstr s.txt
  | .plain s _ _ => .pstr s.txt
  | .result r => .pstr r.txt
  | x => x

/-- `pp/yugen.py:3256`. -/
def callResult : Node → Node
  | .bool b => .int (if b then 1 else 0)
  | x => strResult x

/-- `isinstance( node, VAR )`. `pp/yugen.py:3206`. -/
def Node.isVar : Node → Bool
  | .var _ _ _ => true
  | _ => false

/-- `isinstance( node, ATOM )`. `pp/yugen.py:3225`. -/
def Node.isAtom : Node → Bool
  | .atom _ => true
  | _ => false

/-- `isinstance( node, list )`. `pp/yugen.py:3238, 3276`. -/
def Node.asList : Node → Option (List Node)
  | .list xs => some xs
  | .t xs _ => some xs
  | _ => Option.none

/-- `isinstance( node, BUILTIN )`. `pp/yugen.py:3195`. -/
def Node.isBuiltin : Node → Bool
  | .builtin _ _ => true
  | _ => false

/-- `lazy`, `pp/yugen.py:2803`. -/
def lazyOf (x : Node) : Node :=
  match x.asList with
  | some xs => .list (xs.map .lazy)
  | none => .lazy x

/-- `APPLY -- BUILTIN -- function`, `pp/yugen.py:3247-3262`. -/
def applyFunction (e : EEnv) (a : Src) (special : Bool) (args : List Node) (loc : Option Loc) : EM Node := fun s =>
  if areTerms args then
    match e.call s.py a.txt args s.seen with
    | some (v, seen) => .ok (callResult v, { s with seen := seen })
    | none => .err
  else if detectDeadlocks args then .err
  else .ok (.apply (.builtin a special) args [] loc, s)

/-- `APPLY -- BUILTIN -- const`, `pp/yugen.py:3264-3270`. -/
def applyConst (v : Node) (args : List Node) : EM Node :=
  if args.isEmpty then pure (strResult v) else EM.err

/-- `__PASSAGE__`, `pp/yugen.py:3234-3245`. -/
def applyPassage (e : EEnv) (xs : List Node) : EM Node := fun s =>
  .ok ((xs[e.passage]?).getD .none, { s with rept := decide ((e.passage : Int) < (xs.length : Int) - 1) })

/-- `APPLY -- BUILTIN_SPECIAL`, `pp/yugen.py:3202-3245`. -/
def applySpecial (e : EEnv) (a : Src) (args : List Node) (loc : Option Loc) : EM Node :=
  let stay : EM Node := pure (.apply (.builtin a true) args [] loc)
  if a.txt = lit "lazy" then
    match args with
    | [x] => if x.isVar then stay else pure (lazyOf x)
    | _ => EM.err
  else if a.txt = lit "repr" then
    match args with
    | [x] => if x.isVar then stay else pure (.pstr (e.repr x))
    | _ => EM.err
  else if a.txt = lit "reduce" then
    match args with
    | [] => EM.err
    | f :: xs =>
      if xs.isEmpty && !f.isBuiltin then EM.err
      else if areTerms xs then do
        let s ← EM.get
        EM.ofOption (e.reduce s.py f xs)
      else if detectDeadlocks args then EM.err
      else stay
  else if a.txt = lit "isatom" then
    match args with
    | [x] => pure (.int (if x.isAtom || x.isVar then 1 else 0))
    | _ => EM.err
  else if a.txt = lit "__PASSAGE__" then
    match args with
    | [x] => match x.asList with
      | some xs => applyPassage e xs
      | none => EM.err
    | _ => EM.err
  else applyConst .skip args

/-- `APPLY -- BUILTIN`, `pp/yugen.py:3196-3270`. -/
def applyBuiltin (e : EEnv) (a : Src) (special : Bool) (args : List Node) (named : List (Src × Node))
    (loc : Option Loc) : EM Node :=
  if !named.isEmpty then EM.err
  else if special then applySpecial e a args loc
  else do
    let s ← EM.get
    match e.builtin s.p.scripts a.txt with
    | some (.const v) => applyConst v args
    | _ => applyFunction e a special args loc

/-- `l[ pos ] if pos < len( l ) else None`; `none` is an `IndexError`. `pp/yugen.py:3277, 3279`. -/
def subscript (l : List Node) (pos : Int) : Option Node :=
  if (l.length : Int) ≤ pos then some .none
  else if 0 ≤ pos then l[pos.toNat]?
  else if -(l.length : Int) ≤ pos then l[(l.length + pos).toNat]?
  else none

/-- `APPLY -- int | float`, `pp/yugen.py:3272-3290`; `pos` is `int( node.fn )`, `none` if that raises. -/
def applyNumber (fn : Node) (pos : Option Int) (args : List Node) (named : List (Src × Node))
    (loc : Option Loc) : EM Node :=
  if !named.isEmpty then EM.err
  else if args.isEmpty then pure fn
  else if !areTerms args then pure (.apply fn args named loc)
  else match pos with
    | none => EM.err
    | some pos =>
      match args with
      | [x] => match x.asList with
        | some xs => EM.ofOption (subscript xs pos)
        | none => EM.ofOption (subscript args pos)
      | _ => EM.ofOption (subscript args pos)

/-- The named arguments of a format string are evaluated, `pp/yugen.py:3381-3384`. -/
def evalNamed (rec : Node → EM Node) : List (Src × Node) → EM (List (Src × Node))
  | [] => pure []
  | (a, v) :: r => do
    let v ← rec v
    let r ← evalNamed rec r
    pure ((a, v) :: r)

/-- `'($' + name + ')'`. `pp/yugen.py:3390, 3392`. -/
def marker (name : Str) : Str := ['(', '$'] ++ name ++ [')']

/-- The substitutions one after another, `pp/yugen.py:3389-3392`. -/
def substAll (text : Str) (subs : List (Str × Str)) : Str :=
  subs.foldl (fun t s => replace (marker s.1) s.2 t) text

/-- Numbers for positional arguments, `pp/yugen.py:3389-3390`. -/
def numbered : Nat → List Str → List (Str × Str)
  | _, [] => []
  | i, x :: xs => (natStr i, x) :: numbered (i + 1) xs

/-- `APPLY -- str`, `pp/yugen.py:3373-3393`. -/
def applyStr (e : EEnv) (rec : Node → EM Node) (fn : Node) (args : List Node) (named : List (Src × Node))
    (loc : Option Loc) : EM Node :=
  if named.isEmpty && args.isEmpty then pure fn
  else do
    let named ← evalNamed rec named
    if named.all (fun p => isTerm p.2) && areTerms args then do
      let s ← EM.get
      let plain := plainStr e.cfg (textExt e s)
      let subs := numbered 0 (args.map plain) ++ named.map (fun p => (p.1.txt, plain p.2))
      pure (.str { txt := substAll (strOf (textExt e s) fn) subs })
    else pure (.apply fn args named loc)

/-- One item of a "for each" loop, `pp/yugen.py:3408-3410`. -/
def applyEach (rec : Node → EM Node) : List Node → Node → EM Node
  | [], x => pure x
  | f :: fs, x => do
    let x ← rec (.apply f [x] [] none)
    applyEach rec fs x

/-- `if x is not None: lst.append( x )`, `pp/yugen.py:3411-3412`. -/
def consSome (y : Node) (ys : List Node) : List Node :=
  match y with
  | .none => ys
  | y => y :: ys

/-- "for each" loop, `pp/yugen.py:3406-3413`. -/
def foreach (rec : Node → EM Node) (fs : List Node) : List Node → EM (List Node)
  | [] => pure []
  | x :: xs => do
    let y ← applyEach rec fs x
    let ys ← foreach rec fs xs
    pure (consSome y ys)

/-- The second part of a round for `APPLY`, after the function and the arguments were evaluated,
    `pp/yugen.py:3189-3426`. -/
def applyTo (e : EEnv) (rec : Node → EM Node) (fn : Node) (args : List Node) (named : List (Src × Node))
    (loc : Option Loc) : EM Node :=
  match fn with
  | .builtin a special => applyBuiltin e a special args named loc
  | .int n => applyNumber fn (some n) args named loc
  | .bool b => applyNumber fn (some (if b then 1 else 0)) args named loc
  | .float f => applyNumber fn f.trunc args named loc
  | .text _ => if args.isEmpty && named.isEmpty then rec fn else EM.err
  | .t _ _ => if args.isEmpty && named.isEmpty then rec fn else EM.err
  | .lclosure _ f late dflt => applyClosure rec fn f late dflt args named loc
  | .mclosure _ f _ _ => applyClosure rec fn f [] [] args named loc
  | .lazy a => rec (.apply a args named loc)
  | .atom _ => if args.isEmpty && named.isEmpty then pure fn else EM.err
  | .remark _ => applyStr e rec fn args named loc
  | .str _ => applyStr e rec fn args named loc
  | .plain _ _ _ => applyStr e rec fn args named loc
  | .pstr _ => applyStr e rec fn args named loc
  | .result _ => applyStr e rec fn args named loc
  | .list xs => if named.isEmpty then do
      let ys ← foreach rec args xs
      pure (.list ys)
    else EM.err
  | .skip => pure .skip
  | .none => pure .none
  | fn => pure (.apply fn args named loc)

/-- The name of a variable in the place of a function, `pp/yugen.py:3191`. -/
def callOf : Node → Option Src
  | .var _ _ a => some a
  | _ => none

/-- `APPLY`, `pp/yugen.py:3189-3426`. -/
def evalApply (e : EEnv) (rec : Node → EM Node) (fn : Node) (args : List Node) (named : List (Src × Node))
    (loc : Option Loc) : EM Node := do
  let call := callOf fn
  let fn ← rec fn
  let args ← evalList rec args
  applyTo e rec (fn.setCall call) args named loc

/-! ## Names and binding -/

/-- `builtin_special`, `pp/yugen.py:2800-2807`. -/
def isSpecial (a : Str) : Bool :=
  a ∈ [lit "__PASSAGE__", lit "isatom", lit "lazy", lit "skip", lit "reduce", lit "repr"]

/-- `VAR`, `pp/yugen.py:3428-3462`. -/
def evalVar (e : EEnv) (late : Bool) (reg : List Src) (a : Src) : EM Node := fun s =>
  match Scopes.lookup s.env a.txt with
  | none =>
    if late then .ok (.var late reg a, s)
    else if !reg.isEmpty then .err
    else match e.builtin s.p.scripts a.txt with
      | some _ => .ok (.builtin a false, s)
      | none =>
        if isSpecial a.txt then .ok (.builtin a true, s)
        else if '-' ∈ a.txt then .ok (.var true [] a, s)
        else .ok (.atom a, s)
  | some v => if v.isBound then .ok (.var late reg a, s) else .ok (v, s)

/-- `_list_to_bound`, `pp/yugen.py:3000-3015`. -/
def listToBound : List Node → Option (List (List Src × Src × Option Node))
  | [] => some []
  | .atom a :: xs => (listToBound xs).map (([], a, none) :: ·)
  | _ :: _ => none

/-- The parameters of a lambda, `pp/yugen.py:3479-3490`: scope, late-bound names, defaults. -/
def evalBound (rec : Node → EM Node) : List (List Src × Src × Option Node) → Frame → List (Str × List Str) → Frame →
    EM (Frame × List (Str × List Str) × Frame)
  | [], env, late, dflt => pure (env, late, dflt)
  | (ls, a, d) :: r, env, late, dflt => do
    let late := if ls.isEmpty then late else Frame.set late a.txt (ls.map (·.txt))
    let dflt ← (match d with
      | some d => do
        let v ← rec d
        pure (Frame.set dflt a.txt v)
      | none => pure dflt)
    let var := if a.txt = ['.', '.', '.'] then vaArgs else a.txt
    evalBound rec r (Frame.set env var .bound) late dflt

/-- `LAMBDA -- VAR | list`, `pp/yugen.py:3478-3493`. -/
def evalLambda (rec : Node → EM Node) (bound : List (List Src × Src × Option Node)) (form : Node) : EM Node := do
  let (env, late, dflt) ← evalBound rec bound [] [] []
  rec (.lclosure form env late dflt)

/-- `LAMBDA -- VAR`, `pp/yugen.py:3465-3476`. -/
def evalLambdaVar (rec : Node → EM Node) (late : Bool) (reg : List Src) (a : Src) (form : Node) : EM Node := do
  let s ← EM.get
  match Scopes.lookup s.env a.txt with
  | none => EM.err
  | some v =>
    if v.isBound then pure (.lambdaVar late reg a form)
    else match v.asList.bind listToBound with
      | some bound => evalLambda rec bound form
      | none => EM.err

/-- `L_CLOSURE`, `pp/yugen.py:3495-3505`. -/
def evalClosure (rec : Node → EM Node) (form : Node) (frame : Frame) (late : List (Str × List Str)) (dflt : Frame) :
    EM Node := do
  let (v, frame') ← EM.inFrame frame (rec form)
  match Frame.unassigned frame with
  | some _ => pure (.lclosure v frame' late dflt)
  | none => pure v

/-- The names of a left side as a scope of unassigned variables, `pp/yugen.py:3521-3526`. -/
def LVal.frame : LVal → Frame
  | .one a => [(a.txt, .bound)]
  | .many as => Frame.ofList (as.map (fun a => (a.txt, .bound)))

/-- The values for several names, `pp/yugen.py:3533-3538`. -/
def assignMany : Frame → List Src → List Node → Frame
  | f, [], _ => f
  | f, a :: as, [] => assignMany (Frame.set f a.txt .none) as []
  | f, a :: as, v :: vs => assignMany (Frame.set f a.txt v) as vs

/-- The value is assigned, `pp/yugen.py:3529-3541`. -/
def assign (f : Frame) (lval : LVal) (v : Node) : Frame :=
  match lval with
  | .one a => Frame.set f a.txt v
  | .many as =>
    match v.asList with
    | some vs => assignMany f as vs
    | none => as.foldl (fun f a => Frame.set f a.txt v) f

/-- The scope made by `SET` and `LET`, `pp/yugen.py:3521-3541`. -/
def evalAssign (rec : Node → EM Node) (lval : LVal) (ast : Node) : EM Frame := do
  let (v, f) ← EM.inFrame lval.frame (rec ast)
  pure (assign f lval v)

/-- `str( _unq( val ))`, `pp/yugen.py:841-861, 3516`. -/
def unqStr (e : EEnv) (x : TextExt) (v : Node) : Str := e.pe.unq (strOf x v)

/-- `node.lval == '__OUTPUT_FILE__'` for one name, `pp/yugen.py:3511-3513`. -/
def LVal.isOutput : LVal → Bool
  | .one a => a.txt == lit "__OUTPUT_FILE__"
  | .many _ => false

/-- `feedback.output_file = ...`, `pp/yugen.py:3515-3518`. -/
def setOutput (e : EEnv) (v : Node) : EM Unit := fun s =>
  .ok ((), if v.isStr then { s with outputFile := some (unqStr e (textExt e s) v) } else s)

/-- `SET`, `pp/yugen.py:3508-3545`. -/
def evalSet (e : EEnv) (rec : Node → EM Node) (lval : LVal) (ast : Node) : EM Node :=
  if lval.isOutput then do
    let v ← rec ast
    setOutput e v
    pure .none
  else do
    let f ← evalAssign rec lval ast
    pure (.env f)

/-- `LET`, `pp/yugen.py:3508-3549`. -/
def evalLet (rec : Node → EM Node) (lval : LVal) (ast form : Node) : EM Node := do
  let f ← evalAssign rec lval ast
  let (v, _) ← EM.inFrame f (rec form)
  pure v

/-- `SET_CLOSURE`, `pp/yugen.py:3551-3559`. -/
def evalSetClosure (rec : Node → EM Node) (form : Node) (frame : Frame) : EM Node := do
  let (v, frame) ← EM.inFrame frame (rec form)
  if isTerm v then pure v else pure (.setClosure v frame)

/-! ## Macros, evaluated texts, conditionals, expressions -/

/-- `MACRO`, `pp/yugen.py:3561-3564`. -/
def macroEnv (name : Src) (pars : List Src) (text : Src) : Node :=
  .env [(name.txt, .mclosure text (Frame.ofList (pars.map (fun p => (p.txt, Node.bound)))) name none)]

/-- `M_CLOSURE`, `pp/yugen.py:3566-3575`. -/
def evalMacro (e : EEnv) (rec : Node → EM Node) (text : Src) (frame : Frame) (decl : Src) (call : Option Src) :
    EM Node := do
  let frame ← evalLocal rec frame
  if Frame.terms frame then do
    let s ← EM.get
    let subs := frame.map (fun p => (p.1, plainBack (textExt e s) p.2))
    rec (.eval (.pstr (substAll text.txt subs)) (some decl) call)
  else pure (.mclosure text frame decl call)

/-- The text to parse, `pp/yugen.py:3584-3588`. -/
def evalText (e : EEnv) (x : TextExt) (v : Node) : Str :=
  match v with
  | .str s =>
    let t := strip (e.pe.unq s.txt)
    if startsWith t ['(', '$'] then t else ['(', '$'] ++ t ++ [')']
  | v => strOf x v

/-- Registering the text, `pp/yugen.py:3590-3592`: its key. -/
def register (decl call : Option Src) (text : Str) : EM Str := fun s =>
  let w := s.p.world
  let key := natStr w.inclusion.length
  let d := match decl.bind (·.loc) with
    | some l => Decl.at l
    | none => Decl.path none
  .ok (key, { s with p := { s.p with world := { source := (key, d, text) :: w.source
                                                inclusion := w.inclusion ++ [call.bind (·.loc)] } } })

/-- `isinstance( x, SET )`. `pp/yugen.py:3597`. -/
def Node.isSet : Node → Bool
  | .set _ _ => true
  | _ => false

/-- `EVAL`, `pp/yugen.py:3577-3602`. -/
def evalEval (e : EEnv) (p : Parsers) (rec : Node → EM Node) (ast : Node) (decl call : Option Src) : EM Node := do
  let v ← rec ast
  if !v.isStr then pure (.eval v decl call)
  else do
    let s ← EM.get
    let key ← register decl call (evalText e (textExt e s) v)
    let xs ← EM.parse (p.parse key)
    if xs.isEmpty then pure .none
    else if xs.any Node.isSet then pure (.embed (.t xs (.str [])))
    else match xs with
      | [x] => rec x
      | xs => rec (.t xs (.str []))

/-- `COND`, `pp/yugen.py:3604-3612`. -/
def evalCond (rec : Node → EM Node) (c l1 l0 : Node) : EM Node := do
  let c ← rec c
  if isTerm c then rec (if truthy c then l1 else l0)
  else pure (.condClosure c l1 l0)

/-- `COND_CLOSURE`, `pp/yugen.py:3614-3626`. -/
def evalCondClosure (rec : Node → EM Node) (c l1 l0 : Node) : EM Node := do
  let c ← rec c
  if isTerm c then do
    let v ← rec (if truthy c then l1 else l0)
    rec v
  else do
    let l1 ← rec l1
    let l0 ← rec l0
    pure (.condClosure c l1 l0)

/-- `INFIX`, `pp/yugen.py:3628-3653`. -/
def evalInfix (e : EEnv) (rec : Node → EM Node) (ast : Node) (loc : Option Loc) : EM Node := do
  let v ← rec ast
  if !v.isStr then pure (.infix v loc)
  else do
    let s ← EM.get
    let code ← EM.ofOption (e.pyParse (lstrip (strOf (textExt e s) v)))
    let frame := (code.names.filter (fun k => (Scopes.lookup s.env k).isSome)).map
      (fun k => (k, Node.var false [] { txt := k }))
    rec (.infixClosure code (Frame.ofList frame) loc)

/-- `INFIX_CLOSURE`, `pp/yugen.py:3655-3669`. -/
def evalInfixClosure (e : EEnv) (rec : Node → EM Node) (code : PyCode) (frame : Frame) (loc : Option Loc) :
    EM Node := do
  let frame ← evalLocal rec frame
  if Frame.terms frame then do
    let s ← EM.get
    EM.ofOption (e.pyEval s.py code frame)
  else pure (.infixClosure code frame loc)

/-- `EMIT` takes a value off a variable, `pp/yugen.py:3683-3690`: the result and what is left. -/
def takeFirst : Node → Node × Node
  | .list (x :: xs) => (x, .list xs)
  | .list [] => (.none, .list [])
  | .t (x :: xs) i => (x, .t xs i)
  | .t [] i => (.none, .t [] i)
  | v => (v, v)

/-- A variable in scope gets a new value. `pp/yugen.py:2570-2580, 3694`. -/
def EM.update (a : Str) (v : Node) : EM Unit := fun s =>
  .ok ((), { s with env := (Scopes.update s.env a v).getD s.env })

/-- `EMIT`, `pp/yugen.py:3671-3695`. -/
def evalEmit (rec : Node → EM Node) (late : Bool) (reg : List Src) (a : Src) (ast : Node) : EM Node := do
  let s ← EM.get
  match Scopes.lookup s.env a.txt with
  | none => EM.err
  | some v =>
    if v.isBound then pure (.emit late reg a ast)
    else do
      let (x, rest) := takeFirst v
      EM.update a.txt rest
      if truthy ast then do
        let v ← rec (.apply ast [rest] [] none)
        EM.update a.txt v
      pure x

/-- One round of `yueval`, `pp/yugen.py:3069-3734`. -/
def evalStep (e : EEnv) (p : Parsers) (rec : Node → EM Node) (n : Node) : EM Node :=
  match n with
  | .text xs => rec (.t xs (.str []))
  | .t xs indent => do
    let ys ← evalT rec indent 0 false xs
    finishT e indent ys
  | .apply fn args named loc => evalApply e rec fn args named loc
  | .var late reg a => evalVar e late reg a
  | .lambda bound form => evalLambda rec bound form
  | .lambdaVar late reg a form => evalLambdaVar rec late reg a form
  | .lclosure form frame late dflt => evalClosure rec form frame late dflt
  | .set lval ast => evalSet e rec lval ast
  | .letn lval ast form => evalLet rec lval ast form
  | .setClosure form frame => evalSetClosure rec form frame
  | .macro name pars text => pure (macroEnv name pars text)
  | .mclosure text frame decl call => evalMacro e rec text frame decl call
  | .eval ast decl call => evalEval e p rec ast decl call
  | .cond c l1 l0 => evalCond rec c l1 l0
  | .condClosure c l1 l0 => evalCondClosure rec c l1 l0
  | .infix ast loc => evalInfix e rec ast loc
  | .infixClosure code frame loc => evalInfixClosure e rec code frame loc
  | .emit late reg a ast => evalEmit rec late reg a ast
  | .list xs => do
    let ys ← evalList rec xs
    pure (.list ys)
  | .embed a => do
    let v ← rec a
    pure (.embed v)
  | .trim a indent => do
    let v ← rec a
    pure (.trim v indent)
  | n => pure n

/-- The evaluator with calls nested at most `n` deep. `pp/yugen.py:3069-3749`. -/
def E (e : EEnv) : Nat → Node → EM Node
  | 0 => fun _ => EM.timeout
  | n + 1 => evalStep e (P e.pe n) (E e n)

end Yupp
