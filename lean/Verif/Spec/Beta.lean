import Verif.Spec.Eval
import Verif.Spec.Scope
import Verif.Spec.Subst
/-!
# What the body of a function stands for when its parameters have values, for C29

`Reads` gives a meaning to expressions that is independent of the order in which evaluation replaces names: every
name stands for the value a table `ρ` holds for it. It covers values, names, lists, insertions `($x)`,
subscripts, strings with positional arguments, calls of built-in functions without side effects, conditionals,
Python expressions and texts.
-/

namespace Yupp.Spec

/-- Values that hold no code. -/
inductive Data : Node → Prop
  | none : Data .none
  | atom (s) : Data (.atom s)
  | remark (s) : Data (.remark s)
  | str (s) : Data (.str s)
  | plain (s i t) : Data (.plain s i t)
  | pstr (s) : Data (.pstr s)
  | result (r) : Data (.result r)
  | int (n) : Data (.int n)
  | bool (b) : Data (.bool b)
  | float (f) : Data (.float f)
  | list (xs) : (∀ x ∈ xs, Data x) → (∀ x ∈ xs, x ≠ .none) → Data (.list xs)

/-- A name that stands for itself when it is not bound. -/
structure SelfName (e : EEnv) (s : ESt) (a : Str) : Prop where
  builtin : e.builtin s.p.scripts a = none
  special : isSpecial a = false
  hyphen : '-' ∉ a

/-- A built-in function without side effects whose results are data. -/
structure Harmless (e : EEnv) (s : ESt) (f : Str) : Prop where
  table : e.builtin s.p.scripts f = some .fn
  call : ∀ args v seen, (∀ a ∈ args, Data a) → e.call s.py f args s.seen = some (v, seen) →
    seen = s.seen ∧ Data (callResult v)

/-- Data or a name. -/
def Simple (x : Node) : Prop := Data x ∨ ∃ a, x = .var false [] a

/-- What may be embedded: a name, or the application of a name, of data or of a built-in function. -/
inductive Embeds : Node → Prop
  | name (a) : Embeds (.var false [] a)
  | app {x} (args loc) : Simple x → Embeds (.apply x args [] loc)
  | called (f args loc) : Embeds (.apply (.builtin f false) args [] loc)

/-- What a value adds to a list: nothing is left out. -/
def single : Node → List Node
  | .none => []
  | v => [v]

/-- What an embedded value adds to a list. -/
def several : Node → List Node
  | .list xs => xs
  | v => [v]

/-- The sequence a number is applied to. -/
def sequence : List Node → List Node
  | [.list xs] => xs
  | vs => vs

/-- The text made of the evaluated parts of a text. -/
def textValue (e : EEnv) (s : ESt) (indent : Indent) (ys : List Node) : Node :=
  if e.cfg.browse then .result (plainBrowse e.cfg (textExt e s) (.t ys indent))
  else .pstr (plainStr e.cfg (textExt e s) (.t ys indent))

/-- The items of a list; `none`: one of them fails. -/
inductive ReadsItems (D : Node → Option Node → Prop) : List Node → Option (List Node) → Prop
  | nil : ReadsItems D [] (some [])
  | item {x r xs rs} : D x r → ReadsItems D xs rs →
      ReadsItems D (x :: xs) (r.bind fun v => rs.map fun vs => single v ++ vs)
  | embed {x r xs rs} : Embeds x → D x r → r ≠ some .none → ReadsItems D xs rs →
      ReadsItems D (.embed x :: xs) (r.bind fun v => rs.map fun vs => several v ++ vs)

/-- The parts of a text. An inserted part stands for something and is trimmed to the indent of its place. -/
inductive ReadsParts (D : Node → Option Node → Prop) : Indent → Bool → List Node → Option (List Node) → Prop
  | nil {i t} : ReadsParts D i t [] (some [])
  | plain {i t s j u xs rs} : ReadsParts D (nextIndent i (.plain s j u)) false xs rs →
      ReadsParts D i t (.plain s j u :: xs) (rs.map fun vs => .plain s j (t || u) :: vs)
  | comment {i t xs rs} : ReadsParts D i i.isStr xs rs → ReadsParts D i t (.comment :: xs) rs
  | data {i t v xs rs} : Data v → v ≠ .none → ¬ IsPlain v → ReadsParts D .no false xs rs →
      ReadsParts D i t (v :: xs) (rs.map fun vs => v :: vs)
  | insert {i t fn args named loc r xs rs} : D (.apply fn args named loc) r → r ≠ some .none → ReadsParts D .no false xs rs →
      ReadsParts D i t (.apply fn args named loc :: xs) (r.bind fun v => rs.map fun vs => .trim v i.orEmpty :: vs)
  | trimmed {i t a j r xs rs} : D a r → ReadsParts D .no false xs rs →
      ReadsParts D i t (.trim a j :: xs) (r.bind fun v => rs.map fun vs => .trim v j :: vs)

/-- The names of a Python expression. -/
inductive ReadsNames (D : Node → Option Node → Prop) : Frame → Frame → Prop
  | nil : ReadsNames D [] []
  | cons {k x v f g} : D x (some v) → ReadsNames D f g → ReadsNames D ((k, x) :: f) ((k, v) :: g)

/-- One more level of nesting. `K` are the names that may occur. The forms marked with a star are not written in
    sources, evaluation of a function's body leaves them behind while parameters are missing. -/
inductive ReadsStep (e : EEnv) (s : ESt) (K : Str → Prop) (ρ : Str → Option Node) (D : Node → Option Node → Prop) :
    Node → Option Node → Prop
  | up {x r} : D x r → ReadsStep e s K ρ D x r
  | list {xs rs} : ReadsItems D xs rs → ReadsStep e s K ρ D (.list xs) (rs.map .list)
  | insert {x r loc} : D x r → ReadsStep e s K ρ D (.apply x [] [] loc) r
  | subscript {x w i args rs loc} : Simple x → D x (some w) → Index w i → ReadsItems D args rs →
      ReadsStep e s K ρ D (.apply x args [] loc)
        (rs.bind fun vs => if vs.isEmpty then some w else subscript (sequence vs) i)
  | format {x w t args rs loc} : Simple x → D x (some w) → Template w t → ReadsItems D args rs →
      ReadsStep e s K ρ D (.apply x args [] loc)
        (rs.map fun vs => if vs.isEmpty then w
          else .str { txt := substAll t (numbered 0 (vs.map (plainStr e.cfg (textExt e s)))) })
  | call {f args rs loc} : K f.txt → ρ f.txt = none → Harmless e s f.txt → ReadsItems D args rs →
      ReadsStep e s K ρ D (.apply (.var false [] f) args [] loc)
        (rs.bind fun vs => (e.call s.py f.txt vs s.seen).map fun p => callResult p.1)
  | called {f args rs loc} : Harmless e s f.txt → ReadsItems D args rs → -- *
      ReadsStep e s K ρ D (.apply (.builtin f false) args [] loc)
        (rs.bind fun vs => (e.call s.py f.txt vs s.seen).map fun p => callResult p.1)
  | cond {c a b r v w} : D c r → D a (some v) → D b (some w) →
      ReadsStep e s K ρ D (.cond c a b) (r.map fun u => if truthy u then v else w)
  | condClosure {c a b r v w} : D c r → D a (some v) → D b (some w) → -- *
      ReadsStep e s K ρ D (.condClosure c a b) (r.map fun u => if truthy u then v else w)
  | python {t i code g loc} : e.pyParse (lstrip t.txt) = some code → (∀ k ∈ code.names, K k) →
      ReadsNames D (Frame.ofList ((code.names.filter (fun k => (ρ k).isSome)).map (fun k => (k, Node.var false [] { txt := k })))) g →
      (∀ v, e.pyEval s.py code g = some v → Data v) →
      ReadsStep e s K ρ D (.infix (.text [.plain t i false]) loc) (e.pyEval s.py code g)
  | pythonClosure {code f g loc} : ReadsNames D f g → (∀ v, e.pyEval s.py code g = some v → Data v) → -- *
      ReadsStep e s K ρ D (.infixClosure code f loc) (e.pyEval s.py code g)
  | text {xs rs} : ReadsParts D (.str []) false xs rs →
      ReadsStep e s K ρ D (.text xs) (rs.map (textValue e s (.str [])))
  | t {xs i rs} : ReadsParts D i false xs rs → -- *
      ReadsStep e s K ρ D (.t xs i) (rs.map (textValue e s i))

/-- `Reads e s K ρ n x r`: with the values `ρ` of the names, the expression `x`, nested at most `n` deep, stands for
    the value `r`, or fails (`r = none`). In a conditional neither leg fails. -/
inductive ReadsLeaf (e : EEnv) (s : ESt) (K : Str → Prop) (ρ : Str → Option Node) : Node → Option Node → Prop
  | data {v} : Data v → ReadsLeaf e s K ρ v (some v)
  | name {a v} : K a.txt → ρ a.txt = some v → Data v → ReadsLeaf e s K ρ (.var false [] a) (some v)
  | self {a} : K a.txt → ρ a.txt = none → SelfName e s a.txt → ReadsLeaf e s K ρ (.var false [] a) (some (.atom a))

def Reads (e : EEnv) (s : ESt) (K : Str → Prop) (ρ : Str → Option Node) : Nat → Node → Option Node → Prop
  | 0 => ReadsLeaf e s K ρ
  | n + 1 => ReadsStep e s K ρ (Reads e s K ρ n)

/-- The outcome of an evaluation without effects: a value, or an exception. -/
def Gives (e : EEnv) (x : Node) (s : ESt) : Option Node → Prop
  | some v => Evaluates e x s v s
  | none => Raises e x s

/-- What the parameters get: a named argument, or the next positional one, or the default. The parameter `...`, which
    a body calls `__va_args__`, gets the list of all remaining positional arguments if there is one. -/
def parameters (named : List (Str × Node)) (dflt : List (Str × Node)) : List Str → List Node → Option (List (Str × Node))
  | [], [] => some []
  | [], _ :: _ => none
  | p :: ps, vs =>
    match named.lookup p, vs, dflt.lookup p with
    | some v, vs, _ => (parameters named dflt ps vs).map ((p, v) :: ·)
    | none, v :: vs, _ =>
      if p = lit "__va_args__" then (parameters named dflt ps []).map ((p, .list (v :: vs)) :: ·)
      else (parameters named dflt ps vs).map ((p, v) :: ·)
    | none, [], some v => (parameters named dflt ps []).map ((p, v) :: ·)
    | none, [], none => none

/-- Named arguments and their values, evaluated without effects. -/
inductive Tagged (e : EEnv) (s : ESt) : List (Src × Node) → List (Str × Node) → Prop
  | nil : Tagged e s [] []
  | cons {a x v xs vs} : Evaluates e x s v s → Data v → Tagged e s xs vs → Tagged e s ((a, x) :: xs) ((a.txt, v) :: vs)

/-- The parameters of a lambda: their names and the values of the defaults, evaluated without effects. -/
inductive Params (e : EEnv) (s : ESt) : List (List Src × Src × Option Node) → List Str → List (Str × Node) → Prop
  | nil : Params e s [] [] []
  | cons {a bs ps ds} : a.txt ≠ ['.', '.', '.'] → Params e s bs ps ds → Params e s (([], a, none) :: bs) (a.txt :: ps) ds
  | dots {a bs ps ds} : a.txt = ['.', '.', '.'] → Params e s bs ps ds →
      Params e s (([], a, none) :: bs) (lit "__va_args__" :: ps) ds
  | dflt {a d v bs ps ds} : a.txt ≠ ['.', '.', '.'] → Evaluates e d s v s → Data v → Params e s bs ps ds →
      Params e s (([], a, some d) :: bs) (a.txt :: ps) ((a.txt, v) :: ds)

/-- What the parameter `p` gets for the argument `v`: the argument itself, or, if the parameter is declared with late names, the
    function of these names with the argument as body. -/
inductive Passed (e : EEnv) (late : List (Str × List Str)) (p : Str) (v : Node) (s : ESt) : Node → ESt → Prop
  | now : late.lookup p = none → Passed e late p v s v s
  | late {names c s'} : late.lookup p = some names → ['.', '.', '.'] ∉ names →
      Evaluates e (.lambda (names.map fun k => ([], { txt := k }, none)) v) s c s' → Passed e late p v s c s'

/-- The outcome of `x` in `s` is that of `body` in the new scope `f` on top of `t`; the scope is left afterwards. -/
def InScope (e : EEnv) (x : Node) (s : ESt) (body : Node) (f : Frame) (t : ESt) : Prop :=
  (∀ w s', Evaluates e x s w s' ↔ ∃ s1, Evaluates e body (push t f) w s1 ∧ s' = pop s1) ∧
  (Raises e x s ↔ Raises e body (push t f))

/-- The only parameter without a value. -/
def Last (f : Frame) (p : Str) : Prop := (p, Node.bound) ∈ f ∧ ∀ q ∈ f, q.2 = .bound → q.1 = p

end Yupp.Spec
