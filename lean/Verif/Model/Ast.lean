import Verif.Model.Result
/-!
# Syntax tree and evaluator values (`pp/yugen.py:246-721, 2220-2410, 2506-2646, 2901`)
-/

namespace Yupp

/-- A location: `input_file` and `pos` of a `SOURCE`, `pp/yugen.py:247-260`. -/
structure Loc where
  file : Str
  pos : Int
deriving DecidableEq, Repr

/-- `SOURCE`, `pp/yugen.py:247-273`: a text with its location; `input_file = None` is `none`. -/
structure Src where
  txt : Str
  loc : Option Loc := none
deriving DecidableEq, Repr

/-- `sou[a:]` — `SOURCE.__getitem__`, `pp/yugen.py:263-265`. -/
def Src.drop (s : Src) (n : Nat) : Src :=
  { txt := s.txt.drop n, loc := s.loc.map (fun l => { l with pos := l.pos + n }) }

/-- `sou[:a]` — `SOURCE.__getitem__`, `pp/yugen.py:263-265`. -/
def Src.take (s : Src) (n : Nat) : Src := { s with txt := s.txt.take n }

/-- `PLAIN.indent`, `pp/yugen.py:327-333`: `None`, a string, or `False`. Also `T.indent`. -/
inductive Indent where
  | none            -- `None`
  | str (s : Str)   -- a string
  | no              -- `False`
deriving DecidableEq, Repr

/-- Python floating point numbers are opaque: `str(x)`, `x == 0`, `int(x)` (`none`: raises).
    `pp/yugen.py:390-404, 2197-2204`. -/
structure PyFloat where
  str : Str
  isZero : Bool
  trunc : Option Int
deriving DecidableEq, Repr

/-- A parsed Python expression: the text and the identifiers collected by `INFIX_VISITOR`,
    `pp/yugen.py:2620-2630`. -/
structure PyCode where
  text : Str
  names : List Str
deriving DecidableEq, Repr

/-- Left value of `$set` / `$let`: an `ATOM` or a list of `ATOM`s, `pp/yugen.py:610-640`. -/
inductive LVal where
  | one (a : Src)
  | many (as : List Src)
deriving DecidableEq, Repr

/-- Tree nodes and values. `list` and `LIST` are not distinguished, nor are `INT` and `int`,
    `FLOAT` and `float` (they differ in `repr` only). Names used as keys are plain strings:
    `ATOM` compares and hashes as its text, `pp/yugen.py:285-290`. -/
inductive Node where
  | none                                              -- None
  | atom (s : Src)                                    -- ATOM       293
  | remark (s : Src)                                  -- REMARK     302
  | str (s : Src)                                     -- STR        312
  | plain (s : Src) (indent : Indent) (trim : Bool)   -- PLAIN      322
  | pstr (s : Str)                                    -- a Python str
  | result (r : Res)                                  -- RESULT     2901
  | int (n : Int)                                     -- INT        407
  | bool (b : Bool)                                   -- a Python bool
  | float (f : PyFloat)                               -- FLOAT      390
  | list (xs : List Node)                             -- LIST       382
  | t (xs : List Node) (indent : Indent)              -- T          2357
  | text (xs : List Node)                             -- TEXT       538 (depths serve the parser only)
  | var (late : Bool) (reg : List Src) (a : Src)      -- VAR        569
  | apply (fn : Node) (args : List Node) (named : List (Src × Node)) (loc : Option Loc) -- APPLY 589
  | set (lval : LVal) (ast : Node)                    -- SET        610
  | letn (lval : LVal) (ast form : Node)              -- LET        628
  | macro (name : Src) (pars : List Src) (text : Src) -- MACRO      648
  | emit (late : Bool) (reg : List Src) (a : Src) (ast : Node) -- EMIT 668
  | lambda (bound : List (List Src × Src × Option Node)) (form : Node) -- LAMBDA 686
  | lambdaVar (late : Bool) (reg : List Src) (a : Src) (form : Node) -- LAMBDA with a VAR as parameter list
  | cond (c l1 l0 : Node)                             -- COND       704
  | infix (ast : Node) (loc : Option Loc)             -- INFIX      520
  | eval (ast : Node) (decl call : Option Src)        -- EVAL       509
  | embed (ast : Node)                                -- EMBED      530
  | comment                                           -- COMMENT    468
  | importBegin                                       -- IMPORT_BEGIN 476
  | importEnd                                         -- IMPORT_END 484
  | bound                                             -- BOUND      2221
  | lclosure (form : Node) (frame : List (Str × Node)) (late : List (Str × List Str))
      (dflt : List (Str × Node))                      -- L_CLOSURE  2253
  | mclosure (text : Src) (frame : List (Str × Node)) (decl : Src) (call : Option Src) -- M_CLOSURE 2262
  | infixClosure (code : PyCode) (frame : List (Str × Node)) (loc : Option Loc) -- INFIX_CLOSURE 2272
  | condClosure (c l1 l0 : Node)                      -- COND_CLOSURE 2292
  | setClosure (form : Node) (frame : List (Str × Node)) -- SET_CLOSURE 2312
  | builtin (a : Src) (special : Bool)                -- BUILTIN, BUILTIN_SPECIAL 2331
  | trim (ast : Node) (indent : Str)                  -- TRIM       2403
  | lazy (ast : Node)                                 -- LAZY       2633
  | skip                                              -- SKIP       2641
  | env (frame : List (Str × Node))                   -- ENV        2507
  | pyobj (s : Str)                                   -- any other Python object, by its `str`

/-- A scope: the pairs in the order of `ENV.order`, `pp/yugen.py:2507-2540`. -/
abbrev Frame := List (Str × Node)

end Yupp
