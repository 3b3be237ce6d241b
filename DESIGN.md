# Formal model of yupp in Lean 4 — design

This directory holds a machine-checked model of the yupp macro processor
(`/repo`, Python) and proofs about it. `properties.jsonl` lists the properties
(C01, C02, ...), `MANIFEST.json` maps each of them to the theorems, and
`seeded/LOG.jsonl` records the wrong-program experiments.

## Layout

* `lean/Verif/Base/*` — Python library functions the code relies on (string
  methods, `splitlines`, `textwrap.dedent`, `bisect`, ...). They are modelled,
  i.e. trusted to describe CPython.
* `lean/Verif/Model/*` — the model of the code, function by function. Each
  definition cites the file and lines it models and says where it simplifies.
* `lean/Verif/Spec/*` — small specifications that do not use the model.
* `lean/Verif/Lemmas/*` — helper lemmas.
* `lean/Verif/Props/*` — one file per group of properties: the property
  theorems `Cnn_...`, each with an `example` showing that a concrete,
  non-trivial case meets its hypotheses.
* `lean/Verif/Testkit/*` — the project's own test records, run through the model.

## Trusted base

* Lean 4.33.0's kernel and the three standard axioms `propext`,
  `Classical.choice`, `Quot.sound` (`#print axioms` of every property theorem is
  a subset of these; checked by `tools/axioms.sh`). No own axioms, no `sorry`,
  no `native_decide`, no `bv_decide`. Mathlib is not used. One tactic of our
  own, `kernel_rfl` (Lemmas/KernelRfl), hands `Eq.refl` to the kernel without a
  check in the elaborator; nothing but the kernel accepts the result.
* The model is faithful to the Python text. It was written by reading the code;
  nothing was executed from `/repo`.
* Python is CPython 3 (the `imp` module limits it to <= 3.11). Strings are lists
  of Unicode scalar values (`List Char`): lone surrogates are not modelled.
* The behaviour of the Python library as stated in `Base`: string methods
  (`Base/PyStr`), `textwrap.dedent` (`Base/Dedent`), `os.path` for POSIX
  (`Base/Path`), escape sequences of literals and of `unicode_escape`
  (`Base/Escape`).

## What is modelled

| Part of the code | Model |
| --- | --- |
| syntax tree classes, `SOURCE` locations | `Model/Ast` |
| `yushell` tables, `RESULT.loc` | `Model/World` |
| `yushell` (names, module, comments to skip), `__FILE__`, `__OUTPUT_FILE__`, `__MODULE_NAME__`, `__TITLE__` | `Model/Start` |
| `reduce_emptiness`, `replace_steady`, `_unify_eol` | `Model/Final` |
| `_bisect`, `_merge_offset` | `Model/Offset` |
| `RESULT`, `TRIM.trim`, `TRIM.trim_with_browse`, `PLAIN.add_indent` | `Model/Result` |
| `_plain`, `_plain_with_browse`, the text of a value | `Model/Plain` |
| `ENV` | `Model/Env` (literally, and as association lists; `Props/Env` proves them equivalent) |
| terminal symbols `ps_*` | `Model/Lex` |
| grammar rules `ps_*`, `yuparse`, the Python header | `Model/Parse` |
| `yueval` | `Model/Eval` |
| built-in functions (of the functions of texts: split, join, replace, find, count, strip, lstrip, rstrip, ljust, rjust, atoi, without their optional counts; rfind, center, zfill of texts; lower, upper, swapcase, capitalize, isdigit of ASCII texts; further abs, cmp, getslice, hex, oct, chr, ord, str, int_, strlen, sum; of the module `operator` arithmetic and comparison of whole numbers, equality, and, or, xor, invert, shifts, pos, truth, concat, contains, getitem) | `Model/Builtin` |
| `proc_stream` and what it returns | `Model/Engine` |
| files, faults, crashes | `Model/Fs` |
| `yup.py` (file names, backup, saving, exit status, freshness, passes) | `Model/Shell` |
| `cli` (options, response file, dialogue), `_pp_test`, `_pp_text`, `proc_file`, `__main__.py` | `Model/Cli` |
| `__init__.py` codec | `Model/Codec` |
| the library `lib/stdlib.yu` (its text; `if`, `unless`, `BIN`, `def`, `undef`, `dict`, `skip-if`, `skip-if-not`, `def-if`, `define`, `__EOL__`, `do`, `foo` proved about) | `Model/Stdlib` |
| the libraries `lib/h.yu`, `lib/h-light.yu`, `lib/hlib.yu`, `lib/corolib.yu` (the lines of their macros and of their choice) | `Spec/HLib`, `Spec/HBegin`, `Spec/HNamed`, `Spec/HLight`, `Spec/Variant` |
| macros of `lib/coroutine.yu`, `lib/coroutine-h.yu`, `lib/coroutine-py.yu` with up to two parameters | `Spec/Coro`, `Spec/CoroH`, `Spec/CoroInit`, `Spec/CoroPlain` |
| the place told in error messages (`_loc`) | `Model/Message` |
| what is shown of an unfinished program (`_ast_pretty`, `make_ast_readable`) | `Model/Readable` |
| configuration scripts, constants, search for libraries | `Model/Config` |
| `yutraceback2.py`, `yutraceback3.py` | `Model/Traceback` |
| Sublime plug-in (going to the origin) | `Model/Editor` |

Three kinds of recursion are cut by a number ("fuel"): grammar rules (`P e n`),
evaluation (`E e n`), shell loops over passes. Running out of it is a result of
its own (`timeout`), and results do not depend on it otherwise (`P_le`,
`E_le`). Theorems speak of the limit ("for all large enough `n`"); C17 shows that
for parsing without cyclic includes a number computed from the text suffices.

### Simplifications

* The code changes tree nodes, scopes and `yushell` in place. The evaluator model
  threads them as values. The code copies (`deepcopy`) what a name is bound to at
  every lookup and the function applied by the list form, so a node is evaluated
  in place at most once; of a closure only its own scope is ever used, as
  `parent` is set again before every use.
* `RESULT.add_text` may change a `RESULT` that is shared; the model builds a
  new one.
* An exception discards the state of the parser (C22) and of the evaluator; what
  was changed in `yushell.feedback` before it is lost in the model.
* Digits are ASCII digits (`\d` accepts other Unicode digits as well).
* A line end in a Python header is a bare `SOURCE` in the code; in the model it is
  a remark, which behaves in the same way.

### Parameters of the model

Each theorem holds for every choice of these.

* `EEnv`: Python's `ast.parse` and `eval` behind `{ .. }` (`pyParse`, `pyEval`),
  `repr`, the table of built-in names, built-in functions that are not modelled
  (`call`), `functools.reduce` (`reduce`).
* `BExt`: Python as the modelled built-ins use it: `repr`, `==` of values that are
  neither texts nor whole numbers nor lists, `literal_eval` of other texts than one
  literal, functions and argument types not modelled (`other`).
* `Engine`: for the shell alone, parsing and evaluation as a whole; likewise `Interp` for the command, with `argparse`.
* `Oracle`: which file operation fails and at which one the program dies.
* `word`: the word characters outside ASCII.

### How the model was checked against the code

`test_yup.py` has 22 records of its own: a source, the tree the parser must give, and for 14 of them the text that must
come out. `tools/testkit/gen.py` reads the records as text (nothing of the project is run) and hands them to the model.
The model gives all 22 trees and all 14 texts. This is a test of the model, not a proof about it.
* `lean/Verif/Testkit/Parse.lean` — the 8 records of the parser, checked by the kernel (`decide +kernel`).
* `lean/Verif/Testkit/Eval.lean` — records 1, 5, 6, 7 and 14 of the evaluator, checked by the kernel.
* `python3 tools/testkit/gen.py FILE`, then `lake env lean FILE` in `lean` — all records with Lean's interpreter. This is
  outside of the build. `tools/testkit/python.txt` supplies the little Python that the other records need.

`python3 tools/testkit/run.py --all` translates the sources in `eg` with the model and compares the text with the generated
files in the repository. All 17 agree to the character, apart from the title, which tells a version and a date:
`hello`, `unfold`, `argv`, `dict`, `gpio`, `coro`, `ulam`, the three passes of `passage`, `dict`, `coding`, `coro` and
`switch` in Python, `app/main`, `glance` in C++ and Python. They use the libraries `stdlib`, `coroutine`, `corolib`,
`coroutine-py`. Left out: `app/co.c` and `app/co.h`, which an old version (1.0b2) generated with another header library.

Trees are compared as the project compares them: strings by their text, whatever their class (`pp/yugen.py:283-285`).

## What is not modelled

* Logging, tracing, warnings ("hazard" messages), the texts of error messages except the place they tell (`Model/Message`).
* The Python interpreter and the functions of `operator`, `math`, `string`,
  `datetime` (see the parameters above).
* Character encodings: files hold already decoded text.
* `argparse` (how options are recognised among the words of the command line); what is printed apart from the
  answers to texts; configuration scripts are any functions on the options that raise nothing.
* Python's recursion limit and memory. Other processes using the same files.
* Of the libraries: `unfold`, `BB`, `def-fn-argv` of `lib/stdlib.yu`; `coro-define` and the macros with labels or
  `($&exit)` of the coroutine libraries; `lib/coroutine.h`, which is C.
* The web server and the tests. Of the Sublime plug-in, what opens no file or moves no
  caret (menus, colouring, messages); the editor itself (opening a view, its lines) is
  a file and a caret, the file system a parameter (`Disk` in `Model/Editor`).

## How each property is modelled and proved

* C01 — parser + evaluator + `_plain` + `replace_steady` composed; induction over
  the text-splitting loop of the parser.
* C02, C03, C04 — `reduce_emptiness` over `splitlines`; specification is a
  recursive function on lines ("drop a blank line after a blank line");
  induction over lines.
* C05, C06, C07 — offset tables as lists of pairs; position map defined by
  counting keys; loop invariants of the two loops.
* C08, C10 — provenance specification: every character of the result carries the
  leaf and the index it came from (`Spec/Provenance`, no offsets in it); induction
  over the evaluated tree; invariant linking tables and provenance.
* C09 — `textwrap.dedent` modelled by its regular expressions; specification is
  "longest common leading white-space prefix".
* C11 — both trimmers and both reductions only change white space (`ink`); the condition that indents are blank is an
  invariant of evaluation (`Lemmas/Keep`: a condition on the parts of all values in scope is kept by every rule of the
  evaluator) and holds of parsed trees (`Lemmas/Parsed`). Counter-examples to plain equality.
* C12, C13 — structural induction on the text.
* C14, C15, C16 — an environment is a chain of ordered association lists;
  specification is a function from names to values and a history of assignments.
* C17, C18, C19 — open-recursive parser with fuel; measure argument shows that
  fuel linear in the length suffices; suffix invariants by induction on fuel.
* C20, C61 — a declarative grammar (`Spec/Syntax`), a printer (`Spec/Print`), and the
  trees they stand for. The parser follows the grammar: induction over grammar
  derivations (`Lemmas/Syntax*`), one lemma per rule. Printed things follow the
  grammar: induction over expressions and texts (`Lemmas/Print`). The tree
  determines the expression; so the grammar is unambiguous.
* C21 — balanced-parenthesis scanner as specification.
* C22, C23 — abstract file system in the parser state.
* C24 – C33, C55 – C60 — equations of the evaluator for sufficiently large fuel,
  with fuel monotonicity; induction on lists where needed.
* C29 — a meaning for function bodies that does not evaluate step by step
  (`Spec/Beta`): names stand for the values of a table. Induction over bodies.
* C34 – C42, C49, C50 — `yup.py` as a state machine over an abstract file system with
  faults; crash points = prefixes of the operation sequence. C36: the table of names
  (`Spec/OutputName`) and its inverse. C38: a run depends on the faults of its own
  operations only (`Lemmas/Local`), Hoare triples for the states left behind.
* C43, C44, C51 — codec functions, chunk lists.
* C45, C46, C47, C53, C54 — built-ins as functions on lists, strings and numbers.
* C48 — the value of a numeral defined digit by digit; induction on the digits.
* C62, C63 — references of a place as a relation (`Spec/Reference`); that calls and declarations lie in older texts, and
  that fragments are copies of the text they name, are invariants of parsing (`Lemmas/Sound`) and of evaluation
  (`Lemmas/Keep`, `Lemmas/Origin`); together with C08 and C10 they give the origin of every character.
* C64, C65 — tracebacks as lists of frames (`Model/Traceback`, the two modules `pylib/yutraceback*.py`); the cut into runs
  (`Spec/Traceback`) and induction over the stack.
* C66, C67 — the state of the plug-in and its key command as functions (`Model/Editor`); the places a character comes from
  as a list (`Spec/Editor`); the jump table is a ring through the found places, an invariant of the presses.
* C68, C69 — known values and values that hold functions as inductive predicates (`Spec/Call`), equal to the program's tests by
  structural induction; `$reduce` as a left fold of the modelled functions.
* C70 — configuration scripts as arbitrary functions on the options; a frame lemma for `_pp_configure` shows which fields of the
  global state each import overwrites, so that the outcome depends on no earlier import.
* C71 — the texts of definitions as an inductive predicate with unique decomposition; the table by induction on the list.
* C72 — the places in order as a list, the first one with a file; induction on the list of directories.
* C73 — lines specified by splitting the text around the position (`Spec/Message`), `splitlines` and the search for the line end
  computed for this split; the chain of places as an inductive relation, found by induction on the age of evaluated texts.
* C74 — the two loops of `_ast_pretty` as recursions; the table of brackets is right (invariant of the scan: the open brackets
  are the stack) and complete, so the lines partition the text and begin at the depth they are indented by.
* C75 — the leftmost non-overlapping cut of a text as an inductive predicate that has one solution; split, count and replace by
  induction on the text; numbers as values of digits in a base, with the printed form of a number shown to denote it.
* C76 — the trees of three definitions of the library; their values computed once for all states, then the application one
  parameter at a time, each partial body computed. The trees are those of lines of the library file (computed in the kernel).
* C77 — the scanner goes line by line; induction over the lines of the literal. The inverse (an end that is found is one)
  gives the unended case.
* C78 — a relation on sequences of pieces with one rule for each kind of value; sound by induction on its derivations, complete by
  induction on the fuel of the evaluator and the length of the sequence.
* C79 — the header as a relation on texts; the parser's loop over the first lines is followed case by case, the rest is C78 behind
  remarks. `readHeader` on its own for the text handed to the codec.
* C80 — induction over the passes of a source and over the sources, each step from the frame and the content of one `_pp_file`
  (C35, C58); the translation is a relation between pass and outcome, for which C78 gives the texts.
* C81 — evaluation of the calls (C68) and the functions of `os.path` on base names; the title by the separators around the names.
* C82 — C33, C61, C59 and C78 composed: the expanded text is registered, read by the grammar, and its pieces are generated in place of the call.
* C83 — C82 for the two macros of the library: a derivation in the grammar for every name, and the generation of the four pieces.
* C84 — the built-ins of bits against the bits of quotients; a number is determined by its bits.
* C85 — the built-ins of sequences, by the lemmas of C47 and C75; rfind by induction over the text.
* C86 — the 128 ASCII characters by computation, lifted to all texts by induction; padding by arithmetic.
* C87 — the text of the call by C82, its reading by the relation Reads, the columns by C26 and C27 (two nested maps, the inner one with an open subscript), `$len` and `$range` by C85 and C47.
* C88 — the dialogue as a loop over the lines typed; specification: a relation between lines and texts (`Blocks`, shown to be a total function) and
  one between texts and answers; induction over it.
* C89 — induction over the options; the namespace is what they leave of the defaults.
* C90 — `translate` is one pass of the command (C80) behind the check of C41.
* C91 — the macro stands for its text (C82), which is read as `($if …)`; C76 gives its value, and a lemma what a piece with that value adds.
* C92 — the macro stands for its text (C82), which is read as a definition with a conditional (C25) and an application of `$if` (C76) to a text (C78); a line without an indent is not moved by the trimming.
* C93 — the definition is a function whose body is partly evaluated when it is defined, when it gets its first argument, and when it gets the second one; the three forms of the body are computed, and C75 says what cutting and joining do.
* C94 — from C33 (what is put in the text of a macro) and the pass-through of macro-free text (C01), here for a registered text; `Generates` of C78 says where the text stands.
* C95 — induction on nesting over all rules of the evaluator, for a relation of the states that the elementary steps respect; `Avoids` runs the evaluator that gives up at the forms in question, and monotonicity (`evalStep_le`) shows that it agrees with the evaluator otherwise.
* C96 — induction on nesting: every rule of the parser, if it recognises something, does so by a production of `Accepts` (Spec/Accept), and where the text rule recognises nothing, nothing begins; corollaries by induction on `Accepts`.
* C97 — induction on the program (`Straight`, Spec/Straight), with the invariant that names in scope stand for data unless they wait for the value just being evaluated; data applied to data by induction on their sizes; for the converse, induction on the nesting bound of the evaluator.
* C98 — induction on the session (`EditSession`, Spec/EditorSession) with the invariant that a file with tables has those of a disk of the past and the time it had then, and that a file without tables has its counterpart; C98_loading by the ring of C66.
* C99 — induction on the expansion of the imports (`Source`, `Expands`, Spec/Modules) with the table of known files as state; C99_inline by induction on the pieces of the module, using C78's account of the generated text.
* C100 — induction on the pieces of a module of definitions (`Enters`, Spec/ModuleScope) with C78 and C95; the text of the library is parsed in the kernel for every environment (Lemmas/StdText); then C76, C91 and C93 for the functions. For an import at the start the evaluator, too, is run in the kernel for every environment that has what the library takes for granted (`StdEnv`, Props/StdStart).
* C101 — an evaluator that gives up at chosen forms in chosen states (`untilIn`, Spec/Counter); an invariant of all runs (the framework of C95) gives that the counter does not pass a number that is not drawn, a simulation between two such evaluators (Lemmas/Follows) that it draws no other.
* C102 — two evaluations side by side (Lemmas/Twin): the same scopes opened since over two towers that agree but for the names not looked at; one lemma for each form of the evaluator, and induction over the derivation of the generated text. Swapping two definitions is a tower relation of its own, so that the states at the end are equal.
* C103 — a relation that says what a template is filled to (Spec/Fill), by induction over it a derivation of the generated text; macros by C82. The macros of lib/h.yu are lists of pieces (Spec/HLib), read and substituted by induction over the list.
* C104 — `h-begin` is a definition and a list of 69 pieces (Spec/HBegin); the definition by C86, the pieces by induction as in C103, in front of whatever follows. The conditionals are counted by an automaton over the text (`condStep`); a name in the middle of a line does not change its state. The named variants (Spec/HNamed, Props/HNamed) are a definition and a call, with C81 for the module name, which has no small letters left.
* C105 — texts that lack a file are a relation (Spec/Missing); by induction over it, as for C99, with the exception passed on by every rule on the way (Props/Missing); with the passes of C80 for the command.
* C106 — the argument is put in by C103, the plain text read by C82 and the grammar; identifiers keep plain text plain (`plainCheck_before`). For several parameters, `putArgs_among`: every name in the template is found in the table of arguments. `coro-init` calls another macro: its text is read by the grammar, the inner call is in its place (Props/CoroStart).
* C107 — `Source` of C99 for the files, the conditional of C25 and `$isatom` for the line, `$skip` passes over paired marks (`behind_paired`), and the pieces of any module are paired (`moduleTrees_paired`).
* C108 — the texts are lists of lines, `directive_iff` by induction on them: a directive stands at the beginning of a line, and the identifier is read to its end (`run_unique`).
* C109 — the preprocessor is a function over the lines (Spec/Cpp). The lines of the beginning are run for any values of its conditions (`header_run`, by induction on the lines); the definitions are then the same for all values. The end by induction on the macros, inclusions by induction on their number. For a program: C104 and C103 give the text; its end begins at the margin, so that it is not moved (`reindent_margin`).
* C52 — the browse table of a macro expansion, from parse to result.

Where the code violates the property the negation is proved by a concrete
witness and the strongest true part is kept; such a part is called `_partial`
where it does not settle the property.
