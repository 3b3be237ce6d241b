#!/usr/bin/env python3
"""Writes /verif/properties.jsonl (one JSON object per line)."""
import json, os
P = []
def p(title, statement, quantifier, why, anchors):
    P.append({"id": "C%02d" % (len(P) + 1), "title": title, "statement": statement,
              "quantifier": quantifier, "why_tests_cant": why, "anchors": anchors})
Y = "pp/yugen.py:"
S = "pp/yup.py:"

p("Macro-free text is passed through",
  "If the input holds only admissible characters (TAB, LF, U+0020..U+00FF) and no macro opener ('($' or '(`'), translating it succeeds and, with empty-line reduction off, the output is the input itself; the only change ever made is that U+00FE and U+00FF become SPACE and TAB. The unrestricted claim 'macro-free text is never changed' is false exactly because of those two characters.",
  "every input text without macro openers, of any length, with any mixture of quotes and brackets, for both C and Python comment modes off",
  "the parser splits text at every quote and bracket, so each of the unboundedly many texts takes a different path; a test fixes finitely many",
  [Y+"yuparse", Y+"ps_text", Y+"ps_plain", Y+"ps_quote", Y+"_plain", Y+"replace_steady", S+"_pp"])
p("Empty-line reduction: exact effect",
  "With pp_reduce_emptiness on and browse off, the final text consists of the lines of the evaluated text with trailing white space removed, where a blank line is dropped exactly when the line before it is blank; it ends with exactly one newline after the last kept line; no two successive blank lines and no trailing white space remain.",
  "every text, every line structure and every Python line separator",
  "quantifies over all texts", [Y+"reduce_emptiness"])
p("Empty-line reduction is idempotent",
  "Reducing an already reduced text changes nothing.",
  "every text", "quantifies over all texts", [Y+"reduce_emptiness"])
p("Empty-line reduction in browse mode only removes blank lines",
  "With pp_browse on, the reduced text is the original text minus those blank lines that follow a blank line, every other character is kept verbatim and in order.",
  "every text with any offsets", "quantifies over all texts", [Y+"reduce_emptiness"])
p("Offset table of the browse-mode reduction is exact",
  "After browse-mode reduction every position of the reduced text, translated with the offset table the way the editor plug-in does (last entry whose key is not greater than the position), gives the position that character had in the unreduced text.",
  "every text, every position", "off-by-one errors hide at unusual combinations of blank runs", [Y+"reduce_emptiness", "sublime_text/Data/Packages/yupp/yupp.py:_bisect"])
p("Merging offset tables is composition",
  "_merge_offset(P, N) translates a position to what P gives for what N gives for that position.",
  "every pair of tables with ascending keys where N is non-decreasing as a position map, every position",
  "tables are unboundedly long and interleave arbitrarily", [Y+"_merge_offset", Y+"_bisect"])
p("Binary search of offset tables",
  "_bisect(a, x) returns the number of entries whose key is not greater than x.",
  "every ascending table and every x", "all sizes", [Y+"_bisect"])
p("Provenance of generated text",
  "In browse mode, every character of the generated text that was copied from a located source fragment is mapped by the saved browse and offset tables back to that fragment and to the character's index in it, through any nesting of texts, lists, indentation trimming and the final empty-line reduction.",
  "every evaluated tree, every position",
  "trees, nestings and positions are unbounded", [Y+"_plain_with_browse", Y+"RESULT.add_text", Y+"TRIM.trim_with_browse", Y+"reduce_emptiness", Y+"_merge_offset"])
p("Indentation trimming: exact effect",
  "TRIM.trim removes from every non-blank line the longest leading run of blanks and tabs common to all non-blank lines, empties white-space-only lines, and puts the application's indent in front of every line but the first; with trimming disabled the text is unchanged.",
  "every text and every indent", "quantifies over all texts", [Y+"TRIM.trim"])
p("Indentation trimming in browse mode",
  "trim_with_browse keeps every line with its own terminator, removes one and the same prefix of blanks from each non-empty line, adds the indent to all lines but the first, leaves empty lines alone; the offset table it returns is exact.",
  "every text, every indent, every position", "quantifies over all texts and positions", [Y+"TRIM.trim_with_browse"])
p("Browse mode changes white space only",
  "Wherever a text is made during a translation, and for the final text, the text made with pp_browse and the one made without it from the same items are the same up to white space, and the same exactly where every indented block is simple. They are not the same always: trailing blanks, blank lines and mixed TAB/SPACE indents are treated differently (shown by counter-examples). Built-in and Python functions are assumed to make no syntax trees of their own.",
  "every source text, every nesting of blocks, every evaluation", "all texts and all evaluations; the differences need unusual white space", [Y+"reduce_emptiness", Y+"TRIM.trim", Y+"TRIM.trim_with_browse", Y+"yueval", Y+"_plain", Y+"_plain_with_browse"])
p("Line ends are unified",
  "After reading, source text holds no CR; every CRLF, CR or LF of the input becomes exactly one LF and nothing else changes; doing it twice changes nothing.",
  "every text", "all mixtures of line ends", [Y+"_unify_eol", Y+"yushell", Y+"_import_source"])
p("Steady blanks",
  "replace_steady turns each U+00FE into a SPACE and each U+00FF into a TAB, changes no other character and keeps the length, so offset tables stay valid.",
  "every text", "quantifies over all texts", [Y+"replace_steady"])
p("Environment lookup returns the innermost binding",
  "A name is resolved in the nearest enclosing scope that binds it; binding it again in an inner scope hides the outer one, and the outer one reappears when the inner scope ends.",
  "every chain of scopes and every history of bindings", "histories are unbounded", [Y+"ENV.lookup", Y+"ENV.__setitem__"])
p("Environment update touches one binding only",
  "update_variable (used by $emit) changes the innermost binding of the name and nothing else; it reports failure and changes nothing if the name is not bound.",
  "every chain of scopes", "histories are unbounded", [Y+"ENV.update_variable"])
p("Parameter order of a scope",
  "Within one scope each name occurs once, the iteration order is that of last assignment, and the next positional argument goes to the first still unassigned name in that order.",
  "every history of assignments and deletions", "histories are unbounded", [Y+"ENV.__setitem__", Y+"ENV.__delitem__", Y+"ENV.unassigned", Y+"ENV.xlocal"])
p("The parser terminates on every input",
  "Parsing a text without import forms always ends with a tree or an error: the nesting of grammar rules and rounds of loops never exceeds twice the length of the text plus two.",
  "every text", "non-termination cannot be observed by a test", [Y+"yuparse", Y+"ps_text", Y+"ps_form", Y+"ps_application", Y+"ps_lambda", Y+"ps_code"])
p("Grammar rules consume a prefix, and nothing when they fail to match",
  "Every grammar rule leaves a suffix of its input; a rule that reports 'no match' leaves its input unchanged, and a rule that matches consumes at least one character.",
  "every rule and every input", "all inputs", [Y+"ps_*"])
p("Source positions of tree leaves are exact",
  "Every name, comment, quoted or plain fragment of the syntax tree that carries a location is literally the piece of the source text found at that location; and each of them carries one, except empty quotes, C literals and the ... of a parameter list.",
  "every input text", "all inputs", [Y+"SOURCE.__getitem__", Y+"ps_text", Y+"ps_plain", Y+"ps_quote", Y+"ps_atom"])
p("Printing and parsing expressions are inverse",
  "Writing down any expression built from names, integers, string literals, quotes, lists, applications with positional, named and embedded arguments, functions (with late names, defaults and ...), conditionals, $let and $emit, and parsing it gives that expression back; what is written has one reading only, also with other white space, closing tags and number formats than the printer uses.",
  "every expression tree of any size and depth, every text that follows the grammar", "infinitely many expressions", [Y+"ps_form", Y+"ps_former", Y+"ps_list", Y+"ps_application", Y+"ps_lambda", Y+"ps_variable", Y+"ps_number", Y+"ps_quote"])
p("Quotes, comments and macro bodies end at the matching parenthesis",
  "The body of (` ), ($quote ), ($! ) and ($macro ) is exactly the text up to the first closing parenthesis that is not matched by an opening one inside the body; the comment produces nothing, the quote produces its body verbatim.",
  "every body text", "all bodies", [Y+"ps_quote", Y+"ps_comment", Y+"ps_macro", Y+"ps_plain"])
p("Library import happens once",
  "($import name) reads a library at most once per translation, also when libraries import each other in cycles.",
  "every set of libraries and every import graph", "all graphs, including cyclic ones", [Y+"_import_source", Y+"ps_import"])
p("Quoted include has no cycle protection",
  "($import \"file\") of a file that includes itself never terminates (the claim 'every import terminates' is false).",
  "every recursion budget", "a test can only observe a crash at one budget", [Y+"_import_source", Y+"ps_import"])
p("Values are fixed points of evaluation",
  "Evaluating a fully evaluated value (text, number, list of values) gives the same value in every scope and has no effect.",
  "every value, every scope", "all values", [Y+"yueval"])
p("Conditional evaluates one leg",
  "c ? a | b evaluates the condition and, when it is a value, exactly the leg chosen by its truth; the result and the effects do not depend on the other leg; without an alternative a false condition yields nothing.",
  "every condition, legs and scope", "all expressions", [Y+"yueval COND"])
p("Application of a list is map",
  "($ (x1 .. xn) f) yields the list of the results of applying f to the items from left to right, items that yield nothing are left out; several functions are composed left to right.",
  "every list, every list of functions", "all lists", [Y+"yueval APPLY list"])
p("Application of a number is subscripting",
  "($i a0 .. an) and ($i (a0 .. an)) yield the i-th element, nothing if i is past the end, count from the end for negative i, and fail if i is before the start.",
  "every index and list", "all indices", [Y+"yueval APPLY int"])
p("$set scope is the rest of the block, $let scope is its form",
  "After ($set n v) the rest of the same text block sees n as v; a ($let n v e) evaluates e with n as v; neither is visible outside.",
  "every name, value and text", "all programs", [Y+"yueval SET", Y+"yueval LET", Y+"yueval T", Y+"yueval SET_CLOSURE"])
p("Beta rule",
  "Applying a lambda to positional arguments equals evaluating its body with the parameters bound to the argument values; named arguments in any order give the same; missing arguments take their defaults.",
  "every lambda and argument list", "all programs", [Y+"yueval APPLY LAMBDA_CLOSURE", Y+"yueval L_CLOSURE"])
p("$skip drops exactly the rest of the module",
  "After ($skip) nothing of the current module is produced and nothing of it is evaluated; text after the import of that module is produced as usual.",
  "every text and nesting of imports", "all nestings", [Y+"yueval T"])
p("Unbound names stand for themselves",
  "($name) of a name that is neither bound nor built in and holds no hyphen produces the name itself; a hyphenated one stays unevaluated and makes the translation fail.",
  "every name", "all names", [Y+"yueval VAR", Y+"yueval APPLY ATOM"])
p("String substitution",
  "($ \"..($0)..($n)..\" a0 \\n v) replaces each marker by the text of the argument; text without markers is unchanged.",
  "every template and arguments", "all templates", [Y+"yueval APPLY str"])
p("Macro parameter substitution",
  "A macro expands to its text with every ($par) replaced by the argument; with argument texts that cannot form markers the order of parameters does not matter. In general it does (negation proved): an argument holding another marker is substituted again.",
  "every macro text and arguments", "all texts", [Y+"yueval M_CLOSURE", Y+"_plain_back"])
p("Success means text",
  "A translation is reported successful only if evaluation produced a text; otherwise nothing is written to the output file and the tree goes to an .ast file. (If the output file itself is named *.ast, a failing translation overwrites it without a backup: proved as the exception.)",
  "every input", "all inputs", [S+"_pp", S+"_pp_stream"])
p("Output file never is the input file",
  "The derived output name differs from the input name for every input name and output directory.",
  "every file name", "all names", [S+"_output_fn"])
p("Output names follow the table; which inputs collide",
  "The derived output name of every input file is the one of the documented table (*.yu-x gives *.x, *.x.yu gives *.x, *.x gives *.yugen.x, *.yu and names without extension give *.yugen; yu in capital or small letters), in the directory of the input file or in the output directory. Two input files of different names get the same output exactly if they are in the same directory (or an output directory is set) and the table gives both the same output; then they are names of different kinds, e.g. a.yu-c and a.c.yu. Names of one kind never collide.",
  "every name and every pair of names", "all names and pairs", [S+"_output_fn"])
p("Crash safety of output",
  "At every crash point of writing the output, the previous content of the output file still exists under its name or under its .bak name.",
  "every crash point, every initial file system", "crash points", [S+"shell_backup", S+"shell_savetofile", S+"_pp_stream"])
p("Reported success implies the output file holds the text",
  "If processing a file reports success, the output file holds the text its source translates to and the old output is in the backup, unless a file operation of that very run failed (such a failure is logged, success is reported all the same: negation of the unrestricted claim proved). Whatever fails and wherever the program is stopped, the output file is as it was; or the old one is in the backup and the output file is missing or holds a beginning of the text.",
  "every outcome of every file operation", "fault combinations", [S+"_pp_stream", S+"_pp_file"])
p("Exit status",
  "The status returned by the command line is 4 times the number of failed files, so zero iff none failed. As the process exit code keeps 8 bits, 64 failures look like success (negation proved for the process code).",
  "every list of files and outcomes", "all lists", [S+"cli", "__main__.py:main"])
p("Passes over one source",
  "With a $__PASSAGE__ list of n >= 1 items that does not depend on the pass, a file is processed exactly n times, the k-th time with the k-th item; processing stops at the first failure.",
  "every n, every item list", "all n", [S+"cli", Y+"yueval __PASSAGE__"])
p("Skipping re-translation is safe with respect to time stamps",
  "Translation is skipped only if not forced, the output exists and is strictly newer than the source and each listed dependency; otherwise the source is translated.",
  "every set of time stamps and dependencies", "all orders of time stamps", [S+"proc_stream"])
p("Line shift is the same whether or not translation is skipped",
  "The number of removed header lines reported for tracebacks is the same on the translating and on the skipping path. (False for '# coding=yupp'; negation proved, equality proved for the ':' form.)",
  "every source header", "all headers", [S+"proc_stream", Y+"ps_header_python"])
p("Codec lookup",
  "The codec answers exactly for 'yupp' in any letter case and for 'yupp.<encoding>' with a known encoding; everything else is refused.",
  "every codec name", "all names", ["__init__.py:yupp_search_function"])
p("Incremental decoding does not depend on chunking",
  "However the bytes are cut into chunks, the incremental decoder yields nothing before the final chunk and then the decoding of all bytes.",
  "every chunking", "all schedules", ["__init__.py:incremental_decoder_factory"])
p("$unique is history independent",
  "($unique list) yields the distinct items of the list in order of first occurrence. (False after the first call: the set of seen items survives between calls; negation proved, first call proved, later calls characterised.)",
  "every sequence of calls", "histories", [Y+"builtin unique"])
p("Quote and unquote are inverse",
  "($unq ($q s)) = s for every string s without the quote character, and likewise with $qs; the quote character is not escaped, so a string that holds it is not read back: unless Python takes the quoted text for another literal, the quotes are left in place. What $q and $qs give is, for every text, printable ASCII between two quotes, and a printable ASCII text without backslashes stands there as it is. In a text between quotes $unq replaces each escape sequence of one character and each octal one by the character it stands for, and leaves unknown ones as they are.",
  "every string", "all strings", [Y+"builtin q", Y+"builtin qs", Y+"_unq"])
p("List built-ins",
  "index/rindex give the lowest/highest position of an item or -1; car/cdr split a list; reversed is an involution; range is the arithmetic progression. (rindex is wrong for texts longer than one character: it raises or gives a position where the text does not occur; negation proved.)",
  "every list and item", "all lists", [Y+"builtin index", Y+"builtin rindex", Y+"builtin car", Y+"builtin cdr", Y+"builtin reversed", Y+"builtin range"])
p("Integer literals",
  "A decimal, hexadecimal, binary or 0o-octal literal denotes its value; the documented C-style octal 0[0-7]+ is recognised by the grammar but makes translation fail, and so does a number whose sign is apart from its digits.",
  "every literal", "all literals", [Y+"ps_number", Y+"re_INT"])
p("Only the program's own files are written",
  "Translating a file touches no file but the output, its .bak, its .json and the .ast file; with a derived output name the input file itself is never touched, whatever fails and wherever the program is stopped.",
  "every file system, fault schedule and file name", "all fault schedules", [S+"_pp_stream", S+"_pp_file", S+"_output_fn"])
p("A second run yields the same text",
  "After an undisturbed translation of a source older than the clock, asking again through the codec returns the same text (with line ends normalised) without translating.",
  "every translator, text and time stamps", "histories", [S+"proc_stream"])
p("The codec hands only valid code to Python",
  "The text returned by the codec is the generated text and is accepted by Python's parser, or it is empty. (In Python 3 the codec fails with an exception, instead of returning the empty text, exactly if the translator raised one or the generated text is not accepted; proved.)",
  "every source and outcome", "all outcomes", ["__init__.py:decode_stream"])
p("Macro expansions are traced to their declaration and their call",
  "Every expansion of a macro is recorded with its text, the place of the declaration and the place where the macro was called, and no record is ever dropped or changed. (False for macros with two or more parameters: the place of the call is lost; negation proved for every such call.)",
  "every macro, argument list and evaluation", "all macros and histories", [Y+"yueval APPLY M_CLOSURE", Y+"yueval EVAL", Y+"RESULT.loc"])
p("$unq keeps text without quotes and escapes",
  "($unq s) = s for every text that does not begin with a quote and holds no backslash. (False beyond ASCII: every such text with another character is changed, as its UTF-8 bytes are taken for characters; proved for ASCII, negation proved for all others.)",
  "every text", "all texts", [Y+"_unq", Y+"builtin unq"])
p("Arithmetic and comparison",
  "($add m n), ($sub m n), ($mul m n), ($neg n), ($inc n), ($dec n) give the exact integer results; ($floordiv m n) and ($mod m n) give a quotient and a remainder on the side of the divisor, and fail for n = 0; ($lt m n) .. ($ge m n), ($eq a b), ($ne a b), ($not a) give the number 1 or 0, never a Python truth value; $eq holds exactly for the same text, number or list of such.",
  "all integers; all texts, whole numbers and nested lists of them", "unboundedly many values", [Y+"builtin", Y+"yueval"])
p("$emit takes values off a variable",
  "($emit a), again and again, yields the items of the list in the variable a in order and then nothing, and a keeps the rest of the list; of any other variable it yields the value. ($emit a f) yields the value of a, which then holds the value of ($f a). No other name and no variable of the same name further out changes. An unknown variable is an error.",
  "every list, value, number of repetitions, nesting of scopes and function", "all histories of emits", [Y+"yueval EMIT", Y+"ENV.update_variable"])
p("$isatom and $lazy",
  "($isatom x) is 1 exactly if the value of x is a name, else 0. ($lazy x) keeps the value of x (of a list, each item) unevaluated, and applying it to arguments has the outcome of applying the kept value to them.",
  "every value, argument list and state", "all values and outcomes", [Y+"yueval APPLY BUILTIN_SPECIAL", Y+"yueval APPLY LAZY"])
p("Parameters from a list",
  "\\(params).body has the outcome of the function whose parameters are the names in the list the variable params holds; anything else than a list of names is an error.",
  "every list of names and body", "all lists", [Y+"yueval LAMBDA VAR", Y+"_list_to_bound"])
p("The program names its output file",
  "($set __OUTPUT_FILE__ expr) makes the text of the value, without quotes, the name of the output file, yields nothing and binds no name; a value that is no text changes nothing.",
  "every expression and state", "all values", [Y+"yueval SET"])
p("Evaluated texts are like written ones",
  "Evaluating a text (a macro's expansion or ($$ text)) parses it once, under a new number, and has the outcome of what it parses to: of the form, of the text, or nothing for an empty text; if it holds definitions, the outcome is as if it were written in its place, at its indent, so that they hold for the rest of the surrounding text.",
  "every text, parse result and surrounding text", "all texts", [Y+"yueval EVAL", Y+"yueval T", Y+"yuparse"])
p("Lists",
  "The value of a list is the list of the values of its items from left to right; items that yield nothing are left out and an embedded list *x counts as its items; the first item that fails makes the list fail.",
  "every list and state", "all lists", [Y+"yueval LIST", Y+"yueval EMBED"])
p("Source texts are divided as written",
  "A source text is divided into plain text, literals, comments of the target language, quotes, macros, definitions and forms in exactly one way, in order and without loss; texts in [ ], ] [, ,, ;;, ($code ), { } and (${} ) end where their brackets say, inner brackets and literals being skipped; what is printed is parsed back to the same text.",
  "every text of the grammar, nested to any depth, in C and Python mode and for every setting of the comments left alone", "all texts and nestings", [Y+"ps_text", Y+"ps_code", Y+"ps_infix", Y+"ps_set", Y+"ps_macro", Y+"ps_comment", Y+"ps_quote", Y+"ps_remark_c", Y+"ps_remark_python", Y+"yuparse"])
p("Every character leads back to its source",
  "With browsing information, the tables of a translation's result lead from each character that was copied from a source to the place it was copied from: at the named place of the named file, or of the text of the innermost evaluated text (a macro's expansion, ($$ text)), whose declaration is named, stands this character. In a text without macros (and, except for Python, without string literals) this holds for every character of the result, whether empty lines were dropped or not, and the file is the input file.",
  "every program, input, configuration and position in the result", "all texts and expansions", [Y+"RESULT", Y+"RESULT.loc", Y+"RESULT.add_text", Y+"yueval TEXT", Y+"yushell", Y+"SOURCE.__getitem__"])
p("References to evaluated texts never dangle",
  "During and after every translation, each place in a value, a scope or a text to be rendered lies in a file or an evaluated text that is known; the chain of calls and declarations from it ends, every link of it is known, and so looking up its references neither fails nor runs forever. (If no file that is read has a name made of digits.)",
  "every program, input and moment of the evaluation at which a text is rendered", "all histories", [Y+"RESULT.loc", Y+"yuparse", Y+"yueval EVAL", Y+"yuimport"])
p("Tracebacks show the generated file",
  "In a traceback, a frame of a preprocessed program is shown at its line of the generated file, a frame of any other file as it is; the last translation of a file counts; limits cut off the right end. (Python 2: proved. Python 3: the line is right exactly if one line more was registered than Python counts; every frame of any other file is shown one line too far; a file known by a relative name is not recognised; negations proved.)",
  "every stack of frames, set of registered files, and limit", "all stacks", ["pylib/yutraceback2.py:extract_tb", "pylib/yutraceback2.py:extract_stack", "pylib/yutraceback3.py:StackSummary.extract", "pylib/yutraceback3.py:substitution", "__init__.py:decode_stream"])
p("Shortened tracebacks account for every frame",
  "A traceback is printed as its maximal runs of equal frames (file, line, name) in order: of each run the first three frames and the exact number of the others, so that every frame is either printed or counted once.",
  "every stack of frames", "all stacks and depths of recursion", ["pylib/yutraceback3.py:StackSummary.format"])
p("The plug-in leads through the places a character comes from",
  "In a generated file with browsing information, giving the command Go to Origin again and again leads from the character at the caret to each of the places its fragment refers to, outermost call first and those in files that are not found left out, and from the last back to the character. A fragment with a single reference leads to the exact place of the character in it. (If it is the first fragment of the table, or begins its file, the command leads to the beginning of the fragment instead; negation proved.)",
  "every result, table, caret, set of files found and number of presses", "all tables and histories of presses", ["sublime_text/Data/Packages/yupp/yupp.py:GotoOriginCommand", "sublime_text/Data/Packages/yupp/yupp.py:open_file"])
p("The plug-in finds the source by name",
  "Without browsing information, the plug-in leads from a file generated beside its source to the source and back, any number of times, exactly for the sources s.x (no yupp extension), s.yu-x in small letters and s.yu without inner extension. (For s.x.yu another file is looked for; negation proved.)",
  "every file name, editor state and number of presses", "all names", ["sublime_text/Data/Packages/yupp/yupp.py:open_file", "pp/yup.py:_output_fn"])
p("Built-in functions wait for their arguments",
  "A call of a built-in function whose arguments are all known gives what the Python function returns (a truth value as 1 or 0, a text as a plain one) or fails if it raises; while an argument is not known yet the call stays, with its arguments evaluated; if an argument is a built-in function or a list that holds one, or if there are named arguments, it fails. A constant of the table gives its value, and fails on arguments.",
  "every built-in function, argument list and state", "all values and functions", [Y+"yueval APPLY BUILTIN", Y+"_is_term", Y+"_detect_deadlock"])
p("$reduce combines from the left",
  "($reduce f list) is f(f(f(x, y), z), …), with a third argument from that value on; numbers are added up however many there are; an empty list is an error. (Unlike other calls it does not wait for an argument that is not known yet but fails, and a truth value stays one; proved.)",
  "every built-in function, list of any length and state", "all lists", [Y+"yueval APPLY BUILTIN_SPECIAL"])
p("Configuration scripts",
  "When modules are imported, each translation uses exactly the options its two configuration scripts give: .yuconfig of the working directory, then <file>.yuconfig, which overrides it (of the numeric and truth values; pp_define, dependency and directory can be extended by both); options not given have their defaults, whatever was imported before. (Options in upper case have no effect, and a .yuconfig in the directory of the source is not read; negations proved.)",
  "every pair of scripts, module and history of imports", "all scripts and histories", ["pp/yup.py:_parse_yuconfig", "pp/yup.py:_pp_configure", "pp/yup.py:proc_stream"])
p("Constants of the configuration",
  "A definition NAME or NAME: value in the configuration (white space around either ignored; anything else is ignored with a warning) makes ($NAME) yield True or the text of the value; the last definition of a name counts, other names keep their meaning, and all files of a command line see the same constants. (When modules are imported, the constants of earlier modules stay defined for later ones; negation proved.)",
  "every text of a definition, list of definitions and history of translations", "all texts and histories", [Y+"_update_builtin_from_config", Y+"ps_atom", Y+"yushell"])
p("Where libraries are found",
  "An imported library is the first file of that name in: the working directory, the directory of the input file, the directories of the options in order, the library of yupp; its text, line ends unified, is what is parsed; the import fails only if none of them has it. An absolute name means that file only. (So a file in the working directory comes before one beside the source; proved.)",
  "every file system, input file, list of directories and name", "all file systems and names", [Y+"_import_source", Y+"yushell"])
p("Error messages name the right place",
  "The place of an error is told with the file, the number of the line and the line, with a pointer below the character; a place in an evaluated text (a macro's expansion, ($$ text)) is told with all the places it comes from, those of the call first, then those of the declaration, each of them right; looking up the places never fails. (A place in an empty line is told one line too early, and other separators such as form feeds count as line ends; negations proved.)",
  "every text, position in it, and table of files and evaluated texts", "all texts, positions and depths of expansion", [Y+"_loc", Y+"SOURCE.__getitem__"])
p("The tree of an unfinished program shows everything",
  "If a program is not reduced to text, the .ast file shows the parts that are text already in their places and exactly as they would be generated; each other part is shown in its printed form, broken into lines: nothing is lost, changed or moved, only line ends and indents are added, and if its brackets pair up, lines are indented by two spaces for each open bracket. (A value that is nothing is shown as None; proved.)",
  "every value, printed form and option", "all values and texts", [Y+"make_ast_readable", Y+"_ast_pretty", "pp/yup.py:_pp"])
p("Functions on texts and slices",
  "$split cuts a text at exactly the non-overlapping occurrences of the separator, from the left (without separator: into its words), so $join with it gives the text back; $replace puts the new text in exactly their place, $count counts them, $find gives the first position or -1; $strip, $lstrip, $rstrip remove as many of the characters as possible on their sides and nothing else; $ljust and $rjust fill up to exactly the width; $getslice gives the items between two positions, negative ones counted from the end, too large ones cut, empty texts meaning the ends; $atoi gives the number a text denotes in base 2, 8, 10 or 16 and fails on every other text, $hex gives a text that $atoi reads back; $ord undoes $chr; $sum adds up. (One bound of $getslice is the end, and $ord of a quoted literal always fails; proved.)",
  "every text, separator, list, number and state", "all texts, lists and numbers", [Y+"builtin"])
p("The library functions $if, $unless and $BIN",
  "With the library stdlib, ($if c a b) yields a unless c is false and b if it is, an omitted leg being the empty text; $unless the other way round; ($BIN,,digits) yields the number the digits denote in base two and fails if they denote none. This holds in every state and whatever the arguments do. (Both legs are evaluated before one is chosen, so a leg that fails makes $if fail even if it is not chosen; proved.)",
  "every condition, pair of legs (data or $skip), text of digits and state", "all values, effects and states", ["lib/stdlib.yu:if", "lib/stdlib.yu:unless", "lib/stdlib.yu:BIN", Y+"yueval APPLY L_CLOSURE", Y+"yueval COND_CLOSURE"])
p("String literals of Python sources",
  "In a Python source every string literal of Python — short or in triple quotes, with or without the prefixes u, r, continued over lines or not — is taken as one piece and left alone, whatever is inside it (application signs, brackets, quotes, comment signs, line ends), and the text goes on behind it; triple quotes that are never closed make the translation fail. (A literal in double quotes that is continued with a backslash and has an apostrophe in its first line is taken to end at the next apostrophe of the following lines, or makes the translation fail; proved.)",
  "every literal, position in a text and text that follows", "all literals", [Y+"ps_string_python", Y+"ps_quote", Y+"yuinit"])
p("The text a program generates",
  "What a program generates is the texts of its pieces one after another, from left to right: plain text as it stands, the value of an expression as its text (that of an application as a block at the indent of its place), nothing for a comment, a definition or a value that is nothing; white space behind a definition or a comment that begins a line is left out; a definition holds for the pieces behind it; $skip leaves out the rest of its module; an exception of a piece ends the translation; a piece that is not reduced to text makes the whole not a text. The translation ends exactly if this comes to an end, and then reports the text, the output file chosen and the request for another pass.",
  "every program, state, option and place", "all programs and states", [Y+"yueval T", Y+"yueval SET", Y+"yueval SET_CLOSURE", Y+"_plain", Y+"_plain_with_browse", "pp/yup.py:_pp_stream"])
p("The header of a Python source",
  "In a Python source the magic comment (coding: yupp in a comment in the first line, or in the second behind a comment or a blank line) is recognised exactly as documented. With a base encoding, coding: yupp.enc, the comment stays in the output without `yupp.`, otherwise it is removed; a comment in the line before stays. What follows is the text that the rest of the source generates, and the number of the line of the magic comment is reported for tracebacks. Python itself reads the magic comment and hands the codec the rest: the codec puts the header back, so that the text translated is that of the file when coding: is in the first line exactly if the magic comment is.",
  "every source, base encoding, option and program behind the header", "all sources", [Y+"yuparse", Y+"ps_header", "__init__.py:read_header", "__init__.py:decoder_factory"])
p("What the command does with its source files",
  "Given any list of sources that do not get in each other's way, and no faults of the file system, the command leaves for every source, and every pass its program asks for, a file with exactly the text of that pass: under the name the program has set, or the name derived from that of the source. A source that fails or is not there does not keep the others from being translated. No source is changed, and no file but the outputs, their backups and tables and the files for unreduced trees. The status is four times the number of sources that fail.",
  "every list of sources, every number of passes, every program, state of the file system and option", "all lists, all numbers of passes, all contents of the file system", ["pp/yup.py:cli", "pp/yup.py:_pp_file", "pp/yup.py:_pp_stream", "pp/yup.py:shell_backup", "pp/yup.py:_output_fn"])
p("What a program is told of its translation",
  "($__FILE__) is the name of the source without directories, ($__OUTPUT_FILE__) the name of the output the program has set last, else that of the file it is translated to, both in quotes; <stdin> and <stdout> stand for the streams. ($__MODULE_NAME__) is the name of the source without extension, hyphens replaced with underscores, in capitals. ($__TITLE__ dt) is one comment that names both files, in Python exactly if the extension of the output is py, without the time if dt is false. Comments are skipped as the option says, with the automatic choice by the same extension.",
  "every path of a source and an output, every state of the evaluation, every option", "all file names, all programs that set the name", [Y+"yushell", Y+"builtin", Y+"yueval", "doc/builtin.md:__FILE__"])
p("A macro call stands for its text",
  "A call of a macro comes to what its text comes to, the texts of the arguments put in place of the parameters: if the text is one form, to what this form yields; if there are definitions in it, its pieces stand in place of the call, with the lines of the text indented as the call is, so that the definitions hold for everything that follows the call; otherwise to the text the pieces generate.",
  "every macro, all arguments whose texts are put in, every text that follows the grammar, every place of the call and everything that follows it", "all macros, arguments and continuations", [Y+"yueval", Y+"yuparse", "doc/README.md:$macro"])
p("$def and $undef of the library",
  "($def NAME) is replaced with the line #define NAME, in the column of the call or on a line of its own behind other text, and from there NAME is 1 for the rest of the source; ($undef NAME) with #undef  NAME, and NAME is 0. A name that is a number already (after $def, too) cannot be used in either: the call fails.",
  "every name, every place of the call, every indent, everything that follows", "all names and continuations", ["lib/stdlib.yu:def", "lib/stdlib.yu:undef", Y+"yueval"])
p("Bits of numbers",
  "$and, $or and $xor of whole numbers work on every bit of them, $invert turns all bits over, for negative numbers too (in two's complement without end); $lshift multiplies by a power of two, $rshift divides by it and rounds down, and a negative count fails. Of the results of comparisons, $and and $or are therefore the conjunction and the disjunction; of other numbers they are not: for every number but 0 and -1 there is another one such that both count as true and their $and as false.",
  "all whole numbers, every bit, every count", "all numbers of any size", [Y+"builtin"])
p("Sequences",
  "$add and $concat put a text behind a text and a list behind a list. $contains tells whether a list has an item of the same value, or a text another text in it, and fails if anything else is looked for in a text. $getitem gives the item, or the character, at a position counted from the start or, if negative, from the end, and fails outside the sequence. $len counts items or characters and fails for numbers. $list gives the list of its arguments, $islist tells lists from other values. $rfind gives the highest position of a text in a text, or -1.",
  "all texts, all lists of texts, numbers and lists, all positions", "all sequences and positions", [Y+"builtin"])
p("Letters and widths",
  "$lower, $upper, $swapcase and $capitalize of an ASCII text change its letters one by one and nothing else. $isdigit is 1 for a text of one digit or more and nothing else. $zfill puts zeros in front of a text that is too short, but behind its sign; $center puts blanks on both sides, as many on one side as on the other or one more, to the left if the width is odd, to the right if it is even; neither changes a text that is wide enough. $oct writes a number in base 8 so that it can be read again. $int_ of a number is the number, of a text the number it denotes in base 10.",
  "all ASCII texts (letters, digits), all texts and widths (padding), all whole numbers", "all texts, widths and numbers", [Y+"builtin"])
p("The tables of $dict",
  "($dict ID COLS BODY) of the standard library: behind the call cols-ID is the list of the numbers of the columns, each-ID that of the numbers of the rows, and every name in COLS is the list of the cells of its column, in the order of the rows; the call itself adds line ends and tabs to the text and nothing else. ($each-ID \\i.($i NAME)) gives the column NAME. If all rows have a cell for the column, item k of the column is the cell of row k; a row that is too short adds nothing, so that the cells of the rows below are found one position too early, without an error.",
  "all identifiers, all lists of different column names with any white space between them, all tables of names that stand for themselves, numbers, quoted texts and lists of these, with any number of rows and rows of any length, at any indent and in front of any text",
  "tables and names without bound", ["lib/stdlib.yu:dict", Y+"yueval"])
p("The dialogue and the status of the command",
  "Without files on the command line, the texts typed that end with the line test are translated, in their order, and the answer to each is printed; nothing after the line exit is read, and a text not followed by test is dropped. The command then returns zero, whatever became of the texts, and changes no file. With files, nothing is read from the user and four times the number of failing files is returned. A single argument @FILE stands for the words of that file (status 2 if it is not there). (The status is lost unless yup.py is run as a script: the installed command and python -m yupp end with zero although files fail; proved.)",
  "every sequence of lines, every command line, every outcome of the translations and state of the file system",
  "all dialogues", ["pp/yup.py:cli", "pp/yup.py:shell_input", "pp/yup.py:_pp_test", "pp/yup.py:_pp_text", "pp/yup.py:shell_parse_cli_arguments", "__main__.py:main"])
p("Options of the command line",
  "Of a switch or value given several times the last one counts; directories and constants are collected in their order; what is not given has its default, whatever commands the process has run before (except that --quiet and --no-read-only stay for later ones). Without files nothing is browsed. A configuration script that sets the same options gives an imported module the same configuration.",
  "every list of options, every earlier state of the process",
  "all lists of options, all histories", ["pp/yup.py:shell_parse_cli_arguments", "pp/yup.py:_pp_configure", "pp/yup.py:cli"])
p("translate of the package",
  "translate(file) of a file that is not there fails without a name. If the output is up to date (and translation not forced) nothing is done and its name is returned. Otherwise one pass is made: its text is left in the file the program has named, or in the one named after the source; if it fails, only the file for the tree is touched. (The name returned is that derived from the source even if the program has named another, and further passes the program asks for are not made; proved.)",
  "every program, option and state of the file system", "all programs and file systems", ["pp/yup.py:proc_file", "pp/yup.py:proc_stream"])
p("Skipping a module under a condition",
  "($skip-if C) of the library leaves out the rest of the module (up to its end, or the end of the source) if the condition counts as true, and otherwise writes nothing; ($skip-if-not C) the other way round. A number counts as true unless it is zero, as for the names set by $def and $undef. A name that was never defined counts as true as well, and so do the outcomes True and False of a Python comparison, since the condition is handed over as text: ($skip-if { 1 == 2 }) skips (proved).",
  "every condition whose text reads as an expression, every place in a line, rest of the source and state; with the two macros of the library file",
  "all conditions and programs", ["lib/stdlib.yu:skip-if", "lib/stdlib.yu:skip-if-not", Y+"yueval", Y+"BUILTIN"])
p("Defining a switch under a condition",
  "($def-if C NAME) of the library: if the condition counts as true, there is a line #define NAME in place of the call, and what follows finds NAME bound to 1; otherwise there is no such line and NAME is bound to 0. The line is preceded by a line end unless the call stands at the beginning of a line. A number counts as true unless it is zero; a name never defined, and True and False as outcomes of a Python comparison, count as true (proved).",
  "every condition whose text reads as an expression, every name, every place in a line, rest of the source and state; with the macro of the library file",
  "all conditions, names and programs", ["lib/stdlib.yu:def-if", Y+"yueval", Y+"yugen"])
p("A preprocessor directive from a template",
  "($define SIG BODY) of the library gives the text #define SIG BODY, both parts moved to the margin, with every line end of it preceded by blank and backslash: it is one logical line whatever the parts are, and without these marks it is exactly that text. The line end is a line break, or the value of EOL if the script has given it one that is not a bare name. One-line parts give #define SIG BODY on one line.",
  "all parts (names, numbers, texts, lists), all line ends, all states at the definition and at the call; with the definitions of the library file",
  "all texts and states", ["lib/stdlib.yu:define", "lib/stdlib.yu:__EOL__", Y+"yueval"])
p("A macro without forms in its text is a template",
  "A call of a macro whose text, with the arguments put in, holds neither ($ nor (` gives exactly this text, character for character, string literals, comments and line ends included, as a block at the indent of the call; an empty text gives nothing and is no item of the line. So ($do BODY) and ($foo BODY) of the library put the body between the lines do { and } while ( 0 ), or ({ and }).",
  "all macros, parameters, arguments, texts of admissible characters, places, texts behind the call and states; with the definitions of the library file",
  "all texts and states", ["lib/stdlib.yu:do", "lib/stdlib.yu:foo", Y+"yueval", Y+"yuparse"])
p("Evaluation leaves the scopes as it found them; every side effect has one cause",
  "Whatever is evaluated, afterwards there are the same scopes with the same names in the same order, and parameters that wait for a value still do. A variable has another value afterwards only if an ($emit ..) of this variable was carried out on the way; with no ($emit ..) at all the scopes are the same. The name of the output file changes only by ($set __OUTPUT_FILE__ ..); a text is registered, a file imported or a script loaded only by evaluating a text (($$ ..) or a macro).",
  "all trees, states, surroundings (Python functions included) and nestings",
  "all programs and states", [Y+"yueval", Y+"yueval EMIT", Y+"ENV"])
p("The parser accepts nothing but the grammar; an unclosed form is refused",
  "A program that is accepted is written according to the grammar, from its first character to its last: parentheses of forms are closed, names, numbers, literals and bodies of macros, quotes and comments are well formed, and a character is plain text only where no form, quote, literal or comment begins. The tree that is returned is that of the whole text. So a program whose first form is not closed is refused, with an error and after a number of steps that only depends on its length.",
  "all texts, files, surroundings and nestings",
  "all programs; tests show single programs that are refused", [Y+"yuparse", Y+"ps_text", Y+"ps_application", Y+"ps_list", Y+"ps_lambda", Y+"ps_import"])
p("A program without functions of its own always comes to an end",
  "A program made of texts, data, names, lists, applications of data and of built-in functions, conditionals, Python expressions, $set, $let, $emit, $skip and imports of such sources, nested in any way, in which what is assigned to a name does not use that name, is translated in finitely many steps if its Python code is: the result is a text or an error, never a remainder that could not be reduced. A single function that calls itself is enough to lose this: such a program has neither a result nor an error.",
  "all programs of that kind, all states and files",
  "termination for all programs; a test can only run programs that end", [Y+"yueval", Y+"yuparse", "pp/yup.py:_pp"])
p("In the editor, the command works on the tables written last, whatever was opened and closed before",
  "In a session with the editor plug-in, views are opened, closed and activated, carets are moved, \"Go to Origin\" is given and files are written again, in any order. Once the view of a generated file is activated, the tables used for it are those the translator wrote last; if they were read again, no jump noted for the old ones is left, neither in the file nor in its sources. A view can always be closed, and then nothing is known about its file. Loading the files the command leads to does not disturb its rounds (C66). If the raw text is kept beside the generated file, the command leads to the same character of it and back. Activating a view raises no exception as long as its file is known; a file that was generated itself is forgotten when a file made of it is closed.",
  "all sessions, all files and times",
  "histories of any length, changes of files between any two events", ["sublime_text/Data/Packages/yupp/yupp.py:open_file","sublime_text/Data/Packages/yupp/yupp.py:close_file","sublime_text/Data/Packages/yupp/yupp.py:yu_browse","sublime_text/Data/Packages/yupp/yupp.py:GotoOriginCommand"])
p("A program of several files is the program with the imported files written out",
  "A source text made of plain text, pieces of the grammar and imports is parsed, and its pieces are its own pieces and, in the place of each import, those of the imported file between two marks. An import by name brings the pieces of the library the first time and nothing later, also if a library imports itself or is imported by another one in between; an import of a file by its path brings them every time. What the translation reports is what this sequence of pieces comes to. If a module has nothing but plain text, comments and definitions, here and in what it imports, the marks can be left out: the definitions act as if they were written in the place of the import. Only white space makes a difference, where a fragment of plain text stands directly behind a mark.",
  "all source texts with imports, nested to any depth, all contents of the library files, all settings",
  "import graphs of any shape and texts of any length", [Y+"ps_import",Y+"_import_source",Y+"T"])
p("Importing the standard library makes its functions and macros available to the rest of the program",
  "A run of definitions, plain text and comments is dealt with from left to right: each definition opens a scope that lasts to the end of the text it is imported into, and the rest is generated with all these scopes open; or a definition raises and so does the program. If nothing is emitted meanwhile, a name defined there has behind it the value of its last definition, and every other name has the value it had before. The text of lib/stdlib.yu is read, in every mode, as definitions of its eighteen names; so a program that begins with the import of stdlib has these names in scope: $if and $unless choose between their texts, $BIN reads binary digits, $define writes one directive, the macros have their parameters and texts, and no other name is changed. Such a program never fails in the library, and the library adds nothing but line ends to what it generates.",
  "all modules of definitions, all programs behind the import, all settings and modes, all states in which the names were not changed since",
  "programs of any length behind the library and any number of definitions before it", [Y+"ps_import",Y+"SET",Y+"MACRO",Y+"ENV","lib/stdlib.yu"])
p("A counter never gives the same number twice",
  "Let a variable of some scope hold a whole number and be used, whatever is evaluated, by ($emit a inc) alone, where inc has its standard meaning. Each such $emit gives the number held and leaves the next one. So from the beginning to the end of any evaluation the variable does not go back; every number from the first value up to the last one, exclusive, is drawn on the way, and no other number is; a number drawn in one evaluation is not drawn in any later one. Variables with the same name in other scopes do not matter. This is what makes the labels of lib/coroutine.yu distinct.",
  "all syntax trees, all states, all scopes and names, all starting values, all evaluations that end",
  "evaluations of any depth with any number of draws in loops, macros and calls", [Y+"EMIT",Y+"ENV.update",Y+"builtin","lib/coroutine.yu"])
p("The meaning of a program depends on the values of its names only",
  "Whatever is evaluated, the scopes matter only through the values their names have: where every name has the same value, however the definitions are nested and whatever is hidden behind them, an expression is reduced to the same value or raises an exception there too, and a program generates the same text. Names that are not looked at do not matter at all, so an unused definition can be dropped or given another value. Two definitions of different names can be written in either order, if each gives the same before and behind the other one.",
  "all syntax trees, all states, all scopes and names, all programs",
  "every expression in every pair of scopes; programs of any size", [Y+"ENV.lookup",Y+"ENV.update",Y+"yueval",Y+"SET"])
p("The texts of the names take their places in a template",
  "A text with inserted names, such as `#define ($name)_H`, generates itself with the text of each name in the place of the name: the plain text, the literals and the comments of the target language stay as they are, a name without a value stands for itself, and a text of several lines becomes a block at the indent of its place. So does the text of a macro, the arguments put in the places of the parameters. For the macros of lib/h.yu: `extern`, `extern-c` and `inline` give the name of the header with their suffix, `var` and `var-c` the declaration in parentheses behind it, and `h-end` undefines all eight macros of the header and closes its condition.",
  "all templates (any number of pieces, of any lengths), all values of the names, all states, indents and arguments",
  "templates of any size with any texts in the places of the names", [Y+"yueval",Y+"ps_text",Y+"ps_macro","lib/h.yu"])
p("A header of lib/h.yu or lib/h-light.yu is guarded and its conditionals are balanced",
  "`($h-begin name)`, not in an indented line, gives the beginning of the header with the name in capital letters in all its places, and the name stays defined for what follows in the file, so that `($extern)`, `($var ...)` and `($h-end)` use the same name. The beginning tests and defines the guard `NAME_H`; it leaves just one conditional of the C preprocessor open, which `($h-end)` closes, so that the conditionals of the whole header are balanced if those between are. `($implement name)` defines `NAME_IMPLEMENT`. `($h-begin-named)` and `($implement-named)` do the same with the module name of the source file. The same holds for `($h-begin name)` and `($h-end)` of lib/h-light.yu, with its three macros.",
  "all names of headers, all states and arguments, all texts that follow, all depths of nesting",
  "names of any length, in any program; texts of any length in the header", [Y+"yueval",Y+"ps_macro","lib/h.yu","lib/h-light.yu"])
p("An import that cannot be satisfied fails the whole program",
  "If reading a program comes to an import of a library or a file that is found at none of the places, or of a Python script that cannot be loaded, the translation ends with an exception, whatever was read before and whatever follows. So it does if the import stands in a file that is imported, at any depth of nesting, before or behind imports that are satisfied. No text is given, not even for what comes before the import. The command run over such sources tries each of them once, counts each as a failure and leaves every file as it was.",
  "all programs of plain text, pieces of the grammar and imports, all depths of nesting of imports, all contents of the files",
  "files of any length that import one another at any depth", [Y+"ps_import",Y+"_import_source",Y+"_import_python",Y+"yuparse",Y+"ps_text",S+"_pp_file",S+"cli"])
p("The macros of the coroutine libraries use one context and one function per coroutine",
  "A macro with one parameter whose text is plain but for the places of the parameter gives, in any mode, its text with the text of the argument in every one of these places, as a block where it is called. So `($coro-context A)`, `($coro-context-init A)`, `($coro-declare A)` and `($coro-call A)` of lib/coroutine.yu, and `($coro A)`, `($coro-uninit A)` and `($coro-call A)` of lib/coroutine-py.yu, agree for every identifier: the context that is declared is initialised and passed in the call, and the function that is declared is called. Different coroutines never share a context or a function. The macros of lib/coroutine-h.yu with one parameter are calls of the macros of lib/coroutine.h with just the identifier given; `($coro-wait x)`, `($coro-wait-not x)` and `($coro-alive x)` of lib/coroutine-py.yu have the identifier in the place of the condition or the status. A macro with several parameters gives its text with each argument in the places of its own parameter: `($semaphore-init s v)` of lib/coroutine.yu is the assignment of `v` to `s`, that of lib/coroutine-h.yu the call of SEMAPHORE_INIT with `s` and `v`, for any name or number `v`. A macro without parameters whose text is plain gives this text: `($coro-yield)` and `($coro-quit)` of lib/coroutine-py.yu, `($coro-local)` of lib/coroutine-h.yu, `($coro-h)` and `($coro-local)` of lib/coroutine.yu; `($coro-h)` of lib/coroutine-h.yu includes coroutine.h. `($coro-init A)` of lib/coroutine-py.yu assigns to `A` just what `($coro A)` gives.",
  "all templates, all identifiers, all modes, all states and arguments, all texts that follow",
  "names of any length, in any program", [Y+"yueval",Y+"ps_macro","lib/coroutine.yu","lib/coroutine-h.yu","lib/coroutine-py.yu"])
p("A switch chooses the variant of a library, and without it there is a default",
  "lib/hlib.yu reads, in any mode, as a comment, the import of `h-light`, a line that decides, and the import of `h`; lib/corolib.yu as a comment, the import of `coroutine`, a line that decides, and the import of `coroutine-h`. In a program where `$isatom`, `$skip` and `$not` have their meaning: if the switch `hlib-light` is a number other than 0 when the line is reached, nothing behind the line in the module (with all that is imported there, at any depth) is in the result, and what follows the import comes next; if the switch is 0 or has no value, the result is that of the text behind the line. For `corolib-use-c-macro` it is the other way round. The state does not change. The same holds for any switch in these two lines, whatever its name and whatever stands behind them.",
  "all modes, all switch names that are not built in, all numbers, all states, all modules and whatever they import, all texts that follow",
  "the modules behind the line nest to any depth", [Y+"yueval",Y+"ps_import","lib/hlib.yu","lib/corolib.yu"])
p("The end of a header undefines the macros its beginning defines",
  "For every name in characters of C identifiers: the text of the beginning of a header of lib/h.yu or lib/h-light.yu has a line `#define X` exactly for the guard (the name with `_H`) and for the macros of that library (the name with their suffixes); the text of its end has a line `#undef X` exactly for the macros of that library. So of all macros that the text written by `($h-begin)` defines, the text written by `($h-end)` undefines all but the guard, and it undefines no other macro.",
  "all names of headers, all identifiers X, both libraries, all settings of trimming",
  "names of any length, every line of the texts", [Y+"yueval","lib/h.yu","lib/h-light.yu"])
p("A header may be included any number of times",
  "For every name in characters of C identifiers, every state of the C preprocessor in which the text is not skipped, and whatever the conditions `#ifdef __cplusplus`, `#ifdef NAME_IMPLEMENT` and `#if __GNUC__ ..` give: the text of the beginning of a header of lib/h.yu or lib/h-light.yu defines the guard and each macro of the header exactly once if the guard is not defined, and defines nothing and skips what follows if it is; the text of its end undefines the macros and closes the conditional. So behind a header the guard is defined, its macros are not, and the open conditionals are those before it; and a header that is included any number of times has the effect of one inclusion. This holds for what a program `($h-begin name)`, plain lines, `($h-end)` gives with either library, in every mode of trimming and browsing, outside of Python.",
  "all names of headers, all states of the preprocessor, all values of the conditions, all bodies with closed conditionals, all numbers of inclusions",
  "names of any length, any macros defined before, any number of inclusions and of conditionals around", [Y+"yueval","lib/h.yu","lib/h-light.yu"])
if __name__ == "__main__":
    out = os.path.join(os.path.dirname(os.path.dirname(os.path.abspath(__file__))), "properties.jsonl")
    with open(out, "w") as f:
        for x in P:
            f.write(json.dumps(x, ensure_ascii=False) + "\n")
    print(len(P))
