{
 "C05": {
  "note": "Stated against the cell specification in Spec/Provenance (each character labelled with its position)."
 },
 "C08": {
  "note": "World.loc models RESULT.loc; add_text mutating a shared RESULT is not modelled (see DESIGN)."
 },
 "C11": {
  "note": "Equality up to white space; C11_browse_changes_text and C11_browse_changes_final_text show that plain equality is false; exact equality for simple blocks."
 },
 "C34": {
  "note": "C34_ast_output_overwritten is the exception: output named *.ast."
 },
 "C36": {
  "note": "C36_table: every name is in the table of Spec/OutputName and its output is the one of the table. C36_collisions, C36_collisions_dir: exactly when two inputs share an output; C36_collision: it happens."
 },
 "C37": {
  "note": "Per translation. C37_two_passes_lose shows that with several passes over a source the output of the previous run is not kept. The .ast file is written without backup (see C34)."
 },
 "C38": {
  "note": "C38_success_written and C38_file: text written, or an operation of this run failed. C38_left_as: all states the output can be left in. C38_error_still_success: the exception does occur."
 },
 "C39": {
  "note": "For the value returned by cli. C39_exit_code_wraps: the exit code of the process keeps eight bits. `python -m yupp` (__main__.py) drops the value altogether."
 },
 "C40": {
  "note": "The link to the evaluator is passageBuiltin, the model of the $__PASSAGE__ branch of yueval."
 },
 "C49": {
  "note": "C49_output_file_names_input: the exception is a source that names its own file as output."
 },
 "C17": {
  "note": "The measure is the nesting of grammar rules and loop rounds, at most 2*length+2; the number of elementary steps is not counted."
 },
 "C18": {
  "note": "19 grammar rules. The loops over arguments, items and bounds only leave a rest of their text, as they may match nothing."
 },
 "C19": {
  "note": "C19_positions: every located fragment stands at its position; C19_placed: only empty quotes, C literals and `...` lack a position (the text of a macro, read as a whole, is not counted as a fragment). C19_same_name_clash: false if the input file and a quoted include share a base name."
 },
 "C22": {
  "note": "Stated for parses that end with a tree; an exception discards the parser state in the model. C22_cycles_terminate assumes imports by name only."
 },
 "C23": {
  "note": "The property says the termination claim is false: C23_quoted_cycle proves non-termination for every self-including file (in C mode), for every number of steps."
 },
 "C21": {
  "note": "The parsing part: where a body ends and what becomes of it, for every text; that a comment evaluates to nothing and a quote to its body is part of the evaluator."
 },
 "C48": {
  "note": "C48_hex_ll_fails: a hexadecimal literal with two l is recognised by the grammar but fails as well. C48_blanks: blanks in front of the literal are taken with it. C48_sign_apart_fails: blanks between sign and digits make the translation fail."
 },
 "C42": {
  "note": "False as stated (C42_equals_sign_differs). C42_agree_iff says exactly when the two shifts agree; C42_colon_first covers the documented form. The shift of the translating path is the one the parser leaves behind; the evaluator does not change it."
 },
 "C32": {
  "note": "Markers that arise from an argument are the exception (C32_arguments_are_substituted_again); the condition Unmarked says that none does."
 },
 "C33": {
  "note": "Positional arguments that are texts, numbers or the empty list; C33_order_matters_in_general is the refutation of the unconditional claim."
 },
 "C52": {
  "note": "C52_call_is_lost: false for two or more parameters; proved for none and one."
 },
 "C01": {
  "note": "Parse, evaluation and post-processing of every macro-free text, with and without browse; C01_never_changed covers all other modes; C01_output_file goes on to the file written; the negation of the unrestricted claim is C01_two_characters_are_changed."
 },
 "C45": {
  "note": "History independence is false: C45_second_call_is_empty; the first call and every sequence of calls are characterised for texts and whole numbers. What was added to the set before an exception is left out of the model."
 },
 "C46": {
  "note": "Escaping and decoding modelled in Base/Escape; \\N{...} and lone surrogates are not. If the quote is in the text, the outcome depends on Python's literal_eval (BExt.literal). C46_printable, C46_plain: what the quoted text looks like. C46_escapes: the escape sequences of a text between quotes, the octal ones among them, as $unq reads them; the sequences \\x, \\u and \\U are not in it."
 },
 "C47": {
  "note": "Lists of texts, whole numbers and lists of them; C47_rindex_text_wrong refutes the claim for rindex in texts."
 },
 "C53": {
  "note": "Refuted beyond ASCII by C53_other_texts_are_changed; C53_ascii_kept is the true part."
 },
 "C29": {
  "status": "partial",
  "note": "Proved in two ways. For a body made of data, names, lists, insertions, subscripts, strings with positional arguments, calls of built-in functions without side effects, conditionals none of whose legs fails, Python expressions and texts, of any size and depth: the whole application gives what substituting gives, for any number of parameters, positional and named arguments, defaults, ... parameters, stored functions and arguments given in steps. For every body at all (nested functions, $let, $set, macros, effects) and for late parameters: one parameter at a time, the application is the body evaluated in the frame of that argument (C29_last_parameter, C29_next_parameter, C29_one_by_one, C29_all_the_rest, and by name and by default). Missing: composing these single steps into one substitution for bodies with nested functions, $let, $set, $emit and macros. The rule is false in general: C29_fails_for_isatom, C29_fails_for_a_failing_leg, C29_fails_for_effects, C29_fails_for_captured_names."
 },
 "C20": {
  "note": "Spec/Syntax has the grammar, Spec/Print a printer. Floating point literals and imports are not among the expressions. What cannot be written is excluded by Expr.Ok and shown to be refused: C20_default_is_taken_for_name, C20_keyword_prefix, C20_own_name_ends, C20_no_nesting."
 },
 "C61": {
  "note": "The grammar of texts is in Spec/Syntax (Reads with .text and .run, PlainAt, EndsAt). Imports are left out; a text where one begins is not in the grammar. Literals in triple quotes or over several lines are those of C77."
 },
 "C62": {
  "note": "Spec/Reference says which places a fragment refers to. C62_every_character: every translation; characters with no known source (string literals outside Python, results of built-in functions, inserted indents) have none. C62_macro_free_text: no character is lost in a text without macros."
 },
 "C63": {
  "note": "Sound also says that every evaluated text has a known place of declaration; C63_after_a_translation: no declaration in the result or the scopes lacks one. If a library file or the input has a name made of digits, it is taken for the number of an evaluated text; excluded by Names."
 },
 "C64": {
  "note": "How many lines Python counts before the text of a decoder depends on the Python version and is a parameter (head) of the statement."
 },
 "C65": {
  "note": "Spec/Traceback.Runs: the runs are maximal and their concatenation is the stack."
 },
 "C51": {
  "note": "C51_when_it_fails: yutraceback3 has no print_exc, so in Python 3 reporting the error raises AttributeError."
 },
 "C66": {
  "note": "C66_first_fragment_wrong: in the first fragment the command leads to its beginning. The rule for relative shifts is in Spec.places. Assumed: the stops are different places in files other than the result."
 },
 "C67": {
  "note": "C67_double_extension_wrong: for a.c.yu the plug-in looks for a.yu-c."
 },
 "C68": {
  "note": "Known and HoldsFunction in Spec/Call. The Python functions are those of e.call; C45–C48, C53 say what the modelled ones return."
 },
 "C69": {
  "note": "C69_truth_values_stay: ($reduce lt (1 2)) gives True where ($lt 1 2) gives 1. C69_never_waits: an argument that is not known yet makes $reduce fail."
 },
 "C70": {
  "note": "Spec/Config: Sets, Appends, Setting say what a script does to an option. A script is any function on the options; scripts that raise are not modelled. C70_directory_of_the_source_not_read, C70_upper_case_no_effect: negations. The command line (argparse) is not modelled."
 },
 "C71": {
  "note": "C71_exactly: parseDefine accepts exactly the texts of Spec.Constant, for every text. C71_leaks: the negation for a process that imports several modules."
 },
 "C72": {
  "note": "places72, FirstFile in Spec/Config; os.path.isfile and open as in Model/Fs. C72_working_directory_first: a consequence users may not expect. The search for Python scripts (_import_python) is the same code and is not modelled beyond whether it succeeds."
 },
 "C73": {
  "note": "Model/Message models _loc (yugen.py:207-245). C73_exact: file, line number, line and pointer for every position in a line that is not empty, in a text whose only line separators are line feeds; C73_pointer: the pointer is below the character of the position. C73_chain, C73_never_fails: all places of the chain are told, and the chain ends, in every sound table; C73_after_a_translation: so after every translation (by C63). C73_empty_line and C73_form_feed are the exceptions, proved. Not modelled: at which position an error is raised; the text of a declaration shown as the name of a macro is a parameter."
 },
 "C74": {
  "note": "Model/Readable models _ast_pretty and make_ast_readable function by function; repr of a node stays a parameter. Wrapped, Broken, Textual in Spec/Readable. That this text is what the .ast file holds is C34_tree_saved (outcome .tree)."
 },
 "C75": {
  "note": "For the Python 3 table of built-ins (deprecated string functions redefined). Not modelled: maxsplit and maxreplace, start and end of find and count, an empty old text of replace, steps of getslice, other bases, underscores, non-ASCII digits and the digit limit of atoi. Pieces, Joined, Words, Stripped, SliceEnd, Between, Written in Spec/Texts."
 },
 "C76": {
  "note": "The definitions are given by the shape of their trees (Choice, Binary in Spec/Stdlib); C76_library: lines of lib/stdlib.yu, parsed on their own, have these shapes. Positional arguments only; more than three arguments of $if and conditions or legs that are not known yet are not covered. The other definitions of the library (unfold, define, BB, def-fn-argv, macros) are not."
 },
 "C77": {
  "note": "PyLiteral (Spec/PyString) is the lexical grammar of Python 2 string literals (and of the common ones of Python 3; b and f prefixes are read as plain text before the literal). C77_apostrophe and C77_apostrophe_fails are the exception: the code looks for an apostrophe anywhere in the first line to tell the two kinds of quotes apart (pp/yugen.py:2129)."
 },
 "C78": {
  "note": "Generates (Spec/Generate) is a big-step semantics of sequences of pieces in terms of the values of the pieces; C78_text, C78_unfinished and C78_fails show that it agrees with the evaluator exactly, C78_program that a translation reports it (for sources of the grammar of C61). What a block at an indent is (reindent) and how plain text in a text put in is moved (atIndent) are the subjects of C11 and C59."
 },
 "C79": {
  "note": "Header and Cleared (Spec/Magic) give what is left of the header; C79_first/C79_second relate them to the magic comments of C42, C79_program is a source with a header in terms of C78, C79_base/C79_gone the two documented forms. Falsehoods of the plain claim are proved as well: C79_capitals (yupp. in capitals: the comment is garbled), C79_wrong_one (an earlier yupp. is removed instead), C79_header_only (nothing behind the header: an exception), C79_line_doubled and C79_line_lost (read_header). That Python hands the codec what follows the line of the magic comment is an assumption about Python, visible in the statements as the text `data`."
 },
 "C80": {
  "note": "Job and Task (Spec/Command) say what a source comes to, NoClash that the sources do not get in each other's way. C80_source is one source with all its passes, C80_command the list; the translation may read any file the command does not write. C80_program derives Job from the texts the passes generate (C78) for every number of passes. The order of events under faults and crashes is the subject of C33-C41."
 },
 "C81": {
  "note": "Called, BareName, ModuleName, PythonName, Skips (Spec/Start) say what the names are. C81_file, C81_output_file, C81_set_told, C81_module, C81_title are about the value of the calls, C81_tells_target compares the name that is told with the file that is written (Chosen of C80; an empty name that is set is told but not used), C81_title_comment and C81_title_lines that a title is a comment. Capitals of letters outside ASCII are a parameter."
 },
 "C82": {
  "note": "Puts together C33 (what is put in), C61 (the grammar), C59 (texts as code) and C78 (the text a sequence of pieces generates): C82_macro, C82_without_parameters."
 },
 "C83": {
  "note": "defBody, undefBody (Spec/StdMacro) are the texts of the macros, C83_library shows that the lines of lib/stdlib.yu parse to them. C83_def, C83_undef: what is generated, for any continuation; C83_bound: the failure for names that are numbers."
 },
 "C84": {
  "note": "C84_bits, C84_invert give every bit of the result (bitOf, Spec/Bits) and that no other number has these bits; C84_conditions, C84_and_is_no_conjunction; C84_lshift, C84_rshift, C84_shift_negative."
 },
 "C85": {
  "note": "C85_* against Same, OccursAt (Spec/Builtin) and Counts (Spec/Sequence)."
 },
 "C86": {
  "note": "C86_* against the alphabets, EachChar and Fills (Spec/Sequence) and Written (Spec/Texts). The letters of other scripts are not modelled, and $zfill of a number is not (it pads the repr of the node)."
 },
 "C87": {
  "note": "C87_dict (the call, through parsing of the text it stands for), C87_each, C87_cell, C87_gap (the finding), C87_library (the text of the macro is that of the library file). Cells that hold forms or names bound elsewhere are not covered; the names of the cells must not be names of columns (the columns are open while the table is evaluated)."
 },
 "C88": {
  "note": "argparse and the translation of a text are parameters; the title, prompts and file names printed are not modelled."
 },
 "C89": {
  "note": "How argparse recognises the options in the words is a parameter."
 },
 "C90": {
  "note": "Without faults of the file system."
 },
 "C91": {
  "note": "The condition's text must not hold the mark ($cond); the condition must not change the state."
 },
 "C92": {
  "note": "The condition's text must not hold the marks ($cond) and ($name); the condition must not change the state; NAME is not unq, if or __OUTPUT_FILE__."
 },
 "C93": {
  "note": "join, split and unq are the built-in functions where $define is defined; there __EOL__ is a text, not empty."
 },
 "C94": {
  "note": "Not for Python sources and not when comments are scanned (in these modes an unfinished literal or comment is an error)."
 },
 "C95": {
  "note": "One known exception outside of the model (see DESIGN.md): an emitted closure shares its scope with the variable."
 },
 "C96": {
  "note": "The converse of C20 and C61. The grammar of what is accepted is looser than that of C20 in what may follow names and numbers; which nodes an import brings is left open (they are those of the library, to which the theorem applies again)."
 },
 "C97": {
  "note": "Python code is assumed to end and to return data for data. Applying `$lazy` and `$reduce` and macros are outside the fragment; deep nesting is assumed not to exhaust the stack of the interpreter (then an error is reported)."
 },
 "C98": {
  "note": "It is assumed that a generated file that has the time it had before has the tables it had before. Sessions in which an exception was raised are not continued in the model. C98_forgotten_wrong is the session in which activation raises KeyError."
 },
 "C99": {
  "note": "Imports of Python scripts, which add no pieces, are not among the parts of these texts, nor is a file that imports the input file by its path (this does not end). The white space exception of C99_inline is real: a mark ends the removal of white space behind a definition at the beginning of a line (see C78)."
 },
 "C100": {
  "note": "The statements about names need that no $emit is met while the module is entered; for the library at the start of a program C100_entered proves it. StdEnv says what the library takes for granted (built-in functions, three Python expressions). What the names $unfold, $BB and $def-fn-argv do is not stated."
 },
 "C101": {
  "note": "Drawn means that an $emit of the variable is evaluated while it holds that number; the other uses are excluded by an evaluator that gives up where it meets one."
 },
 "C102": {
  "note": "A name is looked at when a variable, the parameters of a function or $emit with that name, or a Python expression in which it occurs, is evaluated and no scope opened in the evaluation defines it."
 },
 "C103": {
  "note": "C103_text: a text with names generates its filling; C103_lines: with texts of one line the names are just replaced; C103_macro, C103_without_parameters: macro calls (text of two pieces or more: the text of a macro that is a single inserted name is that name, C82); C103_substitute: the arguments go to the places of the parameters; C103_library: the lines of lib/h.yu, parsed, are these macros."
 },
 "C104": {
  "note": "C104_h_begin, C104_implement: the calls; C104_h_begin_named, C104_implement_named: with the module name of C81; C104_guard: the guard; C104_balanced, C104_header: the conditionals; C104_then: a template in front of other pieces; C104_library, C104_library_named: the lines of lib/h.yu, parsed, are these macros. C104_h_begin is about C targets without skipping of comments. C104_light_begin, C104_light_end, C104_light_guard, C104_light_balanced, C104_light_library: the same for lib/h-light.yu."
 },
 "C105": {
  "note": "C105_parse: parsing raises; C105_program: the translation has this one result; C105_nowhere: with the places of C72; C105_command: the command over such sources, without faults of the file system. Imports of names by evaluation (`($import {...})`) are not covered."
 },
 "C106": {
  "note": "C106_template: any such macro; C106_ident: with an identifier; C106_coroutine: the calls; C106_distinct: different names; C106_library: the lines of the files, parsed, are these macros. C106_wrapper, C106_python, C106_other_libraries: the same for lib/coroutine-h.yu and for conditions in lib/coroutine-py.yu. C106_templates: macros with any number of parameters; C106_semaphore, C106_semaphore_libraries: `semaphore-init`. C106_constant, C106_constants, C106_declarations, C106_include, C106_include_library: macros without parameters, and `coro-alive`. C106_coro_init, C106_coro_init_library: `coro-init` of lib/coroutine-py.yu, which calls `coro`. `coro-define` and the macros of C with labels (`coro-yield`, `coro-wait`, ...) are not covered; that the numbers of labels differ is C101."
 },
 "C107": {
  "note": "C107_hlib, C107_corolib: how the files read (`Source` of C99); C107_skip_on, C107_skip_off: what the line that decides comes to; C107_module_on, C107_module_off: what is left of the module. What the two variants define is the subject of C103, C104 and C106 as far as covered."
 },
 "C108": {
  "note": "C108_defined, C108_undefined: exactly these lines; C108_clean: what follows for a header. That the macros write these texts is C103_h_end, C104_h_begin, C104_light_begin and C104_light_end. `Directive` is about lines of the text; comments and continued lines of C are not analysed."
 },
 "C109": {
  "note": "C109_begin, C109_end: the parts; C109_first, C109_skipped, C109_again: the whole header; C109_plain: bodies without directives meet the hypotheses; C109_written: trimming does not matter. C109_program, C109_program_light, C109_output: the text that a program with plain lines in the header gives. The preprocessor is the small specification Spec/Cpp: conditionals, `#define`, `#undef`; no `#elif`, no comments, continued lines are lines like others. That the macros write these texts is C103_h_end, C104_h_begin, C104_light_begin and C104_light_end."
 },
 "C02": {
  "note": "C02_white_space, C02_line_ends: the white space and the line ends, listed character by character."
 }
}
