{
 "claims": [
  {
   "property": "C01",
   "status": "proved",
   "theorems": [
    "Yupp.C01_passed_through",
    "Yupp.C01_identity",
    "Yupp.C01_never_changed",
    "Yupp.C01_other_characters_are_refused",
    "Yupp.C01_two_characters_are_changed",
    "Yupp.C01_output_file"
   ],
   "note": "Parse, evaluation and post-processing of every macro-free text, with and without browse; C01_never_changed covers all other modes; C01_output_file goes on to the file written; the negation of the unrestricted claim is C01_two_characters_are_changed."
  },
  {
   "property": "C02",
   "status": "proved",
   "theorems": [
    "Yupp.C02_reduce_exact",
    "Yupp.C02_reduced_form",
    "Yupp.C02_reduce_off",
    "Yupp.C02_empty_text",
    "Yupp.C02_white_space",
    "Yupp.C02_line_ends"
   ],
   "note": "C02_white_space, C02_line_ends: the white space and the line ends, listed character by character."
  },
  {
   "property": "C03",
   "status": "proved",
   "theorems": [
    "Yupp.C03_reduce_idempotent"
   ],
   "note": ""
  },
  {
   "property": "C04",
   "status": "proved",
   "theorems": [
    "Yupp.C04_browse_reduce_exact",
    "Yupp.C04_lines_cover"
   ],
   "note": ""
  },
  {
   "property": "C05",
   "status": "proved",
   "theorems": [
    "Yupp.C05_browse_reduce_offsets",
    "Yupp.C05_all_labelled"
   ],
   "note": "Stated against the cell specification in Spec/Provenance (each character labelled with its position)."
  },
  {
   "property": "C06",
   "status": "proved",
   "theorems": [
    "Yupp.C06_merge_is_composition",
    "Yupp.C06_merge_ascending",
    "Yupp.C06_trim_tables",
    "Yupp.C06_reduce_tables"
   ],
   "note": ""
  },
  {
   "property": "C07",
   "status": "proved",
   "theorems": [
    "Yupp.C07_bisect"
   ],
   "note": ""
  },
  {
   "property": "C08",
   "status": "proved",
   "theorems": [
    "Yupp.C08_provenance"
   ],
   "note": "World.loc models RESULT.loc; add_text mutating a shared RESULT is not modelled (see DESIGN)."
  },
  {
   "property": "C09",
   "status": "proved",
   "theorems": [
    "Yupp.C09_trim_exact",
    "Yupp.C09_trim_off"
   ],
   "note": ""
  },
  {
   "property": "C10",
   "status": "proved",
   "theorems": [
    "Yupp.C10_trim_browse_text",
    "Yupp.C10_trim_browse_prefix",
    "Yupp.C10_order_dependent",
    "Yupp.C10_trim_browse_offsets"
   ],
   "note": ""
  },
  {
   "property": "C11",
   "status": "proved",
   "theorems": [
    "Yupp.C11_browse_changes_text",
    "Yupp.C11_browse_changes_final_text",
    "Yupp.C11_same_text_simple_blocks",
    "Yupp.C11_white_space_only",
    "Yupp.C11_while_evaluating",
    "Yupp.C11_final_text"
   ],
   "note": "Equality up to white space; C11_browse_changes_text and C11_browse_changes_final_text show that plain equality is false; exact equality for simple blocks."
  },
  {
   "property": "C12",
   "status": "proved",
   "theorems": [
    "Yupp.C12_unify_eol",
    "Yupp.C12_no_cr",
    "Yupp.C12_no_cr_id",
    "Yupp.C12_idempotent",
    "Yupp.C12_other_chars"
   ],
   "note": ""
  },
  {
   "property": "C13",
   "status": "proved",
   "theorems": [
    "Yupp.C13_steady",
    "Yupp.C13_length",
    "Yupp.C13_id",
    "Yupp.C13_tables"
   ],
   "note": ""
  },
  {
   "property": "C14",
   "status": "proved",
   "theorems": [
    "Yupp.C14_innermost",
    "Yupp.C14_unbound",
    "Yupp.C14_hiding",
    "Yupp.C14_abstraction"
   ],
   "note": ""
  },
  {
   "property": "C15",
   "status": "proved",
   "theorems": [
    "Yupp.C15_update",
    "Yupp.C15_update_lookup",
    "Yupp.C15_abstraction"
   ],
   "note": ""
  },
  {
   "property": "C16",
   "status": "proved",
   "theorems": [
    "Yupp.C16_order_of_last_assignment",
    "Yupp.C16_unassigned",
    "Yupp.C16_all_assigned",
    "Yupp.C16_abstraction"
   ],
   "note": ""
  },
  {
   "property": "C17",
   "status": "proved",
   "theorems": [
    "Yupp.C17_parse_terminates",
    "Yupp.C17_form_terminates",
    "Yupp.C17_text_terminates"
   ],
   "note": "The measure is the nesting of grammar rules and loop rounds, at most 2*length+2; the number of elementary steps is not counted."
  },
  {
   "property": "C18",
   "status": "proved",
   "theorems": [
    "Yupp.C18_rules_consume",
    "Yupp.C18_text_consumes"
   ],
   "note": "19 grammar rules. The loops over arguments, items and bounds only leave a rest of their text, as they may match nothing."
  },
  {
   "property": "C19",
   "status": "proved",
   "theorems": [
    "Yupp.C19_positions",
    "Yupp.C19_placed",
    "Yupp.C19_start",
    "Yupp.C19_same_name_clash"
   ],
   "note": "C19_positions: every located fragment stands at its position; C19_placed: only empty quotes, C literals and `...` lack a position (the text of a macro, read as a whole, is not counted as a fragment). C19_same_name_clash: false if the input file and a quoted include share a base name."
  },
  {
   "property": "C20",
   "status": "proved",
   "theorems": [
    "Yupp.C20_reading",
    "Yupp.C20_print_parse",
    "Yupp.C20_print_parse_end",
    "Yupp.C20_unambiguous",
    "Yupp.C20_print_injective",
    "Yupp.C20_in_text",
    "Yupp.C20_program",
    "Yupp.C20_program_print",
    "Yupp.C20_default_is_taken_for_name",
    "Yupp.C20_keyword_prefix",
    "Yupp.C20_own_name_ends",
    "Yupp.C20_no_nesting"
   ],
   "note": "Spec/Syntax has the grammar, Spec/Print a printer. Floating point literals and imports are not among the expressions. What cannot be written is excluded by Expr.Ok and shown to be refused: C20_default_is_taken_for_name, C20_keyword_prefix, C20_own_name_ends, C20_no_nesting."
  },
  {
   "property": "C21",
   "status": "proved",
   "theorems": [
    "Yupp.C21_quote",
    "Yupp.C21_quote_form",
    "Yupp.C21_quote_unclosed",
    "Yupp.C21_comment",
    "Yupp.C21_comment_unclosed",
    "Yupp.C21_macro",
    "Yupp.C21_macro_unclosed"
   ],
   "note": "The parsing part: where a body ends and what becomes of it, for every text; that a comment evaluates to nothing and a quote to its body is part of the evaluator."
  },
  {
   "property": "C22",
   "status": "proved",
   "theorems": [
    "Yupp.C22_read_once",
    "Yupp.C22_cycles_terminate"
   ],
   "note": "Stated for parses that end with a tree; an exception discards the parser state in the model. C22_cycles_terminate assumes imports by name only."
  },
  {
   "property": "C23",
   "status": "proved",
   "theorems": [
    "Yupp.C23_quoted_cycle"
   ],
   "note": "The property says the termination claim is false: C23_quoted_cycle proves non-termination for every self-including file (in C mode), for every number of steps."
  },
  {
   "property": "C24",
   "status": "proved",
   "theorems": [
    "Yupp.C24_values_are_fixed_points",
    "Yupp.C24_evaluating_twice"
   ],
   "note": ""
  },
  {
   "property": "C25",
   "status": "proved",
   "theorems": [
    "Yupp.C25_true_leg",
    "Yupp.C25_false_leg",
    "Yupp.C25_no_alternative",
    "Yupp.C25_condition_fails",
    "Yupp.C25_undecided"
   ],
   "note": ""
  },
  {
   "property": "C26",
   "status": "proved",
   "theorems": [
    "Yupp.C26_list_application_is_map",
    "Yupp.C26_no_named_argument"
   ],
   "note": ""
  },
  {
   "property": "C27",
   "status": "proved",
   "theorems": [
    "Yupp.C27_subscript",
    "Yupp.C27_no_arguments"
   ],
   "note": ""
  },
  {
   "property": "C28",
   "status": "proved",
   "theorems": [
    "Yupp.C28_nothing_leaks",
    "Yupp.C28_set_scope",
    "Yupp.C28_let_scope",
    "Yupp.C28_innermost"
   ],
   "note": ""
  },
  {
   "property": "C29",
   "status": "partial",
   "theorems": [
    "Yupp.C29_last_parameter",
    "Yupp.C29_all_the_rest",
    "Yupp.C29_last_by_name",
    "Yupp.C29_last_by_default",
    "Yupp.C29_next_parameter",
    "Yupp.C29_next_by_name",
    "Yupp.C29_one_by_one",
    "Yupp.C29_fails_for_captured_names",
    "Yupp.C29_application_partial",
    "Yupp.C29_beta_partial",
    "Yupp.C29_stored_function_partial",
    "Yupp.C29_named_in_any_order_partial",
    "Yupp.C29_in_steps_partial",
    "Yupp.C29_too_few_partial",
    "Yupp.C29_unknown_name",
    "Yupp.C29_fails_for_isatom",
    "Yupp.C29_fails_for_a_failing_leg",
    "Yupp.C29_fails_for_effects"
   ],
   "note": "Proved in two ways. For a body made of data, names, lists, insertions, subscripts, strings with positional arguments, calls of built-in functions without side effects, conditionals none of whose legs fails, Python expressions and texts, of any size and depth: the whole application gives what substituting gives, for any number of parameters, positional and named arguments, defaults, ... parameters, stored functions and arguments given in steps. For every body at all (nested functions, $let, $set, macros, effects) and for late parameters: one parameter at a time, the application is the body evaluated in the frame of that argument (C29_last_parameter, C29_next_parameter, C29_one_by_one, C29_all_the_rest, and by name and by default). Missing: composing these single steps into one substitution for bodies with nested functions, $let, $set, $emit and macros. The rule is false in general: C29_fails_for_isatom, C29_fails_for_a_failing_leg, C29_fails_for_effects, C29_fails_for_captured_names."
  },
  {
   "property": "C30",
   "status": "proved",
   "theorems": [
    "Yupp.C30_rest_of_module",
    "Yupp.C30_rest_of_file",
    "Yupp.C30_skip_form"
   ],
   "note": ""
  },
  {
   "property": "C31",
   "status": "proved",
   "theorems": [
    "Yupp.C31_unbound_name",
    "Yupp.C31_hyphenated_name",
    "Yupp.C31_unbound_with_arguments"
   ],
   "note": ""
  },
  {
   "property": "C32",
   "status": "proved",
   "theorems": [
    "Yupp.C32_no_arguments",
    "Yupp.C32_markers_are_replaced",
    "Yupp.C32_without_markers",
    "Yupp.C32_arguments_are_substituted_again"
   ],
   "note": "Markers that arise from an argument are the exception (C32_arguments_are_substituted_again); the condition Unmarked says that none does."
  },
  {
   "property": "C33",
   "status": "proved",
   "theorems": [
    "Yupp.C33_definition",
    "Yupp.C33_expansion",
    "Yupp.C33_without_parameters",
    "Yupp.C33_order_of_parameters",
    "Yupp.C33_order_matters_in_general"
   ],
   "note": "Positional arguments that are texts, numbers or the empty list; C33_order_matters_in_general is the refutation of the unconditional claim."
  },
  {
   "property": "C34",
   "status": "proved",
   "theorems": [
    "Yupp.C34_success_is_text",
    "Yupp.C34_failure_keeps_output",
    "Yupp.C34_tree_saved",
    "Yupp.C34_ast_output_overwritten"
   ],
   "note": "C34_ast_output_overwritten is the exception: output named *.ast."
  },
  {
   "property": "C35",
   "status": "proved",
   "theorems": [
    "Yupp.C35_other_name"
   ],
   "note": ""
  },
  {
   "property": "C36",
   "status": "proved",
   "theorems": [
    "Yupp.C36_table",
    "Yupp.C36_collisions",
    "Yupp.C36_collisions_dir",
    "Yupp.C36_collision",
    "Yupp.C36_names"
   ],
   "note": "C36_table: every name is in the table of Spec/OutputName and its output is the one of the table. C36_collisions, C36_collisions_dir: exactly when two inputs share an output; C36_collision: it happens."
  },
  {
   "property": "C37",
   "status": "proved",
   "theorems": [
    "Yupp.C37_crash_safe",
    "Yupp.C37_crash_safe_file",
    "Yupp.C37_two_passes_lose"
   ],
   "note": "Per translation. C37_two_passes_lose shows that with several passes over a source the output of the previous run is not kept. The .ast file is written without backup (see C34)."
  },
  {
   "property": "C38",
   "status": "proved",
   "theorems": [
    "Yupp.C38_error_still_success",
    "Yupp.C38_success_written",
    "Yupp.C38_left_as",
    "Yupp.C38_file"
   ],
   "note": "C38_success_written and C38_file: text written, or an operation of this run failed. C38_left_as: all states the output can be left in. C38_error_still_success: the exception does occur."
  },
  {
   "property": "C39",
   "status": "proved",
   "theorems": [
    "Yupp.C39_status",
    "Yupp.C39_exit_code_wraps",
    "Yupp.C39_exit_code"
   ],
   "note": "For the value returned by cli. C39_exit_code_wraps: the exit code of the process keeps eight bits. `python -m yupp` (__main__.py) drops the value altogether."
  },
  {
   "property": "C40",
   "status": "proved",
   "theorems": [
    "Yupp.C40_form",
    "Yupp.C40_files",
    "Yupp.C40_text",
    "Yupp.C40_passes",
    "Yupp.C40_item",
    "Yupp.C40_stops_at_failure"
   ],
   "note": "The link to the evaluator is passageBuiltin, the model of the $__PASSAGE__ branch of yueval."
  },
  {
   "property": "C41",
   "status": "proved",
   "theorems": [
    "Yupp.C41_translates",
    "Yupp.C41_skips"
   ],
   "note": ""
  },
  {
   "property": "C42",
   "status": "proved",
   "theorems": [
    "Yupp.C42_translating",
    "Yupp.C42_skipping",
    "Yupp.C42_agree_iff",
    "Yupp.C42_colon_first",
    "Yupp.C42_equals_sign_differs"
   ],
   "note": "False as stated (C42_equals_sign_differs). C42_agree_iff says exactly when the two shifts agree; C42_colon_first covers the documented form. The shift of the translating path is the one the parser leaves behind; the evaluator does not change it."
  },
  {
   "property": "C43",
   "status": "proved",
   "theorems": [
    "Yupp.C43_lookup"
   ],
   "note": ""
  },
  {
   "property": "C44",
   "status": "proved",
   "theorems": [
    "Yupp.C44_chunking",
    "Yupp.C44_no_bytes",
    "Yupp.C44_chunking_irrelevant"
   ],
   "note": ""
  },
  {
   "property": "C45",
   "status": "proved",
   "theorems": [
    "Yupp.C45_second_call_is_empty",
    "Yupp.C45_one_call",
    "Yupp.C45_text",
    "Yupp.C45_lists_fail",
    "Yupp.C45_first_call",
    "Yupp.C45_every_history"
   ],
   "note": "History independence is false: C45_second_call_is_empty; the first call and every sequence of calls are characterised for texts and whole numbers. What was added to the set before an exception is left out of the model."
  },
  {
   "property": "C46",
   "status": "proved",
   "theorems": [
    "Yupp.C46_unquote_quote",
    "Yupp.C46_quote_inside",
    "Yupp.C46_escapes",
    "Yupp.C46_printable",
    "Yupp.C46_plain"
   ],
   "note": "Escaping and decoding modelled in Base/Escape; \\N{...} and lone surrogates are not. If the quote is in the text, the outcome depends on Python's literal_eval (BExt.literal). C46_printable, C46_plain: what the quoted text looks like. C46_escapes: the escape sequences of a text between quotes, the octal ones among them, as $unq reads them; the sequences \\x, \\u and \\U are not in it."
  },
  {
   "property": "C47",
   "status": "proved",
   "theorems": [
    "Yupp.C47_index",
    "Yupp.C47_rindex",
    "Yupp.C47_index_text",
    "Yupp.C47_rindex_text_wrong",
    "Yupp.C47_car_cdr",
    "Yupp.C47_car_cdr_text",
    "Yupp.C47_reversed",
    "Yupp.C47_reversed_twice",
    "Yupp.C47_range",
    "Yupp.C47_range_zero",
    "Yupp.C47_range_short"
   ],
   "note": "Lists of texts, whole numbers and lists of them; C47_rindex_text_wrong refutes the claim for rindex in texts."
  },
  {
   "property": "C48",
   "status": "proved",
   "theorems": [
    "Yupp.C48_value",
    "Yupp.C48_blanks",
    "Yupp.C48_sign_apart_fails",
    "Yupp.C48_c_octal_fails",
    "Yupp.C48_hex_ll_fails"
   ],
   "note": "C48_hex_ll_fails: a hexadecimal literal with two l is recognised by the grammar but fails as well. C48_blanks: blanks in front of the literal are taken with it. C48_sign_apart_fails: blanks between sign and digits make the translation fail."
  },
  {
   "property": "C49",
   "status": "proved",
   "theorems": [
    "Yupp.C49_only_own_files",
    "Yupp.C49_input_untouched",
    "Yupp.C49_output_file_names_input"
   ],
   "note": "C49_output_file_names_input: the exception is a source that names its own file as output."
  },
  {
   "property": "C50",
   "status": "proved",
   "theorems": [
    "Yupp.C50_second_run_same"
   ],
   "note": ""
  },
  {
   "property": "C51",
   "status": "proved",
   "theorems": [
    "Yupp.C51_only_valid_code",
    "Yupp.C51_when_it_fails"
   ],
   "note": "C51_when_it_fails: yutraceback3 has no print_exc, so in Python 3 reporting the error raises AttributeError."
  },
  {
   "property": "C52",
   "status": "proved",
   "theorems": [
    "Yupp.C52_records_only_grow",
    "Yupp.C52_expansion_is_recorded",
    "Yupp.C52_expansion_without_parameters",
    "Yupp.C52_call_is_lost"
   ],
   "note": "C52_call_is_lost: false for two or more parameters; proved for none and one."
  },
  {
   "property": "C53",
   "status": "proved",
   "theorems": [
    "Yupp.C53_texts",
    "Yupp.C53_numbers",
    "Yupp.C53_ascii_kept",
    "Yupp.C53_other_texts_are_changed"
   ],
   "note": "Refuted beyond ASCII by C53_other_texts_are_changed; C53_ascii_kept is the true part."
  },
  {
   "property": "C54",
   "status": "proved",
   "theorems": [
    "Yupp.C54_arithmetic",
    "Yupp.C54_division",
    "Yupp.C54_division_by_zero",
    "Yupp.C54_unary",
    "Yupp.C54_comparison",
    "Yupp.C54_cmp",
    "Yupp.C54_abs",
    "Yupp.C54_pos",
    "Yupp.C54_equality",
    "Yupp.C54_not",
    "Yupp.C54_truth"
   ],
   "note": ""
  },
  {
   "property": "C55",
   "status": "proved",
   "theorems": [
    "Yupp.C55_emit_list",
    "Yupp.C55_emit_value",
    "Yupp.C55_emit_function",
    "Yupp.C55_unknown_variable"
   ],
   "note": ""
  },
  {
   "property": "C56",
   "status": "proved",
   "theorems": [
    "Yupp.C56_isatom",
    "Yupp.C56_lazy_applied",
    "Yupp.C56_lazy"
   ],
   "note": ""
  },
  {
   "property": "C57",
   "status": "proved",
   "theorems": [
    "Yupp.C57_parameters_from_a_list",
    "Yupp.C57_otherwise_an_error"
   ],
   "note": ""
  },
  {
   "property": "C58",
   "status": "proved",
   "theorems": [
    "Yupp.C58_output_file",
    "Yupp.C58_written"
   ],
   "note": ""
  },
  {
   "property": "C59",
   "status": "proved",
   "theorems": [
    "Yupp.C59_one_form",
    "Yupp.C59_text",
    "Yupp.C59_definitions",
    "Yupp.C59_definitions_indented"
   ],
   "note": ""
  },
  {
   "property": "C60",
   "status": "proved",
   "theorems": [
    "Yupp.C60_list",
    "Yupp.C60_embedded",
    "Yupp.C60_failing_item"
   ],
   "note": ""
  },
  {
   "property": "C61",
   "status": "proved",
   "theorems": [
    "Yupp.C61_reading",
    "Yupp.C61_unambiguous",
    "Yupp.C61_file",
    "Yupp.C61_print_parse",
    "Yupp.C61_print_injective"
   ],
   "note": "The grammar of texts is in Spec/Syntax (Reads with .text and .run, PlainAt, EndsAt). Imports are left out; a text where one begins is not in the grammar. Literals in triple quotes or over several lines are those of C77."
  },
  {
   "property": "C62",
   "status": "proved",
   "theorems": [
    "Yupp.C62_every_character",
    "Yupp.C62_in_a_file",
    "Yupp.C62_macro_free_text"
   ],
   "note": "Spec/Reference says which places a fragment refers to. C62_every_character: every translation; characters with no known source (string literals outside Python, results of built-in functions, inserted indents) have none. C62_macro_free_text: no character is lost in a text without macros."
  },
  {
   "property": "C63",
   "status": "proved",
   "theorems": [
    "Yupp.C63_after_a_translation",
    "Yupp.C63_while_evaluating"
   ],
   "note": "Sound also says that every evaluated text has a known place of declaration; C63_after_a_translation: no declaration in the result or the scopes lacks one. If a library file or the input has a name made of digits, it is taken for the number of an evaluated text; excluded by Names."
  },
  {
   "property": "C64",
   "status": "proved",
   "theorems": [
    "Yupp.C64_python2",
    "Yupp.C64_python2_other",
    "Yupp.C64_python3_iff",
    "Yupp.C64_python3_other_wrong",
    "Yupp.C64_positive",
    "Yupp.C64_distance",
    "Yupp.C64_registration",
    "Yupp.C64_registration3",
    "Yupp.C64_relative_name_wrong",
    "Yupp.C64_codec_registers",
    "Yupp.C64_limit2",
    "Yupp.C64_limit3"
   ],
   "note": "How many lines Python counts before the text of a decoder depends on the Python version and is a parameter (head) of the statement."
  },
  {
   "property": "C65",
   "status": "proved",
   "theorems": [
    "Yupp.C65_format",
    "Yupp.C65_no_recursion",
    "Yupp.C65_recursion"
   ],
   "note": "Spec/Traceback.Runs: the runs are maximal and their concatenation is the stack."
  },
  {
   "property": "C66",
   "status": "proved",
   "theorems": [
    "Yupp.C66_round",
    "Yupp.C66_single",
    "Yupp.C66_tables",
    "Yupp.C66_to_the_character",
    "Yupp.C66_find",
    "Yupp.C66_first_fragment_wrong"
   ],
   "note": "C66_first_fragment_wrong: in the first fragment the command leads to its beginning. The rule for relative shifts is in Spec.places. Assumed: the stops are different places in files other than the result."
  },
  {
   "property": "C67",
   "status": "proved",
   "theorems": [
    "Yupp.C67_source_name",
    "Yupp.C67_to_the_source",
    "Yupp.C67_double_extension_wrong"
   ],
   "note": "C67_double_extension_wrong: for a.c.yu the plug-in looks for a.yu-c."
  },
  {
   "property": "C68",
   "status": "proved",
   "theorems": [
    "Yupp.C68_known",
    "Yupp.C68_raises",
    "Yupp.C68_waits",
    "Yupp.C68_function_fails",
    "Yupp.C68_constant",
    "Yupp.C68_constant_no_arguments",
    "Yupp.C68_named_fails"
   ],
   "note": "Known and HoldsFunction in Spec/Call. The Python functions are those of e.call; C45\u2013C48, C53 say what the modelled ones return."
  },
  {
   "property": "C69",
   "status": "proved",
   "theorems": [
    "Yupp.C69_left",
    "Yupp.C69_left_from",
    "Yupp.C69_sum",
    "Yupp.C69_empty_fails",
    "Yupp.C69_truth_values_stay",
    "Yupp.C69_never_waits"
   ],
   "note": "C69_truth_values_stay: ($reduce lt (1 2)) gives True where ($lt 1 2) gives 1. C69_never_waits: an argument that is not known yet makes $reduce fail."
  },
  {
   "property": "C70",
   "status": "proved",
   "theorems": [
    "Yupp.C70_switches",
    "Yupp.C70_comments",
    "Yupp.C70_names",
    "Yupp.C70_switch_names",
    "Yupp.C70_lists",
    "Yupp.C70_force",
    "Yupp.C70_no_history",
    "Yupp.C70_two_scripts",
    "Yupp.C70_directory_of_the_source_not_read",
    "Yupp.C70_upper_case_no_effect"
   ],
   "note": "Spec/Config: Sets, Appends, Setting say what a script does to an option. A script is any function on the options; scripts that raise are not modelled. C70_directory_of_the_source_not_read, C70_upper_case_no_effect: negations. The command line (argparse) is not modelled."
  },
  {
   "property": "C71",
   "status": "proved",
   "theorems": [
    "Yupp.C71_exactly",
    "Yupp.C71_others",
    "Yupp.C71_last",
    "Yupp.C71_value",
    "Yupp.C71_again",
    "Yupp.C71_leaks",
    "Yupp.C71_table",
    "Yupp.C71_scripts_stay"
   ],
   "note": "C71_exactly: parseDefine accepts exactly the texts of Spec.Constant, for every text. C71_leaks: the negation for a process that imports several modules."
  },
  {
   "property": "C72",
   "status": "proved",
   "theorems": [
    "Yupp.C72_first",
    "Yupp.C72_missing",
    "Yupp.C72_beside",
    "Yupp.C72_beside_here",
    "Yupp.C72_absolute",
    "Yupp.C72_working_directory_first",
    "Yupp.C72_parsed",
    "Yupp.C72_no_error"
   ],
   "note": "places72, FirstFile in Spec/Config; os.path.isfile and open as in Model/Fs. C72_working_directory_first: a consequence users may not expect. The search for Python scripts (_import_python) is the same code and is not modelled beyond whether it succeeds."
  },
  {
   "property": "C73",
   "status": "proved",
   "theorems": [
    "Yupp.C73_exact",
    "Yupp.C73_pointer",
    "Yupp.C73_exists",
    "Yupp.C73_empty_line",
    "Yupp.C73_form_feed",
    "Yupp.C73_chain",
    "Yupp.C73_never_fails",
    "Yupp.C73_after_a_translation"
   ],
   "note": "Model/Message models _loc (yugen.py:207-245). C73_exact: file, line number, line and pointer for every position in a line that is not empty, in a text whose only line separators are line feeds; C73_pointer: the pointer is below the character of the position. C73_chain, C73_never_fails: all places of the chain are told, and the chain ends, in every sound table; C73_after_a_translation: so after every translation (by C63). C73_empty_line and C73_form_feed are the exceptions, proved. Not modelled: at which position an error is raised; the text of a declaration shown as the name of a macro is a parameter."
  },
  {
   "property": "C74",
   "status": "proved",
   "theorems": [
    "Yupp.C74_nothing_lost",
    "Yupp.C74_indented",
    "Yupp.C74_text_as_generated",
    "Yupp.C74_in_place",
    "Yupp.C74_none"
   ],
   "note": "Model/Readable models _ast_pretty and make_ast_readable function by function; repr of a node stays a parameter. Wrapped, Broken, Textual in Spec/Readable. That this text is what the .ast file holds is C34_tree_saved (outcome .tree)."
  },
  {
   "property": "C75",
   "status": "proved",
   "theorems": [
    "Yupp.C75_split",
    "Yupp.C75_split_empty",
    "Yupp.C75_words",
    "Yupp.C75_join",
    "Yupp.C75_join_blank",
    "Yupp.C75_join_split",
    "Yupp.C75_replace",
    "Yupp.C75_find",
    "Yupp.C75_count",
    "Yupp.C75_count_empty",
    "Yupp.C75_strip",
    "Yupp.C75_strip_characters",
    "Yupp.C75_getslice",
    "Yupp.C75_getslice_text",
    "Yupp.C75_getslice_one",
    "Yupp.C75_just",
    "Yupp.C75_just_blank",
    "Yupp.C75_just_fails",
    "Yupp.C75_sum",
    "Yupp.C75_atoi",
    "Yupp.C75_atoi_fails",
    "Yupp.C75_atoi_ten",
    "Yupp.C75_hex",
    "Yupp.C75_chr_ord",
    "Yupp.C75_ord_of_a_literal",
    "Yupp.C75_str",
    "Yupp.C75_strlen"
   ],
   "note": "For the Python 3 table of built-ins (deprecated string functions redefined). Not modelled: maxsplit and maxreplace, start and end of find and count, an empty old text of replace, steps of getslice, other bases, underscores, non-ASCII digits and the digit limit of atoi. Pieces, Joined, Words, Stripped, SliceEnd, Between, Written in Spec/Texts."
  },
  {
   "property": "C76",
   "status": "proved",
   "theorems": [
    "Yupp.C76_choice_defined",
    "Yupp.C76_if",
    "Yupp.C76_unless",
    "Yupp.C76_legs_are_evaluated",
    "Yupp.C76_binary",
    "Yupp.C76_library"
   ],
   "note": "The definitions are given by the shape of their trees (Choice, Binary in Spec/Stdlib); C76_library: lines of lib/stdlib.yu, parsed on their own, have these shapes. Positional arguments only; more than three arguments of $if and conditions or legs that are not known yet are not covered. The other definitions of the library (unfold, define, BB, def-fn-argv, macros) are not."
  },
  {
   "property": "C77",
   "status": "proved",
   "theorems": [
    "Yupp.C77_literal",
    "Yupp.C77_file",
    "Yupp.C77_unended",
    "Yupp.C77_apostrophe",
    "Yupp.C77_apostrophe_fails"
   ],
   "note": "PyLiteral (Spec/PyString) is the lexical grammar of Python 2 string literals (and of the common ones of Python 3; b and f prefixes are read as plain text before the literal). C77_apostrophe and C77_apostrophe_fails are the exception: the code looks for an apostrophe anywhere in the first line to tell the two kinds of quotes apart (pp/yugen.py:2129)."
  },
  {
   "property": "C78",
   "status": "proved",
   "theorems": [
    "Yupp.C78_text",
    "Yupp.C78_unfinished",
    "Yupp.C78_fails",
    "Yupp.C78_one_outcome",
    "Yupp.C78_program",
    "Yupp.C78_output"
   ],
   "note": "Generates (Spec/Generate) is a big-step semantics of sequences of pieces in terms of the values of the pieces; C78_text, C78_unfinished and C78_fails show that it agrees with the evaluator exactly, C78_program that a translation reports it (for sources of the grammar of C61). What a block at an indent is (reindent) and how plain text in a text put in is moved (atIndent) are the subjects of C11 and C59."
  },
  {
   "property": "C79",
   "status": "proved",
   "theorems": [
    "Yupp.C79_first",
    "Yupp.C79_second",
    "Yupp.C79_program",
    "Yupp.C79_header_only",
    "Yupp.C79_whole_first",
    "Yupp.C79_whole_second",
    "Yupp.C79_line_doubled",
    "Yupp.C79_line_lost",
    "Yupp.C79_file_translated",
    "Yupp.C79_base",
    "Yupp.C79_gone",
    "Yupp.C79_shebang",
    "Yupp.C79_capitals",
    "Yupp.C79_wrong_one"
   ],
   "note": "Header and Cleared (Spec/Magic) give what is left of the header; C79_first/C79_second relate them to the magic comments of C42, C79_program is a source with a header in terms of C78, C79_base/C79_gone the two documented forms. Falsehoods of the plain claim are proved as well: C79_capitals (yupp. in capitals: the comment is garbled), C79_wrong_one (an earlier yupp. is removed instead), C79_header_only (nothing behind the header: an exception), C79_line_doubled and C79_line_lost (read_header). That Python hands the codec what follows the line of the magic comment is an assumption about Python, visible in the statements as the text `data`."
  },
  {
   "property": "C80",
   "status": "proved",
   "theorems": [
    "Yupp.C80_source",
    "Yupp.C80_command",
    "Yupp.C80_program"
   ],
   "note": "Job and Task (Spec/Command) say what a source comes to, NoClash that the sources do not get in each other's way. C80_source is one source with all its passes, C80_command the list; the translation may read any file the command does not write. C80_program derives Job from the texts the passes generate (C78) for every number of passes. The order of events under faults and crashes is the subject of C33-C41."
  },
  {
   "property": "C81",
   "status": "proved",
   "theorems": [
    "Yupp.C81_python",
    "Yupp.C81_skip",
    "Yupp.C81_file",
    "Yupp.C81_output_file",
    "Yupp.C81_set_told",
    "Yupp.C81_tells_target",
    "Yupp.C81_module",
    "Yupp.C81_title",
    "Yupp.C81_title_comment",
    "Yupp.C81_name_safe",
    "Yupp.C81_title_lines"
   ],
   "note": "Called, BareName, ModuleName, PythonName, Skips (Spec/Start) say what the names are. C81_file, C81_output_file, C81_set_told, C81_module, C81_title are about the value of the calls, C81_tells_target compares the name that is told with the file that is written (Chosen of C80; an empty name that is set is told but not used), C81_title_comment and C81_title_lines that a title is a comment. Capitals of letters outside ASCII are a parameter."
  },
  {
   "property": "C82",
   "status": "proved",
   "theorems": [
    "Yupp.C82_macro",
    "Yupp.C82_without_parameters"
   ],
   "note": "Puts together C33 (what is put in), C61 (the grammar), C59 (texts as code) and C78 (the text a sequence of pieces generates): C82_macro, C82_without_parameters."
  },
  {
   "property": "C83",
   "status": "proved",
   "theorems": [
    "Yupp.C83_def",
    "Yupp.C83_undef",
    "Yupp.C83_bound",
    "Yupp.C83_library"
   ],
   "note": "defBody, undefBody (Spec/StdMacro) are the texts of the macros, C83_library shows that the lines of lib/stdlib.yu parse to them. C83_def, C83_undef: what is generated, for any continuation; C83_bound: the failure for names that are numbers."
  },
  {
   "property": "C84",
   "status": "proved",
   "theorems": [
    "Yupp.C84_bits",
    "Yupp.C84_invert",
    "Yupp.C84_conditions",
    "Yupp.C84_and_is_no_conjunction",
    "Yupp.C84_lshift",
    "Yupp.C84_rshift",
    "Yupp.C84_shift_negative"
   ],
   "note": "C84_bits, C84_invert give every bit of the result (bitOf, Spec/Bits) and that no other number has these bits; C84_conditions, C84_and_is_no_conjunction; C84_lshift, C84_rshift, C84_shift_negative."
  },
  {
   "property": "C85",
   "status": "proved",
   "theorems": [
    "Yupp.C85_concat_text",
    "Yupp.C85_concat_list",
    "Yupp.C85_contains",
    "Yupp.C85_contains_text",
    "Yupp.C85_contains_fails",
    "Yupp.C85_getitem",
    "Yupp.C85_getitem_text",
    "Yupp.C85_getitem_outside",
    "Yupp.C85_len",
    "Yupp.C85_len_text",
    "Yupp.C85_len_fails",
    "Yupp.C85_list",
    "Yupp.C85_islist",
    "Yupp.C85_rfind"
   ],
   "note": "C85_* against Same, OccursAt (Spec/Builtin) and Counts (Spec/Sequence)."
  },
  {
   "property": "C86",
   "status": "proved",
   "theorems": [
    "Yupp.C86_letters",
    "Yupp.C86_capitalize",
    "Yupp.C86_isdigit",
    "Yupp.C86_zfill",
    "Yupp.C86_center",
    "Yupp.C86_oct",
    "Yupp.C86_int"
   ],
   "note": "C86_* against the alphabets, EachChar and Fills (Spec/Sequence) and Written (Spec/Texts). The letters of other scripts are not modelled, and $zfill of a number is not (it pads the repr of the node)."
  },
  {
   "property": "C87",
   "status": "proved",
   "theorems": [
    "Yupp.C87_dict",
    "Yupp.C87_each",
    "Yupp.C87_cell",
    "Yupp.C87_gap",
    "Yupp.C87_library"
   ],
   "note": "C87_dict (the call, through parsing of the text it stands for), C87_each, C87_cell, C87_gap (the finding), C87_library (the text of the macro is that of the library file). Cells that hold forms or names bound elsewhere are not covered; the names of the cells must not be names of columns (the columns are open while the table is evaluated)."
  },
  {
   "property": "C88",
   "status": "proved",
   "theorems": [
    "Yupp.C88_blocks",
    "Yupp.C88_dialogue",
    "Yupp.C88_always",
    "Yupp.C88_files",
    "Yupp.C88_response",
    "Yupp.C88_arguments",
    "Yupp.C88_status"
   ],
   "note": "argparse and the translation of a text are parameters; the title, prompts and file names printed are not modelled."
  },
  {
   "property": "C89",
   "status": "proved",
   "theorems": [
    "Yupp.C89_options",
    "Yupp.C89_like_script"
   ],
   "note": "How argparse recognises the options in the words is a parameter."
  },
  {
   "property": "C90",
   "status": "proved",
   "theorems": [
    "Yupp.C90_missing",
    "Yupp.C90_up_to_date",
    "Yupp.C90_text",
    "Yupp.C90_fails"
   ],
   "note": "Without faults of the file system."
  },
  {
   "property": "C91",
   "status": "proved",
   "theorems": [
    "Yupp.C91_skip_if",
    "Yupp.C91_skip_if_not",
    "Yupp.C91_number",
    "Yupp.C91_name",
    "Yupp.C91_library"
   ],
   "note": "The condition's text must not hold the mark ($cond); the condition must not change the state."
  },
  {
   "property": "C92",
   "status": "proved",
   "theorems": [
    "Yupp.C92_def_if",
    "Yupp.C92_number",
    "Yupp.C92_name",
    "Yupp.C92_library"
   ],
   "note": "The condition's text must not hold the marks ($cond) and ($name); the condition must not change the state; NAME is not unq, if or __OUTPUT_FILE__."
  },
  {
   "property": "C93",
   "status": "proved",
   "theorems": [
    "Yupp.C93_defined",
    "Yupp.C93_define",
    "Yupp.C93_one_line",
    "Yupp.C93_short",
    "Yupp.C93_eol_default",
    "Yupp.C93_eol_given",
    "Yupp.C93_library"
   ],
   "note": "join, split and unq are the built-in functions where $define is defined; there __EOL__ is a text, not empty."
  },
  {
   "property": "C94",
   "status": "proved",
   "theorems": [
    "Yupp.C94_template",
    "Yupp.C94_constant",
    "Yupp.C94_do",
    "Yupp.C94_foo",
    "Yupp.C94_library"
   ],
   "note": "Not for Python sources and not when comments are scanned (in these modes an unfinished literal or comment is an error)."
  },
  {
   "property": "C95",
   "status": "proved",
   "theorems": [
    "Yupp.C95_scopes",
    "Yupp.C95_avoids",
    "Yupp.C95_meets_iff",
    "Yupp.C95_variable",
    "Yupp.C95_emit",
    "Yupp.C95_no_emit",
    "Yupp.C95_output",
    "Yupp.C95_tables"
   ],
   "note": "One known exception outside of the model (see DESIGN.md): an emitted closure shares its scope with the variable."
  },
  {
   "property": "C96",
   "status": "proved",
   "theorems": [
    "Yupp.C96_text",
    "Yupp.C96_form",
    "Yupp.C96_program",
    "Yupp.C96_closed",
    "Yupp.C96_unclosed",
    "Yupp.C96_unclosed_error",
    "Yupp.C96_unclosed_file",
    "Yupp.C96_plain"
   ],
   "note": "The converse of C20 and C61. The grammar of what is accepted is looser than that of C20 in what may follow names and numbers; which nodes an import brings is left open (they are those of the library, to which the theorem applies again)."
  },
  {
   "property": "C97",
   "status": "proved",
   "theorems": [
    "Yupp.C97_ends",
    "Yupp.C97_translation",
    "Yupp.C97_recursion",
    "Yupp.C97_endless_source"
   ],
   "note": "Python code is assumed to end and to return data for data. Applying `$lazy` and `$reduce` and macros are outside the fragment; deep nesting is assumed not to exhaust the stack of the interpreter (then an error is reported)."
  },
  {
   "property": "C98",
   "status": "proved",
   "theorems": [
    "Yupp.C98_current",
    "Yupp.C98_close",
    "Yupp.C98_again",
    "Yupp.C98_activate",
    "Yupp.C98_raw",
    "Yupp.C98_loading",
    "Yupp.C98_forgotten_wrong"
   ],
   "note": "It is assumed that a generated file that has the time it had before has the tables it had before. Sessions in which an exception was raised are not continued in the model. C98_forgotten_wrong is the session in which activation raises KeyError."
  },
  {
   "property": "C99",
   "status": "proved",
   "theorems": [
    "Yupp.C99_file",
    "Yupp.C99_program",
    "Yupp.C99_inline",
    "Yupp.C99_definitions"
   ],
   "note": "Imports of Python scripts, which add no pieces, are not among the parts of these texts, nor is a file that imports the input file by its path (this does not end). The white space exception of C99_inline is real: a mark ends the removal of white space behind a definition at the beginning of a line (see C78)."
  },
  {
   "property": "C100",
   "status": "proved",
   "theorems": [
    "Yupp.C100_scope",
    "Yupp.C100_others",
    "Yupp.C100_names",
    "Yupp.C100_stdlib_others",
    "Yupp.C100_if",
    "Yupp.C100_unless",
    "Yupp.C100_bin",
    "Yupp.C100_macro",
    "Yupp.C100_define",
    "Yupp.C100_read",
    "Yupp.C100_program",
    "Yupp.C100_entered",
    "Yupp.C100_start"
   ],
   "note": "The statements about names need that no $emit is met while the module is entered; for the library at the start of a program C100_entered proves it. StdEnv says what the library takes for granted (built-in functions, three Python expressions). What the names $unfold, $BB and $def-fn-argv do is not stated."
  },
  {
   "property": "C101",
   "status": "proved",
   "theorems": [
    "Yupp.C101_counter",
    "Yupp.C101_distinct",
    "Yupp.C101_draw"
   ],
   "note": "Drawn means that an $emit of the variable is evaluated while it holds that number; the other uses are excluded by an evaluator that gives up where it meets one."
  },
  {
   "property": "C102",
   "status": "proved",
   "theorems": [
    "Yupp.C102_value",
    "Yupp.C102_raises",
    "Yupp.C102_unused",
    "Yupp.C102_dropped",
    "Yupp.C102_text",
    "Yupp.C102_order",
    "Yupp.C102_set"
   ],
   "note": "A name is looked at when a variable, the parameters of a function or $emit with that name, or a Python expression in which it occurs, is evaluated and no scope opened in the evaluation defines it."
  },
  {
   "property": "C103",
   "status": "proved",
   "theorems": [
    "Yupp.C103_text",
    "Yupp.C103_lines",
    "Yupp.C103_macro",
    "Yupp.C103_without_parameters",
    "Yupp.C103_template",
    "Yupp.C103_substitute",
    "Yupp.C103_expanded",
    "Yupp.C103_h_end",
    "Yupp.C103_suffix",
    "Yupp.C103_around",
    "Yupp.C103_library"
   ],
   "note": "C103_text: a text with names generates its filling; C103_lines: with texts of one line the names are just replaced; C103_macro, C103_without_parameters: macro calls (text of two pieces or more: the text of a macro that is a single inserted name is that name, C82); C103_substitute: the arguments go to the places of the parameters; C103_library: the lines of lib/h.yu, parsed, are these macros."
  },
  {
   "property": "C104",
   "status": "proved",
   "theorems": [
    "Yupp.C104_then",
    "Yupp.C104_h_begin",
    "Yupp.C104_implement",
    "Yupp.C104_guard",
    "Yupp.C104_balanced",
    "Yupp.C104_header",
    "Yupp.C104_library",
    "Yupp.C104_light_library",
    "Yupp.C104_light_begin",
    "Yupp.C104_light_end",
    "Yupp.C104_light_guard",
    "Yupp.C104_light_balanced",
    "Yupp.C104_h_begin_named",
    "Yupp.C104_implement_named",
    "Yupp.C104_library_named"
   ],
   "note": "C104_h_begin, C104_implement: the calls; C104_h_begin_named, C104_implement_named: with the module name of C81; C104_guard: the guard; C104_balanced, C104_header: the conditionals; C104_then: a template in front of other pieces; C104_library, C104_library_named: the lines of lib/h.yu, parsed, are these macros. C104_h_begin is about C targets without skipping of comments. C104_light_begin, C104_light_end, C104_light_guard, C104_light_balanced, C104_light_library: the same for lib/h-light.yu."
  },
  {
   "property": "C105",
   "status": "proved",
   "theorems": [
    "Yupp.C105_parse",
    "Yupp.C105_program",
    "Yupp.C105_nowhere",
    "Yupp.C105_command"
   ],
   "note": "C105_parse: parsing raises; C105_program: the translation has this one result; C105_nowhere: with the places of C72; C105_command: the command over such sources, without faults of the file system. Imports of names by evaluation (`($import {...})`) are not covered."
  },
  {
   "property": "C106",
   "status": "proved",
   "theorems": [
    "Yupp.C106_template",
    "Yupp.C106_ident",
    "Yupp.C106_coroutine",
    "Yupp.C106_distinct",
    "Yupp.C106_library",
    "Yupp.C106_wrapper",
    "Yupp.C106_python",
    "Yupp.C106_other_libraries",
    "Yupp.C106_templates",
    "Yupp.C106_semaphore",
    "Yupp.C106_semaphore_libraries",
    "Yupp.C106_constant",
    "Yupp.C106_constants",
    "Yupp.C106_declarations",
    "Yupp.C106_include",
    "Yupp.C106_include_library",
    "Yupp.C106_coro_init",
    "Yupp.C106_coro_init_library"
   ],
   "note": "C106_template: any such macro; C106_ident: with an identifier; C106_coroutine: the calls; C106_distinct: different names; C106_library: the lines of the files, parsed, are these macros. C106_wrapper, C106_python, C106_other_libraries: the same for lib/coroutine-h.yu and for conditions in lib/coroutine-py.yu. C106_templates: macros with any number of parameters; C106_semaphore, C106_semaphore_libraries: `semaphore-init`. C106_constant, C106_constants, C106_declarations, C106_include, C106_include_library: macros without parameters, and `coro-alive`. C106_coro_init, C106_coro_init_library: `coro-init` of lib/coroutine-py.yu, which calls `coro`. `coro-define` and the macros of C with labels (`coro-yield`, `coro-wait`, ...) are not covered; that the numbers of labels differ is C101."
  },
  {
   "property": "C107",
   "status": "proved",
   "theorems": [
    "Yupp.C107_hlib",
    "Yupp.C107_corolib",
    "Yupp.C107_skip_on",
    "Yupp.C107_skip_off",
    "Yupp.C107_module_on",
    "Yupp.C107_module_off"
   ],
   "note": "C107_hlib, C107_corolib: how the files read (`Source` of C99); C107_skip_on, C107_skip_off: what the line that decides comes to; C107_module_on, C107_module_off: what is left of the module. What the two variants define is the subject of C103, C104 and C106 as far as covered."
  },
  {
   "property": "C108",
   "status": "proved",
   "theorems": [
    "Yupp.C108_defined",
    "Yupp.C108_undefined",
    "Yupp.C108_clean"
   ],
   "note": "C108_defined, C108_undefined: exactly these lines; C108_clean: what follows for a header. That the macros write these texts is C103_h_end, C104_h_begin, C104_light_begin and C104_light_end. `Directive` is about lines of the text; comments and continued lines of C are not analysed."
  },
  {
   "property": "C109",
   "status": "proved",
   "theorems": [
    "Yupp.C109_begin",
    "Yupp.C109_end",
    "Yupp.C109_written",
    "Yupp.C109_first",
    "Yupp.C109_skipped",
    "Yupp.C109_again",
    "Yupp.C109_plain",
    "Yupp.C109_program",
    "Yupp.C109_program_light",
    "Yupp.C109_output"
   ],
   "note": "C109_begin, C109_end: the parts; C109_first, C109_skipped, C109_again: the whole header; C109_plain: bodies without directives meet the hypotheses; C109_written: trimming does not matter. C109_program, C109_program_light, C109_output: the text that a program with plain lines in the header gives. The preprocessor is the small specification Spec/Cpp: conditionals, `#define`, `#undef`; no `#elif`, no comments, continued lines are lines like others. That the macros write these texts is C103_h_end, C104_h_begin, C104_light_begin and C104_light_end."
  }
 ]
}
