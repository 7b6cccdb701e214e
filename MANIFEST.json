{
 "claims": [
  {
   "property": "C01",
   "status": "proved",
   "theorems": [
    "Verif.C01_unique_is_first_occurrences",
    "Verif.C01_unique_spec",
    "Verif.C01_unique_id"
   ],
   "note": ""
  },
  {
   "property": "C02",
   "status": "proved",
   "theorems": [
    "Verif.C02_union_mem",
    "Verif.C02_intersect_mem",
    "Verif.C02_union_intersect_nodup",
    "Verif.C02_without"
   ],
   "note": ""
  },
  {
   "property": "C03",
   "status": "proved",
   "theorems": [
    "Verif.C03_remove",
    "Verif.C03_get_one",
    "Verif.C03_get_many",
    "Verif.C03_get_none",
    "Verif.C03_pop_indexes",
    "Verif.C03_pop_last",
    "Verif.C03_pop_empty",
    "Verif.C03_remove_out_of_range"
   ],
   "note": ""
  },
  {
   "property": "C04",
   "status": "proved",
   "theorems": [
    "Verif.C04_reverse",
    "Verif.C04_reverse_involutive",
    "Verif.C04_reverse_append"
   ],
   "note": ""
  },
  {
   "property": "C05",
   "status": "proved",
   "theorems": [
    "Verif.C05_set_error_iff",
    "Verif.C05_set",
    "Verif.C05_set_history"
   ],
   "note": ""
  },
  {
   "property": "C06",
   "status": "partial",
   "theorems": [
    "Verif.C06_clone_violated",
    "Verif.C06_clone_partial",
    "Verif.C06_clone_singleton"
   ],
   "note": "The code violates the property: Clone of a list whose only element is a list returns that element. The negation is proved with a witness, and the exact set of lists that are preserved is characterised."
  },
  {
   "property": "C07",
   "status": "partial",
   "theorems": [
    "Verif.C07_append_result",
    "Verif.C07_prepend_result",
    "Verif.C07_prepend_frame",
    "Verif.C07_append_violated",
    "Verif.C07_append_violated_doubling",
    "Verif.C07_append_frame_iff",
    "Verif.C07_append_partial",
    "Verif.C07_accumulate",
    "Verif.C07_newList"
   ],
   "note": "The code violates the property: appending twice to a list with spare capacity changes the first result (negations proved, also without explicit capacity). Exactly when another list is left alone is characterised, and every program that only appends to latest lists is persistent."
  },
  {
   "property": "C08",
   "status": "proved",
   "theorems": [
    "Verif.C08_contains",
    "Verif.C08_contains_empty",
    "Verif.C08_find",
    "Verif.C08_find_sorted",
    "Verif.C08_find_iff_contains",
    "Verif.C08_contains_strict",
    "Verif.C08_strict_implies_loose",
    "Verif.C08_find_strict",
    "Verif.C08_strict_list_panics"
   ],
   "note": "Textual variants for all values; strict variants for scalar searched values, and the panic of the strict search on two lists is stated."
  },
  {
   "property": "C09",
   "status": "proved",
   "theorems": [
    "Verif.C09_call_refines",
    "Verif.C09_history_refines",
    "Verif.C09_read_your_write"
   ],
   "note": ""
  },
  {
   "property": "C10",
   "status": "proved",
   "theorems": [
    "Verif.C10_keys",
    "Verif.C10_values",
    "Verif.C10_order_independent",
    "Verif.C10_print_content",
    "Verif.C10_history_independent"
   ],
   "note": ""
  },
  {
   "property": "C11",
   "status": "partial",
   "theorems": [
    "Verif.C11_merge_paths",
    "Verif.C11_merge_first_wins",
    "Verif.C11_merge_order_independent",
    "Verif.C11_merge_self",
    "Verif.C11_merge_assoc_violated",
    "Verif.C11_merge_assoc_partial",
    "Verif.C11_merge_sequential"
   ],
   "note": "Path semantics, order independence and idempotence are proved. Associativity is false in the code (proved with a witness); it is proved when no path is a leaf in the middle argument and a dictionary in the two others."
  },
  {
   "property": "C12",
   "status": "partial",
   "theorems": [
    "Verif.C12_merge_violated",
    "Verif.C12_merge_violated_shared",
    "Verif.C12_merge_many_partial",
    "Verif.C12_merge_single_partial",
    "Verif.C12_merge_frame_partial",
    "Verif.C12_merge_cause_partial",
    "Verif.C12_merge_flat_partial"
   ],
   "note": "The code violates the property: with two sources nested dictionaries of the first one are modified, and with one source when the target shares a dictionary (negations proved). Proved for any number of sources when the target is a tree apart from them and has a dictionary wherever two sources have different ones (so always for one source), with the converse: a modified source means such a place; also for sources without nested dictionaries and any target."
  },
  {
   "property": "C13",
   "status": "partial",
   "theorems": [
    "Verif.C13_clone_violated",
    "Verif.C13_clone_violated_nested_list",
    "Verif.C13_clone_isolated_partial",
    "Verif.C13_clone_equal_partial",
    "Verif.C13_clone_returns_partial"
   ],
   "note": "The code violates the property for dictionaries and lists inside lists (negations proved). Proved for every heap where lists hold scalars, for every interleaved history of writes by both sides."
  },
  {
   "property": "C14",
   "status": "partial",
   "theorems": [
    "Verif.C14_pick_keys",
    "Verif.C14_pick_values",
    "Verif.C14_omit_keys",
    "Verif.C14_omit_values",
    "Verif.C14_clone_all",
    "Verif.C14_clone_values_violated"
   ],
   "note": "Key sets are proved for all dictionaries. Values are proved when no nested list consists of a single list; the excluded case is a bug of Clone (negation proved). That the original is unchanged is part of C13."
  },
  {
   "property": "C15",
   "status": "partial",
   "theorems": [
    "Verif.C15_pluck_violated",
    "Verif.C15_pluck_partial",
    "Verif.C15_pickv_error_partial",
    "Verif.C15_pickv_result",
    "Verif.C15_pickv_violated"
   ],
   "note": "The code violates the property: pluck always returns an empty list and pickv loses the requested keys (negations proved). The error behaviour of pickv is proved."
  },
  {
   "property": "C16",
   "status": "partial",
   "theorems": [
    "Verif.C16_transpose_exact",
    "Verif.C16_transpose_partial",
    "Verif.C16_transpose_violated"
   ],
   "note": "Proved for dictionaries without nil values; a key with a nil value is lost (negation proved) and the exact result for all dictionaries is proved."
  },
  {
   "property": "C17",
   "status": "proved",
   "theorems": [
    "Verif.C17_delete_ok",
    "Verif.C17_delete_effect",
    "Verif.C17_delete_error"
   ],
   "note": ""
  },
  {
   "property": "C18",
   "status": "proved",
   "theorems": [
    "Verif.C18_round_trip",
    "Verif.C18_round_trip_marker",
    "Verif.C18_marker_needed",
    "Verif.C18_marker_needed_wrong_text"
   ],
   "note": "For texts without the marker character as the property says; also with the marker unless an open backtick remains; concrete failures show the hypothesis is needed."
  },
  {
   "property": "C19",
   "status": "proved",
   "theorems": [
    "Verif.C19_protect_spec",
    "Verif.C19_pieces",
    "Verif.C19_literals",
    "Verif.C19_plain",
    "Verif.C19_single"
   ],
   "note": "The extracted pieces are the unique left-to-right cut of the text into plain texts and complete literals."
  },
  {
   "property": "C20",
   "status": "partial",
   "theorems": [
    "Verif.C20_words",
    "Verif.C20_width_violated",
    "Verif.C20_indent_violated",
    "Verif.C20_width_partial",
    "Verif.C20_fits"
   ],
   "note": "Words proved for every text and width; the width is violated by one byte (and by the indentation, put on the last line): proved witnesses and the exact bound."
  },
  {
   "property": "C21",
   "status": "partial",
   "theorems": [
    "Verif.C21_longer",
    "Verif.C21_violated",
    "Verif.C21_center_partial"
   ],
   "note": "Proved up to two million columns of padding; beyond it the formatting library prints an error text (witness proved)."
  },
  {
   "property": "C22",
   "status": "partial",
   "theorems": [
    "Verif.C22_indent_lines",
    "Verif.C22_indent",
    "Verif.C22_unindent",
    "Verif.C22_unindent_cases",
    "Verif.C22_undo_violated",
    "Verif.C22_undo_partial"
   ],
   "note": "Indent and the exact behaviour of UnIndent proved; UnIndent does not undo Indent when blank lines come first (witness), proved otherwise."
  },
  {
   "property": "C23",
   "status": "proved",
   "theorems": [
    "Verif.C23_greedy",
    "Verif.C23_positions",
    "Verif.C23_replace",
    "Verif.C23_empty"
   ],
   "note": "Unique greedy leftmost positions, non-overlapping, complete, and equivalent to ReplaceAll."
  },
  {
   "property": "C24",
   "status": "partial",
   "theorems": [
    "Verif.C24_out_of_range",
    "Verif.C24_ascii",
    "Verif.C24_separator",
    "Verif.C24_word",
    "Verif.C24_bytes_violated",
    "Verif.C24_characters_partial"
   ],
   "note": "Proved for byte strings; violated for characters with separator bytes in their UTF-8 form (witness); proved for the other texts."
  },
  {
   "property": "C25",
   "status": "proved",
   "theorems": [
    "Verif.C25_delimited",
    "Verif.C25_match",
    "Verif.C25_none",
    "Verif.C25_simple",
    "Verif.C25_position_not_inside",
    "Verif.C25_not_balanced"
   ],
   "note": "Never fails, delimited result at a position not after the requested one; matching delimiter in the single-character case; witnesses show that the context may not hold the position and may not be balanced."
  },
  {
   "property": "C26",
   "status": "partial",
   "theorems": [
    "Verif.C26_join_split",
    "Verif.C26_split_join",
    "Verif.C26_split2_found",
    "Verif.C26_split2_absent",
    "Verif.C26_split2_panics",
    "Verif.C26_split2_empty"
   ],
   "note": "All proved except that Split2 panics for two empty texts (witness)."
  },
  {
   "property": "C27",
   "status": "partial",
   "theorems": [
    "Verif.C27_slice_list_partial",
    "Verif.C27_not_before_start",
    "Verif.C27_not_before_start_general",
    "Verif.C27_not_huge",
    "Verif.C27_slice_text_partial",
    "Verif.C27_not_after_text",
    "Verif.C27_rest_initial",
    "Verif.C27_recompose",
    "Verif.C27_no_index",
    "Verif.C27_list_of_indexes",
    "Verif.C27_too_many",
    "Verif.C27_other_values"
   ],
   "note": "Slices of lists and texts follow the bounds rule; fails when both bounds fall before the start, for bounds beyond the range of machine integers and for text bounds after the end (witnesses proved)."
  },
  {
   "property": "C28",
   "status": "proved",
   "theorems": [
    "Verif.C28_select",
    "Verif.C28_select_text",
    "Verif.C28_extract",
    "Verif.C28_extract_text",
    "Verif.C28_safeIndex"
   ],
   "note": ""
  },
  {
   "property": "C29",
   "status": "proved",
   "theorems": [
    "Verif.C29_slice_dict",
    "Verif.C29_many_keys"
   ],
   "note": ""
  },
  {
   "property": "C30",
   "status": "proved",
   "theorems": [
    "Verif.C30_dec_hex",
    "Verif.C30_hex_injective",
    "Verif.C30_dec_accepts"
   ],
   "note": ""
  },
  {
   "property": "C31",
   "status": "proved",
   "theorems": [
    "Verif.C31_or",
    "Verif.C31_and",
    "Verif.C31_clear",
    "Verif.C31_xor",
    "Verif.C31_order",
    "Verif.C31_clear_order",
    "Verif.C31_lshift",
    "Verif.C31_rshift",
    "Verif.C31_negative_count"
   ],
   "note": ""
  },
  {
   "property": "C32",
   "status": "partial",
   "theorems": [
    "Verif.Props.C32_add_partial",
    "Verif.Props.C32_mul_partial",
    "Verif.Props.C32_sub_partial",
    "Verif.Props.C32_not_add",
    "Verif.Props.C32_not_sub",
    "Verif.Props.C32_not_mul"
   ],
   "note": "Exact as long as inputs and partial results are at most 2^53 in absolute value; counterexamples proved beyond."
  },
  {
   "property": "C33",
   "status": "partial",
   "theorems": [
    "Verif.Props.C33_range_partial",
    "Verif.Props.C33_not_large_step",
    "Verif.Props.C33_two_partial",
    "Verif.Props.C33_one_partial",
    "Verif.Props.C33_zero_step",
    "Verif.Props.C33_parameters"
   ],
   "note": "Bounds up to 2^53 in absolute value (less the step for stop, which C34_not_end shows to be necessary); for steps of a million or more with several digits the bounds are divided by a power of five, because the exponent of the notation is counted as decimals (C33_not_large_step shows a wrong result beyond); error cases for all inputs."
  },
  {
   "property": "C34",
   "status": "partial",
   "theorems": [
    "Verif.Props.C34_not_small_step",
    "Verif.Props.C34_not_negative",
    "Verif.Props.C34_not_end",
    "Verif.Props.C34_not_always_ends",
    "Verif.Props.C34_integers_partial"
   ],
   "note": "Proved for integers (C33) and non-negative decimals (C66); three inputs proved to loop for ever."
  },
  {
   "property": "C35",
   "status": "partial",
   "theorems": [
    "Verif.Props.C35_translation_partial",
    "Verif.Props.C35_injective_partial",
    "Verif.Props.C35_context_free_partial",
    "Verif.Props.C35_error",
    "Verif.Props.C35_not_star",
    "Verif.Props.C35_not_dollar",
    "Verif.Props.C35_not_context_call",
    "Verif.Props.C35_not_call_of_call",
    "Verif.Props.C35_not_slice_name"
   ],
   "note": "Proved for the expressions of the predicate Covered: the translation succeeds and parsing its text with the grammar of Go templates gives the operation tree; the refused expressions are characterised for all expressions. False for literals with $ or *, methods of the context with arguments nested in another operation, calls of the result of a call, and variables named slice (witness theorems)."
  },
  {
   "property": "C36",
   "status": "partial",
   "theorems": [
    "Verif.Props.C36_complete",
    "Verif.Props.C36_any_text",
    "Verif.Props.C36_unchanged",
    "Verif.Props.C36_idempotent",
    "Verif.Props.C36_meaning",
    "Verif.Props.C36_meaning_negative",
    "Verif.Props.C36_call_slice",
    "Verif.Props.C36_call_extract",
    "Verif.Props.C36_not_quoted_colon"
   ],
   "note": "Completion proved for all nested index expressions and, as a single pass, for every text; meaning of the completed bounds proved through slice. False for index keys that contain a colon inside quotes (witness C36_not_quoted_colon): they are split, so only the part about the generated call is partial."
  },
  {
   "property": "C37",
   "status": "partial",
   "theorems": [
    "Verif.Props.C37_assign_partial",
    "Verif.Props.C37_not_delimiter_global",
    "Verif.Props.C37_not_delimiter_local",
    "Verif.Props.C37_not_dashes",
    "Verif.Props.C37_not_delimiter_check"
   ],
   "note": "Proved for every expression, operator, validation mode, left and right delimiters and every dotted name, with the razor delimiter @. False for other razor delimiters (the code compares with a literal @) and for names with dashes: witnesses proved."
  },
  {
   "property": "C38",
   "status": "partial",
   "theorems": [
    "Verif.Props.C38_rule_partial",
    "Verif.Props.C38_replacement_partial",
    "Verif.Props.C38_table_partial",
    "Verif.Props.C38_rules",
    "Verif.Props.C38_not_function",
    "Verif.Props.C38_not_expression",
    "Verif.Props.C38_not_right"
   ],
   "note": "The generated rules are shown to be the default rules with the delimiters renamed, for the rules and replacements where this holds; it is false for the 'function' abbreviation, for [expr] classes and for replacements with }} after a brace (witnesses)."
  },
  {
   "property": "C39",
   "status": "partial",
   "theorems": [
    "Verif.Props.C39_own_rules_partial",
    "Verif.Props.C39_same_key",
    "Verif.Props.C39_not_blanks"
   ],
   "note": "Proved, for any history of templates, for delimiters without blanks; the key of the cache joins the delimiters with blanks, so that two sets with blanks can share a key (witness)."
  },
  {
   "property": "C40",
   "status": "partial",
   "theorems": [
    "Verif.Props.C40_pieces",
    "Verif.Props.C40_strings_partial",
    "Verif.Props.C40_identity_partial",
    "Verif.Props.C40_not_triple",
    "Verif.Props.C40_not_mark",
    "Verif.Props.C40_not_twice"
   ],
   "note": "Proved for contents without triple backticks and without the marker of the translation; the two remaining cases are shown to violate the property. The other rules are a parameter."
  },
  {
   "property": "C41",
   "status": "partial",
   "theorems": [
    "Verif.Props.C41_not_append",
    "Verif.Props.C41_not_panic",
    "Verif.Props.C41_own_strings_partial"
   ],
   "note": "False for arbitrary schedules (two witnesses: another goroutine's string, a panic); proved for every interleaving in which the save of a string is not interrupted."
  },
  {
   "property": "C42",
   "status": "partial",
   "theorems": [
    "Verif.Props.C42_untouched_partial",
    "Verif.Props.C42_right_partial",
    "Verif.Props.C42_disabled_partial",
    "Verif.Props.C42_code",
    "Verif.Props.C42_razor_off",
    "Verif.Props.C42_not_substitution",
    "Verif.Props.C42_not_script",
    "Verif.Props.C42_not_paused"
   ],
   "note": "Proved for contents without any delimiter (C42_untouched_partial), with right delimiters only when the engine copies plain text (C42_right_partial), and for no-gotemplate! contents (C42_disabled_partial), without substitution, script line or placeholder texts. The full statement is false: a substitution, a first line that calls gotemplate, or placeholder texts change the content while it is reported as unchanged (C42_not_*). C42_razor_off: without the option the rules of razor have no effect."
  },
  {
   "property": "C43",
   "status": "partial",
   "theorems": [
    "Verif.Props.C43_lines",
    "Verif.Props.C43_emitted_partial",
    "Verif.Props.C43_retried_partial",
    "Verif.Props.C43_not_retried",
    "Verif.Props.C43_not_code",
    "Verif.Props.C43_not_written"
   ],
   "note": "C43_lines proves which delimiters are protected line by line and that the protection is undone; C43_emitted_partial proves that copied lines come out as written, given that the engine copies lines without delimiter. Violations: go template code in a razor-only pause sees the placeholder (C43_not_code); placeholder texts in the source (C43_not_written). After a retry: C43_retried_partial; violated when the faulty line is the one that begins the pause (C43_not_retried)."
  },
  {
   "property": "C44",
   "status": "partial",
   "theorems": [
    "Verif.Props.C44_ext",
    "Verif.Props.C44_strict",
    "Verif.Props.C44_lenient_partial",
    "Verif.Props.C44_not_extension",
    "Verif.Props.C44_not_panic"
   ],
   "note": "C44_strict and C44_lenient_partial cover every engine, content and file name except extensions that are a part of '.gt,.gte,.template' (C44_not_extension) and errors on added lines, which panic (C44_not_panic)."
  },
  {
   "property": "C45",
   "status": "partial",
   "theorems": [
    "Verif.Props.C45_code",
    "Verif.Props.C45_detected",
    "Verif.Props.C45_accepted",
    "Verif.Props.C45_restored_partial",
    "Verif.Props.C45_round_partial",
    "Verif.Props.C45_not_mark",
    "Verif.Props.C45_not_literal",
    "Verif.Props.C45_not_retry"
   ],
   "note": "C45_code, C45_detected and C45_accepted hold for every rendering that succeeds at the first try; C45_restored_partial for texts without the marks. Violations: marks in the source (C45_not_mark), literals in code (C45_not_literal), no search after a retry (C45_not_retry)."
  },
  {
   "property": "C46",
   "status": "partial",
   "theorems": [
    "Verif.Props.C46_name",
    "Verif.Props.C46_name_elsewhere",
    "Verif.Props.C46_target",
    "Verif.Props.C46_saved",
    "Verif.Props.C46_untouched",
    "Verif.Props.C46_script",
    "Verif.Props.C46_copied",
    "Verif.Props.C46_print",
    "Verif.Props.C46_others",
    "Verif.Props.C46_source",
    "Verif.Props.C46_returned",
    "Verif.Props.C46_plain_partial",
    "Verif.Props.C46_plain_interrupted",
    "Verif.Props.C46_template",
    "Verif.Props.C46_replaced",
    "Verif.Props.C46_code",
    "Verif.Props.C46_not_backup",
    "Verif.Props.C46_not_overwrite",
    "Verif.Props.C46_not_folder",
    "Verif.Props.C46_not_hidden",
    "Verif.Props.C46_not_distinct",
    "Verif.Props.C46_not_mode",
    "Verif.Props.C46_not_terraform"
   ],
   "note": "Names, untouched files, printing, backups and interruptions proved for files with an ordinary name (C46_name .. C46_replaced). Violations: an existing .original file is lost (C46_not_backup), overwriting is not interruption safe (C46_not_overwrite), one folder written in two ways (C46_not_folder), a template named .gt (C46_not_hidden), a.gt and a.template (C46_not_distinct), permissions of scripts (C46_not_mode), printing Terraform files panics (C46_not_terraform)."
  },
  {
   "property": "C47",
   "status": "partial",
   "theorems": [
    "Verif.Props.C47_complete_partial",
    "Verif.Props.C47_independent_partial",
    "Verif.Props.C47_not_restored",
    "Verif.Props.C47_not_panic",
    "Verif.Props.C47_one",
    "Verif.Props.C47_reported"
   ],
   "note": "Proved when no file panics. Violations: the printing option stays on after the batch (C47_not_restored), a panic aborts the batch (C47_not_panic)."
  },
  {
   "property": "C48",
   "status": "proved",
   "theorems": [
    "Verif.Props.C48_parts",
    "Verif.Props.C48_refused"
   ],
   "note": ""
  },
  {
   "property": "C49",
   "status": "partial",
   "theorems": [
    "Verif.Props.C49_kept",
    "Verif.Props.C49_added",
    "Verif.Props.C49_new",
    "Verif.Props.C49_defined_partial",
    "Verif.Props.C49_not_defined"
   ],
   "note": "User data is never overridden (C49_kept, C49_added, C49_new); every name is defined unless the context already gives the value to one of them (C49_defined_partial). Violation: C49_not_defined."
  },
  {
   "property": "C50",
   "status": "partial",
   "theorems": [
    "Verif.Props.C50_restored",
    "Verif.Props.C50_kept_partial",
    "Verif.Props.C50_empty",
    "Verif.Props.C50_executed",
    "Verif.Props.C50_argument_partial",
    "Verif.Props.C50_not_argument",
    "Verif.Props.C50_not_isolated",
    "Verif.Props.C50_not_nested"
   ],
   "note": "Restoration, the variables of sub-templates, the reply and the second attempt are proved for every execution; existing values are kept when no single dictionary is given and the sub-template modifies only what it creates. Violated: the argument dictionary is modified, the caller's context can be modified through _, nested includes with the same dictionary make the context cyclic. Looking for templates and their execution are parameters."
  },
  {
   "property": "C51",
   "status": "partial",
   "theorems": [
    "Verif.Props.C51_resolves_partial",
    "Verif.Props.C51_same_partial",
    "Verif.Props.C51_order_partial",
    "Verif.Props.C51_ends",
    "Verif.Props.C51_not_order",
    "Verif.Props.C51_not_hidden",
    "Verif.Props.C51_not_user",
    "Verif.Props.C51_not_examples",
    "Verif.Props.C51_name"
   ],
   "note": "Proved for every iteration order when the aliases of the registered set make no conflict. Violated otherwise: a shared alias depends on the order, a function named as an alias is lost, predefined functions replace those of the user in rendering contexts, aliases have no examples."
  },
  {
   "property": "C52",
   "status": "partial",
   "theorems": [
    "Verif.Props.C52_found",
    "Verif.Props.C52_once_partial",
    "Verif.Props.C52_recursive",
    "Verif.Props.C52_patterns",
    "Verif.Props.C52_not_patterns",
    "Verif.Props.C52_sound",
    "Verif.Props.C52_all_partial",
    "Verif.Props.C52_ends_partial",
    "Verif.Props.C52_not_ends",
    "Verif.Props.C52_not_once",
    "Verif.Props.C52_not_depth",
    "Verif.Props.C52_not_order"
   ],
   "note": "Without links: exactly the folders within the depth, once each. With links: soundness, completeness when nothing is too deep, termination when links are acyclic. Termination for cyclic links, uniqueness and the depth limit through links are refuted by witnesses."
  },
  {
   "property": "C53",
   "status": "partial",
   "theorems": [
    "Verif.Props.C53_last",
    "Verif.Props.C53_errors",
    "Verif.Props.C53_import",
    "Verif.Props.C53_named",
    "Verif.Props.C53_missing_partial",
    "Verif.Props.C53_invalid",
    "Verif.Props.C53_var",
    "Verif.Props.C53_empty",
    "Verif.Props.C53_data_partial",
    "Verif.Props.C53_stdin",
    "Verif.Props.C53_not_unnamed",
    "Verif.Props.C53_not_missing"
   ],
   "note": "Last source wins, errors, and what each kind of source gives are proved for all command lines. Unnamed values are lost and an empty file name is accepted: shown by witnesses."
  },
  {
   "property": "C54",
   "status": "proved",
   "theorems": [
    "Verif.Props.C54_extend",
    "Verif.Props.C54_again",
    "Verif.Props.C54_excluded",
    "Verif.Props.C54_errors",
    "Verif.Props.C54_not_reported"
   ],
   "note": "Patterns and exclusions are characterised for all lists and all matching functions. An invalid pattern may go unreported (C54_not_reported)."
  },
  {
   "property": "C55",
   "status": "partial",
   "theorems": [
    "Verif.Props.C55_accepted_partial",
    "Verif.Props.C55_parsed",
    "Verif.Props.C55_delete",
    "Verif.Props.C55_lines",
    "Verif.Props.C55_not_separator",
    "Verif.Props.C55_not_blank",
    "Verif.Props.C55_not_dollar",
    "Verif.Props.C55_prepared",
    "Verif.Props.C55_order"
   ],
   "note": "For ASCII separators acceptance, deletion and order are characterised for all texts and any regular expression library. Non-ASCII separators, blank replacements and an escaped final dollar are refuted by witnesses."
  },
  {
   "property": "C56",
   "status": "partial",
   "theorems": [
    "Verif.Props.C56_order",
    "Verif.Props.C56_cases",
    "Verif.Props.C56_first",
    "Verif.Props.C56_text",
    "Verif.Props.C56_refused",
    "Verif.Props.C56_simplified",
    "Verif.Props.C56_not_colon",
    "Verif.Props.C56_not_quotes",
    "Verif.Props.C56_not_formats",
    "Verif.Props.C56_not_text",
    "Verif.Props.C56_trailing"
   ],
   "note": "Proved: independence from the registration order, first accepting format, texts, refused data, and the simplified form for words without blanks and colons. The code violates the rest, proved with witnesses: colons and quoted blanks in simplified values are altered, plain texts with a colon are refused although a format accepts them, and without formats any data is accepted."
  },
  {
   "property": "C57",
   "status": "proved",
   "theorems": [
    "Verif.Props.C57_unwrapped",
    "Verif.Props.C57_kept",
    "Verif.Props.C57_again",
    "Verif.Props.C57_not_injective"
   ],
   "note": "Also proved: the replacement loses the difference between a map and a list of one map (C57_not_injective)."
  },
  {
   "property": "C58",
   "status": "partial",
   "theorems": [
    "Verif.Props.C58_bare",
    "Verif.Props.C58_quoted_partial",
    "Verif.Props.C58_distinct",
    "Verif.Props.C58_not_identifier"
   ],
   "note": "Identifiers are written bare and other keys are written as literals that read back as the key, except that the regular expression accepts [, \\, ], ^ and a backquote as first character: the negation is proved with a witness."
  },
  {
   "property": "C59",
   "status": "partial",
   "theorems": [
    "Verif.Props.C59_native",
    "Verif.Props.C59_again",
    "Verif.Props.C59_total_partial",
    "Verif.Props.C59_content_partial",
    "Verif.Props.C59_struct_partial",
    "Verif.Props.C59_inline",
    "Verif.Props.C59_keys",
    "Verif.Props.C59_not_total",
    "Verif.Props.C59_not_key",
    "Verif.Props.C59_json_partial",
    "Verif.Props.C59_null",
    "Verif.Props.C59_collections",
    "Verif.Props.C59_yaml_partial",
    "Verif.Props.C59_not_null",
    "Verif.Props.C59_not_big"
   ],
   "note": "Proved: native result, idempotence, content, structures, JSON and YAML numbers. The code violates totality and content in places, proved with witnesses: a structure with a nil pointer field makes the conversion panic, only the last of several fields with the key tag survives, null becomes an empty dictionary, and large floating numbers become the smallest integer."
  },
  {
   "property": "C60",
   "status": "partial",
   "theorems": [
    "Verif.Props.C60_quoted",
    "Verif.Props.C60_word",
    "Verif.Props.C60_scalar_partial",
    "Verif.Props.C60_list_partial",
    "Verif.Props.C60_assoc_partial",
    "Verif.Props.C60_variables",
    "Verif.Props.C60_total_partial",
    "Verif.Props.C60_not_empty",
    "Verif.Props.C60_not_nil",
    "Verif.Props.C60_not_newline",
    "Verif.Props.C60_not_escaped",
    "Verif.Props.C60_not_special",
    "Verif.Props.C60_not_key"
   ],
   "note": "Proved: quoting as Go literals, one bash word, the variables in order with the right declarations, and the reading by bash of texts, lists and associative arrays without characters special for bash. The code loses data otherwise, proved with witnesses: empty and nil elements, newlines, characters such as ; and $, names of variables."
  },
  {
   "property": "C61",
   "status": "partial",
   "theorems": [
    "Verif.Props.C61_iif",
    "Verif.Props.C61_default",
    "Verif.Props.C61_undef",
    "Verif.Props.C61_zero_partial",
    "Verif.Props.C61_not_zero"
   ],
   "note": "IIf, Default and IfUndef are characterised for all values by the empty values; structures are never considered as zero values, the negation is proved with a witness."
  },
  {
   "property": "C62",
   "status": "partial",
   "theorems": [
    "Verif.Props.C62_converted",
    "Verif.Props.C62_again",
    "Verif.Props.C62_scalar",
    "Verif.Props.C62_content_partial",
    "Verif.Props.C62_print_order",
    "Verif.Props.C62_print_partial",
    "Verif.Props.C62_not_print",
    "Verif.Props.C62_not_pointer",
    "Verif.Props.C62_not_nil",
    "Verif.Props.C62_not_keys"
   ],
   "note": "Proved: conversion at every depth, idempotence, scalars, content when keys differ as texts and without pointers, printing when there are no native maps. The code violates the rest, proved with witnesses: printing changes for native maps, nil pointers make it panic, conversion of pointers depends on the siblings, keys that print alike lose values."
  },
  {
   "property": "C63",
   "status": "partial",
   "theorems": [
    "Verif.Props.C63_terminates_partial",
    "Verif.Props.C63_stable",
    "Verif.Props.C63_reported_partial",
    "Verif.Props.C63_not_reported",
    "Verif.Props.C63_replaced",
    "Verif.Props.C63_not_terminates"
   ],
   "note": "C63_terminates_partial and C63_reported_partial for errors on lines with code; C63_stable shows the bound of the model does not matter. Violations: endless retries (C63_not_terminates) and an error that is not reported (C63_not_reported). C63_replaced says exactly which text is replaced before a retry."
  },
  {
   "property": "C64",
   "status": "proved",
   "theorems": [
    "Verif.C64_remove_empty",
    "Verif.C64_remove_nil"
   ],
   "note": "numbers are assumed to have a non-empty printed form, which all Go numbers have"
  },
  {
   "property": "C65",
   "status": "proved",
   "theorems": [
    "Verif.C65_create_dict"
   ],
   "note": ""
  },
  {
   "property": "C66",
   "status": "partial",
   "theorems": [
    "Verif.Props.C66_decimal_range_partial",
    "Verif.Props.C66_to_misses_stop",
    "Verif.Props.C66_until_includes_stop"
   ],
   "note": "Proved for non-negative bounds except for the presence of stop itself; counterexamples proved for stop."
  },
  {
   "property": "C67",
   "status": "proved",
   "theorems": [
    "Verif.Props.C67_divide_by_zero",
    "Verif.Props.C67_divide_exact",
    "Verif.Props.C67_divide_nearest",
    "Verif.Props.C67_modulo"
   ],
   "note": ""
  },
  {
   "property": "C68",
   "status": "proved",
   "theorems": [
    "Verif.Props.C68_min_max"
   ],
   "note": ""
  },
  {
   "property": "C69",
   "status": "partial",
   "theorems": [
    "Verif.Props.C69_kept_partial",
    "Verif.Props.C69_not_kept"
   ],
   "note": "C69_kept_partial covers renderings without retry. Violation: retries change the context (C69_not_kept)."
  },
  {
   "property": "C70",
   "status": "partial",
   "theorems": [
    "Verif.Props.C70_alias",
    "Verif.Props.C70_alias_functions",
    "Verif.Props.C70_named",
    "Verif.Props.C70_positions",
    "Verif.Props.C70_empty_context",
    "Verif.Props.C70_no_context",
    "Verif.Props.C70_not_text",
    "Verif.Props.C70_not_nil",
    "Verif.Props.C70_kept_partial",
    "Verif.Props.C70_not_defaults"
   ],
   "note": "Proved: priorities for dictionaries given alone and for arguments by position, ARGS, contexts that are no dictionaries; nothing is modified if no key leads to dictionaries in two of the given dictionary, the default values and the context (C70_kept_partial). Violations with witnesses: a call modifies nested default values, later calls see the context of earlier ones (C70_not_defaults); a text given alone is converted to data (C70_not_text), a nil given alone is not bound (C70_not_nil)."
  },
  {
   "property": "C71",
   "status": "partial",
   "theorems": [
    "Verif.Props.C71_settings",
    "Verif.Props.C71_refused",
    "Verif.Props.C71_config_kept",
    "Verif.Props.C71_not_order",
    "Verif.Props.C71_not_accepted",
    "Verif.Props.C71_not_kept",
    "Verif.Props.C71_function",
    "Verif.Props.C71_empty",
    "Verif.Props.C71_not_blank",
    "Verif.Props.C71_not_number",
    "Verif.Props.C71_group"
   ],
   "note": "Proved for every order when each setting is given once. Violations with witnesses: two names of a setting make the result, or its acceptance, depend on the order of the map; the configuration of the user is modified; blank arguments and numbers as group panic."
  },
  {
   "property": "C72",
   "status": "partial",
   "theorems": [
    "Verif.Props.C72_internal_partial",
    "Verif.Props.C72_tfvars_partial",
    "Verif.Props.C72_blocks_partial",
    "Verif.Props.C72_order",
    "Verif.Props.C72_not_null",
    "Verif.Props.C72_not_labels",
    "Verif.Props.C72_not_empty_block",
    "Verif.Props.C72_not_one_label",
    "Verif.Props.C72_not_marker",
    "Verif.Props.C72_not_blanks",
    "Verif.Props.C72_not_backslash"
   ],
   "note": "Proved for every nesting: the internal form, the form for Terraform variables and the form with blocks are read back to the data by an independent reader, and the text does not depend on the order of maps (C72_order, complete). Excluded, with witnesses: texts with the internal marker, texts of several lines that end with a blank when there is an indentation, and for blocks: null under a key, several maps with labels in a list, empty maps under two keys. Keys that start with one of six characters between Z and a: see C58."
  },
  {
   "property": "C73",
   "status": "partial",
   "theorems": [
    "Verif.Props.C73_zero_partial",
    "Verif.Props.C73_success",
    "Verif.Props.C73_failed",
    "Verif.Props.C73_before",
    "Verif.Props.C73_status",
    "Verif.Props.C73_cleaned_partial",
    "Verif.Props.C73_not_usage",
    "Verif.Props.C73_not_format",
    "Verif.Props.C73_not_stopped"
   ],
   "note": "Proved for all environments: which conditions give zero (both directions), failures give 1 or -1, nothing is processed before everything is prepared, the meaning of 1, 3 and -1, cleaning. Violated with witnesses: arguments that cannot be read give zero and leave the temporary folder; errors of the formatting are ignored; after an invalid exclusion some files are still processed."
  },
  {
   "property": "C74",
   "status": "partial",
   "theorems": [
    "Verif.Props.C74_job",
    "Verif.Props.C74_files",
    "Verif.Props.C74_templates_partial",
    "Verif.Props.C74_default_command",
    "Verif.Props.C74_not_marked",
    "Verif.Props.C74_not_option",
    "Verif.Props.C74_not_overwrite"
   ],
   "note": "Proved: folders, options, the exact list of files (order, exclusions, default patterns, standard input), templates that begin with @. Violated with witnesses: values of options that begin with @ are changed, templates that begin with the internal mark lose it, the default of overwriting in another folder has no effect."
  },
  {
   "property": "C75",
   "status": "partial",
   "theorems": [
    "Verif.Props.C75_names",
    "Verif.Props.C75_order",
    "Verif.Props.C75_categories",
    "Verif.Props.C75_categories_order",
    "Verif.Props.C75_filter",
    "Verif.Props.C75_filter_exact_partial",
    "Verif.Props.C75_not_within",
    "Verif.Props.C75_columns",
    "Verif.Props.C75_sections",
    "Verif.Props.C75_detailed"
   ],
   "note": "Proved: complete, sorted, once each, independent of the order of the map; categories and sections partition the names; filters without a blank keep exactly the names in which they are found; the five columns are a permutation, readable in order. Violated with witness: a filter with a blank is also found over two neighbouring names."
  },
  {
   "property": "C76",
   "status": "partial",
   "theorems": [
    "Verif.Props.C76_either_order",
    "Verif.Props.C76_get",
    "Verif.Props.C76_hasKey",
    "Verif.Props.C76_set",
    "Verif.Props.C76_get_set",
    "Verif.Props.C76_unset",
    "Verif.Props.C76_error",
    "Verif.Props.C76_not_nil_key",
    "Verif.Props.C76_not_set_nil",
    "Verif.Props.C76_not_typed_keys",
    "Verif.Props.C76_single",
    "Verif.Props.C76_single_list_partial",
    "Verif.Props.C76_single_refused",
    "Verif.Props.C76_not_all_content"
   ],
   "note": "Proved for all dictionaries, keys that are not nil nor dictionaries, and values. Violated with witnesses: nil before the dictionary is taken for an empty dictionary; set on nil succeeds without effect; keys of different types with the same text are one key; content keeps one of two entries with the same key. Native maps are not modelled here."
  },
  {
   "property": "C77",
   "status": "partial",
   "theorems": [
    "Verif.Props.C77_contains",
    "Verif.Props.C77_contains_strict_partial",
    "Verif.Props.C77_either_order",
    "Verif.Props.C77_text",
    "Verif.Props.C77_empty",
    "Verif.Props.C77_not_vacuous",
    "Verif.Props.C77_not_several",
    "Verif.Props.C77_find",
    "Verif.Props.C77_find_strict_partial",
    "Verif.Props.C77_not_strict_lists",
    "Verif.Props.C77_find_contains",
    "Verif.Props.C77_find_text",
    "Verif.Props.C77_alone"
   ],
   "note": "Proved for all values; strict forms for elements that are not collections. Violated with witnesses: an empty list does not contain all elements of nothing; with several elements a text is not searched; strict forms fail on collections."
  },
  {
   "property": "C78",
   "status": "partial",
   "theorems": [
    "Verif.Props.C78_chars",
    "Verif.Props.C78_unchanged",
    "Verif.Props.C78_idempotent",
    "Verif.Props.C78_chars_any",
    "Verif.Props.C78_not_identifier",
    "Verif.Props.C78_not_single",
    "Verif.Props.C78_not_dollar"
   ],
   "note": "Proved for every text with the replacement of one character (not * ^ | $), over any table of letters. Violated with witnesses: the result can begin with a digit or be empty; a replacement of several characters can be repeated; a replacement with $ stands for what is replaced."
  },
  {
   "property": "C79",
   "status": "partial",
   "theorems": [
    "Verif.Props.C79_repeat",
    "Verif.Props.C79_mergeList",
    "Verif.Props.C79_formatList_partial",
    "Verif.Props.C79_not_formatList",
    "Verif.Props.C79_raw",
    "Verif.Props.C79_not_raw_single",
    "Verif.Props.C79_unquote_partial",
    "Verif.Props.C79_unquote_nothing",
    "Verif.Props.C79_not_unquote"
   ],
   "note": "repeat and mergeList proved without restriction. formatList proved except for a list whose only element is a list. The result of raw proved for any number of values that are not empty and, if they have spaces, have no quote and no end of line, in texts where the mark is not elsewhere. Violated with witnesses: formatList on a list of one list; raw of one value does not mark it; empty value; value with spaces ending with a quote; value with spaces and an end of line."
  },
  {
   "property": "C80",
   "status": "partial",
   "theorems": [
    "Verif.Props.C80_script",
    "Verif.Props.C80_plain",
    "Verif.Props.C80_no_script",
    "Verif.Props.C80_executable",
    "Verif.Props.C80_not_arguments",
    "Verif.Props.C80_not_empty"
   ],
   "note": "Proved for every text, with the preferences of the regular expression. Violated with witnesses: with two arguments or more on the first line no program is recognised; after #! alone on its line, a second line of one or two words is taken for the program."
  },
  {
   "property": "C81",
   "status": "partial",
   "theorems": [
    "Verif.Props.C81_glob",
    "Verif.Props.C81_file",
    "Verif.Props.C81_text_script",
    "Verif.Props.C81_command",
    "Verif.Props.C81_unknown",
    "Verif.Props.C81_shell",
    "Verif.Props.C81_not_separate",
    "Verif.Props.C81_not_file",
    "Verif.Props.C81_not_program"
   ],
   "note": "Proved for every text and list of arguments (without wildcards, the general case being C81_glob), the program and its argument having no space of Unicode. Violated with witnesses: in a text run by the shell arguments are not separate and what they say is run; a file with only an unknown word gives no command and no error; a file with several lines and no program is taken for one command; a script with two arguments on its first line is run by the shell."
  },
  {
   "property": "C82",
   "status": "partial",
   "theorems": [
    "Verif.Props.C82_options",
    "Verif.Props.C82_unchanged_context",
    "Verif.Props.C82_created",
    "Verif.Props.C82_folder",
    "Verif.Props.C82_cached",
    "Verif.Props.C82_not_same_folder",
    "Verif.Props.C82_not_local",
    "Verif.Props.C82_not_override",
    "Verif.Props.C82_not_disabled"
   ],
   "note": "Proved for every history. Violated with witnesses: an alias of a file is not known by the next file of the same folder but is by one of another folder; an alias that is local is known elsewhere; an alias with the name of a function has no effect; an option that is turned off leaves its functions."
  },
  {
   "property": "C83",
   "status": "partial",
   "theorems": [
    "Verif.Props.C83_load",
    "Verif.Props.C83_frame",
    "Verif.Props.C83_save",
    "Verif.Props.C83_content",
    "Verif.Props.C83_list",
    "Verif.Props.C83_tests",
    "Verif.Props.C83_permissions",
    "Verif.Props.C83_back",
    "Verif.Props.C83_exists",
    "Verif.Props.C83_not_printed",
    "Verif.Props.C83_load_cases",
    "Verif.Props.C83_not_nil_pointer",
    "Verif.Props.C83_not_deep",
    "Verif.Props.C83_not_undone",
    "Verif.Props.C83_not_false"
   ],
   "note": "Proved on a model of folders and files without links and without refusals of permissions; C83_load and C83_frame for every path, C83_save (exact condition) for paths made of names. Violated with witnesses: nil and the empty list are saved as an empty file; two missing folders are an error; a path that ends with a slash is an error but makes a folder; exists is an error below a file."
  },
  {
   "property": "C84",
   "status": "partial",
   "theorems": [
    "Verif.Props.C84_numbers",
    "Verif.Props.C84_texts",
    "Verif.Props.C84_lists",
    "Verif.Props.C84_append",
    "Verif.Props.C84_each_partial",
    "Verif.Props.C84_product",
    "Verif.Props.C84_repeat",
    "Verif.Props.C84_copies",
    "Verif.Props.C84_unary",
    "Verif.Props.C84_binary",
    "Verif.Props.C84_nothing",
    "Verif.Props.C84_average",
    "Verif.Props.C84_not_list",
    "Verif.Props.C84_not_all",
    "Verif.Props.C84_not_symmetric",
    "Verif.Props.C84_not_total",
    "Verif.Props.C84_not_joined"
   ],
   "note": "Proved for any arithmetic whose reader refuses what is printed for lists, dictionaries and nil; C84_each_partial and C84_product need two numbers in the first list. Violated with witnesses: a list of one number gives a number and an empty list nil; add forgets the arguments after the second when the first is a list; mul of a number and a text is an error although mul of a text and a number is not; add of nil to a list, and of a list with one list that is not of numbers, is an error; values that are not texts are separated by a space."
  },
  {
   "property": "C85",
   "status": "partial",
   "theorems": [
    "Verif.Props.C85_expand",
    "Verif.Props.C85_lossless",
    "Verif.Props.C85_unclosed",
    "Verif.Props.C85_elements_partial",
    "Verif.Props.C85_not_percent"
   ],
   "note": "C85_expand, C85_lossless and C85_unclosed for every line without the character used for the marks (see C18); C85_elements_partial for lines without a percent sign and lists that are not one list in a list. Violated with witnesses: a percent sign before or after is read as a part of the format (C85_not_percent)."
  },
  {
   "property": "C86",
   "status": "partial",
   "theorems": [
    "Verif.Props.C86_total",
    "Verif.Props.C86_found",
    "Verif.Props.C86_unique",
    "Verif.Props.C86_named_table",
    "Verif.Props.C86_definitions",
    "Verif.Props.C86_error_table",
    "Verif.Props.C86_stable_partial",
    "Verif.Props.C86_again_partial",
    "Verif.Props.C86_again_named",
    "Verif.Props.C86_include",
    "Verif.Props.C86_include_error",
    "Verif.Props.C86_not_again",
    "Verif.Props.C86_not_stable",
    "Verif.Props.C86_not_include"
   ],
   "note": "proved except: the code is named inline in the table, so that a file of that name is hidden; the second attempt translates the code by razor again (a literal @ becomes a variable); a file that contains its own name cannot be included"
  },
  {
   "property": "C87",
   "status": "partial",
   "theorems": [
    "Verif.Props.C87_refused",
    "Verif.Props.C87_call",
    "Verif.Props.C87_result",
    "Verif.Props.C87_plain",
    "Verif.Props.C87_error",
    "Verif.Props.C87_exec",
    "Verif.Props.C87_data",
    "Verif.Props.C87_not_type",
    "Verif.Props.C87_not_null",
    "Verif.Props.C87_not_text"
   ],
   "note": "proved: arguments, code of the call, errors, exec and data; the result of ellipsis is what its text gives when executed as a template and read as data, which is not always the value of the function"
  },
  {
   "property": "C88",
   "status": "proved",
   "theorems": [
    "Verif.Props.C88_search",
    "Verif.Props.C88_replaced",
    "Verif.Props.C88_compiles",
    "Verif.Props.C88_nonempty",
    "Verif.Props.C88_lines",
    "Verif.Props.C88_line",
    "Verif.Props.C88_not_comment",
    "Verif.Props.C88_bounds",
    "Verif.Props.C88_repeated"
   ],
   "note": "proved for the 165 rules made for the default delimiters; the regular expressions are parsed and searched in the model"
  },
  {
   "property": "C89",
   "status": "proved",
   "theorems": [
    "Verif.Props.C89_doubled",
    "Verif.Props.C89_not_off",
    "Verif.Props.C89_not_mark"
   ],
   "note": "proved for texts without backtick, ${, code in strings or comments, nor marks of the translation; false if the mark of a literal @ is in the text"
  },
  {
   "property": "C90",
   "status": "partial",
   "theorems": [
    "Verif.Props.C90_mail_partial",
    "Verif.Props.C90_not_mail"
   ],
   "note": "proved unless the text begins with #; addresses without a dot are razor code"
  },
  {
   "property": "C91",
   "status": "partial",
   "theorems": [
    "Verif.Props.C91_variables_partial",
    "Verif.Props.C91_name_partial",
    "Verif.Props.C91_not_name"
   ],
   "note": "Proved for any number of variables, global and local, with the signs that reduce the spaces. Global names that begin with else or end, and the name for, are left out (the first two are translated wrongly: C91_not_name), and so are global names with dots, names followed by - or by a parenthesis, and delimiters right after a name."
  },
  {
   "property": "C92",
   "status": "partial",
   "theorems": [
    "Verif.Props.C92_only",
    "Verif.Props.C92_names_partial",
    "Verif.Props.C92_none_partial",
    "Verif.Props.C92_kept_partial",
    "Verif.Props.C92_env",
    "Verif.Props.C92_not_order",
    "Verif.Props.C92_not_doubled",
    "Verif.Props.C92_not_alternatives",
    "Verif.Props.C92_not_unicode",
    "Verif.Props.C92_not_delimiter"
   ],
   "note": "Proved for names of ASCII letters, digits and underscores, if no ignored name comes just after another razor expression; any regular expression only hides delimiters. Violated with witnesses: the order matters for @foo@bar, @@name is no longer a literal delimiter, alternatives are not grouped, names that end with other letters, special delimiters."
  },
  {
   "property": "C93",
   "status": "partial",
   "theorems": [
    "Verif.Props.C93_result",
    "Verif.Props.C93_unrendered",
    "Verif.Props.C93_command",
    "Verif.Props.C93_arguments",
    "Verif.Props.C93_shell",
    "Verif.Props.C93_script",
    "Verif.Props.C93_file",
    "Verif.Props.C93_untouched",
    "Verif.Props.C93_removed_partial",
    "Verif.Props.C93_not_removed",
    "Verif.Props.C93_not_reported",
    "Verif.Props.C93_nothing",
    "Verif.Props.C93_exec"
   ],
   "note": "The temporary file is left when it cannot be written (C93_not_removed). A file that names a program that does not exist gives neither a command nor an error (C93_not_reported). The interruption of the program itself is not modelled."
  },
  {
   "property": "C94",
   "status": "partial",
   "theorems": [
    "Verif.Props.C94_exact",
    "Verif.Props.C94_defined",
    "Verif.Props.C94_one_folder_partial",
    "Verif.Props.C94_loaded",
    "Verif.Props.C94_files",
    "Verif.Props.C94_not_deterministic"
   ],
   "note": "When files of different folders define the same name, the definition that remains depends on the order of iteration of a map (C94_not_deterministic); C94_exact gives what it may be. The parser is a parameter and what a file defines is supposed not to depend on the files before it; the names of the extension files themselves are left out."
  },
  {
   "property": "C95",
   "status": "partial",
   "theorems": [
    "Verif.Props.C95_extension",
    "Verif.Props.C95_folders",
    "Verif.Props.C95_absent",
    "Verif.Props.C95_runs_partial",
    "Verif.Props.C95_errors_partial",
    "Verif.Props.C95_panic",
    "Verif.Props.C95_not_all"
   ],
   "note": "A second execution that fails in a folder is a panic and the folders after it are not formatted (C95_not_all); the other theorems suppose that it does not happen. The text of the errors, which has neither the folder nor the cause, is not modelled; `main` ignores the errors."
  },
  {
   "property": "C96",
   "status": "partial",
   "theorems": [
    "Verif.Props.C96_hcl_file",
    "Verif.Props.C96_hcl_value",
    "Verif.Props.C96_hcl_means",
    "Verif.Props.C96_hcl_roundtrip_partial",
    "Verif.Props.C96_not_hcl_rest",
    "Verif.Props.C96_yaml_text",
    "Verif.Props.C96_yaml_text_partial",
    "Verif.Props.C96_not_yaml_tabs",
    "Verif.Props.C96_yaml_key",
    "Verif.Props.C96_yaml_total",
    "Verif.Props.C96_yaml_mapping_partial",
    "Verif.Props.C96_yaml_texts",
    "Verif.Props.C96_yaml_list",
    "Verif.Props.C96_not_yaml_keys"
   ],
   "note": "Proved for HCL files and single values, with the round trip of what C72 writes faithfully, with an own reader in place of the library; for YAML the mappings whose keys are printed in different ways, and documents without tabs. The code violates the rest: entries after a first value are dropped without an error in HCL; a tab inside of a text becomes four spaces and two keys printed alike lose an entry in YAML (negations proved). Nulls become empty dictionaries (C59)."
  },
  {
   "property": "C97",
   "status": "partial",
   "theorems": [
    "Verif.Props.C97_nothing",
    "Verif.Props.C97_numbers",
    "Verif.Props.C97_texts",
    "Verif.Props.C97_order",
    "Verif.Props.C97_error",
    "Verif.Props.C97_not_list",
    "Verif.Props.C97_not_numeric",
    "Verif.Props.C97_not_nested"
   ],
   "note": "Proved: numbers (arguments or one list), several arguments compared as texts, independence from the order, exactly which calls fail. Violated, with theorems: the smallest of a list of texts is the text of the whole list (C97_not_list), one text among numbers changes their order to the order of texts (C97_not_numeric), a list followed by a number is compared as a text (C97_not_nested), the empty list and nil are errors (C97_error)."
  },
  {
   "property": "C98",
   "status": "partial",
   "theorems": [
    "Verif.Props.C98_compact",
    "Verif.Props.C98_pretty",
    "Verif.Props.C98_line",
    "Verif.Props.C98_order",
    "Verif.Props.C98_quoted",
    "Verif.Props.C98_quoted_json_partial",
    "Verif.Props.C98_not_quoted_json",
    "Verif.Props.C98_reload_partial",
    "Verif.Props.C98_whole_float",
    "Verif.Props.C98_not_null",
    "Verif.Props.C98_not_large"
   ],
   "note": "Proved for every value: what is read, one line, order, the literals of the quoted forms. C98_reload_partial: reading again, for data without nil, with floats that have a fraction and integers of at most 53 bits; C98_whole_float: other floats become integers. Violated, with theorems: the quoted JSON of a text with a delete character, or a character above 65535 that is not printable, is not JSON (C98_not_quoted_json; exact condition in C98_quoted_json_partial), nil is read again as an empty dictionary (C98_not_null), larger integers change (C98_not_large). The writer and the reader of the library are modelled; how floats are written is a parameter."
  },
  {
   "property": "C99",
   "status": "partial",
   "theorems": [
    "Verif.Props.C99_float",
    "Verif.Props.C99_rounding",
    "Verif.Props.C99_integers",
    "Verif.Props.C99_modf",
    "Verif.Props.C99_dim",
    "Verif.Props.C99_not_digits",
    "Verif.Props.C99_not_large"
   ],
   "note": "Proved for every number through the floating point number it is read as (itself if it has at most 53 bits), when that is below 2^63. Violated, with theorems: more digits may be rounded up to the next integer before (C99_not_digits) and from 2^63 on the results are the smallest integer (C99_not_large)."
  },
  {
   "property": "C100",
   "status": "proved",
   "theorems": [
    "Verif.Props.C100_spacer",
    "Verif.Props.C100_nothing",
    "Verif.Props.C100_indent",
    "Verif.Props.C100_width"
   ],
   "note": "Also for no argument (C100_nothing: the indentation alone). How values are printed and the formatting of messages are those of the other models and parameters."
  },
  {
   "property": "C101",
   "status": "proved",
   "theorems": [
    "Verif.Props.C101_assert",
    "Verif.Props.C101_warning",
    "Verif.Props.C101_raise",
    "Verif.Props.C101_not_false"
   ],
   "note": "The function of sprig that recognises empty values is modelled; how messages are formatted is a parameter. C101_not_false: texts such as \"false\" are true."
  },
  {
   "property": "C102",
   "status": "partial",
   "theorems": [
    "Verif.Props.C102_char",
    "Verif.Props.C102_list",
    "Verif.Props.C102_wrapped",
    "Verif.Props.C102_not_large"
   ],
   "note": "Proved below 256. Violated, with theorems: other numbers lose their multiples of 256 (C102_wrapped, C102_not_large). A list of one number gives a text (C84)."
  },
  {
   "property": "C103",
   "status": "partial",
   "theorems": [
    "Verif.Props.C103_lines",
    "Verif.Props.C103_aligned",
    "Verif.Props.C103_automatic_partial",
    "Verif.Props.C103_not_aligned"
   ],
   "note": "The lines are proved in full, and the alignment for a width that is given and for an automatic width when the logarithm is right. Violated: the library's Log10(1000) is below 3, so the 1000th line of 1000 lines is shifted (C103_not_aligned; the value of the logarithm is its hypothesis)."
  },
  {
   "property": "C104",
   "status": "proved",
   "theorems": [
    "Verif.Props.C104_rows",
    "Verif.Props.C104_defined",
    "Verif.Props.C104_stable"
   ],
   "note": "A row that would be a single dot is left out: C104_defined shows that no template with a name and a file is concerned. The colour of files is a parameter."
  },
  {
   "property": "C105",
   "status": "partial",
   "theorems": [
    "Verif.Props.C105_parameters",
    "Verif.Props.C105_results",
    "Verif.Props.C105_described",
    "Verif.Props.C105_signature",
    "Verif.Props.C105_alias",
    "Verif.Props.C105_alias_arguments_partial",
    "Verif.Props.C105_not_alias_arguments",
    "Verif.Props.C105_not_alias_results",
    "Verif.Props.C105_text",
    "Verif.Props.C105_object",
    "Verif.Props.C105_methods"
   ],
   "note": "Signatures are proved in full, also for aliases. Violated: asked for its arguments or results alone, an alias ignores the description of its function (C105_not_alias_arguments, C105_not_alias_results); C105_alias_arguments_partial is for the other functions. The text of a type given by reflection and the colours are parameters."
  },
  {
   "property": "C106",
   "status": "partial",
   "theorems": [
    "Verif.Props.C106_set",
    "Verif.Props.C106_defaults",
    "Verif.Props.C106_addons_partial",
    "Verif.Props.C106_flags",
    "Verif.Props.C106_names",
    "Verif.Props.C106_not_variable",
    "Verif.Props.C106_not_word",
    "Verif.Props.C106_template",
    "Verif.Props.C106_off",
    "Verif.Props.C106_functions_partial",
    "Verif.Props.C106_frame_partial"
   ],
   "note": "Violated: --base is looked for among the words of the command line and not read from its flag: given by a variable of the environment it turns nothing off (C106_not_variable), and a template named --base turns everything off (C106_not_word); C106_addons_partial is for the other cases. C106_functions_partial and C106_frame_partial are for the names to which each addon gives one meaning (see C107). The parser of command lines is a parameter."
  },
  {
   "property": "C107",
   "status": "partial",
   "theorems": [
    "Verif.Props.C107_names_partial",
    "Verif.Props.C107_others",
    "Verif.Props.C107_library_partial",
    "Verif.Props.C107_not_all"
   ],
   "note": "Violated: all and withoutSprig have the same alias without (extra_sprig.go:227, 242), so that `all` designates sprig's all or without, at random, and withoutSprig may not exist (C107_not_all). C107_names_partial is for the names that share no alias; C107_library_partial shows that these are all the other names of the code's documentation."
  },
  {
   "property": "C108",
   "status": "partial",
   "theorems": [
    "Verif.Props.C108_statements_partial",
    "Verif.Props.C108_one_partial",
    "Verif.Props.C108_not_kept"
   ],
   "note": "Violated: after @end, the text that follows loses its blanks, and a word loses the beginning that is a block word (`@end without` gives `{{ end }}out`); `@elsewhere` is read as an else (C108_not_kept). C108_statements_partial is for the texts of the specification: keywords that end an e-mail address, `else if (` and codes between quotes are left out."
  },
  {
   "property": "C109",
   "status": "partial",
   "theorems": [
    "Verif.Props.C109_meaning",
    "Verif.Props.C109_others",
    "Verif.Props.C109_registers",
    "Verif.Props.C109_once",
    "Verif.Props.C109_aliases",
    "Verif.Props.C109_not_arguments"
   ],
   "note": "Violated for the names of arguments: `nextafter`, `signbit` and ten others have names of arguments although no function has this name, so that nextAfter and signBit show none (C109_not_arguments). The rest is proved. The tables of sprig are C107."
  },
  {
   "property": "C110",
   "status": "partial",
   "theorems": [
    "Verif.Props.C110_literal",
    "Verif.Props.C110_names",
    "Verif.Props.C110_not_keyword",
    "Verif.Props.C110_not_marks",
    "Verif.Props.C110_operator",
    "Verif.Props.C110_not_neighbours",
    "Verif.Props.C110_order_partial",
    "Verif.Props.C110_not_order"
   ],
   "note": "Violated: the other keywords of Go (package, import, var...) are given to the parser as keywords (C110_not_keyword), two operators that are words cannot follow each other (C110_not_neighbours) and the result then depends on the order of the map (C110_not_order), a name that contains a mark comes back as another variable (C110_not_marks). The independence of the order is proved for the expressions where no two replacements share a character (C110_order_partial)."
  },
  {
   "property": "C111",
   "status": "proved",
   "theorems": [
    "Verif.Props.C111_parser",
    "Verif.Props.C111_grammar",
    "Verif.Props.C111_translation",
    "Verif.Props.C111_bounds",
    "Verif.Props.C111_slices",
    "Verif.Props.C111_meaning",
    "Verif.Props.C111_order",
    "Verif.Props.C111_not_signs"
   ],
   "note": "Go's scanner and parser are modelled for the tokens and expressions that can come out (names, numbers, quoted texts, the operators and delimiters), and proved against a grammar by levels (C111_parser). Bounds that are not written are those of the text where they are written (C111_bounds, C111_slices). Violated: a word operator just before a sign loses its spaces, `a lt -1` and `a sub -1` are not translated and `a band ^b` is another operation (C111_not_signs)."
  },
  {
   "property": "C112",
   "status": "partial",
   "theorems": [
    "Verif.Props.C112_expressions_partial",
    "Verif.Props.C112_not_alone"
   ],
   "note": "Proved for the whole table of rules and every expression of the grammar of C111, with any number of expressions on a line; left out: other parentheses after an expression on its line, `:=` between two expressions of a line, the sign `_`, texts between backquotes, `)[` anywhere, the character ♠, names that contain `slice`. Violated: when another parenthesis follows the expression on its line, the text up to the last parenthesis is put in the code as it is (C112_not_alone)."
  },
  {
   "property": "C113",
   "status": "partial",
   "theorems": [
    "Verif.Props.C113_loops_partial",
    "Verif.Props.C113_blocks_partial",
    "Verif.Props.C113_not_operator",
    "Verif.Props.C113_not_end",
    "Verif.Props.C113_not_method",
    "Verif.Props.C113_not_elseif"
   ],
   "note": "Proved for the whole table of rules, for commands with nothing after them on their lines and without `;`, `{` or `[` in their expressions, and for assignments that end with their lines; left out: commands with their action on the same line, @template, assignments that end with `;` or blanks, with dotted names, with `@{…}`, with `~=` or with `[` in their values, and what C112 leaves out. Violated: @elseif is taken as a command and gives a code that templates do not have (C113_not_elseif); in @x+=1 the sign is a part of the name (C113_not_operator); a variable whose name begins with end or else is not assigned (C113_not_end); the call of a method of the context is not put between parentheses after set (C113_not_method)."
  },
  {
   "property": "C114",
   "status": "partial",
   "theorems": [
    "Verif.Props.C114_parts_partial",
    "Verif.Props.C114_lines_partial",
    "Verif.Props.C114_not_comment",
    "Verif.Props.C114_not_address"
   ],
   "note": "Proved for the whole table of rules and any function of the rules, for texts without `/*`, backtick and `rap(`, whose parts but the first do not begin with a sign and an address (like `#me@here.com`), and where a part without delimiter is ordinary (C88). Violated by comments over several lines (C114_not_comment, wanted) and by lines that begin with `#` and an address (C114_not_address)."
  },
  {
   "property": "C115",
   "status": "partial",
   "theorems": [
    "Verif.Props.C115_index_partial",
    "Verif.Props.C115_not_bracket",
    "Verif.Props.C115_not_dotted"
   ],
   "note": "Proved for one index in a text without other delimiters, on a global variable without dots, with items without spaces around them, brackets nor braces, and no other closing bracket on the line. Violated when another closing bracket follows on the line: the index stays in the text (C115_not_bracket); a name with a dot calls another function (C115_not_dotted)."
  },
  {
   "property": "C116",
   "status": "partial",
   "theorems": [
    "Verif.Props.C116_call_partial",
    "Verif.Props.C116_not_alone",
    "Verif.Props.C116_not_valid"
   ],
   "note": "Proved for one call in a text without other delimiters, without a selection or an index after a parenthesis, and without another closing parenthesis on the line. Violated when one follows on the line: the words up to it are taken as a part of the expression (C116_not_alone), even when the code is then not valid (C116_not_valid)."
  },
  {
   "property": "C117",
   "status": "partial",
   "theorems": [
    "Verif.Props.C117_part_partial",
    "Verif.Props.C117_template_partial"
   ],
   "note": "Proved for the parts of `RazorPart` (C91, C113, C115, C116, C118 and lines without delimiter). Missing: comments over several lines, backticks, `autoWrap`, several indices or calls on one line, and the other kinds of expressions. Violated by comments over several lines and addresses after a sign (C114_not_comment, C114_not_address)."
  },
  {
   "property": "C118",
   "status": "partial",
   "theorems": [
    "Verif.Props.C118_single_partial",
    "Verif.Props.C118_not_alone",
    "Verif.Props.C118_not_semicolon"
   ],
   "note": "Missing: a closing parenthesis after the one of the command on its line, a semicolon, a brace or a bracket in the expression, razor in the action. Violated by a parenthesis in the action (C118_not_alone) and by a semicolon in it (C118_not_semicolon)."
  },
  {
   "property": "C119",
   "status": "partial",
   "theorems": [
    "Verif.Props.C119_brace_partial"
   ],
   "note": "Proved for texts without a semicolon, with no closing parenthesis after the one of the command on its line, no closing brace in the action, no brace or bracket in the expression and no other razor."
  }
 ]
}
