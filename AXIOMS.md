# Axioms used by each property theorem

Generated by `tools/sync.py --axioms` from `#print axioms`.

## none

- Verif.Props.C55_order
- Verif.Props.C56_cases
- Verif.C26_split2_panics
- Verif.C26_split2_empty

## propext

- Verif.C07_append_violated
- Verif.Props.C49_kept
- Verif.Props.C49_added
- Verif.Props.C44_ext
- Verif.C11_merge_assoc_violated
- Verif.Props.C61_undef
- Verif.Props.C62_scalar
- Verif.Props.C62_not_pointer
- Verif.Props.C62_not_nil
- Verif.Props.C57_unwrapped
- Verif.Props.C57_not_injective
- Verif.C03_get_none
- Verif.C05_set_error_iff
- Verif.C06_clone_singleton
- Verif.C08_strict_list_panics
- Verif.C64_remove_nil
- Verif.C23_empty
- Verif.C24_out_of_range
- Verif.C26_split_join

## propext, Classical.choice, Quot.sound

- Verif.Props.C54_not_reported
- Verif.Props.C55_accepted_partial
- Verif.Props.C55_parsed
- Verif.Props.C55_delete
- Verif.Props.C55_lines
- Verif.Props.C55_not_separator
- Verif.Props.C55_not_blank
- Verif.Props.C55_not_dollar
- Verif.Props.C55_prepared
- Verif.Props.C60_quoted
- Verif.Props.C60_word
- Verif.Props.C60_scalar_partial
- Verif.Props.C60_list_partial
- Verif.Props.C60_assoc_partial
- Verif.Props.C60_variables
- Verif.Props.C60_total_partial
- Verif.Props.C60_not_empty
- Verif.Props.C60_not_nil
- Verif.Props.C60_not_newline
- Verif.Props.C60_not_escaped
- Verif.Props.C60_not_special
- Verif.Props.C60_not_key
- Verif.Props.C47_complete_partial
- Verif.Props.C47_independent_partial
- Verif.Props.C47_not_restored
- Verif.Props.C47_not_panic
- Verif.Props.C47_one
- Verif.Props.C47_reported
- Verif.Props.C48_parts
- Verif.Props.C48_refused
- Verif.Props.C49_not_defined
- Verif.C30_dec_hex
- Verif.C30_hex_injective
- Verif.C30_dec_accepts
- Verif.C31_or
- Verif.C31_and
- Verif.C31_clear
- Verif.C31_xor
- Verif.C31_order
- Verif.C31_clear_order
- Verif.C31_lshift
- Verif.C31_rshift
- Verif.C31_negative_count
- Verif.Props.C53_last
- Verif.Props.C53_errors
- Verif.Props.C53_import
- Verif.Props.C53_named
- Verif.Props.C53_missing_partial
- Verif.Props.C53_invalid
- Verif.Props.C53_var
- Verif.Props.C53_empty
- Verif.Props.C53_data_partial
- Verif.Props.C53_stdin
- Verif.Props.C53_not_unnamed
- Verif.Props.C53_not_missing
- Verif.Props.C42_untouched_partial
- Verif.Props.C42_right_partial
- Verif.Props.C42_disabled_partial
- Verif.Props.C42_code
- Verif.Props.C42_not_substitution
- Verif.Props.C42_not_script
- Verif.Props.C42_not_paused
- Verif.Props.C43_lines
- Verif.Props.C43_emitted_partial
- Verif.Props.C43_not_code
- Verif.Props.C43_not_written
- Verif.Props.C44_strict
- Verif.Props.C44_lenient_partial
- Verif.Props.C44_not_extension
- Verif.Props.C44_not_panic
- Verif.Props.C45_code
- Verif.Props.C45_detected
- Verif.Props.C45_accepted
- Verif.Props.C45_restored_partial
- Verif.Props.C45_round_partial
- Verif.Props.C45_not_mark
- Verif.Props.C45_not_literal
- Verif.Props.C45_not_retry
- Verif.Props.C63_terminates_partial
- Verif.Props.C63_stable
- Verif.Props.C63_reported_partial
- Verif.Props.C63_not_reported
- Verif.Props.C63_not_terminates
- Verif.Props.C69_kept_partial
- Verif.Props.C69_not_kept
- Verif.Props.C56_order
- Verif.Props.C56_first
- Verif.Props.C56_text
- Verif.Props.C56_refused
- Verif.Props.C56_simplified
- Verif.Props.C56_not_colon
- Verif.Props.C56_not_quotes
- Verif.Props.C56_not_formats
- Verif.Props.C56_not_text
- Verif.C09_call_refines
- Verif.C09_history_refines
- Verif.C09_read_your_write
- Verif.C10_keys
- Verif.C10_values
- Verif.C10_order_independent
- Verif.C10_print_content
- Verif.C10_history_independent
- Verif.C14_pick_keys
- Verif.C14_pick_values
- Verif.C14_omit_keys
- Verif.C14_omit_values
- Verif.C14_clone_all
- Verif.C14_clone_values_violated
- Verif.C15_pluck_violated
- Verif.C15_pluck_partial
- Verif.C15_pickv_error_partial
- Verif.C15_pickv_result
- Verif.C15_pickv_violated
- Verif.C16_transpose_exact
- Verif.C16_transpose_partial
- Verif.C16_transpose_violated
- Verif.C17_delete_ok
- Verif.C17_delete_effect
- Verif.C17_delete_error
- Verif.Props.C46_name
- Verif.Props.C46_name_elsewhere
- Verif.Props.C46_saved
- Verif.Props.C46_untouched
- Verif.Props.C46_script
- Verif.Props.C46_copied
- Verif.Props.C46_print
- Verif.Props.C46_others
- Verif.Props.C46_source
- Verif.Props.C46_returned
- Verif.Props.C46_plain_partial
- Verif.Props.C46_plain_interrupted
- Verif.Props.C46_template
- Verif.Props.C46_replaced
- Verif.Props.C46_code
- Verif.Props.C46_not_backup
- Verif.Props.C46_not_overwrite
- Verif.Props.C46_not_folder
- Verif.Props.C46_not_hidden
- Verif.Props.C46_not_distinct
- Verif.Props.C46_not_mode
- Verif.Props.C46_not_terraform
- Verif.Props.C52_found
- Verif.Props.C52_once_partial
- Verif.Props.C52_recursive
- Verif.Props.C52_not_patterns
- Verif.Props.C52_not_ends
- Verif.Props.C52_not_once
- Verif.Props.C52_not_depth
- Verif.Props.C52_not_order
- Verif.Props.C51_order_partial
- Verif.Props.C51_not_order
- Verif.Props.C51_not_hidden
- Verif.Props.C51_not_examples
- Verif.Props.C61_not_zero
- Verif.Props.C62_again
- Verif.Props.C62_print_order
- Verif.Props.C62_print_partial
- Verif.Props.C62_not_print
- Verif.Props.C62_not_keys
- Verif.Props.C58_quoted_partial
- Verif.Props.C58_not_identifier
- Verif.Props.C72_internal_partial
- Verif.Props.C72_tfvars_partial
- Verif.Props.C72_blocks_partial
- Verif.Props.C72_order
- Verif.Props.C72_not_null
- Verif.Props.C72_not_labels
- Verif.Props.C72_not_empty_block
- Verif.Props.C72_not_one_label
- Verif.Props.C72_not_marker
- Verif.Props.C72_not_blanks
- Verif.Props.C72_not_backslash
- Verif.Props.C50_restored
- Verif.Props.C50_kept_partial
- Verif.Props.C50_empty
- Verif.Props.C50_variables
- Verif.Props.C50_argument_partial
- Verif.Props.C50_retry
- Verif.Props.C50_reply
- Verif.Props.C50_not_argument
- Verif.Props.C50_not_isolated
- Verif.Props.C50_not_nested
- Verif.C01_unique_is_first_occurrences
- Verif.C01_unique_spec
- Verif.C01_unique_id
- Verif.C02_union_mem
- Verif.C02_intersect_mem
- Verif.C02_union_intersect_nodup
- Verif.C02_without
- Verif.C03_remove
- Verif.C03_pop_indexes
- Verif.C03_pop_last
- Verif.C03_pop_empty
- Verif.C03_remove_out_of_range
- Verif.C05_set_history
- Verif.C08_contains
- Verif.C08_contains_empty
- Verif.C08_find
- Verif.C08_find_sorted
- Verif.C08_find_iff_contains
- Verif.C08_strict_implies_loose
- Verif.C64_remove_empty
- Verif.C65_create_dict
- Verif.Props.C59_native
- Verif.Props.C59_again
- Verif.Props.C59_total_partial
- Verif.Props.C59_content_partial
- Verif.Props.C59_struct_partial
- Verif.Props.C59_inline
- Verif.Props.C59_keys
- Verif.Props.C59_not_total
- Verif.Props.C59_not_key
- Verif.Props.C59_not_null
- Verif.Props.C59_not_big
- Verif.Props.C32_add_partial
- Verif.Props.C32_mul_partial
- Verif.Props.C32_sub_partial
- Verif.Props.C32_not_add
- Verif.Props.C32_not_sub
- Verif.Props.C32_not_mul
- Verif.Props.C33_range_partial
- Verif.Props.C33_two_partial
- Verif.Props.C33_one_partial
- Verif.Props.C33_zero_step
- Verif.Props.C33_parameters
- Verif.Props.C34_not_small_step
- Verif.Props.C34_not_negative
- Verif.Props.C34_not_always_ends
- Verif.Props.C34_integers_partial
- Verif.Props.C66_decimal_range_partial
- Verif.Props.C66_to_misses_stop
- Verif.Props.C66_until_includes_stop
- Verif.Props.C67_divide_by_zero
- Verif.Props.C67_divide_exact
- Verif.Props.C67_divide_nearest
- Verif.Props.C67_modulo
- Verif.Props.C68_min_max
- Verif.C18_round_trip
- Verif.C18_round_trip_marker
- Verif.C18_marker_needed
- Verif.C18_marker_needed_wrong_text
- Verif.C19_protect_spec
- Verif.C19_literals
- Verif.C19_single
- Verif.Props.C35_translation_partial
- Verif.Props.C35_injective_partial
- Verif.Props.C35_context_free_partial
- Verif.Props.C35_error
- Verif.Props.C35_not_star
- Verif.Props.C35_not_dollar
- Verif.Props.C35_not_context_call
- Verif.Props.C35_not_call_of_call
- Verif.Props.C35_not_slice_name
- Verif.Props.C37_assign_partial
- Verif.Props.C37_not_delimiter_global
- Verif.Props.C37_not_delimiter_local
- Verif.Props.C37_not_dashes
- Verif.Props.C37_not_delimiter_check
- Verif.Props.C36_complete
- Verif.Props.C36_any_text
- Verif.Props.C36_unchanged
- Verif.Props.C36_idempotent
- Verif.Props.C36_meaning
- Verif.Props.C36_meaning_negative
- Verif.Props.C36_call_slice
- Verif.Props.C36_call_extract
- Verif.Props.C36_not_quoted_colon
- Verif.Props.C40_pieces
- Verif.Props.C40_strings_partial
- Verif.Props.C40_identity_partial
- Verif.Props.C40_not_triple
- Verif.Props.C40_not_mark
- Verif.Props.C40_not_twice
- Verif.Props.C41_not_append
- Verif.Props.C41_not_panic
- Verif.Props.C38_rule_partial
- Verif.Props.C38_replacement_partial
- Verif.Props.C38_table_partial
- Verif.Props.C38_rules
- Verif.Props.C38_not_function
- Verif.Props.C38_not_expression
- Verif.Props.C38_not_right
- Verif.Props.C39_not_blanks
- Verif.C12_merge_violated
- Verif.C12_merge_violated_shared
- Verif.C13_clone_violated
- Verif.C13_clone_violated_nested_list
- Verif.C13_clone_isolated_partial
- Verif.C13_clone_equal_partial
- Verif.C13_clone_returns_partial
- Verif.C27_slice_list_partial
- Verif.C27_not_before_start
- Verif.C27_not_before_start_general
- Verif.C27_not_huge
- Verif.C27_slice_text_partial
- Verif.C27_not_after_text
- Verif.C27_rest_initial
- Verif.C27_recompose
- Verif.C27_no_index
- Verif.C27_list_of_indexes
- Verif.C27_too_many
- Verif.C27_other_values
- Verif.C28_select
- Verif.C28_select_text
- Verif.C28_extract
- Verif.C28_extract_text
- Verif.C29_slice_dict
- Verif.C29_many_keys
- Verif.C20_words
- Verif.C20_width_violated
- Verif.C20_indent_violated
- Verif.C20_width_partial
- Verif.C20_fits
- Verif.C21_longer
- Verif.C21_violated
- Verif.C21_center_partial
- Verif.C22_indent
- Verif.C22_unindent_cases
- Verif.C22_undo_violated
- Verif.C23_greedy
- Verif.C23_positions
- Verif.C23_replace
- Verif.C24_separator
- Verif.C24_word
- Verif.C24_bytes_violated
- Verif.C24_characters_partial
- Verif.C25_delimited
- Verif.C25_match
- Verif.C25_none
- Verif.C25_simple
- Verif.C25_position_not_inside
- Verif.C25_not_balanced
- Verif.C26_join_split
- Verif.C26_split2_found
- Verif.C26_split2_absent
- Verif.Props.C71_settings
- Verif.Props.C71_refused
- Verif.Props.C71_config_kept
- Verif.Props.C71_not_order
- Verif.Props.C71_not_accepted
- Verif.Props.C71_not_kept
- Verif.Props.C71_function
- Verif.Props.C71_empty
- Verif.Props.C71_not_blank
- Verif.Props.C71_not_number
- Verif.Props.C70_named
- Verif.Props.C70_positions
- Verif.Props.C70_empty_context
- Verif.Props.C70_no_context
- Verif.Props.C70_not_text
- Verif.Props.C70_not_nil
- Verif.Props.C70_kept_partial
- Verif.Props.C70_not_defaults

## propext, Quot.sound

- Verif.C07_append_result
- Verif.C07_prepend_result
- Verif.C07_prepend_frame
- Verif.C07_append_violated_doubling
- Verif.C07_append_frame_iff
- Verif.C07_append_partial
- Verif.C07_accumulate
- Verif.C07_newList
- Verif.Props.C54_extend
- Verif.Props.C54_again
- Verif.Props.C54_excluded
- Verif.Props.C54_errors
- Verif.Props.C49_new
- Verif.Props.C49_defined_partial
- Verif.C11_merge_paths
- Verif.C11_merge_first_wins
- Verif.C11_merge_order_independent
- Verif.C11_merge_self
- Verif.C11_merge_assoc_partial
- Verif.C11_merge_sequential
- Verif.Props.C52_patterns
- Verif.Props.C52_sound
- Verif.Props.C52_all_partial
- Verif.Props.C52_ends_partial
- Verif.Props.C51_resolves_partial
- Verif.Props.C51_same_partial
- Verif.Props.C51_ends
- Verif.Props.C51_not_user
- Verif.Props.C61_iif
- Verif.Props.C61_default
- Verif.Props.C61_zero_partial
- Verif.Props.C62_converted
- Verif.Props.C62_content_partial
- Verif.Props.C57_kept
- Verif.Props.C57_again
- Verif.Props.C58_bare
- Verif.Props.C58_distinct
- Verif.C03_get_one
- Verif.C03_get_many
- Verif.C04_reverse
- Verif.C04_reverse_involutive
- Verif.C04_reverse_append
- Verif.C05_set
- Verif.C06_clone_violated
- Verif.C06_clone_partial
- Verif.C08_contains_strict
- Verif.C08_find_strict
- Verif.Props.C59_json_partial
- Verif.Props.C59_null
- Verif.Props.C59_yaml_partial
- Verif.C19_pieces
- Verif.C19_plain
- Verif.Props.C41_own_strings_partial
- Verif.Props.C39_own_rules_partial
- Verif.Props.C39_same_key
- Verif.C12_merge_single_partial
- Verif.C12_merge_frame_partial
- Verif.C12_merge_flat_partial
- Verif.C28_safeIndex
- Verif.C22_indent_lines
- Verif.C22_unindent
- Verif.C22_undo_partial
