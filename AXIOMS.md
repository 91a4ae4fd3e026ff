# Axioms of the theorems named in MANIFEST.json

Written by `tools/axioms.py` from `#print axioms`.

| theorem | axioms |
|---|---|
| `Tiny.c01_dict_is_a_map` | propext, Classical.choice, Quot.sound |
| `Tiny.c02_dict_enumeration` | propext, Classical.choice, Quot.sound |
| `Tiny.c03_dict_total_and_half_empty` | propext, Classical.choice, Quot.sound |
| `Tiny.c04_equal_symm` | propext, Classical.choice, Quot.sound |
| `Tiny.c04_equal_trans` | propext, Classical.choice, Quot.sound |
| `Tiny.c04_equal_refl` | propext, Classical.choice, Quot.sound |
| `Tiny.c04_equal_hash` | propext, Classical.choice, Quot.sound |
| `Tiny.c04_strings` | propext, Classical.choice, Quot.sound |
| `Tiny.c04_strings_without_nul` | propext, Classical.choice, Quot.sound |
| `Tiny.c04_kinds` | propext, Quot.sound |
| `Tiny.c04_other_kinds` | propext, Classical.choice, Quot.sound |
| `Tiny.c04_embedded_nul_witness` | propext, Quot.sound |
| `Tiny.c05_array_is_a_list` | propext, Classical.choice, Quot.sound |
| `Tiny.c05_out_of_range` | propext, Quot.sound |
| `Tiny.c06_resize_partial` | propext, Classical.choice, Quot.sound |
| `Tiny.c06_resize_grow_defect` | propext, Classical.choice, Quot.sound |
| `Tiny.c06_resize_false` | propext |
| `Tiny.c06_resize_stale` | propext |
| `Tiny.c07_arena_blocks` | propext, Classical.choice, Quot.sound |
| `Tiny.c07_arena_address` | propext |
| `Tiny.c07_rounding` | propext, Classical.choice, Quot.sound |
| `Tiny.c07_rounding_not_power_of_two` | propext |
| `Tiny.c08_arena_destroy` | propext, Classical.choice, Quot.sound |
| `Tiny.c09_line_number` | propext, Quot.sound |
| `Tiny.c09_friendly_pos` | propext, Classical.choice, Quot.sound |
| `Tiny.c09_agree` | propext, Classical.choice, Quot.sound |
| `Tiny.c09_friendly_injective` | propext, Classical.choice, Quot.sound |
| `Tiny.c10_format_error` | propext, Classical.choice, Quot.sound |
| `Tiny.c10_format_error_no_source` | propext, Classical.choice, Quot.sound |
| `Tiny.c25_reachable_survives` | propext, Quot.sound |
| `Tiny.c25_no_dangling_ever` | propext, Classical.choice, Quot.sound |
| `Tiny.c26_collect_exact` | propext, Quot.sound |
| `Tiny.c26_each_object_deleted_once` | propext, Classical.choice, Quot.sound |
| `Tiny.c27_collect_terminates_partial` | propext, Classical.choice, Quot.sound |
| `Tiny.c27_cycle_never_ends` | propext, Quot.sound |
| `Tiny.c43_gc_transparent` | propext, Classical.choice, Quot.sound |
| `Tiny.foreignParametric_keeps` | propext |
| `Tiny.c33_threads_independent` | propext, Quot.sound |
| `Tiny.c33_any_schedule` | propext, Quot.sound |
| `Tiny.c34_int_instruction` | propext, Classical.choice, Quot.sound |
| `Tiny.c34_comparison` | propext, Quot.sound |
| `Tiny.c34_narrowing` | propext, Classical.choice, Quot.sound |
| `Tiny.c35_construct` | propext, Quot.sound |
| `Tiny.c35_read` | propext, Quot.sound |
| `Tiny.c35_write` | propext, Quot.sound |
| `Tiny.c41_stopped` | propext, Quot.sound |
| `Tiny.c41_how_to_stop` | propext, Classical.choice, Quot.sound |
| `Tiny.c41_run` | propext, Quot.sound |
| `Tiny.c20_expression` | propext, Classical.choice, Quot.sound |
| `Tiny.c20_program` | propext, Classical.choice, Quot.sound |
| `Tiny.c20_defect_float_plus_one` | propext, Classical.choice, Quot.sound |
| `Tiny.c20_defect_long_string` | propext, Classical.choice, Quot.sound |
| `Tiny.c20_defect_wide_constant` | propext, Classical.choice, Quot.sound |
| `Tiny.c21_and` | propext, Classical.choice, Quot.sound |
| `Tiny.c21_or` | propext, Classical.choice, Quot.sound |
| `Tiny.c21_conditional` | propext, Classical.choice, Quot.sound |
| `Tiny.c22_statement` | propext, Classical.choice, Quot.sound |
| `Tiny.c22_defect_break_outside_loop` | propext, Classical.choice, Quot.sound |
| `Tiny.c23_call_any_code` | propext, Quot.sound |
| `Tiny.c23_call_compiled` | propext, Classical.choice, Quot.sound |
| `Tiny.c24_call_function` | propext, Classical.choice, Quot.sound |
| `Tiny.c24_stale_result` | propext, Classical.choice, Quot.sound |
| `Tiny.c18_operand` | propext, Classical.choice, Quot.sound |
| `Tiny.c18_operand_fits` | propext, Classical.choice, Quot.sound |
| `Tiny.c18_call` | propext, Classical.choice, Quot.sound |
| `Tiny.c18_patch` | propext, Classical.choice, Quot.sound |
| `Tiny.c18_patch_succeeds` | propext, Classical.choice, Quot.sound |
| `Tiny.c19_interpreter` | propext, Classical.choice, Quot.sound |
| `Tiny.c19_program` | propext, Classical.choice, Quot.sound |
| `Tiny.c19_defect_shift` | propext, Quot.sound |
| `Tiny.c19_defect_long_string` | propext, Quot.sound |
| `Tiny.c42_expression` | propext, Classical.choice, Quot.sound |
| `Tiny.c42_statement` | propext, Classical.choice, Quot.sound |
| `Tiny.c42_program` | propext, Classical.choice, Quot.sound |
| `Tiny.c42_running` | propext, Classical.choice, Quot.sound |
| `Tiny.c11_lex` | propext, Classical.choice, Quot.sound |
| `Tiny.c11_lex_sound` | propext, Classical.choice, Quot.sound |
| `Tiny.c11_unambiguous` | propext, Classical.choice, Quot.sound |
| `Tiny.c11_roundtrip` | propext, Classical.choice, Quot.sound |
| `Tiny.c14_layout` | propext, Classical.choice, Quot.sound |
| `Tiny.c40_literal` | propext, Classical.choice, Quot.sound |
| `Tiny.c12_terminates` | propext, Classical.choice, Quot.sound |
| `Tiny.c12_call` | propext, Classical.choice, Quot.sound |
| `Tiny.c13_quote` | propext |
| `Tiny.c13_string` | propext, Classical.choice, Quot.sound |
| `Tiny.c13_char` | propext, Classical.choice, Quot.sound |
| `Tiny.c13_char_all` | none |
| `Tiny.c15_line` | propext, Classical.choice, Quot.sound |
| `Tiny.c15_exact` | propext, Classical.choice, Quot.sound |
| `Tiny.newline_in_token` | propext, Classical.choice, Quot.sound |
| `Tiny.c15_defect` | propext, Classical.choice, Quot.sound |
| `Tiny.c44_error_line` | propext, Classical.choice, Quot.sound |
| `Tiny.c44_defect` | propext, Classical.choice, Quot.sound |
| `Tiny.c38_strcat` | propext, Quot.sound |
| `Tiny.c38_substr` | propext, Classical.choice, Quot.sound |
| `Tiny.c38_pieces` | propext, Classical.choice, Quot.sound |
| `Tiny.c38_strlen` | propext, Classical.choice, Quot.sound |
| `Tiny.c38_strlen_strcat` | propext, Classical.choice, Quot.sound |
| `Tiny.c38_strchr` | propext, Classical.choice, Quot.sound |
| `Tiny.c38_stridx` | propext, Classical.choice, Quot.sound |
| `Tiny.c38_defect_nul` | propext, Classical.choice, Quot.sound |
| `Tiny.c39_sort` | propext, Classical.choice, Quot.sound |
| `Tiny.c39_defect` | propext |
| `Tiny.qsort_exists` | propext, Quot.sound |
| `Tiny.c40_int_to_str` | propext, Classical.choice, Quot.sound |
| `Tiny.c40_roundtrip` | propext, Classical.choice, Quot.sound |
| `Tiny.c40_text_injective` | propext, Classical.choice, Quot.sound |
| `Tiny.c40_source` | propext, Classical.choice, Quot.sound |
| `Tiny.c40_stoi` | propext, Classical.choice, Quot.sound |
| `Tiny.c29_intern` | propext, Classical.choice, Quot.sound |
| `Tiny.c29_limit` | propext, Classical.choice, Quot.sound |
| `Tiny.c30_scoping` | propext, Classical.choice, Quot.sound |
| `Tiny.c31_storage` | propext, Classical.choice, Quot.sound |
| `Tiny.c36_assignable` | propext |
| `Tiny.c36_reflexive` | propext, Quot.sound |
| `Tiny.c36_nullable_defect` | propext |
| `Tiny.c36_null_defect` | propext |
| `Tiny.c28_table` | propext, Classical.choice, Quot.sound |
| `Tiny.c28_lines` | propext, Classical.choice, Quot.sound |
| `Tiny.c28_defect` | propext, Classical.choice, Quot.sound |
| `Tiny.c16_grouping` | propext, Classical.choice, Quot.sound |
| `Tiny.c16_all` | propext, Quot.sound |
| `Tiny.c17_roundtrip` | propext, Classical.choice, Quot.sound |
| `Tiny.c17_same` | propext, Classical.choice, Quot.sound |
| `Tiny.c17_parentheses` | propext |
| `Tiny.c17_print_parse` | propext, Classical.choice, Quot.sound |
| `Tiny.c17_exact` | propext, Quot.sound |
| `Tiny.c45_program` | propext, Classical.choice, Quot.sound |
| `Tiny.c45_program_sound` | propext, Classical.choice, Quot.sound |
| `Tiny.c45_statement` | propext, Classical.choice, Quot.sound |
| `Tiny.c45_statement_sound` | propext, Classical.choice, Quot.sound |
| `Tiny.c45_expr` | propext, Classical.choice, Quot.sound |
| `Tiny.c45_expr_sound` | propext, Quot.sound |
| `Tiny.c45_unique` | propext, Classical.choice, Quot.sound |
| `Tiny.c45_source` | propext, Classical.choice, Quot.sound |
| `Tiny.c46_parse` | propext, Classical.choice, Quot.sound |
| `Tiny.c46_source` | propext, Classical.choice, Quot.sound |
| `Tiny.c46_no_hang` | propext, Classical.choice, Quot.sound |
| `Tiny.c47_expr` | propext, Classical.choice, Quot.sound |
| `Tiny.c47_unique` | propext, Classical.choice, Quot.sound |
| `Tiny.c47_statement` | propext, Classical.choice, Quot.sound |
| `Tiny.c47_program` | propext, Classical.choice, Quot.sound |
| `Tiny.c32_failed` | propext, Classical.choice, Quot.sound |
| `Tiny.c32_succeeded` | propext, Classical.choice, Quot.sound |
| `Tiny.c32_nested` | propext, Classical.choice, Quot.sound |
| `Tiny.c32_exact` | propext, Classical.choice, Quot.sound |
| `Tiny.c32_source` | propext, Classical.choice, Quot.sound |
| `Tiny.c32_halt_lost` | propext, Classical.choice, Quot.sound |
| `Tiny.c32_dangling` | propext, Classical.choice, Quot.sound |
| `Tiny.c32_struct_left` | propext, Classical.choice, Quot.sound |
| `Tiny.c32_lines_left` | propext, Classical.choice, Quot.sound |
| `Tiny.c37_expression` | propext, Classical.choice, Quot.sound |
| `Tiny.c37_statement` | propext, Classical.choice, Quot.sound |
| `Tiny.c37_call` | propext, Classical.choice, Quot.sound |
| `Tiny.c37_program` | propext, Classical.choice, Quot.sound |
| `Tiny.c37_machine` | propext, Classical.choice, Quot.sound |
| `Tiny.c37_uninitialized` | propext, Classical.choice, Quot.sound |
| `Tiny.c37_no_return` | propext, Classical.choice, Quot.sound |
| `Tiny.c37_too_few` | propext, Classical.choice, Quot.sound |
| `Tiny.c37_compound` | propext, Classical.choice, Quot.sound |
| `Tiny.c37_cast` | propext, Classical.choice, Quot.sound |
| `Tiny.c48_run` | propext, Classical.choice, Quot.sound |
| `Tiny.c48_function` | propext, Classical.choice, Quot.sound |
| `Tiny.c48_call` | propext, Classical.choice, Quot.sound |
| `Tiny.c48_bound` | propext, Classical.choice, Quot.sound |
| `Tiny.c48_checked` | propext, Classical.choice, Quot.sound |
| `Tiny.c48_sound` | propext, Classical.choice, Quot.sound |
| `Tiny.c48_source` | propext, Classical.choice, Quot.sound |
| `Tiny.c48_machine` | propext, Classical.choice, Quot.sound |
| `Tiny.c49_outcome` | propext, Classical.choice, Quot.sound |
| `Tiny.c49_bind` | propext, Classical.choice, Quot.sound |
| `Tiny.c49_text` | propext, Classical.choice, Quot.sound |
| `Tiny.c49_declare` | propext, Classical.choice, Quot.sound |
| `Tiny.c49_typed` | propext, Classical.choice, Quot.sound |
| `Tiny.c49_session` | propext, Classical.choice, Quot.sound |
| `Tiny.c49_findType` | propext, Classical.choice, Quot.sound |
| `Tiny.c49_findType_none` | propext, Classical.choice, Quot.sound |
| `Tiny.c49_void_ub` | propext, Classical.choice, Quot.sound |
| `Tiny.c50_array` | propext, Classical.choice, Quot.sound |
| `Tiny.c50_declared` | propext, Classical.choice, Quot.sound |
| `Tiny.c50_again` | propext, Classical.choice, Quot.sound |
| `Tiny.c50_error` | propext, Classical.choice, Quot.sound |
| `Tiny.c50_taken` | propext, Classical.choice, Quot.sound |
| `Tiny.c50_index` | propext, Classical.choice, Quot.sound |
| `Tiny.c50_calls` | propext, Classical.choice, Quot.sound |
| `Tiny.c50_keeps` | propext, Classical.choice, Quot.sound |
| `Tiny.c50_source` | propext, Classical.choice, Quot.sound |
| `Tiny.c50_lib` | propext, Classical.choice, Quot.sound |
| `Tiny.c50_dict` | propext, Classical.choice, Quot.sound |
| `Tiny.c50_io` | propext, Classical.choice, Quot.sound |
| `Tiny.c50_i64` | propext, Classical.choice, Quot.sound |
| `Tiny.c50_std` | propext, Classical.choice, Quot.sound |
| `Tiny.c50_setup` | propext, Classical.choice, Quot.sound |
| `Tiny.StdEx.c50_ends` | propext, Classical.choice, Quot.sound |
| `Tiny.StdEx.c50_long` | propext, Classical.choice, Quot.sound |
| `Tiny.c52_declares` | propext, Classical.choice, Quot.sound |
| `Tiny.c52_uses` | propext, Classical.choice, Quot.sound |
| `Tiny.c52_places` | propext, Classical.choice, Quot.sound |
| `Tiny.c52_ready` | propext, Classical.choice, Quot.sound |
| `Tiny.c52_struct` | propext, Classical.choice, Quot.sound |
| `Tiny.c52_use` | propext, Classical.choice, Quot.sound |
| `Tiny.c52_const` | propext, Classical.choice, Quot.sound |
| `Tiny.c52_calls` | propext, Classical.choice, Quot.sound |
| `Tiny.c52_setup` | propext, Classical.choice, Quot.sound |
| `Tiny.c52_source` | propext, Classical.choice, Quot.sound |
| `Tiny.c52_use_ignored` | propext, Classical.choice, Quot.sound |
| `Tiny.c52_scope_left` | propext, Classical.choice, Quot.sound |
| `Tiny.c51_parametric` | propext, Quot.sound |
| `Tiny.c51_gc` | propext, Classical.choice, Quot.sound |
| `Tiny.librarySpec` | propext, Classical.choice, Quot.sound |
| `Tiny.c51_library` | propext, Classical.choice, Quot.sound |
| `Tiny.c51_dict_total` | propext, Classical.choice, Quot.sound |
| `Tiny.sampleMachine_uses` | propext, Quot.sound |
| `Tiny.c51_index_cut` | propext, Quot.sound |
| `Tiny.c51_keys_clear` | propext, Quot.sound |
| `Tiny.c51_resize_null` | propext, Quot.sound |
| `Tiny.c51_get_null` | propext, Quot.sound |
| `Tiny.c51_misuse` | propext, Quot.sound |
| `Tiny.c53_never` | propext, Classical.choice, Quot.sound |
| `Tiny.c53_source` | propext, Classical.choice, Quot.sound |
| `Tiny.check_passes` | propext, Classical.choice, Quot.sound |
| `Tiny.c54_of_int` | propext, Quot.sound |
| `Tiny.c54_add` | propext, Classical.choice, Quot.sound |
| `Tiny.c54_mul` | propext, Classical.choice, Quot.sound |
| `Tiny.c54_to_string` | propext, Classical.choice, Quot.sound |
| `Tiny.c54_equal` | propext, Classical.choice, Quot.sound |
| `Tiny.c54_zero_key` | propext, Quot.sound |
| `Tiny.c55_printf` | propext, Classical.choice, Quot.sound |
| `Tiny.c55_too_few` | propext, Classical.choice, Quot.sound |
| `Tiny.c55_format` | propext, Classical.choice, Quot.sound |
| `Tiny.c55_trailing` | propext, Classical.choice, Quot.sound |
| `Tiny.c55_shown_once` | propext, Classical.choice, Quot.sound |
| `Tiny.c55_cycle` | propext, Classical.choice, Quot.sound |
| `Tiny.c55_input` | propext, Quot.sound |
| `Tiny.c55_input_eof` | propext, Quot.sound |
| `Tiny.c55_percent` | propext, Classical.choice, Quot.sound |
| `Tiny.c57_source` | propext, Classical.choice, Quot.sound |
| `Tiny.c57_tokens` | propext, Classical.choice, Quot.sound |
| `Tiny.c57_check` | propext, Classical.choice, Quot.sound |
| `Tiny.c57_check_error` | propext, Classical.choice, Quot.sound |
| `Tiny.c57_noUse` | propext, Classical.choice, Quot.sound |
| `Tiny.c57_uses` | propext, Classical.choice, Quot.sound |
| `Tiny.c57_array` | propext, Classical.choice, Quot.sound |
| `Tiny.c57_std` | propext, Classical.choice, Quot.sound |
| `Tiny.c57_long` | propext, Quot.sound |
| `Tiny.Crash1.c57_self` | propext, Classical.choice, Quot.sound |
| `Tiny.Crash1.c57_negate` | propext, Classical.choice, Quot.sound |
| `Tiny.Crash1.c57_open` | propext, Classical.choice, Quot.sound |
| `Tiny.Crash1.c57_made` | propext, Classical.choice, Quot.sound |
| `Tiny.Crash1.safe` | propext, Classical.choice, Quot.sound |
| `Tiny.c58_source` | propext, Classical.choice, Quot.sound |
| `Tiny.c58_tokens` | propext, Classical.choice, Quot.sound |
| `Tiny.c58_check` | propext, Classical.choice, Quot.sound |
| `Tiny.ex_code` | propext, Classical.choice, Quot.sound |
| `Tiny.rest_exact` | propext, Classical.choice, Quot.sound |
| `Tiny.Accept1.exact` | propext, Classical.choice, Quot.sound |
| `Tiny.Accept1.one_valid` | propext, Classical.choice, Quot.sound |
| `Tiny.c56_json` | propext, Classical.choice, Quot.sound |
| `Tiny.c56_nested` | propext, Classical.choice, Quot.sound |
| `Tiny.c56_strcat` | propext, Quot.sound |
| `Tiny.c56_primitives` | propext, Classical.choice, Quot.sound |
| `Tiny.c56_args` | propext, Classical.choice, Quot.sound |
| `Tiny.c56_not_struct` | propext, Classical.choice, Quot.sound |
| `Tiny.c56_again` | propext, Classical.choice, Quot.sound |
| `Tiny.c56_flat` | propext, Classical.choice, Quot.sound |
| `Tiny.c56_defect_unknown` | propext, Classical.choice, Quot.sound |
| `Tiny.c56_defect_recursive` | propext, Classical.choice, Quot.sound |
| `Tiny.c56_defect_long` | propext, Classical.choice, Quot.sound |
| `Tiny.c56_defect_str` | propext, Classical.choice, Quot.sound |
| `Tiny.JsonEx.c56_list` | propext, Classical.choice, Quot.sound |
| `Tiny.JsonEx.c56_wide` | propext, Classical.choice, Quot.sound |
| `Tiny.c59_delegate` | propext, Classical.choice, Quot.sound |
| `Tiny.c59_again` | propext, Classical.choice, Quot.sound |
| `Tiny.c59_nothing` | propext, Classical.choice, Quot.sound |
| `Tiny.c59_calls` | propext, Classical.choice, Quot.sound |
| `Tiny.c59_args` | propext, Classical.choice, Quot.sound |
| `Tiny.c59_defect_unknown` | propext, Classical.choice, Quot.sound |
| `Tiny.c59_defect_foreign` | propext, Classical.choice, Quot.sound |
| `Tiny.c60_fopen` | propext, Classical.choice, Quot.sound |
| `Tiny.c60_fread` | propext, Classical.choice, Quot.sound |
| `Tiny.c60_fwrite` | propext, Classical.choice, Quot.sound |
| `Tiny.c60_fwrite_count` | propext, Classical.choice, Quot.sound |
| `Tiny.c60_fwrite_beyond` | propext, Classical.choice, Quot.sound |
| `Tiny.c60_fseek` | propext, Classical.choice, Quot.sound |
| `Tiny.c60_fsize` | propext, Classical.choice, Quot.sound |
| `Tiny.c60_fclose` | propext, Classical.choice, Quot.sound |
| `Tiny.c60_closed` | propext, Classical.choice, Quot.sound |
| `Tiny.c60_wrong_way` | propext, Classical.choice, Quot.sound |
| `Tiny.c60_read_file` | propext, Classical.choice, Quot.sound |
| `Tiny.c60_write_file` | propext, Classical.choice, Quot.sound |
| `Tiny.c60_roundtrip` | propext, Classical.choice, Quot.sound |
| `Tiny.c60_write_pieces` | propext, Classical.choice, Quot.sound |
| `Tiny.c60_read_pieces` | propext, Classical.choice, Quot.sound |
| `Tiny.c60_others` | propext, Classical.choice, Quot.sound |
| `Tiny.c60_defect_missing` | propext, Classical.choice, Quot.sound |
| `Tiny.c60_defect_nul` | propext, Classical.choice, Quot.sound |
| `Tiny.c60_defect_mixed` | propext, Classical.choice, Quot.sound |
| `Tiny.c61_missing` | propext, Classical.choice, Quot.sound |
| `Tiny.c61_file` | propext, Classical.choice, Quot.sound |
| `Tiny.c61_written` | propext, Classical.choice, Quot.sound |
| `Tiny.c62_buffer` | propext, Classical.choice, Quot.sound |
| `Tiny.c62_text` | propext, Classical.choice, Quot.sound |
| `Tiny.c62_cut` | propext, Classical.choice, Quot.sound |
| `Tiny.c62_defect_file` | propext, Classical.choice, Quot.sound |
| `Tiny.c63_index` | propext, Classical.choice, Quot.sound |
| `Tiny.c63_named` | propext, Classical.choice, Quot.sound |
| `Tiny.c63_stays` | propext, Classical.choice, Quot.sound |
| `Tiny.c63_get` | propext, Quot.sound |
| `Tiny.c63_set` | propext, Quot.sound |
| `Tiny.c63_run` | propext, Classical.choice, Quot.sound |
| `Tiny.c63_call` | propext, Classical.choice, Quot.sound |
| `Tiny.c63_defect_later` | propext, Quot.sound |
| `Tiny.c64_source` | propext, Classical.choice, Quot.sound |
| `Tiny.c64_later` | propext, Classical.choice, Quot.sound |
| `Tiny.c64_functions` | propext, Classical.choice, Quot.sound |
| `Tiny.c64_called` | propext, Classical.choice, Quot.sound |
| `Tiny.c65_lines` | propext, Classical.choice, Quot.sound |
| `Tiny.c65_source` | propext, Classical.choice, Quot.sound |
| `Tiny.c65_filed` | propext, Classical.choice, Quot.sound |
| `Tiny.c65_start` | propext, Classical.choice, Quot.sound |
| `Tiny.c66_operands` | propext, Classical.choice, Quot.sound |
| `Tiny.c67_listing` | propext, Classical.choice, Quot.sound |
| `Tiny.c67_program` | propext, Classical.choice, Quot.sound |
| `Tiny.ListedEx.listed` | propext, Classical.choice, Quot.sound |
