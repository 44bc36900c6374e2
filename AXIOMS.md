# Axioms of the theorems

Generated by `tools/axioms.py` with `#print axioms` for every theorem named in MANIFEST.json.

## Classical.choice, Quot.sound, propext (266 theorems)

`Pas.Accept.C82_any_expression_partial`, `Pas.Accept.C82_block_partial`, `Pas.Accept.C82_build_partial`, `Pas.Accept.C82_constant`, `Pas.Accept.C82_declared_partial`, `Pas.Accept.C82_errors_stay`, `Pas.Accept.C82_expression_partial`, `Pas.Accept.C82_file_partial`, `Pas.Accept.C82_procedure_block_partial`, `Pas.Accept.C82_procedure_errors_stay`, `Pas.Accept.C82_program_partial`, `Pas.Accept.C82_statement_partial`, `Pas.C01_unary`, `Pas.C04_mod_exact`, `Pas.C04_shift_partial`, `Pas.C04_sra_partial`, `Pas.C04_undefined_iff`, `Pas.C04_violation`, `Pas.C05_load`, `Pas.C05_load_block_partial`, `Pas.C05_roundtrip_partial`, `Pas.C05_store_block_partial`, `Pas.C06_level_byte_machine`, `Pas.C07_call`, `Pas.C07_return`, `Pas.C07_static_links`, `Pas.C08_legal_machine_partial`, `Pas.C08_longop8`, `Pas.C10_startup_partial`, `Pas.C11_operators`, `Pas.C12_relations`, `Pas.C13_include_exclude_partial`, `Pas.C13_member_partial`, `Pas.C13_singleton`, `Pas.C13_violation_include`, `Pas.C14_subrange_partial`, `Pas.C16_arith_partial`, `Pas.C16_step`, `Pas.C16_unary_partial`, `Pas.C16_violation_least`, `Pas.C16_violation_overflow`, `Pas.C18_widen`, `Pas.C19_blocks_partial`, `Pas.C19_progress_partial`, `Pas.C20_refuse_partial`, `Pas.C20_reuse_partial`, `Pas.C21_twice_partial`, `Pas.C22_assign_temp_partial`, `Pas.C22_self`, `Pas.C23_append_partial`, `Pas.C23_full`, `Pas.C24_compare_partial`, `Pas.C24_violation_memcmp`, `Pas.C25_charAt_partial`, `Pas.C25_copy_partial`, `Pas.C25_delete_partial`, `Pas.C25_dup_partial`, `Pas.C25_insert_partial`, `Pas.C26_insert`, `Pas.C27_init`, `Pas.C28_advance`, `Pas.C28_advance_machine`, `Pas.C28_generate`, `Pas.C28_machine`, `Pas.C29_behaviour_partial`, `Pas.C30_fold_partial`, `Pas.C30_unary_partial`, `Pas.C31_address_partial`, `Pas.C31_adjacent`, `Pas.C31_constLoad_partial`, `Pas.C31_neg_add`, `Pas.C31_otherConst_partial`, `Pas.C31_push`, `Pas.C31_swap_partial`, `Pas.C31_unary_partial`, `Pas.C32_branch_partial`, `Pas.C32_unary_partial`, `Pas.C33_dup_store`, `Pas.C33_fetch`, `Pas.C33_indexed_block_partial`, `Pas.C33_indexed_partial`, `Pas.C33_indexed_store_partial`, `Pas.C33_inds_load`, `Pas.C33_load_twice`, `Pas.C33_store_load_partial`, `Pas.C33_xchg`, `Pas.C34_behaviour_partial`, `Pas.C34_finalize_partial`, `Pas.C44_identifier`, `Pas.C45_alias`, `Pas.C45_recognised`, `Pas.C45_token`, `Pas.C45_unique`, `Pas.C46_level`, `Pas.C46_lookup`, `Pas.C46_restore`, `Pas.C46_token_partial`, `Pas.C53_machine`, `Pas.C54_divmod_partial`, `Pas.C54_shift_partial`, `Pas.C55_adjust`, `Pas.C55_push`, `Pas.C56_violation_control`, `Pas.C62_binary_partial`, `Pas.C62_shift`, `Pas.C62_unary_partial`, `Pas.C62_violation_folded_order`, `Pas.C62_widen`, `Pas.C64_only_sysio`, `Pas.C64_refused`, `Pas.C64_text_unique`, `Pas.C64_write`, `Pas.C65_numbers_partial`, `Pas.C65_read_integer_partial`, `Pas.C65_read_real_partial`, `Pas.C65_read_string_long`, `Pas.C65_read_string_partial`, `Pas.C65_roundtrip_partial`, `Pas.C65_violation_real_blank`, `Pas.C65_violation_real_exponent`, `Pas.C66_distinct`, `Pas.C69_str_partial`, `Pas.C69_val_overflow`, `Pas.C69_val_partial`, `Pas.C69_val_refused`, `Pas.C75_address`, `Pas.C75_clear`, `Pas.C75_default`, `Pas.C75_go`, `Pas.C75_go_arrives`, `Pas.C75_next_partial`, `Pas.C75_number`, `Pas.C75_run`, `Pas.C75_run_arrives`, `Pas.C75_session`, `Pas.C75_step`, `Pas.C77_array_to_string_partial`, `Pas.C77_char_to_string_partial`, `Pas.C77_empty_string_partial`, `Pas.C77_violation_rest`, `Pas.Chain.C78_files_partial`, `Pas.Chain.C78_link_refused`, `Pas.Chain.C78_refused`, `Pas.Chain.C78_source_partial`, `Pas.Chain.C78_violation_reloc`, `Pas.Chain.C78_violation_unit`, `Pas.FloatOps.C63_arith`, `Pas.FloatOps.C63_compare`, `Pas.FloatOps.C63_compare_special`, `Pas.FloatOps.C63_exact`, `Pas.FloatOps.C63_float`, `Pas.FloatOps.C63_functions`, `Pas.FloatOps.C63_illegal`, `Pas.FloatOps.C63_trunc_partial`, `Pas.FloatOps.C63_violation_trunc`, `Pas.LabelTab.C89_finalize`, `Pas.LabelTab.C89_labels`, `Pas.Link.C35_order`, `Pas.Link.C35_resolution`, `Pas.Link.C36_frame`, `Pas.Link.C36_link_partial`, `Pas.Link.C36_operands`, `Pas.Link.C37_constants_partial`, `Pas.Link.C88_symbols`, `Pas.MkConfig.C90_header_partial`, `Pas.MkConfig.C90_program`, `Pas.MkConfig.C90_violation_backslash`, `Pas.MkConfig.C90_violation_long`, `Pas.MkConfig.C90_violation_name`, `Pas.MkConfig.C90_violation_path`, `Pas.PoffMem.C74_passes_partial`, `Pas.PoffOwn.C88_plink_partial`, `Pas.Popt.C59_succeeds_partial`, `Pas.Popt.C59_terminates_partial`, `Pas.Popt.C59_violation_udiv`, `Pas.Popt.C60_closed`, `Pas.Popt.C60_structure`, `Pas.Popt.C60_targets`, `Pas.Popt.C80_only_copies`, `Pas.Popt.C80_unchanged`, `Pas.Popt.C81_rules`, `Pas.Props.C38_cut_section`, `Pas.Props.C38_roundtrip_partial`, `Pas.Props.C38_truncated`, `Pas.Props.C38_violation_debug`, `Pas.Props.C38_violation_files`, `Pas.Props.C38_violation_files_example`, `Pas.Props.C40_headers`, `Pas.Props.C40_linetab`, `Pas.Props.C40_reltab`, `Pas.Props.C40_swap32`, `Pas.Props.C40_symtab`, `Pas.Props.C40_violation_debug`, `Pas.Props.C40_violation_filetab`, `Pas.Props.C41_lookup_partial`, `Pas.Props.C41_single`, `Pas.Props.C41_total`, `Pas.Props.C41_violation`, `Pas.Props.C42_readback_partial`, `Pas.Props.C42_violation`, `Pas.Props.C76_compiler_partial`, `Pas.Props.C76_line_partial`, `Pas.Props.C76_listing_partial`, `Pas.Props.C76_listing_total`, `Pas.Props.C76_notation`, `Pas.Props.C76_total`, `Pas.Props.C76_unambiguous`, `Pas.Props.C76_unambiguous_line`, `Pas.Props.C76_violation_compiler`, `Pas.Props.C76_violation_cut_off`, `Pas.Props.C76_violation_destination`, `Pas.Props.C76_violation_float`, `Pas.Props.C76_violation_function`, `Pas.Props.C76_violation_heading`, `Pas.Props.C76_violation_level`, `Pas.Props.C76_violation_long_jump`, `Pas.Props.C76_violation_undefined`, `Pas.Props.C85_listing_partial`, `Pas.Props.C85_lookup_partial`, `Pas.Props.C85_reject_partial`, `Pas.Props.C85_violation_check`, `Pas.Prun.C86_not_loaded`, `Pas.Prun.C86_run_partial`, `Pas.Prun.C86_source_partial`, `Pas.RelocDump.C91_relocations_partial`, `Pas.RelocDump.C91_violation_kind`, `Pas.RelocDump.C91_violation_size`, `Pas.Src.C47_run_time_partial`, `Pas.Src.C47_value_partial`, `Pas.Src.C47_violation_comparison`, `Pas.Src.C48_expression_partial`, `Pas.Src.C48_violation_constant`, `Pas.Src.C49_deterministic`, `Pas.Src.C49_statement_partial`, `Pas.Src.C50_for_partial`, `Pas.Src.C50_violation_maxint`, `Pas.Src.C52_machine_partial`, `Pas.Src.C52_program_partial`, `Pas.Src.C57_variables_partial`, `Pas.Src.C58_set_constant_partial`, `Pas.Src.C70_constants_partial`, `Pas.Src.C70_program_partial`, `Pas.Src.C70_write_partial`, `Pas.Src.C71_layout_partial`, `Pas.Src.C71_source_partial`, `Pas.Src.C71_table`, `Pas.Src.C71_tokens_partial`, `Pas.Src.C71_unclosed_string`, `Pas.Src.C72_call_partial`, `Pas.Src.C72_deterministic`, `Pas.Src.C73_assign_partial`, `Pas.Src.C73_read_partial`, `Pas.Src.C79_numbers_partial`, `Pas.Src.C79_read_partial`, `Pas.Src.C79_total`, `Pas.Src.C83_agrees_partial`, `Pas.Src.C83_one_case`, `Pas.Src.C83_program_partial`, `Pas.Src.C83_source_partial`, `Pas.Src.C83_three_cases`, `Pas.Src.C84_inside_partial`, `Pas.Src.C84_program_partial`, `Pas.Src.C84_tokens_partial`, `Pas.Src.C84_whole_partial`, `Pas.SymDump.C91_symbols_partial`, `Pas.SymDump.C91_violation_symbol_kind`

## Quot.sound, propext (284 theorems)

`Pas.Accept.C82_violation_case`, `Pas.Accept.C82_violation_comma`, `Pas.Accept.C82_violation_empty`, `Pas.Accept.C82_violation_file`, `Pas.Accept.C82_violation_order`, `Pas.Accept.C82_violation_parameter`, `Pas.Accept.C82_violation_product`, `Pas.Accept.C82_violation_read`, `Pas.Accept.C82_violation_semicolon`, `Pas.Accept.C82_violation_sign`, `Pas.Accept.C82_violation_twice`, `Pas.C01_arith`, `Pas.C01_bitwise`, `Pas.C02_signed`, `Pas.C02_unsigned`, `Pas.C02_zero`, `Pas.C03_jmp`, `Pas.C03_signed`, `Pas.C03_unsigned`, `Pas.C03_zero`, `Pas.C04_signed_partial`, `Pas.C04_unsigned_partial`, `Pas.C05_store_byte`, `Pas.C05_store_word`, `Pas.C05_violation_indexed`, `Pas.C05_violation_odd_block`, `Pas.C06_call_return`, `Pas.C06_level_byte`, `Pas.C08_bad_pc`, `Pas.C08_illegal`, `Pas.C08_legal_partial`, `Pas.C08_violation_longop24`, `Pas.C09_fetch_partial`, `Pas.C09_violation`, `Pas.C10_lac`, `Pas.C10_violation_heap`, `Pas.C10_violation_odd_strings`, `Pas.C10_violation_wrap`, `Pas.C13_violation_64`, `Pas.C14_violation`, `Pas.C15_card`, `Pas.C16_bitwise`, `Pas.C16_umul`, `Pas.C17_branch_partial`, `Pas.C17_branch_zero_partial`, `Pas.C17_equality_partial`, `Pas.C17_violation_examples`, `Pas.C17_violation_swapped`, `Pas.C17_zero`, `Pas.C18_dup`, `Pas.C18_narrow`, `Pas.C18_violation_xchg`, `Pas.C19_violation_huge`, `Pas.C19_violation_overlap`, `Pas.C20_violation`, `Pas.C21_outside`, `Pas.C21_violation_stale`, `Pas.C22_assign`, `Pas.C23_char_partial`, `Pas.C23_violation`, `Pas.C24_order`, `Pas.C25_length`, `Pas.C25_pos_partial`, `Pas.C25_violation_charAt`, `Pas.C25_violation_delete`, `Pas.C25_violation_delete_zero`, `Pas.C25_violation_insert`, `Pas.C25_violation_insert_self`, `Pas.C25_violation_pos`, `Pas.C25_violation_pos_nul`, `Pas.C26_delete`, `Pas.C26_fill`, `Pas.C26_violation_array`, `Pas.C26_violation_char`, `Pas.C27_disjoint`, `Pas.C27_violation`, `Pas.C28_eof`, `Pas.C28_roundtrip`, `Pas.C28_sizes`, `Pas.C28_violation_long`, `Pas.C29_merge_partial`, `Pas.C29_violation_unsigned`, `Pas.C30_violation_div`, `Pas.C30_violation_gtz`, `Pas.C30_violation_mod`, `Pas.C30_violation_udiv`, `Pas.C30_violation_ult`, `Pas.C30_violation_zero`, `Pas.C31_violation_div`, `Pas.C31_violation_las`, `Pas.C31_violation_lt`, `Pas.C31_violation_negate`, `Pas.C31_violation_udiv`, `Pas.C31_violation_zero_lt`, `Pas.C31_violation_zero_sub`, `Pas.C32_violation_jgtz`, `Pas.C32_violation_neg`, `Pas.C32_violation_not`, `Pas.C33_violation_byte`, `Pas.C33_violation_indexed`, `Pas.C33_violation_lar`, `Pas.C33_violation_middle`, `Pas.C34_violation_unsigned`, `Pas.C43_char_partial`, `Pas.C43_string`, `Pas.C43_violation`, `Pas.C44_decimal`, `Pas.C44_hexadecimal_partial`, `Pas.C44_real`, `Pas.C44_violation_binary`, `Pas.C44_violation_dollar`, `Pas.C45_words`, `Pas.C46_violation`, `Pas.C51_bounds`, `Pas.C51_extension_partial`, `Pas.C53_memory_map`, `Pas.C54_udivmod_partial`, `Pas.C54_violation_zero`, `Pas.C55_index`, `Pas.C55_xchg`, `Pas.C56_determined`, `Pas.C56_file`, `Pas.C56_layout`, `Pas.C56_line_comment_partial`, `Pas.C56_single`, `Pas.C56_symbols`, `Pas.C56_violation_hang`, `Pas.C56_violation_long_line`, `Pas.C62_violation_equal`, `Pas.C62_violation_narrow`, `Pas.C62_violation_order`, `Pas.C62_violation_overflow`, `Pas.C62_violation_shift`, `Pas.C62_violation_zero`, `Pas.C64_write_string`, `Pas.C65_read_char_partial`, `Pas.C65_readln`, `Pas.C65_refused`, `Pas.C65_violation_empty_line`, `Pas.C65_violation_end_of_file`, `Pas.C65_violation_long_line`, `Pas.C65_violation_real_large`, `Pas.C65_violation_second_number`, `Pas.C65_violation_smallest`, `Pas.C66_alloc`, `Pas.C66_free`, `Pas.C66_full`, `Pas.C67_block_roundtrip`, `Pas.C67_eof_partial`, `Pas.C67_eoln`, `Pas.C67_filepos`, `Pas.C67_filesize`, `Pas.C67_read_block`, `Pas.C67_seek`, `Pas.C67_violation_eof_input`, `Pas.C67_violation_seekeof`, `Pas.C67_write_block`, `Pas.C68_append`, `Pas.C68_assign`, `Pas.C68_close`, `Pas.C68_failed`, `Pas.C68_file_roundtrip`, `Pas.C68_reset`, `Pas.C68_rewrite`, `Pas.C68_violation_reset_open`, `Pas.C68_violation_reset_size`, `Pas.C69_violation_str_append`, `Pas.C69_violation_str_long`, `Pas.C69_violation_str_negative`, `Pas.C69_violation_str_upper`, `Pas.C69_violation_val_code`, `Pas.C69_violation_val_empty`, `Pas.C69_violation_val_octal`, `Pas.C75_display`, `Pas.C75_looking`, `Pas.C75_reset`, `Pas.C75_set`, `Pas.C75_status`, `Pas.C75_violation_display`, `Pas.C75_violation_next`, `Pas.C75_violation_outside`, `Pas.C75_violation_silent`, `Pas.C75_violation_watch`, `Pas.C75_watchpoint`, `Pas.C77_string_to_array_partial`, `Pas.C77_violation_overrun`, `Pas.FloatOps.C63_violation_round`, `Pas.LabelTab.C89_relocations`, `Pas.LabelTab.C89_violation_release`, `Pas.Link.C37_lines_partial`, `Pas.Link.C37_violation_files`, `Pas.PoffMem.C74_after_read_partial`, `Pas.PoffMem.C74_append`, `Pas.PoffMem.C74_constants_partial`, `Pas.PoffMem.C74_file_names`, `Pas.PoffMem.C74_line_numbers`, `Pas.PoffMem.C74_no_relocations`, `Pas.PoffMem.C74_program`, `Pas.PoffMem.C74_relocations`, `Pas.PoffMem.C74_strings`, `Pas.PoffMem.C74_symbols`, `Pas.PoffMem.C74_tmp_byte`, `Pas.PoffMem.C74_tmp_program_partial`, `Pas.PoffMem.C74_tmp_symbols`, `Pas.PoffMem.C74_violation_after_read`, `Pas.PoffMem.C74_violation_bytes`, `Pas.PoffMem.C74_violation_string`, `Pas.PoffOwn.C87_all_released`, `Pas.PoffOwn.C87_owned`, `Pas.PoffOwn.C88_popt`, `Pas.PoffOwn.C88_prun`, `Pas.PoffOwn.C88_refused`, `Pas.Popt.C59_violation_shift`, `Pas.Popt.C59_violation_zero`, `Pas.Popt.C61_relocations_partial`, `Pas.Popt.C61_violation_dup`, `Pas.Popt.C61_violation_exchange`, `Pas.Popt.C61_violation_store`, `Pas.Props.C38_foreign`, `Pas.Props.C38_numbers`, `Pas.Props.C39_again`, `Pas.Props.C39_forever`, `Pas.Props.C39_history`, `Pas.Props.C40_swap16`, `Pas.Props.C42_violation_overrun`, `Pas.Props.C85_table_partial`, `Pas.Props.C85_violation_entry`, `Pas.Prun.C86_number`, `Pas.Prun.C86_one_name`, `Pas.Prun.C86_refused`, `Pas.Prun.C86_violation_alloc`, `Pas.Prun.C86_violation_heap`, `Pas.Prun.C86_violation_name`, `Pas.Prun.C86_violation_size`, `Pas.Src.C47_name`, `Pas.Src.C47_violation_negative`, `Pas.Src.C47_violation_or`, `Pas.Src.C47_violation_overflow`, `Pas.Src.C47_violation_parentheses`, `Pas.Src.C47_violation_succ`, `Pas.Src.C47_violation_zero`, `Pas.Src.C48_violation_abs`, `Pas.Src.C48_violation_boolean_order`, `Pas.Src.C48_violation_mixed_product`, `Pas.Src.C48_violation_ord`, `Pas.Src.C48_violation_succ`, `Pas.Src.C49_violation_case_true`, `Pas.Src.C49_violation_repeat_continue`, `Pas.Src.C50_violation_order`, `Pas.Src.C50_violation_short`, `Pas.Src.C50_violation_word`, `Pas.Src.C57_violation_alias`, `Pas.Src.C57_violation_predefined`, `Pas.Src.C57_violation_twice`, `Pas.Src.C57_violation_type`, `Pas.Src.C58_violation_difference`, `Pas.Src.C58_violation_intersection`, `Pas.Src.C58_violation_outside`, `Pas.Src.C58_violation_overwritten`, `Pas.Src.C58_violation_range`, `Pas.Src.C58_violation_union`, `Pas.Src.C70_appends`, `Pas.Src.C70_violation_boolean`, `Pas.Src.C70_violation_comma`, `Pas.Src.C70_violation_integer_width`, `Pas.Src.C70_violation_negative_width`, `Pas.Src.C70_violation_precision`, `Pas.Src.C70_violation_string_width`, `Pas.Src.C70_violation_writeln_file`, `Pas.Src.C72_appends`, `Pas.Src.C72_violation_hide`, `Pas.Src.C72_violation_hide_constant`, `Pas.Src.C72_violation_parameters`, `Pas.Src.C72_violation_parentheses`, `Pas.Src.C72_violation_same_name`, `Pas.Src.C73_places`, `Pas.Src.C73_violation_bounds`, `Pas.Src.C73_violation_dimensions`, `Pas.Src.C73_violation_size`, `Pas.Src.C79_violation_empty_line`, `Pas.Src.C79_violation_end`, `Pas.Src.C79_violation_second_char`, `Pas.Src.C79_violation_second_number`, `Pas.Src.C84_violation_end`

## none (2 theorems)

`Pas.C45_disjoint`, `Pas.C75_violation_shown`

## propext (14 theorems)

`Pas.C29_operand_partial`, `Pas.C51_basename`, `Pas.C51_parts`, `Pas.C51_violation`, `Pas.C75_letters`, `Pas.C75_repeat`, `Pas.C75_violation_address`, `Pas.C75_violation_line`, `Pas.Link.C37_violation_large`, `Pas.PoffMem.C74_replace`, `Pas.PoffMem.C74_violation_clone`, `Pas.PoffOwn.C87_violation_read`, `Pas.PoffOwn.C88_violation_link`, `Pas.PoffOwn.C88_violation_load`
