# Axioms per theorem

Output of `#print axioms` for every theorem of MANIFEST.json, made by `tools/axioms.py`.

## propext, Classical.choice, Quot.sound

* `FLPR.C01_free_roundtrip`
* `FLPR.C02_free_category`
* `FLPR.C02_free_literal_state`
* `FLPR.C02_free_nonfortran_fields`
* `FLPR.C02_free_fortran_fields`
* `FLPR.C02_free_main_trimmed_partial`
* `FLPR.C02_free_main_nonempty_partial`
* `FLPR.C02_free_main_nonempty_violation`
* `FLPR.C02_free_main_trimmed_violation_leading`
* `FLPR.C02_free_main_trimmed_violation_trailing`
* `FLPR.C03_free_break`
* `FLPR.C03_free_open_delim`
* `FLPR.C03_free_outcome`
* `FLPR.C04_fixed_roundtrip_nonfortran`
* `FLPR.C04_fixed_roundtrip_partial`
* `FLPR.C04_fixed_roundtrip_fits_partial`
* `FLPR.C04_fixed_roundtrip_violation_text`
* `FLPR.C04_fixed_roundtrip_violation_label`
* `FLPR.C04_fixed_roundtrip_violation_open`
* `FLPR.C04_fixed_roundtrip_violation_cr`
* `FLPR.C04_fixed_roundtrip_violation_past`
* `FLPR.C05_fixed_last_column_partial`
* `FLPR.C05_fixed_last_column_violation`
* `FLPR.C06_scan_free`
* `FLPR.C06_scan_free_outcome`
* `FLPR.C07_scan_fixed`
* `FLPR.C07_scan_fixed_outcome`
* `FLPR.C08_make_continued`
* `FLPR.C08_make_uncontinued`
* `FLPR.C08_make_continued_idem`
* `FLPR.C08_make_uncontinued_idem_partial`
* `FLPR.C08_make_uncontinued_idem_violation`
* `FLPR.C08_inverse_applies`
* `FLPR.C08_inverse_violation`
* `FLPR.C08_continued_reread`
* `FLPR.C08_uncontinued_reread_partial`
* `FLPR.C08_violation_second_mark`
* `FLPR.C08_violation_junk`
* `FLPR.C08_violation_open`
* `FLPR.C09_make_preprocessor_print_violation`
* `FLPR.C10_make_comment_or_blank_category`
* `FLPR.C10_make_comment_or_blank_violation_blank`
* `FLPR.C10_make_comment_or_blank_violation_continued`
* `FLPR.C10_make_comment_or_blank_comment`
* `FLPR.C11_text_kept`
* `FLPR.C11_sets_indent_partial`
* `FLPR.C11_comment_partial`
* `FLPR.C11_outcome_partial`
* `FLPR.C11_trailing_comment`
* `FLPR.C11_sets_indent_violation_fixed`
* `FLPR.C11_violation_uninitialised`
* `FLPR.C11_violation_throw`
* `FLPR.C11_comment_violation`
* `FLPR.C11_return_violation`
* `FLPR.C12_set_label`
* `FLPR.C12_set_label_outcome`
* `FLPR.C12_set_label_column`
* `FLPR.C12_clear_label_violation`
* `FLPR.C12_return_violation`
* `FLPR.C12_set_label_column_violation`
* `FLPR.C13_unspace_main_partial`
* `FLPR.C13_unspace_main_violation_leading`
* `FLPR.C13_unspace_main_violation_blank`
* `FLPR.C14_linecolno`
* `FLPR.C15_outcome`
* `FLPR.C15_positions_partial`
* `FLPR.C15_layout_partial`
* `FLPR.C15_text`
* `FLPR.C15_violation_comment`
* `FLPR.C15_violation_fused`
* `FLPR.C15_violation_formfeed`
* `FLPR.C15_violation_empty_first`
* `FLPR.C16_cover`
* `FLPR.C16_has_empty`
* `FLPR.C17_tokens`
* `FLPR.C17_line`
* `FLPR.C17_violation_fused`
* `FLPR.C18_outcome`
* `FLPR.C18_text_partial`
* `FLPR.C18_lines_partial`
* `FLPR.C18_violation_blank`
* `FLPR.C18_violation_literal`
* `FLPR.C18_violation_fixed`
* `FLPR.C18_violation_ampersand`
* `FLPR.C18_violation_fused`
* `FLPR.C19_stmts_partial`
* `FLPR.C19_scanned_free`
* `FLPR.C19_scanned_fixed`
* `FLPR.C20_violation_stale`
* `FLPR.C20_violation_isolate_end`
* `FLPR.C20_violation_file_throws`
* `FLPR.C20_file_defined`
* `FLPR.C20_isolate`
* `FLPR.C20_scanned_free`
* `FLPR.C20_scanned_fixed`
* `FLPR.C20_file`
* `FLPR.C20_violation_semicolon`
* `FLPR.C20_violation_comment`
* `FLPR.C20_violation_throws`
* `FLPR.C20_violation_no_tokens`
* `FLPR.C20_violation_refused`
* `FLPR.C20_violation_edited`
* `FLPR.C20_violation_fused`
* `FLPR.C20_violation_assertion`
* `FLPR.C20_violation_label`
* `FLPR.C20_violation_fixed`
* `FLPR.C20_ends`
* `FLPR.C20_fields`
* `FLPR.C20_defined_partial`
* `FLPR.C20_stmts`
* `FLPR.C20_tokens`
* `FLPR.C20_refused`
* `FLPR.C20_text`
* `FLPR.C20_positions_partial`
* `FLPR.C20_no_text_lost`
* `FLPR.C21_reread_partial`
* `FLPR.C21_violation_fused`
* `FLPR.C21_violation_comment`
* `FLPR.C21_violation_blank`
* `FLPR.C21_violation_ifdef`
* `FLPR.C21_violation_directive`
* `FLPR.C21_violation_include`
* `FLPR.C21_violation_overflow`
* `FLPR.C21_violation_digit`
* `FLPR.C21_violation_ampersand`
* `FLPR.C21_violation_label_only`
* `FLPR.C21_violation_empty_line`
* `FLPR.C22_history_partial`
* `FLPR.C22_history_clean_partial`
* `FLPR.C22_history_violation`
* `FLPR.C23_lookup`
* `FLPR.C23_unsmash_split`
* `FLPR.C23_unsmash_other`
* `FLPR.SP.C24_close_partial`
* `FLPR.SP.C24_open`
* `FLPR.SP.C25_term_partial`
* `FLPR.SP.C25_function`
* `FLPR.SP.C25_dispatch`
* `FLPR.SP.C25_violation_negation`
* `FLPR.SP.C25_violation_designator`
* `FLPR.SP.C26_covers_partial`
* `FLPR.SP.C26_dispatch_partial`
* `FLPR.SP.C26_violation_overrun`
* `FLPR.SP.C27_order`
* `FLPR.SP.C27_after_builtin`
* `FLPR.SL.C28_history_partial`
* `FLPR.SL.C28_survive_step`
* `FLPR.SL.C28_survive`
* `FLPR.SL.C29_view`
* `FLPR.SL.C29_construct_list`
* `FLPR.SL.C29_push_back`
* `FLPR.SL.C29_push_front`
* `FLPR.SL.C29_push_unset`
* `FLPR.SL.C29_step`
* `FLPR.SL.C29_history`
* `FLPR.SL.C29_violation_same_end`
* `FLPR.Tr.C30_history`
* `FLPR.Tr.C30_total`
* `FLPR.Tr.C31_wellLinked`
* `FLPR.Tr.C31_moves`
* `FLPR.Tr.C31_inverse`
* `FLPR.Tr.C31_try`
* `FLPR.Tr.C31_try_stays`
* `FLPR.C32_level`
* `FLPR.C32_countdown`
* `FLPR.C32_single`
* `FLPR.Reg.C33_appends`
* `FLPR.Reg.C33_looks_partial`
* `FLPR.Reg.C33_validate_partial`
* `FLPR.Reg.C33_rejects`
* `FLPR.Reg.C33_insert_partial`
* `FLPR.Ind.C34_indent`
* `FLPR.Ind.C34_column`
* `FLPR.Ind.C34_text`
* `FLPR.Ind.C34_once`
* `FLPR.Ind.C34_idempotent_partial`
* `FLPR.Ind.C34_return_partial`
* `FLPR.Ind.C34_defined_partial`
* `FLPR.Ind.C34_tables`
* `FLPR.Ind.C34_constant`
* `FLPR.Ind.C34_violation_negative`
* `FLPR.Ind.C34_violation_labelled`
* `FLPR.Ind.C34_violation_block`
* `FLPR.Ind.C34_violation_throw`
* `FLPR.C35_extension`
* `FLPR.C35_no_extension`
* `FLPR.C35_given`
* `FLPR.C36_register`
* `FLPR.C36_history`
* `FLPR.C36_is_name_partial`
* `FLPR.C36_is_name_violation`
* `FLPR.C36_register_violation`
* `FLPR.C37_last_non_blank`
* `FLPR.C38_lower_violation`
* `FLPR.PP.C39_term_partial`
* `FLPR.PP.C39_tree_partial`
* `FLPR.PP.C39_program_partial`
* `FLPR.PP.C39_violation_shared`
* `FLPR.PP.C39_violation_silent`
* `FLPR.PP.C39_violation_trailing`
* `FLPR.PP.C39_violation_hole`
* `FLPR.PP.C40_defined_partial`
* `FLPR.PP.C40_builtin_partial`
* `FLPR.PP.C40_leaves`
* `FLPR.PP.C40_good_partial`
* `FLPR.PP.C40_violation_part`
* `FLPR.PP.C40_violation_hidden`
* `FLPR.PP.C40_violation_where`
* `FLPR.Proc.C41_parsed_partial`
* `FLPR.Proc.C41_violation`
* `FLPR.Proc.C41_ingest_partial`
* `FLPR.C42_replace_partial`
* `FLPR.C42_remove_partial`
* `FLPR.C42_history_partial`
* `FLPR.C42_fresh`
* `FLPR.C42_violation_end`
* `FLPR.C42_violation_comment`
* `FLPR.C42_violation_fused`
* `FLPR.C42_violation_split`
* `FLPR.C43_fixed_break`
* `FLPR.C44_fixed_category`
* `FLPR.C44_fixed_left`
* `FLPR.C44_fixed_nonfortran_fields`
* `FLPR.C44_fixed_outcome`
* `FLPR.C45_free_label_partial`
* `FLPR.C45_free_label_violation`
* `FLPR.C45_fixed_label_partial`
* `FLPR.C45_fixed_label_violation`
* `FLPR.C46_free_groups`
* `FLPR.C46_fixed_groups`
* `FLPR.C46_free_homogeneous_partial`
* `FLPR.C46_free_homogeneous_violation`
* `FLPR.C46_violation_blank`
* `FLPR.C46_violation_comment`
* `FLPR.C46_fixed_homogeneous`
* `FLPR.C47_tiles`
* `FLPR.C47_non_ascii`
* `FLPR.C47_pieces`
* `FLPR.C48_word`
* `FLPR.C48_first_word`
* `FLPR.C49_render_partial`
* `FLPR.C49_violation_fused`
* `FLPR.C49_violation_tab`
* `FLPR.C50_cursor_partial`
* `FLPR.C51_spelling`
* `FLPR.C51_distinct`
* `FLPR.SP.C52_terminates`
* `FLPR.SP.C52_dispatch`
* `FLPR.SP.C53_whole_partial`
* `FLPR.SP.C53_violation_interface`
* `FLPR.SP.C53_violation_import`
* `FLPR.SP.C54_tag_partial`
* `FLPR.SP.C54_violation`
* `FLPR.PP.C55_violation_where`
* `FLPR.SP.C55_defined_partial`
* `FLPR.SP.C55_only_ub`
* `FLPR.SP.C55_violation_allocate`
* `FLPR.SP.C55_violation_unbalanced`
* `FLPR.SP.C56_action_tags`
* `FLPR.SP.C56_action_tree`
* `FLPR.SP.C57_violation_submodule`
* `FLPR.PP.C58_rewinds_partial`
* `FLPR.PP.C58_library_partial`
* `FLPR.PP.C58_violation`
* `FLPR.PP.C59_terminates_partial`
* `FLPR.PP.C59_violation_part`
* `FLPR.PP.C60_violation_label`
* `FLPR.PP.C60_violation_crossed`
* `FLPR.PP.C60_violation_stale`
* `FLPR.PP.C60_nest_partial`
* `FLPR.PP.C65_derives`
* `FLPR.PP.C65_leaf_tag`
* `FLPR.SP.C63_recognised`
* `FLPR.SP.C63_typed_partial`
* `FLPR.SP.C63_declaration_partial`
* `FLPR.SP.C63_implicit_partial`
* `FLPR.SP.C63_violation_rank_name`
* `FLPR.SP.C63_violation_operator_eqv`
* `FLPR.SP.C63_violation_procedure_interface`
* `FLPR.SP.C63_violation_component_coarray`
* `FLPR.C61_main_partial`
* `FLPR.C61_violation_fewer`
* `FLPR.C61_insert_before`
* `FLPR.C61_insert_after`
* `FLPR.C61_insert_end`
* `FLPR.C61_replace_partial`
* `FLPR.C61_replace_exact`
* `FLPR.C61_violation_alone`
* `FLPR.C61_read`
* `FLPR.C61_insert_tokens`
* `FLPR.C61_insert_after_tokens`
* `FLPR.C61_violation_continuation`
* `FLPR.C61_violation_middle`
* `FLPR.C61_violation_comment_lost`
* `FLPR.C61_violation_throws`
* `FLPR.C61_violation_comment`
* `FLPR.C61_violation_stale`
* `FLPR.C61_violation_marks`
* `FLPR.C61_violation_fused`
* `FLPR.C61_violation_fused_half`
* `FLPR.C62_effect`
* `FLPR.C62_empty`
* `FLPR.C62_no_lines`
* `FLPR.C62_column`
* `FLPR.C62_reread_partial`
* `FLPR.C62_tokens`
* `FLPR.C62_violation_string`
* `FLPR.C62_violation_label`
* `FLPR.C62_violation_preprocessor`
* `FLPR.C62_violation_fixed`
* `FLPR.C64_scanned_free`
* `FLPR.C64_scanned_fixed`
* `FLPR.C64_violation_label`
* `FLPR.C64_violation_append`
* `FLPR.C64_violation_semicolon`
* `FLPR.C64_violation_second`
* `FLPR.C64_violation_unlabel`
* `FLPR.C64_violation_end`
* `FLPR.C64_violation_shorter`
* `FLPR.C64_made`
* `FLPR.C64_emplace`
* `FLPR.C64_emplace_after_prefix`
* `FLPR.C64_set_label`
* `FLPR.C64_replace_text`
* `FLPR.C64_replace_substr`
* `FLPR.C64_insert_after_partial`
* `FLPR.C64_append_text`
* `FLPR.Vis.C66_all_partial`
* `FLPR.Vis.C66_calls`
* `FLPR.Vis.C66_ingest_partial`
* `FLPR.Vis.C66_violation`
* `FLPR.Vis.C66_visit`
* `FLPR.PF.C67_parser`
* `FLPR.PF.C67_make`
* `FLPR.PF.C67_text`
* `FLPR.PF.C67_readFile`
* `FLPR.PF.C67_violation_result`
* `FLPR.PF.C67_retry`
* `FLPR.PF.C67_asks_partial`
* `FLPR.PF.C67_tree_unique`
* `FLPR.PF.C67_node`
* `FLPR.PF.C67_all_nodes`
* `FLPR.PF.C67_unread`
* `FLPR.PF.C67_indent_partial`
* `FLPR.PF.C67_violation_parse`
* `FLPR.PF.C67_violation_parse_example`
* `FLPR.PF.C67_readFile_lines`
* `FLPR.PP.C68_only`
* `FLPR.PP.C68_trees_partial`
* `FLPR.PP.C68_syntag_partial`
* `FLPR.Proc.C69_name_partial`
* `FLPR.Proc.C69_labels`
* `FLPR.Proc.C70_complete_partial`
* `FLPR.Proc.C70_rename_partial`
* `FLPR.Proc.C70_violation_headless`
* `FLPR.Proc.C70_rename_same`
* `FLPR.FlprFormat.C71_violation_label`
* `FLPR.FlprFormat.C71_violation_fused`
* `FLPR.FlprFormat.C71_split_partial`
* `FLPR.FlprFormat.C71_split_returns`
* `FLPR.FlprFormat.C71_violation_labels`
* `FLPR.FlprFormat.C71_statements_partial`
* `FLPR.FlprFormat.C71_violation_remove`
* `FLPR.FlprFormat.C71_output_when`
* `FLPR.SP.C72_builds`
* `FLPR.SP.C72_dispatch`
* `FLPR.SP.C72_call`
* `FLPR.Apps.C73_call`
* `FLPR.Apps.C73_none`
* `FLPR.Apps.C73_used_partial`
* `FLPR.Apps.C73_unchanged`
* `FLPR.Apps.C73_violation_use`
* `FLPR.C74_reread_partial`
* `FLPR.C74_violation_column`
* `FLPR.C74_violation_directive`
* `FLPR.C74_tree_partial`
* `FLPR.C74_again_partial`
* `FLPR.C75_file`
* `FLPR.C75_statement`
* `FLPR.C75_dispatch`
* `FLPR.C75_program`
* `FLPR.C76_read`
* `FLPR.C76_statements`
* `FLPR.C76_asks`
* `FLPR.C76_tree`
* `FLPR.C76_violation_directive`
* `FLPR.C77_fixed_comment_lines`
* `FLPR.C77_violation_fixed_string`
* `FLPR.C77_comment_lines`
* `FLPR.C77_trailing_comment`
* `FLPR.C77_tree`
* `FLPR.C77_violation_string`
* `FLPR.C77_violation_blank`
* `FLPR.SP.C78_assignment`
* `FLPR.SP.C78_call`
* `FLPR.SP.C78_where_partial`
* `FLPR.SP.C78_nullify`
* `FLPR.SP.C78_violation_where`
* `FLPR.SP.C78_violation_where_action`
* `FLPR.SP.C78_violation_function_variable`
* `FLPR.SP.C78_violation_alternate_return`
* `FLPR.SP.C79_without_variables`
* `FLPR.SP.C79_violation_never`
* `FLPR.SP.C79_violation_variable`
* `FLPR.SP.C79_violation_missing`
* `FLPR.SP.C79_select_type_partial`
* `FLPR.SP.C79_select_rank_partial`
* `FLPR.SP.C79_allocate_partial`
* `FLPR.SP.C79_violation_allocate`
* `FLPR.Apps.C80_exclude`
* `FLPR.Apps.C80_counts`
* `FLPR.Apps.C80_count_partial`
* `FLPR.Apps.C80_internal`
* `FLPR.Apps.C80_left_alone`
* `FLPR.Apps.C80_violation_emplace`
* `FLPR.Apps.C80_label`
* `FLPR.SP.C81_output_sound`
* `FLPR.SP.C81_output_complete`
* `FLPR.SP.C81_violation_output`
* `FLPR.SP.C81_violation_read_nothing`
* `FLPR.SP.C81_violation_read_loop`
* `FLPR.FlprFormat.C82_ready`
* `FLPR.FlprFormat.C82_scanned_partial`
* `FLPR.FlprFormat.C82_table`
* `FLPR.FlprFormat.C82_violation_blank`
* `FLPR.FlprFormat.C82_violation_parse_example`
* `FLPR.FlprFormat.C82_each`
* `FLPR.FlprFormat.C82_statements_partial`
* `FLPR.FlprFormat.C82_violation_status`
* `FLPR.FlprFormat.C82_written`
* `FLPR.FlprFormat.C82_violation_options`
* `FLPR.FlprFormat.C82_same`
* `FLPR.FlprFormat.C82_reindent_partial`
* `FLPR.FlprFormat.C82_returns`
* `FLPR.FlprFormat.C82_violation_parse`
* `FLPR.PP.C83_violation_replace_example`
* `FLPR.PP.C83_violation_syntag`
* `FLPR.PP.C83_kept`
* `FLPR.PP.C83_unparsed`
* `FLPR.PP.C83_parsed`
* `FLPR.PP.C83_source`
* `FLPR.PP.C83_again_partial`
* `FLPR.PP.C83_violation_lost`
* `FLPR.PP.C83_violation_wrapped`
* `FLPR.PP.C83_violation_extension`
* `FLPR.PP.C83_program_partial`
* `FLPR.PP.C83_edit`
* `FLPR.PP.C83_update`
* `FLPR.PP.C83_ends`
* `FLPR.PP.C83_replace_partial`
* `FLPR.PP.C83_violation_replace`
* `FLPR.PP.C83_action_tag`
* `FLPR.SP.C84_if`
* `FLPR.SP.C84_where`
* `FLPR.SP.C84_forall`
* `FLPR.SP.C84_action`
* `FLPR.SP.C84_forall_assignment`
* `FLPR.SP.C84_action_partial`
* `FLPR.SP.C84_action_any`
* `FLPR.SP.C84_if_action_partial`
* `FLPR.SP.C84_if_simple`
* `FLPR.SP.C84_violation_nested`
* `FLPR.SP.C84_violation_bare`
* `FLPR.SP.C85_source`
* `FLPR.SP.C85_eol`
* `FLPR.SP.C85_eol_twice`
* `FLPR.SP.C85_expect_end`
* `FLPR.SP.C85_capture`
* `FLPR.SP.C85_unkeyword`
* `FLPR.SP.C86_import`
* `FLPR.SP.C86_interface`
* `FLPR.SP.C86_macro`
* `FLPR.SP.C86_submodule`
* `FLPR.SP.C86_violation_import`
* `FLPR.SP.C86_violation_interface`
* `FLPR.SP.C86_violation_empty`
* `FLPR.Apps.C87_form`
* `FLPR.Apps.C87_recognised`
* `FLPR.Apps.C87_violation_where_construct`
* `FLPR.Apps.C87_tried`
* `FLPR.Apps.C87_type`
* `FLPR.Apps.C87_total`
* `FLPR.Apps.C87_shown`
* `FLPR.Apps.C87_undefined`
* `FLPR.Apps.C87_defined`
* `FLPR.Apps.C87_violation_where`
* `FLPR.SP.C88_form`
* `FLPR.SP.C88_write_names`
* `FLPR.SP.C88_terminates`
* `FLPR.SP.C88_exists`
* `FLPR.SP.C88_covers`
* `FLPR.SP.C88_defined`
* `FLPR.SP.C88_good_partial`
* `FLPR.SP.C88_forward`
* `FLPR.SP.C88_end`
* `FLPR.SP.C88_tag`
* `FLPR.SP.C88_write_comma`
* `FLPR.SP.C88_violation_paren`
* `FLPR.SP.C88_violation_good`

## propext, Quot.sound

* `FLPR.C08_inverse`
* `FLPR.C09_make_preprocessor_print_partial`
* `FLPR.C10_make_comment_or_blank_partial`
* `FLPR.C11_return_partial`
* `FLPR.C14_accum`
* `FLPR.C14_offsets_distinct`
* `FLPR.C16_statements`
* `FLPR.C16_ranges`
* `FLPR.C16_semicolons`
* `FLPR.C20_file_false`
* `FLPR.C20_made`
* `FLPR.C20_comment`
* `FLPR.C21_fields`
* `FLPR.SP.C24_violation_bracket`
* `FLPR.SL.C28_violation_clear`
* `FLPR.SL.C28_violation_remove_if`
* `FLPR.SL.C29_construct`
* `FLPR.SL.C29_insert_inside`
* `FLPR.SL.C29_rebase`
* `FLPR.SL.C29_advance`
* `FLPR.SL.C29_iterate`
* `FLPR.Reg.C33_violation_emplace`
* `FLPR.Ind.C34_other`
* `FLPR.C36_register_twice`
* `FLPR.C37_simple_tokenize_partial`
* `FLPR.C37_tolower`
* `FLPR.C37_toupper`
* `FLPR.C37_case_outcome`
* `FLPR.C38_render`
* `FLPR.C38_render_outcome`
* `FLPR.Proc.C41_other`
* `FLPR.C61_insert_chain`
* `FLPR.Vis.C66_found`
* `FLPR.PF.C67_parse_result`
* `FLPR.PF.C67_labels`
* `FLPR.FlprFormat.C71_violation_output`
* `FLPR.FlprFormat.C71_output`
* `FLPR.FlprFormat.C71_remove_reports`
* `FLPR.SP.C85_look`
* `FLPR.SP.C85_peek_partial`
* `FLPR.SP.C85_violation_peek`
* `FLPR.SP.C85_consume`
* `FLPR.SP.C85_violation_consume`
* `FLPR.SP.C85_putBack`
* `FLPR.SP.C85_undo`
* `FLPR.SP.C85_digest`
* `FLPR.SP.C85_places`
* `FLPR.SP.C85_expect`

## propext

* `FLPR.C09_make_preprocessor_flags`
* `FLPR.C12_clear_label_partial`
* `FLPR.C14_empty`
* `FLPR.C19_violation_suppressed`
* `FLPR.C19_violation_macro`
* `FLPR.SP.C24_violation_empty`
* `FLPR.SP.C24_violation_nested`
* `FLPR.SP.C24_violation_end`
* `FLPR.SL.C28_end`
* `FLPR.SL.C28_violation_moved_from`
* `FLPR.Tr.C31_violation_try_next`
* `FLPR.Reg.C33_violation_sole_emptied`
* `FLPR.Reg.C33_violation_sole_order`
* `FLPR.Reg.C33_violation_fresh`
* `FLPR.Reg.C33_violation_validate`
* `FLPR.Reg.C33_violation_insert`
* `FLPR.Ind.C34_empty`
* `FLPR.C37_trim`
* `FLPR.C37_trim_outcome`
* `FLPR.C37_trim_back`
* `FLPR.C37_simple_tokenize_violation`
* `FLPR.C38_lower_partial`
* `FLPR.C50_violation_test`
* `FLPR.C64_emplace_no_prefix`
* `FLPR.Vis.C66_violation_submodule`

## none

* `FLPR.SL.C29_insert_outside`
* `FLPR.Tr.C30_donor`
* `FLPR.Tr.C31_violation_try_down`
* `FLPR.Vis.C66_empty`
* `FLPR.SP.C85_violation_open`
