{"claims": [
 {"property": "C01", "status": "proved", "theorems": ["FLPR.C01_free_roundtrip"], "note": "All states, all strings for which the call returns."},
 {"property": "C02", "status": "partial", "theorems": ["FLPR.C02_free_category", "FLPR.C02_free_literal_state", "FLPR.C02_free_nonfortran_fields", "FLPR.C02_free_fortran_fields", "FLPR.C02_free_main_trimmed_partial", "FLPR.C02_free_main_nonempty_partial", "FLPR.C02_free_main_nonempty_violation", "FLPR.C02_free_main_trimmed_violation_leading", "FLPR.C02_free_main_trimmed_violation_trailing"], "note": "Classification and fields proved in full; the trimming claim is false in two cases (witnesses proved)."},
 {"property": "C03", "status": "proved", "theorems": ["FLPR.C03_free_break", "FLPR.C03_free_open_delim", "FLPR.C03_free_outcome"], "note": ""},
 {"property": "C04", "status": "partial", "theorems": ["FLPR.C04_fixed_roundtrip_nonfortran", "FLPR.C04_fixed_roundtrip_partial", "FLPR.C04_fixed_roundtrip_fits_partial", "FLPR.C04_fixed_roundtrip_violation_text", "FLPR.C04_fixed_roundtrip_violation_label", "FLPR.C04_fixed_roundtrip_violation_open", "FLPR.C04_fixed_roundtrip_violation_cr", "FLPR.C04_fixed_roundtrip_violation_past"], "note": "Exact for lines in standard form; five classes of counterexamples proved."},
 {"property": "C05", "status": "partial", "theorems": ["FLPR.C05_fixed_last_column_partial", "FLPR.C05_fixed_last_column_violation"], "note": "False for lines whose text starts past the last column (witness); proved otherwise."},
 {"property": "C06", "status": "proved", "theorems": ["FLPR.C06_scan_free", "FLPR.C06_scan_free_outcome"], "note": "All inputs for which the scan succeeds; outcome on ASCII text."},
 {"property": "C07", "status": "proved", "theorems": ["FLPR.C07_scan_fixed", "FLPR.C07_scan_fixed_outcome"], "note": "All inputs for which the scan succeeds; outcome on ASCII text."},
 {"property": "C08", "status": "partial", "theorems": ["FLPR.C08_make_continued", "FLPR.C08_make_uncontinued", "FLPR.C08_make_continued_idem", "FLPR.C08_make_uncontinued_idem_partial", "FLPR.C08_make_uncontinued_idem_violation", "FLPR.C08_inverse", "FLPR.C08_inverse_applies", "FLPR.C08_inverse_violation", "FLPR.C08_continued_reread", "FLPR.C08_uncontinued_reread_partial", "FLPR.C08_violation_second_mark", "FLPR.C08_violation_junk", "FLPR.C08_violation_open"], "note": "Idempotence of make_uncontinued and exact restoration of the gap fail for witnesses given; everything else in full. The changed line is printed and read again as exactly that line (free format, outside a character context); violations for a second mark, text behind the mark, open strings."},
 {"property": "C09", "status": "partial", "theorems": ["FLPR.C09_make_preprocessor_flags", "FLPR.C09_make_preprocessor_print_partial", "FLPR.C09_make_preprocessor_print_violation"], "note": "Flags in full; printed text kept except for short fixed-format control columns (witness)."},
 {"property": "C10", "status": "partial", "theorems": ["FLPR.C10_make_comment_or_blank_category", "FLPR.C10_make_comment_or_blank_partial", "FLPR.C10_make_comment_or_blank_violation_blank", "FLPR.C10_make_comment_or_blank_violation_continued", "FLPR.C10_make_comment_or_blank_comment"], "note": "The comment is lost in both cases (witnesses); category result and the comment-free case proved."},
 {"property": "C11", "status": "partial", "theorems": ["FLPR.C11_text_kept", "FLPR.C11_sets_indent_partial", "FLPR.C11_return_partial", "FLPR.C11_comment_partial", "FLPR.C11_outcome_partial", "FLPR.C11_trailing_comment", "FLPR.C11_sets_indent_violation_fixed", "FLPR.C11_violation_uninitialised", "FLPR.C11_violation_throw", "FLPR.C11_comment_violation", "FLPR.C11_return_violation"], "note": "Text preservation in full for statement lines; column and return value proved outside the cases with witnesses (fixed format, uninitialised offset, throwing insert, C-style comments)."},
 {"property": "C12", "status": "partial", "theorems": ["FLPR.C12_set_label", "FLPR.C12_set_label_outcome", "FLPR.C12_set_label_column", "FLPR.C12_clear_label_partial", "FLPR.C12_clear_label_violation", "FLPR.C12_return_violation", "FLPR.C12_set_label_column_violation"], "note": "Setting a positive label in full; clearing and the return value fail (witnesses)."},
 {"property": "C13", "status": "partial", "theorems": ["FLPR.C13_unspace_main_partial", "FLPR.C13_unspace_main_violation_leading", "FLPR.C13_unspace_main_violation_blank"], "note": "Leading blanks are dropped, all-blank text is kept (witnesses); the rest proved."},
 {"property": "C14", "status": "proved", "theorems": ["FLPR.C14_accum", "FLPR.C14_linecolno", "FLPR.C14_offsets_distinct", "FLPR.C14_empty"], "note": "All sequences of lines; the file column must be positive, as the code asserts."},
 {"property": "C15", "status": "partial", "theorems": ["FLPR.C15_outcome", "FLPR.C15_positions_partial", "FLPR.C15_layout_partial", "FLPR.C15_text", "FLPR.C15_violation_comment", "FLPR.C15_violation_fused", "FLPR.C15_violation_formfeed", "FLPR.C15_violation_empty_first"], "note": "Positions proved for every token that is not half of a fused keyword, on layouts without comments between continued lines and without form feeds; each restriction has a witness."},
 {"property": "C16", "status": "proved", "theorems": ["FLPR.C16_statements", "FLPR.C16_ranges", "FLPR.C16_cover", "FLPR.C16_semicolons", "FLPR.C16_has_empty"], "note": "All token lists."},
 {"property": "C17", "status": "partial", "theorems": ["FLPR.C17_tokens", "FLPR.C17_line", "FLPR.C17_violation_fused"], "note": "Tokens and statements in full for all token lists; a fused keyword makes the reformatting read an uninitialised count (witness)."},
 {"property": "C18", "status": "partial", "theorems": ["FLPR.C18_outcome", "FLPR.C18_text_partial", "FLPR.C18_lines_partial", "FLPR.C18_violation_blank", "FLPR.C18_violation_literal", "FLPR.C18_violation_fixed", "FLPR.C18_violation_ampersand", "FLPR.C18_violation_fused"], "note": "Outcome in full; text and line structure for layouts made of statement and comment lines; each restriction has a witness."},
 {"property": "C19", "status": "partial", "theorems": ["FLPR.C19_stmts_partial", "FLPR.C19_scanned_free", "FLPR.C19_scanned_fixed", "FLPR.C19_violation_suppressed", "FLPR.C19_violation_macro"], "note": "In full for every file just scanned (free and fixed format); for arbitrary lines, a suppressed line with statements fails an assertion and a macro line with statements gives an empty statement (witnesses)."},
 {"property": "C20", "status": "partial", "theorems": ["FLPR.C20_violation_stale", "FLPR.C20_violation_isolate_end", "FLPR.C20_violation_file_throws", "FLPR.C20_file_false", "FLPR.C20_file_defined", "FLPR.C20_isolate", "FLPR.C20_made", "FLPR.C20_scanned_free", "FLPR.C20_scanned_fixed", "FLPR.C20_file", "FLPR.C20_violation_semicolon", "FLPR.C20_violation_comment", "FLPR.C20_violation_throws", "FLPR.C20_violation_no_tokens", "FLPR.C20_violation_refused", "FLPR.C20_violation_edited", "FLPR.C20_violation_fused", "FLPR.C20_violation_assertion", "FLPR.C20_violation_label", "FLPR.C20_violation_fixed", "FLPR.C20_ends", "FLPR.C20_fields", "FLPR.C20_comment", "FLPR.C20_defined_partial", "FLPR.C20_stmts", "FLPR.C20_tokens", "FLPR.C20_refused", "FLPR.C20_text", "FLPR.C20_positions_partial", "FLPR.C20_no_text_lost"], "note": "Tokens: in full for every successful split.  Text: in full when the positions are right, comments are apart and the text is that of the tokens (shown for lines just read).  Files: split_compound_before and isolate_stmt in full on every file whose statements are those of its lines (shown for every file just read).  Missing: lines with comments between continued lines, fused keywords, edited lines (witnesses); the statement in front of the split is left with a dangling end iterator (witness)."},
 {"property": "C21", "status": "partial", "theorems": ["FLPR.C21_fields", "FLPR.C21_reread_partial", "FLPR.C21_violation_fused", "FLPR.C21_violation_comment", "FLPR.C21_violation_blank", "FLPR.C21_violation_ifdef", "FLPR.C21_violation_directive", "FLPR.C21_violation_include", "FLPR.C21_violation_overflow", "FLPR.C21_violation_digit", "FLPR.C21_violation_ampersand", "FLPR.C21_violation_label_only", "FLPR.C21_violation_empty_line"], "note": "Field claims in full for every conversion that finishes. Re-reading proved for files that avoid the listed cases; eleven witnesses show each excluded case goes wrong (fused keywords, comments, blank lines or directives inside a statement, c#flpr, include-like or empty continuation lines, overflow behind a string, leading number, ampersand, label-only lines)."},
 {"property": "C22", "status": "partial", "theorems": ["FLPR.C22_history_partial", "FLPR.C22_history_clean_partial", "FLPR.C22_history_violation"], "note": "False: the condition for real literals survives the end of a line, so e1 = 2 after x = 1.0 is read as an exponent (witness). Proved for every line that cannot be read as the rest of a real literal, and for every history that ends in the initial condition."},
 {"property": "C23", "status": "proved", "theorems": ["FLPR.C23_lookup", "FLPR.C23_unsmash_split", "FLPR.C23_unsmash_other"], "note": "The whole table; all words."},
 {"property": "C24", "status": "partial", "theorems": ["FLPR.SP.C24_close_partial", "FLPR.SP.C24_open", "FLPR.SP.C24_violation_empty", "FLPR.SP.C24_violation_nested", "FLPR.SP.C24_violation_end", "FLPR.SP.C24_violation_bracket"], "note": "move_to_open_paren in full; move_to_close_paren for the shapes for which it works; witnesses for empty parentheses, nesting, the end of the stream and brackets."},
 {"property": "C25", "status": "partial", "theorems": ["FLPR.SP.C25_term_partial", "FLPR.SP.C25_function", "FLPR.SP.C25_dispatch", "FLPR.SP.C25_violation_negation", "FLPR.SP.C25_violation_designator"], "note": "All rule functions but procedure_designator, all parser terms without a moving negation; both exceptions have witnesses."},
 {"property": "C26", "status": "partial", "theorems": ["FLPR.SP.C26_covers_partial", "FLPR.SP.C26_dispatch_partial", "FLPR.SP.C26_violation_overrun"], "note": "All rule functions and the dispatcher on well-nested statements, with any well-behaved extensions; witness for an unbalanced statement."},
 {"property": "C27", "status": "proved", "theorems": ["FLPR.SP.C27_order", "FLPR.SP.C27_after_builtin"], "note": "All registration histories and streams."},
 {"property": "C28", "status": "partial", "theorems": ["FLPR.SL.C28_history_partial", "FLPR.SL.C28_survive_step", "FLPR.SL.C28_survive", "FLPR.SL.C28_end", "FLPR.SL.C28_violation_clear", "FLPR.SL.C28_violation_remove_if", "FLPR.SL.C28_violation_moved_from"], "note": "Every history of the modelled operations over any number of lists, as long as clear() is not followed by a use of an old end(), remove_if does not accept T(), and a moved-from list is only destroyed or assigned to; witnesses show that each of these matters."},
 {"property": "C29", "status": "partial", "theorems": ["FLPR.SL.C29_view", "FLPR.SL.C29_construct", "FLPR.SL.C29_construct_list", "FLPR.SL.C29_push_back", "FLPR.SL.C29_push_front", "FLPR.SL.C29_push_unset", "FLPR.SL.C29_step", "FLPR.SL.C29_history", "FLPR.SL.C29_insert_outside", "FLPR.SL.C29_insert_inside", "FLPR.SL.C29_rebase", "FLPR.SL.C29_advance", "FLPR.SL.C29_iterate", "FLPR.SL.C29_violation_same_end"], "note": "Every history; push_back of a non-adjacent piece with the same end is dropped silently (witness)."},
 {"property": "C30", "status": "proved", "theorems": ["FLPR.Tr.C30_history", "FLPR.Tr.C30_total", "FLPR.Tr.C30_donor"], "note": "Every history over any number of trees; the code fails exactly where the specification refuses.  Tree(false), a tree with a root list but no root, is not modelled."},
 {"property": "C31", "status": "partial", "theorems": ["FLPR.Tr.C31_wellLinked", "FLPR.Tr.C31_moves", "FLPR.Tr.C31_inverse", "FLPR.Tr.C31_try", "FLPR.Tr.C31_try_stays", "FLPR.Tr.C31_violation_try_next", "FLPR.Tr.C31_violation_try_down"], "note": "All well linked trees (all that C30 histories build), all positions, all counts; with a count above one a failing try_ has moved the cursor part of the way (witnesses)."},
 {"property": "C32", "status": "proved", "theorems": ["FLPR.C32_level", "FLPR.C32_countdown", "FLPR.C32_single"], "note": "All histories."},
 {"property": "C33", "status": "partial", "theorems": ["FLPR.Reg.C33_appends", "FLPR.Reg.C33_looks_partial", "FLPR.Reg.C33_validate_partial", "FLPR.Reg.C33_rejects", "FLPR.Reg.C33_violation_sole_emptied", "FLPR.Reg.C33_violation_sole_order", "FLPR.Reg.C33_violation_fresh", "FLPR.Reg.C33_violation_validate", "FLPR.Reg.C33_violation_emplace", "FLPR.Reg.C33_violation_insert", "FLPR.Reg.C33_insert_partial"], "note": "Any ascending run of appends gives ordered, adjacent, exact regions. Looks and validate need at least two regions in use; insert needs the region to be the first one. Witnesses show the failures for one region, fresh partitions, insert and emplace_stmt."},
 {"property": "C34", "status": "partial", "theorems": ["FLPR.Ind.C34_indent", "FLPR.Ind.C34_empty", "FLPR.Ind.C34_column", "FLPR.Ind.C34_text", "FLPR.Ind.C34_other", "FLPR.Ind.C34_once", "FLPR.Ind.C34_idempotent_partial", "FLPR.Ind.C34_return_partial", "FLPR.Ind.C34_defined_partial", "FLPR.Ind.C34_tables", "FLPR.Ind.C34_constant", "FLPR.Ind.C34_violation_negative", "FLPR.Ind.C34_violation_labelled", "FLPR.Ind.C34_violation_block", "FLPR.Ind.C34_violation_throw"], "note": "Proved for every tree, table and file that is indented without an error: each line ends in the columns the constructs around its statement add up to, only blanks change, and other lines stay. Defined for parsed programs whose lines can be moved, with nonnegative tables. Indenting again changes nothing if no statement ends several loops. Violations: negative entries, labelled loops and block declarations not indented by the standard tables, continued lines with a comment moved left."},
 {"property": "C35", "status": "proved", "theorems": ["FLPR.C35_extension", "FLPR.C35_no_extension", "FLPR.C35_given"], "note": "All file names."},
 {"property": "C36", "status": "partial", "theorems": ["FLPR.C36_register", "FLPR.C36_history", "FLPR.C36_register_twice", "FLPR.C36_is_name_partial", "FLPR.C36_is_name_violation", "FLPR.C36_register_violation"], "note": "Registration in full for all histories; is_name reads past the table for registered tags, and the type -1 is accepted (witnesses)."},
 {"property": "C37", "status": "partial", "theorems": ["FLPR.C37_trim", "FLPR.C37_trim_outcome", "FLPR.C37_trim_back", "FLPR.C37_last_non_blank", "FLPR.C37_simple_tokenize_partial", "FLPR.C37_simple_tokenize_violation", "FLPR.C37_tolower", "FLPR.C37_toupper", "FLPR.C37_case_outcome"], "note": "simple_tokenize steps past the end unless the text ends in white space (witness); the words are right when that step is ignored. Everything else in full."},
 {"property": "C38", "status": "partial", "theorems": ["FLPR.C38_render", "FLPR.C38_render_outcome", "FLPR.C38_lower_partial", "FLPR.C38_lower_violation"], "note": "Rendering in full. The lower-case cache is right unless a reference is written through after a query (witness)."},
 {"property": "C39", "status": "partial", "theorems": ["FLPR.PP.C39_term_partial", "FLPR.PP.C39_tree_partial", "FLPR.PP.C39_program_partial", "FLPR.PP.C39_violation_shared", "FLPR.PP.C39_violation_silent", "FLPR.PP.C39_violation_trailing", "FLPR.PP.C39_violation_hole"], "note": "Order, ranges and leaves for every grammar; complete cover when no parser gave up in the middle (then statements are lost, see the violations). A statement that ends several loops is a leaf once per loop."},
 {"property": "C40", "status": "partial", "theorems": ["FLPR.PP.C40_defined_partial", "FLPR.PP.C40_builtin_partial", "FLPR.PP.C40_leaves", "FLPR.PP.C40_good_partial", "FLPR.PP.C40_violation_part", "FLPR.PP.C40_violation_hidden", "FLPR.PP.C40_violation_where"], "note": "No undefined behaviour and no leaf past the end on whole lists of statements on which the statement parsers are defined. Violations: states over a part of a list; a tree attached to the hidden end element. The first statement of a where or forall construct also runs into undefined behaviour."},
 {"property": "C41", "status": "partial", "theorems": ["FLPR.Proc.C41_parsed_partial", "FLPR.Proc.C41_violation", "FLPR.Proc.C41_ingest_partial", "FLPR.Proc.C41_other"], "note": "Every procedure node of every parsed tree is ingested with the right regions and trackers, if no statement belongs to two of its regions. False for a main program that is nothing but an end statement: an assertion fails."},
 {"property": "C42", "status": "partial", "theorems": ["FLPR.C42_replace_partial", "FLPR.C42_remove_partial", "FLPR.C42_history_partial", "FLPR.C42_fresh", "FLPR.C42_violation_end", "FLPR.C42_violation_comment", "FLPR.C42_violation_fused", "FLPR.C42_violation_split"], "note": "Any sequence of edits of tokens that are on one line, on lines with good positions; that freshly built lines have them is proved for layouts without comments and fused keywords.  Witnesses for stale end columns, comments, fused keywords and split tokens."},
 {"property": "C43", "status": "proved", "theorems": ["FLPR.C43_fixed_break"], "note": ""},
 {"property": "C44", "status": "proved", "theorems": ["FLPR.C44_fixed_category", "FLPR.C44_fixed_left", "FLPR.C44_fixed_nonfortran_fields", "FLPR.C44_fixed_outcome"], "note": ""},
 {"property": "C45", "status": "partial", "theorems": ["FLPR.C45_free_label_partial", "FLPR.C45_free_label_violation", "FLPR.C45_fixed_label_partial", "FLPR.C45_fixed_label_violation"], "note": "Six digits are accepted in both forms (witnesses)."},
 {"property": "C46", "status": "partial", "theorems": ["FLPR.C46_free_groups", "FLPR.C46_fixed_groups", "FLPR.C46_free_homogeneous_partial", "FLPR.C46_free_homogeneous_violation", "FLPR.C46_violation_blank", "FLPR.C46_violation_comment", "FLPR.C46_fixed_homogeneous"], "note": "Exact boundaries in full for both formats; homogeneity in full for fixed format; in free format a directive inside a continued statement joins it (witness)."},
 {"property": "C47", "status": "proved", "theorems": ["FLPR.C47_tiles", "FLPR.C47_non_ascii", "FLPR.C47_pieces"], "note": "All ASCII texts and all scanner states between lines; other bytes are undefined behaviour (7-bit scanner)."},
 {"property": "C48", "status": "proved", "theorems": ["FLPR.C48_word", "FLPR.C48_first_word"], "note": "All words and contexts; the model of the scanner is the rule list of scan_fort.l under flex's longest-match, first-rule discipline."},
 {"property": "C49", "status": "partial", "theorems": ["FLPR.C49_render_partial", "FLPR.C49_violation_fused", "FLPR.C49_violation_tab"], "note": "Proved without fused keywords and without tabs inside the text; a fused keyword behind another token makes render read an uninitialised count (witness)."},
 {"property": "C50", "status": "partial", "theorems": ["FLPR.C50_cursor_partial", "FLPR.C50_violation_test"], "note": "Every history for sources created with do_advance; without it a test loses the first statement (witness)."},
 {"property": "C51", "status": "proved", "theorems": ["FLPR.C51_spelling", "FLPR.C51_distinct"], "note": "All texts."},
 {"property": "C52", "status": "proved", "theorems": ["FLPR.SP.C52_terminates", "FLPR.SP.C52_dispatch"], "note": "Whole grammar, by a rank on rules and the number of tokens left."},
 {"property": "C53", "status": "partial", "theorems": ["FLPR.SP.C53_whole_partial", "FLPR.SP.C53_violation_interface", "FLPR.SP.C53_violation_import"], "note": "All tags but those of import_stmt, interface_stmt (witnesses) and loop_control (no statement)."},
 {"property": "C54", "status": "partial", "theorems": ["FLPR.SP.C54_tag_partial", "FLPR.SP.C54_violation"], "note": "All tags but SG_SYNC_IMAGES_STMT (witness)."},
 {"property": "C55", "status": "partial", "theorems": ["FLPR.PP.C55_violation_where", "FLPR.SP.C55_defined_partial", "FLPR.SP.C55_only_ub", "FLPR.SP.C55_violation_allocate", "FLPR.SP.C55_violation_unbalanced"], "note": "All rules on well-nested statements unless the rule can call procedure_designator and the statement ends in a closing parenthesis (witnesses: allocate with stat=, and the first statement of every where or forall construct)."},
 {"property": "C56", "status": "proved", "theorems": ["FLPR.SP.C56_action_tags", "FLPR.SP.C56_action_tree"], "note": "All tags; trees for the built-in alternatives."},
 {"property": "C57", "status": "partial", "theorems": ["FLPR.SP.C57_violation_submodule"], "note": "False for every such statement; nothing but the violation is provable."},
 {"property": "C58", "status": "partial", "theorems": ["FLPR.PP.C58_rewinds_partial", "FLPR.PP.C58_library_partial", "FLPR.PP.C58_violation"], "note": "Holds unless a sequence or do construct gave up after its first statement; then the state is not rewound (violation)."},
 {"property": "C59", "status": "partial", "theorems": ["FLPR.PP.C59_terminates_partial", "FLPR.PP.C59_violation_part"], "note": "Whole lists of statements; a do loop over a part of a list need not return (violation)."},
 {"property": "C60", "status": "partial", "theorems": ["FLPR.PP.C60_violation_label", "FLPR.PP.C60_violation_crossed", "FLPR.PP.C60_violation_stale", "FLPR.PP.C60_nest_partial"], "note": "Exact tree and label stack for nests of any depth with labels used once. Shared last statements are not covered; violations for labelled end do of an unlabelled loop, crossed loops, stale labels."},
 {"property": "C65", "status": "proved", "theorems": ["FLPR.PP.C65_derives", "FLPR.PP.C65_leaf_tag"], "note": "For every rule of the library and all extensions that go forward and take a token."},
 {"property": "C63", "status": "partial", "theorems": ["FLPR.SP.C63_recognised", "FLPR.SP.C63_typed_partial", "FLPR.SP.C63_declaration_partial", "FLPR.SP.C63_implicit_partial", "FLPR.SP.C63_violation_rank_name", "FLPR.SP.C63_violation_operator_eqv", "FLPR.SP.C63_violation_procedure_interface", "FLPR.SP.C63_violation_component_coarray"], "note": "Exact (both directions) for 86 tags; function, subroutine, type guard and type declaration exact up to intrinsic type names used as names; implicit only that recognised statements have the form. Not covered: about 34 tags (assignment, call, allocate, data, input/output, sync and the like). Violations: construct name of rank statements, .eqv. as defined operator, procedure(real(8)), coarray components."},
 {"property": "C61", "status": "partial", "theorems": ["FLPR.C61_main_partial", "FLPR.C61_violation_fewer", "FLPR.C61_insert_before", "FLPR.C61_insert_after", "FLPR.C61_insert_end", "FLPR.C61_replace_partial", "FLPR.C61_replace_exact", "FLPR.C61_violation_alone", "FLPR.C61_insert_chain", "FLPR.C61_read", "FLPR.C61_insert_tokens", "FLPR.C61_insert_after_tokens", "FLPR.C61_violation_continuation", "FLPR.C61_violation_middle", "FLPR.C61_violation_comment_lost", "FLPR.C61_violation_throws", "FLPR.C61_violation_comment", "FLPR.C61_violation_stale", "FLPR.C61_violation_marks", "FLPR.C61_violation_fused", "FLPR.C61_violation_fused_half"], "note": "Insertion exact and total; replacement up to blanks under stated conditions on comments in the range; replace_main_text for at least as many texts as lines. Violations: continuation mark dropped when text of a continued line is replaced, code of a commented middle line kept, comments lost, out_of_range for the only token of a continuation line, comment lines shift the line that is edited, stale columns after replace_fragment, added lines without marks, fewer texts always assert, fused keywords."},
 {"property": "C62", "status": "partial", "theorems": ["FLPR.C62_effect", "FLPR.C62_empty", "FLPR.C62_no_lines", "FLPR.C62_column", "FLPR.C62_reread_partial", "FLPR.C62_tokens", "FLPR.C62_violation_string", "FLPR.C62_violation_label", "FLPR.C62_violation_preprocessor", "FLPR.C62_violation_fixed"], "note": "Effect exact for all lines; reading again exact for free-format ASCII lines outside a character context (not for a line with nothing but a label). Violations: comment inside a continued string, label-only line, preprocessor lines, fixed-format names that go on on the next line."},
 {"property": "C64", "status": "partial", "theorems": ["FLPR.C64_scanned_free", "FLPR.C64_scanned_fixed", "FLPR.C64_violation_label", "FLPR.C64_violation_append", "FLPR.C64_violation_semicolon", "FLPR.C64_violation_second", "FLPR.C64_violation_unlabel", "FLPR.C64_violation_end", "FLPR.C64_violation_shorter", "FLPR.C64_made", "FLPR.C64_emplace", "FLPR.C64_emplace_after_prefix", "FLPR.C64_emplace_no_prefix", "FLPR.C64_set_label", "FLPR.C64_replace_text", "FLPR.C64_replace_substr", "FLPR.C64_insert_after_partial", "FLPR.C64_append_text"], "note": "Insertion and label exact (insertion not at the end of the file). Text edits: what Logical_Line does (C61) on the line of the isolated statement, everything else unchanged, provided the statement is the first of its line or the line has no label; insert_text_after only if the line still has one statement. Violations: statement behind a label, append to a statement followed by another, leading semicolon, text with a further statement, removing a label, insertion at the end."},
 {"property": "C66", "status": "partial", "theorems": ["FLPR.Vis.C66_found", "FLPR.Vis.C66_all_partial", "FLPR.Vis.C66_calls", "FLPR.Vis.C66_ingest_partial", "FLPR.Vis.C66_empty", "FLPR.Vis.C66_violation", "FLPR.Vis.C66_violation_submodule", "FLPR.Vis.C66_visit"], "note": "Exact (C66_visit): the calls are those for the procedures inside of at most one other, in order, with the right flags; C66_found says what these are and that none comes twice. Violation: the grammar lets an internal subprogram contain further ones, which are not visited (C66_all_partial excludes them). The structure of the tree is taken not to change while visiting. C66_ingest_partial has the exceptions of C41."},
 {"property": "C67", "status": "partial", "theorems": ["FLPR.PF.C67_parser", "FLPR.PF.C67_make", "FLPR.PF.C67_text", "FLPR.PF.C67_readFile", "FLPR.PF.C67_violation_result", "FLPR.PF.C67_retry", "FLPR.PF.C67_asks_partial", "FLPR.PF.C67_tree_unique", "FLPR.PF.C67_node", "FLPR.PF.C67_all_nodes", "FLPR.PF.C67_unread", "FLPR.PF.C67_indent_partial", "FLPR.PF.C67_violation_parse", "FLPR.PF.C67_violation_parse_example", "FLPR.PF.C67_readFile_lines", "FLPR.PF.C67_parse_result", "FLPR.PF.C67_labels"], "note": "Proved for files that the program parser accepts (C67_asks_partial, C67_indent_partial; C67_parser: there is exactly one such parser). Violations: read_file returns true exactly when reading failed (C67_violation_result, for all inputs); a file with statements that the parser does not accept makes parse_tree fail an assertion instead of becoming bad (C67_violation_parse, for all such files). The text is shown to be kept for free format only (C67_text)."},
 {"property": "C68", "status": "partial", "theorems": ["FLPR.PP.C68_only", "FLPR.PP.C68_trees_partial", "FLPR.PP.C68_syntag_partial"], "note": "C68_only holds for every outcome. C68_trees_partial and C68_syntag_partial leave out the leaves that end the inner ones of do loops with a shared last statement (the outermost has it), and C68_syntag_partial is for no extensions."},
 {"property": "C69", "status": "partial", "theorems": ["FLPR.Proc.C69_name_partial", "FLPR.Proc.C69_labels"], "note": "C69_name_partial is for procedures that ingest takes (see C41) and first statements with properly nested parentheses; C69_labels has no such restriction."},
 {"property": "C70", "status": "partial", "theorems": ["FLPR.Proc.C70_complete_partial", "FLPR.Proc.C70_rename_partial", "FLPR.Proc.C70_violation_headless", "FLPR.Proc.C70_rename_same"], "note": "C70_complete_partial says what is appended, to which statement, and that all else stays when the call returns; that the call returns, and what the lexer makes of the statement with the appended text, is left to C61/C64. C70_rename_partial is for procedures that have a first statement, whose first and last statements have nested parentheses, and files whose name tokens are each on one line; C70_violation_headless proves that a main program without a program statement cannot be renamed."},
 {"property": "C71", "status": "partial", "theorems": ["FLPR.FlprFormat.C71_violation_label", "FLPR.FlprFormat.C71_violation_fused", "FLPR.FlprFormat.C71_split_partial", "FLPR.FlprFormat.C71_split_returns", "FLPR.FlprFormat.C71_violation_labels", "FLPR.FlprFormat.C71_statements_partial", "FLPR.FlprFormat.C71_violation_remove", "FLPR.FlprFormat.C71_violation_output", "FLPR.FlprFormat.C71_output", "FLPR.FlprFormat.C71_output_when", "FLPR.FlprFormat.C71_remove_reports"], "note": "C71_split_partial and C71_statements_partial are about calls that return, for lines whose statements are up to date and whose layout has no blank lines inside a statement; C71_split_returns gives when they return (the statement begins before column 75 and the spaces before its tokens are known), and C71_violation_fused that it is undefined behaviour otherwise. C71_violation_labels proves that every statement of a labelled line gets the label, C71_violation_remove that remove_empty_stmts changes nothing, C71_violation_output that without the options o and q the decision to write reads an uninitialised member."},
 {"property": "C72", "status": "proved", "theorems": ["FLPR.SP.C72_builds", "FLPR.SP.C72_dispatch", "FLPR.SP.C72_call"], "note": "C72_builds is for every rule, C72_dispatch for parse_stmt_dispatch; C72_call unrolls it for call statements. Which tokens the branches cover is C26."},
 {"property": "C73", "status": "partial", "theorems": ["FLPR.Apps.C73_call", "FLPR.Apps.C73_none", "FLPR.Apps.C73_used_partial", "FLPR.Apps.C73_unchanged", "FLPR.Apps.C73_violation_use"], "note": "C73_call is for any action statement; C73_none, C73_used_partial and C73_unchanged are about whole procedures. C73_violation_use: when a use statement has to be added, the call never comes back, because of emplace_stmt (C33). C73_used_partial also shows that the answer is true though nothing changed. Missing: calls in a statement that several labelled loops share."},
 {"property": "C74", "status": "partial", "theorems": ["FLPR.C74_reread_partial", "FLPR.C74_violation_column", "FLPR.C74_violation_directive", "FLPR.C74_tree_partial", "FLPR.C74_again_partial"], "note": "C74_reread_partial is for files whose physical lines are steady (SteadyLayout) and tables with a positive continuation offset. Missing: continuation lines in column 1 without an ampersand (C74_violation_column: a split string gains a blank), comments that hide a directive behind blanks (C74_violation_directive), trailing comments without a blank in front (their spacing changes), statements that begin with #, labels without text, and non-ASCII text. C74_tree_partial and C74_again_partial: the tree of the file read again is the same, and indenting it once more writes the same text."},
 {"property": "C75", "status": "proved", "theorems": ["FLPR.C75_file", "FLPR.C75_statement", "FLPR.C75_dispatch", "FLPR.C75_program"], "note": "All rules and states. Extensions are asked to respect the equivalence as well (Indifferent), since they are code of the user."},
 {"property": "C76", "status": "partial", "theorems": ["FLPR.C76_read", "FLPR.C76_statements", "FLPR.C76_asks", "FLPR.C76_tree", "FLPR.C76_violation_directive"], "note": "C76_violation_directive: `!#FLPR` is a comment while `!#flpr` is a directive, so lines with the mark are asked to be equal in the other theorems."},
 {"property": "C77", "status": "partial", "theorems": ["FLPR.C77_fixed_comment_lines", "FLPR.C77_violation_fixed_string", "FLPR.C77_comment_lines", "FLPR.C77_trailing_comment", "FLPR.C77_tree", "FLPR.C77_violation_string", "FLPR.C77_violation_blank"], "note": "The code does not do it where the standard allows it: C77_violation_string and C77_violation_fixed_string (comment line within a continued character string), C77_violation_blank (blank line within a continued free-format statement). Comments at the end of fixed-format lines are not covered."},
 {"property": "C78", "status": "partial", "theorems": ["FLPR.SP.C78_assignment", "FLPR.SP.C78_call", "FLPR.SP.C78_where_partial", "FLPR.SP.C78_nullify", "FLPR.SP.C78_violation_where", "FLPR.SP.C78_violation_where_action", "FLPR.SP.C78_violation_function_variable", "FLPR.SP.C78_violation_alternate_return"], "note": "Fails for `where (mask)` alone, the first statement of a where construct, which the program parser gives to this parser: undefined behaviour for every mask (C78_violation_where). Function references as variables (`f() = 3`) and alternate returns (`call s(*10)`) of the standard are not recognised."},
 {"property": "C79", "status": "partial", "theorems": ["FLPR.SP.C79_without_variables", "FLPR.SP.C79_violation_never", "FLPR.SP.C79_violation_variable", "FLPR.SP.C79_violation_missing", "FLPR.SP.C79_select_type_partial", "FLPR.SP.C79_select_rank_partial", "FLPR.SP.C79_allocate_partial", "FLPR.SP.C79_violation_allocate"], "note": "The property a user expects (recognised exactly in the form of the standard) fails wherever a variable is named in parentheses: undefined behaviour (C79_violation_*). Partial for select type and rank (`=>` within a selector without a new name) and for allocate (`::` within the bounds without a type, keywords of intrinsic types in a statement with a derived type)."},
 {"property": "C80", "status": "partial", "theorems": ["FLPR.Apps.C80_exclude", "FLPR.Apps.C80_counts", "FLPR.Apps.C80_count_partial", "FLPR.Apps.C80_internal", "FLPR.Apps.C80_left_alone", "FLPR.Apps.C80_violation_emplace", "FLPR.Apps.C80_label"], "note": "Where there is something to insert, caliper does not come back: emplace_stmt never returns (C33), so C80_violation_emplace holds for every procedure that is neither internal, empty nor pure. What follows the first emplace_stmt is therefore not modelled, apart from the choice of the label. C80_count_partial leaves out execution parts with a statement at which several loops end."},
 {"property": "C81", "status": "partial", "theorems": ["FLPR.SP.C81_output_sound", "FLPR.SP.C81_output_complete", "FLPR.SP.C81_violation_output", "FLPR.SP.C81_violation_read_nothing", "FLPR.SP.C81_violation_read_loop"], "note": "C81_output_complete and C81_violation_output ask that no item begins with parentheses that have an equals sign in them and go on behind them, as in `(i=1)*2`; no expression does. Of read statements only the two undefined cases are proved; what is missing is that the others are recognised just if they have the form of the standard. Statements with image selectors are left out."},
 {"property": "C82", "status": "partial", "theorems": ["FLPR.FlprFormat.C82_ready", "FLPR.FlprFormat.C82_scanned_partial", "FLPR.FlprFormat.C82_table", "FLPR.FlprFormat.C82_violation_blank", "FLPR.FlprFormat.C82_violation_parse_example", "FLPR.FlprFormat.C82_each", "FLPR.FlprFormat.C82_statements_partial", "FLPR.FlprFormat.C82_violation_status", "FLPR.FlprFormat.C82_written", "FLPR.FlprFormat.C82_violation_options", "FLPR.FlprFormat.C82_same", "FLPR.FlprFormat.C82_reindent_partial", "FLPR.FlprFormat.C82_returns", "FLPR.FlprFormat.C82_violation_parse"], "note": "C82_statements_partial asks that the lines that are split are Ready as in C71; C82_ready says for a file just read that these are the lines of statements without blank or preprocessor lines in them and without a stray ampersand, and C82_scanned_partial puts the two together. It is about the tokens in the lines that are written; that their text, read again, gives these tokens is proved for lines that are not split (C82_reindent_partial, free format, lines that indenting does not change as in C74). What is missing is reading again lines that were split, and fixed format. C82_returns is for files that no filter changes and that the parser accepts."},
 {"property": "C83", "status": "partial", "theorems": ["FLPR.PP.C83_violation_replace_example", "FLPR.PP.C83_violation_syntag", "FLPR.PP.C83_kept", "FLPR.PP.C83_unparsed", "FLPR.PP.C83_parsed", "FLPR.PP.C83_source", "FLPR.PP.C83_again_partial", "FLPR.PP.C83_violation_lost", "FLPR.PP.C83_violation_wrapped", "FLPR.PP.C83_violation_extension", "FLPR.PP.C83_program_partial", "FLPR.PP.C83_edit", "FLPR.PP.C83_update", "FLPR.PP.C83_ends", "FLPR.PP.C83_replace_partial", "FLPR.PP.C83_violation_replace", "FLPR.PP.C83_action_tag"], "note": "C83_again_partial and C83_program_partial leave out the tags for which the property fails (lostTags, client extensions; for the six tags the theorem is an equivalence), and as in C68 the last statement of inner shared loops. C83_replace_partial leaves out a replacement with the tag that the statement has, where it fails for every statement (C83_violation_replace)."},
 {"property": "C84", "status": "partial", "theorems": ["FLPR.SP.C84_if", "FLPR.SP.C84_where", "FLPR.SP.C84_forall", "FLPR.SP.C84_action", "FLPR.SP.C84_forall_assignment", "FLPR.SP.C84_action_partial", "FLPR.SP.C84_action_any", "FLPR.SP.C84_if_action_partial", "FLPR.SP.C84_if_simple", "FLPR.SP.C84_violation_nested", "FLPR.SP.C84_violation_bare"], "note": "C84_action_partial and C84_if_action_partial leave out statements that end in `)`, for which an earlier kind of statement may be undefined; C84_if and C84_action cover those, in terms of where the inner parsers are undefined. The order of the kinds is for a parser without extensions."},
 {"property": "C85", "status": "partial", "theorems": ["FLPR.SP.C85_source", "FLPR.SP.C85_look", "FLPR.SP.C85_peek_partial", "FLPR.SP.C85_violation_peek", "FLPR.SP.C85_consume", "FLPR.SP.C85_violation_consume", "FLPR.SP.C85_putBack", "FLPR.SP.C85_undo", "FLPR.SP.C85_digest", "FLPR.SP.C85_places", "FLPR.SP.C85_eol", "FLPR.SP.C85_eol_twice", "FLPR.SP.C85_expect", "FLPR.SP.C85_expect_end", "FLPR.SP.C85_capture", "FLPR.SP.C85_violation_open", "FLPR.SP.C85_unkeyword"], "note": "C85_peek_partial leaves out a peek(k) by more than one token beyond the end of the statement; C85_violation_peek and C85_violation_consume show that it reads the next statement of the line there. C85_violation_open: the text of a capture that was not ended is undefined."},
 {"property": "C86", "status": "partial", "theorems": ["FLPR.SP.C86_import", "FLPR.SP.C86_interface", "FLPR.SP.C86_macro", "FLPR.SP.C86_submodule", "FLPR.SP.C86_violation_import", "FLPR.SP.C86_violation_interface", "FLPR.SP.C86_violation_empty"], "note": "The statement is exact for all four parsers. The C86_violation theorems say where that differs from the Fortran standard for import and interface statements; C57 has the same for submodule statements."},
 {"property": "C87", "status": "partial", "theorems": ["FLPR.Apps.C87_form", "FLPR.Apps.C87_recognised", "FLPR.Apps.C87_violation_where_construct", "FLPR.Apps.C87_tried", "FLPR.Apps.C87_type", "FLPR.Apps.C87_total", "FLPR.Apps.C87_shown", "FLPR.Apps.C87_undefined", "FLPR.Apps.C87_defined", "FLPR.Apps.C87_violation_where"], "note": "Exact for statements whose parentheses nest. C87_violation_where and C87_violation_where_construct: the program is not defined for a line `where (m)`, which begins a where construct."},
 {"property": "C88", "status": "partial", "theorems": ["FLPR.SP.C88_form", "FLPR.SP.C88_write_names", "FLPR.SP.C88_terminates", "FLPR.SP.C88_exists", "FLPR.SP.C88_covers", "FLPR.SP.C88_defined", "FLPR.SP.C88_good_partial", "FLPR.SP.C88_forward", "FLPR.SP.C88_end", "FLPR.SP.C88_tag", "FLPR.SP.C88_write_comma", "FLPR.SP.C88_violation_paren", "FLPR.SP.C88_violation_good"], "note": "C88_good_partial leaves out parsers that can get to procedure_designator. For these the condition is false: C88_violation_good has it for the extension of ext_demo, with `write(6), (a)`. The conditions good, starsTake, treeEnds and calls are tests of the term of the parser, computed; all rule functions of the library pass the first two."}
]}
