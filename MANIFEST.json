{"claims": [
 {"property": "C01", "status": "proved", "theorems": ["Parsegen.c01_sentence"], "note": ""},
 {"property": "C02", "status": "proved", "theorems": ["Parsegen.c02_value"], "note": ""},
 {"property": "C03", "status": "proved", "theorems": ["Parsegen.c03_postorder", "Parsegen.c02_value"], "note": ""},
 {"property": "C04", "status": "proved", "theorems": ["Parsegen.c04_value", "Parsegen.c04_sentence", "Parsegen.c04_accepts_iff", "Parsegen.c04_user", "Parsegen.Examples.c04_counterexample_first", "Parsegen.Examples.c04_counterexample_shift"], "note": ""},
 {"property": "C05", "status": "proved", "theorems": ["Parsegen.c05_unambiguous", "Parsegen.c05_value_unique", "Parsegen.c05_lr1_unambiguous", "Parsegen.c05_user", "Parsegen.Examples.c05_counterexample"], "note": ""},
 {"property": "C06", "status": "proved", "theorems": ["Parsegen.c06_only_user_panics", "Parsegen.c06_no_panic"], "note": ""},
 {"property": "C07", "status": "proved", "theorems": ["Parsegen.c07_user", "Parsegen.c07_lr1", "Parsegen.c07_terminates", "Parsegen.c07_productive", "Parsegen.Examples.c07_counterexample", "Parsegen.Examples.c07_lr1_counterexample"], "note": ""},
 {"property": "C08", "status": "proved", "theorems": ["Parsegen.c08_user", "Parsegen.c08_prefix", "Parsegen.c08_first_error", "Parsegen.Examples.c04_counterexample_first", "Parsegen.Examples.c04_counterexample_shift"], "note": ""},
 {"property": "C09", "status": "proved", "theorems": ["Parsegen.c09_expected_sound"], "note": ""},
 {"property": "C10", "status": "proved", "theorems": ["Parsegen.c10_user", "Parsegen.c10_expected_complete", "Parsegen.Examples.c10_counterexample"], "note": ""},
 {"property": "C11", "status": "proved", "theorems": ["Parsegen.c11_found"], "note": ""},
 {"property": "C12", "status": "proved", "theorems": ["Parsegen.c12_lexer_error", "Parsegen.c12_error_reached", "Parsegen.c63_lexer_error"], "note": ""},
 {"property": "C13", "status": "proved", "theorems": ["Parsegen.c13_lazy", "Parsegen.c13_ok_reads_all"], "note": ""},
 {"property": "C14", "status": "proved", "theorems": ["Parsegen.c14_unread_input", "Parsegen.returns_unique"], "note": ""},
 {"property": "C15", "status": "proved", "theorems": ["Parsegen.c15_entry", "Parsegen.c15_entries"], "note": ""},
 {"property": "C16", "status": "proved", "theorems": ["Parsegen.c16_first", "Parsegen.c16_closure", "Parsegen.c16_automaton", "Parsegen.c39_no_internal"], "note": ""},
 {"property": "C17", "status": "proved", "theorems": ["Parsegen.c17_first_sound"], "note": ""},
 {"property": "C18", "status": "proved", "theorems": ["Parsegen.c18_first_enough", "Parsegen.c18_first_complete", "Parsegen.c18_complete_iff", "Parsegen.c18_counterexample", "Parsegen.c18_counterexample_empty", "Parsegen.UHarmless.of_markers", "Parsegen.UHarmless.of_check", "Parsegen.Grammar.HarmlessNullable.of_self"], "note": ""},
 {"property": "C19", "status": "proved", "theorems": ["Parsegen.c19_first", "Parsegen.c19_closure", "Parsegen.c19_automaton", "Parsegen.c19_error", "Parsegen.c19_ok", "Parsegen.c19_behaviour"], "note": "The order in which the parser structs are emitted does depend on the iteration order (lr_codegen.rs:75 iterates over a hash map); everything else, including every panic, is equal."},
 {"property": "C20", "status": "proved", "theorems": ["Parsegen.c20_reduce_reduce"], "note": ""},
 {"property": "C21", "status": "proved", "theorems": ["Parsegen.c21_table", "Parsegen.c21_shift_wins", "Parsegen.c21_rejects_iff", "Parsegen.Examples.c21_silent"], "note": ""},
 {"property": "C22", "status": "proved", "theorems": ["Parsegen.c22_accept_wins", "Parsegen.c21_rejects_iff", "Parsegen.c21_table"], "note": ""},
 {"property": "C23", "status": "proved", "theorems": ["Parsegen.c23_not_lr1", "Parsegen.c23_lr1_accepted", "Parsegen.c23_user", "Parsegen.c23_user_accepted"], "note": ""},
 {"property": "C24", "status": "proved", "theorems": ["Parsegen.c24_productions", "Parsegen.c24_language"], "note": ""},
 {"property": "C25", "status": "proved", "theorems": ["Parsegen.c25_wrappers"], "note": ""},
 {"property": "C26", "status": "proved", "theorems": ["Parsegen.c26_rejects_iff"], "note": ""},
 {"property": "C27", "status": "proved", "theorems": ["Parsegen.c27_merged", "Parsegen.c27_redefined_entry"], "note": ""},
 {"property": "C28", "status": "proved", "theorems": ["Parsegen.c28_first_match", "Parsegen.c28_consistent", "Parsegen.c28_token_value", "Parsegen.c28_one_tuple_differs"], "note": ""},
 {"property": "C29", "status": "proved", "theorems": ["Parsegen.c29_captures", "Parsegen.c29_typed", "Parsegen.c29_arrives"], "note": ""},
 {"property": "C30", "status": "proved", "theorems": ["Parsegen.c30_leftmost", "Parsegen.c30_innermost", "Parsegen.c30_actions"], "note": ""},
 {"property": "C31", "status": "proved", "theorems": ["Parsegen.c31_variants", "Parsegen.c34_actions"], "note": ""},
 {"property": "C32", "status": "proved", "theorems": ["Parsegen.c32_fits", "Parsegen.c32_too_many", "Parsegen.c39_panics"], "note": ""},
 {"property": "C33", "status": "proved", "theorems": ["Parsegen.c33_arrays"], "note": ""},
 {"property": "C34", "status": "proved", "theorems": ["Parsegen.c34_actions", "Parsegen.c34_reduce"], "note": ""},
 {"property": "C35", "status": "proved", "theorems": ["Parsegen.c35_rejects", "Parsegen.c35_order"], "note": ""},
 {"property": "C36", "status": "proved", "theorems": ["Parsegen.c36_canonical", "Parsegen.c36_transitions", "Parsegen.c36_valid"], "note": ""},
 {"property": "C37", "status": "proved", "theorems": ["Parsegen.c37_states"], "note": ""},
 {"property": "C38", "status": "proved", "theorems": ["Parsegen.c38_closure"], "note": ""},
 {"property": "C39", "status": "proved", "theorems": ["Parsegen.c39_panics", "Parsegen.c39_no_internal"], "note": ""},
 {"property": "C40", "status": "proved", "theorems": ["Parsegen.c40_moment"], "note": ""},
 {"property": "C41", "status": "proved", "theorems": ["Parsegen.c41_user", "Parsegen.c41_lr1", "Parsegen.c41_progress"], "note": ""},
 {"property": "C42", "status": "proved", "theorems": ["Parsegen.c42_read", "Parsegen.c42_roundtrip"], "note": ""},
 {"property": "C43", "status": "proved", "theorems": ["Parsegen.c43_accepts_iff", "Parsegen.c43_unambiguous", "Parsegen.c43_literal_dropped"], "note": ""},
 {"property": "C44", "status": "proved", "theorems": ["Parsegen.c44_panics_iff", "Parsegen.c44_definitions"], "note": ""},
 {"property": "C45", "status": "proved", "theorems": ["Parsegen.c45_ends"], "note": ""},
 {"property": "C46", "status": "proved", "theorems": ["Parsegen.c46_writing", "Parsegen.c46_accepts_iff"], "note": ""},
 {"property": "C47", "status": "proved", "theorems": ["Parsegen.c47_names_iff", "Parsegen.c47_scoped_iff", "Parsegen.c47_conventional"], "note": ""},
 {"property": "C48", "status": "proved", "theorems": ["Parsegen.c48_emits", "Parsegen.c48_by_name", "Parsegen.c48_value"], "note": ""},
 {"property": "C49", "status": "proved", "theorems": ["Parsegen.c49_typed_iff"], "note": ""},
 {"property": "C50", "status": "proved", "theorems": ["Parsegen.c50_user", "Parsegen.c50_lr1", "Parsegen.c50_lr1_time", "Parsegen.c50_linear", "Parsegen.c50_returns", "Parsegen.c50_time", "Parsegen.c50_cost"], "note": ""},
 {"property": "C51", "status": "proved", "theorems": ["Parsegen.c51_user", "Parsegen.c51_user_error", "Parsegen.c51_value", "Parsegen.c51_complete", "Parsegen.c51_moment", "Parsegen.c51_control", "Parsegen.c51_panic", "Parsegen.c51_parser_error", "Parsegen.c51_first_error", "Parsegen.c51_lexer_error", "Parsegen.c51_linear", "Parsegen.c51_progress", "Parsegen.c51_lr1_progress", "Parsegen.c51_fixed"], "note": ""},
 {"property": "C52", "status": "proved", "theorems": ["Parsegen.c52_macro", "Parsegen.c52_entries", "Parsegen.c52_cls", "Parsegen.c52_actions", "Parsegen.c52_no_panic", "Parsegen.c52_diverges"], "note": ""},
 {"property": "C53", "status": "proved", "theorems": ["Parsegen.c53_lifetimes_iff", "Parsegen.c53_no_influence", "Parsegen.Examples.c53_unused_lifetime", "Parsegen.Examples.c53_no_debug"], "note": ""},
 {"property": "C54", "status": "proved", "theorems": ["Parsegen.c54_conservative", "Parsegen.c54_control", "Parsegen.c54_panics", "Parsegen.c54_returns", "Parsegen.c54_no_return", "Parsegen.c54_all_named", "Parsegen.Examples.c54_wrong_value", "Parsegen.Examples.c54_unreachable"], "note": ""},
 {"property": "C55", "status": "proved", "theorems": ["Parsegen.c55_common", "Parsegen.c55_extend", "Parsegen.c55_rearranged", "Parsegen.c55_messages", "Parsegen.c55_accepted", "Parsegen.Examples.c55_order_matters", "Parsegen.Examples.c55_production_order_matters", "Parsegen.Examples.c55_unused_matters", "Parsegen.Examples.c55_conflict_order"], "note": ""},
 {"property": "C56", "status": "proved", "theorems": ["Parsegen.c56_entry_states", "Parsegen.c56_table", "Parsegen.c56_parser", "Parsegen.c56_simulate", "Parsegen.c56_sound", "Parsegen.c56_complete", "Parsegen.c56_iff"], "note": ""},
 {"property": "C57", "status": "proved", "theorems": ["Parsegen.c57_truth", "Parsegen.c57_text", "Parsegen.c57_stable", "Parsegen.c21_rejects_iff", "Parsegen.c39_panics"], "note": ""},
 {"property": "C58", "status": "proved", "theorems": ["Parsegen.c58_text"], "note": ""},
 {"property": "C59", "status": "proved", "theorems": ["Parsegen.c59_rename", "Parsegen.c59_compiles", "Parsegen.c59_panics"], "note": ""},
 {"property": "C60", "status": "proved", "theorems": ["Parsegen.c60_calm", "Parsegen.c60_panic", "Parsegen.c60_value", "Parsegen.c60_other_panics", "Parsegen.c60_noPanic"], "note": ""},
 {"property": "C61", "status": "proved", "theorems": ["Parsegen.c61_knuth", "Parsegen.c61_knuth_of_lr1", "Parsegen.c61_accepted", "Parsegen.c61_rejected", "Parsegen.c61_parses", "Parsegen.c61_reduce_reduce", "Parsegen.Examples.c61_counterexample"], "note": ""},
 {"property": "C62", "status": "proved", "theorems": ["Parsegen.c62_sound", "Parsegen.c62_unique", "Parsegen.c62_complete", "Parsegen.c62_accepts_iff", "Parsegen.c62_lr1", "Parsegen.Examples.inner_greedy", "Parsegen.Examples.outer_not_greedy"], "note": ""},
 {"property": "C63", "status": "proved", "theorems": ["Parsegen.c63_syntax_error", "Parsegen.c63_lexer_error", "Parsegen.c63_user", "Parsegen.c63_replaced", "Parsegen.Examples.c63_counterexample"], "note": ""},
 {"property": "C64", "status": "proved", "theorems": ["Parsegen.c64_same", "Parsegen.c64_macro", "Parsegen.c64_language", "Parsegen.Examples.arith_alpha"], "note": ""},
 {"property": "C65", "status": "proved", "theorems": ["Parsegen.c65_accepts", "Parsegen.c65_panics", "Parsegen.Examples.c65_raw"], "note": "Assumed of str::to_lowercase: identifiers stay identifiers, # stays. Grammars with at most 2^32 non-terminals after lowering."},
 {"property": "C66", "status": "proved", "theorems": ["Parsegen.c66_macro", "Parsegen.c66_token_fns", "Parsegen.c66_compiled", "Parsegen.c66_swallows", "Parsegen.Examples.arithVar_compiled"], "note": "Which paths are variables is a parameter (rustc's name resolution)."},
 {"property": "C67", "status": "proved", "theorems": ["Parsegen.c67_behaviour", "Parsegen.c67_items", "Parsegen.c67_more", "Parsegen.c67_accepted", "Parsegen.c67_tokens", "Parsegen.Examples.unusedPub_same", "Parsegen.Examples.unused_accepted", "Parsegen.Examples.c67_adding"], "note": "Acceptance for grammars within the u16 size limits."},
 {"property": "C68", "status": "proved", "theorems": ["Parsegen.c68_moment", "Parsegen.c68_outcome", "Parsegen.c68_returns", "Parsegen.c68_rearranged", "Parsegen.UTree.Cut.postorder"], "note": ""},
 {"property": "C69", "status": "proved", "theorems": ["Parsegen.c69_terminates", "Parsegen.c69_sound", "Parsegen.c69_complete", "Parsegen.c69_textbook", "Parsegen.c69_order", "Parsegen.c69_counterexample", "Parsegen.Examples.c69_example"], "note": "follow.rs is not compiled into the macro; modelled over today's Grammar type."},
 {"property": "C70", "status": "proved", "theorems": ["Parsegen.c70_terminates", "Parsegen.c70_items", "Parsegen.c70_paths", "Parsegen.c70_prefix", "Parsegen.c70_states", "Parsegen.c70_order", "Parsegen.Examples.c70_example"], "note": "lr0.rs is not compiled into the macro; modelled over today's Grammar type."},
 {"property": "C71", "status": "proved", "theorems": ["Parsegen.c71_accepts", "Parsegen.c71_rejects", "Parsegen.c71_lr1", "Parsegen.c71_generator", "Parsegen.c71_sound", "Parsegen.c71_no_panic", "Parsegen.c71_prefix", "Parsegen.c71_complete", "Parsegen.c71_terminates", "Parsegen.c71_terminates_slr", "Parsegen.c71_decides", "Parsegen.c71_order", "Parsegen.Examples.exprGrammar_slr1", "Parsegen.Examples.c71_example", "Parsegen.Examples.c71_not_slr", "Parsegen.Examples.c71_counterexample"], "note": "lr0.rs is not compiled into the macro; modelled over today's Grammar type."},
 {"property": "C72", "status": "proved", "theorems": ["Parsegen.c72_conflict", "Parsegen.c72_not_knuth", "Parsegen.c72_accepted", "Parsegen.c72_user", "Parsegen.Examples.c72_hidden_example", "Parsegen.Examples.c72_cycle_example"], "note": ""},
 {"property": "C73", "status": "proved", "theorems": ["Parsegen.c73_bounded", "Parsegen.c73_unbounded", "Parsegen.c73_iff", "Parsegen.c73_user", "Parsegen.not_inside_of_check"], "note": ""},
 {"property": "C74", "status": "proved", "theorems": ["Parsegen.c74_height", "Parsegen.c74_bounded", "Parsegen.c74_lr1", "Parsegen.c74_unbounded", "Parsegen.c74_iff", "Parsegen.not_right_of_check", "Parsegen.Examples.c74_example"], "note": ""},
 {"property": "C75", "status": "proved", "theorems": ["Parsegen.c75_parametric", "Parsegen.c75_invariant", "Parsegen.c75_tokens", "Parsegen.c75_map_error", "Parsegen.c75_fusion", "Parsegen.Examples.arith_trees", "Parsegen.Examples.c75_example"], "note": ""},
 {"property": "C76", "status": "proved", "theorems": ["Parsegen.c76_ll1", "Parsegen.c76_ll1_table", "Parsegen.c76_slr1", "Parsegen.c76_lalr1", "Parsegen.c76_accepted", "Parsegen.c76_parses", "Parsegen.c76_never_wrong", "Parsegen.Examples.c76_counterexample", "Parsegen.Examples.descent_ll1", "Parsegen.Examples.descent_parses", "Parsegen.Examples.arith_slr1"], "note": ""},
 {"property": "C77", "status": "proved", "theorems": ["Parsegen.c77_replace", "Parsegen.c77_sentence", "Parsegen.c77_part"], "note": ""},
 {"property": "C78", "status": "proved", "theorems": ["Parsegen.c78_grammar", "Parsegen.c78_first", "Parsegen.c78_automaton", "Parsegen.c78_table", "Parsegen.c78_lowered", "Parsegen.c78_total", "Parsegen.c78_clash"], "note": ""},
 {"property": "C79", "status": "proved", "theorems": ["Parsegen.c79_unique", "Parsegen.c79_reports", "Parsegen.c79_iff", "Parsegen.c79_same", "Parsegen.c79_admissible", "Parsegen.c79_rules", "Parsegen.c79_inline", "Parsegen.c79_recursion", "Parsegen.Examples.arith_turned", "Parsegen.Examples.arith_inlined", "Parsegen.Examples.sumsR_regular"], "note": ""},
 {"property": "C80", "status": "proved", "theorems": ["Parsegen.c80_ok", "Parsegen.c80_later", "Parsegen.c80_lexer", "Parsegen.c80_error", "Parsegen.Examples.flat_later", "Parsegen.Examples.c80_counterexample"], "note": ""},
 {"property": "C81", "status": "proved", "theorems": ["Parsegen.c81_left", "Parsegen.c81_right", "Parsegen.c81_repeat", "Parsegen.c81_left_parse", "Parsegen.c81_right_parse", "Parsegen.c81_repeat_parse", "Parsegen.Examples.folds_left", "Parsegen.Examples.folds_right", "Parsegen.Examples.folds_repeats", "Parsegen.Examples.folds_regular"], "note": ""},
 {"property": "C82", "status": "proved", "theorems": ["Parsegen.c82_token", "Parsegen.c82_end", "Parsegen.c82_text", "Parsegen.Examples.c82_nothing"], "note": ""},
 {"property": "C83", "status": "proved", "theorems": ["Parsegen.c83_contract", "Parsegen.c83_accepted", "Parsegen.Contract.kept", "Parsegen.Examples.sum_value", "Parsegen.Examples.sum_contract", "Parsegen.Examples.sum_kept", "Parsegen.Examples.sum_written", "Parsegen.c83_check", "Parsegen.Conformance.keeps_sound", "Parsegen.Conformance.keeps_contract", "Parsegen.Conformance.tests_keep", "Parsegen.Conformance.test_grammar_5_ok"], "note": ""},
 {"property": "C84", "status": "proved", "theorems": ["Parsegen.c84_value", "Parsegen.c84_sound", "Parsegen.c84_parse", "Parsegen.Examples.ops_tower", "Parsegen.Examples.ops_regular", "Parsegen.Examples.ops_parse"], "note": ""},
 {"property": "C85", "status": "proved", "theorems": ["Parsegen.c85_lr1", "Parsegen.c85_harmless", "Parsegen.c85_productive", "Parsegen.c85_accepted", "Parsegen.c85_regular", "Parsegen.c85_parse", "Parsegen.Examples.ops_layered", "Parsegen.Examples.ops_accepted", "Parsegen.Examples.arith_layered"], "note": ""},
 {"property": "C86", "status": "proved", "theorems": ["Parsegen.c86_value", "Parsegen.c86_parse", "Parsegen.c86_unique", "Parsegen.c86_language", "Parsegen.c86_reports", "Parsegen.Examples.ops_calculator", "Parsegen.Examples.written_ok", "Parsegen.Examples.written_val", "Parsegen.Examples.ops_total", "Parsegen.Examples.calc_inhabited"], "note": ""}
]}
