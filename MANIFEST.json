{
 "claims": [
  {
   "property": "C01",
   "status": "proved",
   "theorems": [
    "Fall.C01_slice_bytes",
    "Fall.C01_slice_slice",
    "Fall.C01_slice_suffix"
   ],
   "note": ""
  },
  {
   "property": "C02",
   "status": "proved",
   "theorems": [
    "Fall.C02_subrange",
    "Fall.C02_subrange_empty",
    "Fall.C02_subrange_order",
    "Fall.C02_intersects",
    "Fall.C02_glue",
    "Fall.C02_shift",
    "Fall.C02_constructors"
   ],
   "note": ""
  },
  {
   "property": "C03",
   "status": "partial",
   "theorems": [
    "Fall.C03_cmp_partial",
    "Fall.C03_counterexample"
   ],
   "note": "Proved for non-empty ranges; false for empty ranges (C03_counterexample)."
  },
  {
   "property": "C04",
   "status": "proved",
   "theorems": [
    "Fall.C04_build_apply",
    "Fall.C04_untouched"
   ],
   "note": ""
  },
  {
   "property": "C05",
   "status": "proved",
   "theorems": [
    "Fall.C05_apply",
    "Fall.C05_apply_append"
   ],
   "note": ""
  },
  {
   "property": "C06",
   "status": "proved",
   "theorems": [
    "Fall.C06_to_vs_edits",
    "Fall.C06_counterexample"
   ],
   "note": "C06_counterexample shows that the final copy required by the statement is necessary."
  },
  {
   "property": "C07",
   "status": "proved",
   "theorems": [
    "Fall.C07_from_vs_edits"
   ],
   "note": ""
  },
  {
   "property": "C08",
   "status": "proved",
   "theorems": [
    "Fall.C08_scale",
    "Fall.C08_arb_edit"
   ],
   "note": ""
  },
  {
   "property": "C09",
   "status": "proved",
   "theorems": [
    "Fall.C09_trim",
    "Fall.C09_trim_idem"
   ],
   "note": ""
  },
  {
   "property": "C10",
   "status": "proved",
   "theorems": [
    "Fall.C10_lex_tiles",
    "Fall.C10_lex_sound"
   ],
   "note": ""
  },
  {
   "property": "C11",
   "status": "proved",
   "theorems": [
    "Fall.C11_relex_eq_lex",
    "Fall.C11_relex_chain"
   ],
   "note": ""
  },
  {
   "property": "C12",
   "status": "proved",
   "theorems": [
    "Fall.C12_lookahead_counterexample",
    "Fall.C12_two_bytes_not_enough"
   ],
   "note": ""
  },
  {
   "property": "C13",
   "status": "proved",
   "theorems": [
    "Fall.C13_region_accounts",
    "Fall.C13_append_relexes_last_token"
   ],
   "note": ""
  },
  {
   "property": "C14",
   "status": "proved",
   "theorems": [
    "Fall.C14_build_consistent"
   ],
   "note": ""
  },
  {
   "property": "C15",
   "status": "partial",
   "theorems": [
    "Fall.C15_rejects_unbalanced",
    "Fall.C15_consistent_partial",
    "Fall.C15_counterexample"
   ],
   "note": "Rejection of unbalanced sequences is proved in full; that accepted sequences give consistent trees holds exactly for one outermost node (C15_consistent_partial, C15_counterexample)."
  },
  {
   "property": "C16",
   "status": "proved",
   "theorems": [
    "Fall.C16_leaves_spell_text"
   ],
   "note": ""
  },
  {
   "property": "C17",
   "status": "proved",
   "theorems": [
    "Fall.C17_leaf_at_offset",
    "Fall.C17_boundary"
   ],
   "note": ""
  },
  {
   "property": "C18",
   "status": "proved",
   "theorems": [
    "Fall.C18_covering_node"
   ],
   "note": ""
  },
  {
   "property": "C19",
   "status": "proved",
   "theorems": [
    "Fall.C19_ancestors",
    "Fall.C19_common_ancestor"
   ],
   "note": ""
  },
  {
   "property": "C20",
   "status": "proved",
   "theorems": [
    "Fall.C20_sibling_inverse",
    "Fall.C20_sibling_none"
   ],
   "note": ""
  },
  {
   "property": "C21",
   "status": "proved",
   "theorems": [
    "Fall.C21_subtree",
    "Fall.C21_walk_tree"
   ],
   "note": ""
  },
  {
   "property": "C22",
   "status": "proved",
   "theorems": [
    "Fall.C22_edit_renders",
    "Fall.C22_local",
    "Fall.C22_no_requests",
    "Fall.C22_single_request",
    "Fall.C22_conflicts"
   ],
   "note": "Conflict resolution is part of the specification (Spec.Rendered); C22_conflicts shows concrete dropped requests."
  },
  {
   "property": "C23",
   "status": "proved",
   "theorems": [
    "Fall.C23_replace_substring"
   ],
   "note": ""
  },
  {
   "property": "C24",
   "status": "proved",
   "theorems": [
    "Fall.C24_failure_leaves_no_trace",
    "Fall.C24_previous_node_leaks"
   ],
   "note": ""
  },
  {
   "property": "C25",
   "status": "proved",
   "theorems": [
    "Fall.C25_lookahead_no_output",
    "Fall.C25_cache_counterexample"
   ],
   "note": "Without a reparse cache; C25_cache_counterexample shows that with one a cached fragment is emitted in lookahead."
  },
  {
   "property": "C26",
   "status": "proved",
   "theorems": [
    "Fall.C26_tokens_accounted"
   ],
   "note": ""
  },
  {
   "property": "C27",
   "status": "proved",
   "theorems": [
    "Fall.C27_parse_covers_tokens"
   ],
   "note": ""
  },
  {
   "property": "C28",
   "status": "partial",
   "theorems": [
    "Fall.C28_reshuffle_resolves",
    "Fall.C28_reshuffle_parse_partial",
    "Fall.C28_reshuffle_keeps_tokens",
    "Fall.C28_counterexample"
   ],
   "note": "Proved in full for all streams in which each link leads to a following node (C28_reshuffle_resolves) and for all parser streams of grammars whose linked nodes exist (C28_reshuffle_parse_partial); false without that condition (C28_counterexample)."
  },
  {
   "property": "C29",
   "status": "proved",
   "theorems": [
    "Fall.C29_convert_lossless"
   ],
   "note": ""
  },
  {
   "property": "C30",
   "status": "partial",
   "theorems": [
    "Fall.C30_no_space_at_ends",
    "Fall.C30_file_ends_partial",
    "Fall.C30_counterexample"
   ],
   "note": "First part proved; the part about the ends of the file holds if no node begins after the last token (C30_file_ends_partial), and is false otherwise (C30_counterexample)."
  },
  {
   "property": "C31",
   "status": "proved",
   "theorems": [
    "Fall.C31_parse_lossless",
    "Fall.C31_string_counterexample",
    "Fall.C31_replaced_counterexample"
   ],
   "note": "Counterexamples show that the conditions on strings with spaces and on the start rule are necessary."
  },
  {
   "property": "C32",
   "status": "proved",
   "theorems": [
    "Fall.C32_parser_terminates",
    "Fall.C32_no_left_recursion",
    "Fall.C32_shipped_grammars",
    "Fall.C32_rust_terminates",
    "Fall.C32_left_recursion_counterexample",
    "Fall.C32_empty_repetition_counterexample"
   ],
   "note": "Also for each of the seven shipped grammars. C32_left_recursion_counterexample and C32_empty_repetition_counterexample show that the conditions are necessary."
  },
  {
   "property": "C33",
   "status": "proved",
   "theorems": [
    "Fall.C33_safe_no_panic",
    "Fall.C33_parse_total",
    "Fall.C33_conditions_counterexample",
    "Fall.C33_links_counterexample"
   ],
   "note": "C33_parse_total also covers building the tree. C33_conditions_counterexample and C33_links_counterexample show that the conditions are necessary."
  },
  {
   "property": "C34",
   "status": "proved",
   "theorems": [
    "Fall.C34_rules_total",
    "Fall.C34_sexp_total",
    "Fall.C34_bnf_total",
    "Fall.C34_fall_total",
    "Fall.C34_rust_total",
    "Fall.C34_empty_text_counterexample"
   ],
   "note": "For S-expressions, Backus-Naur form, Fall and Rust, with the lexer as a parameter; C34_empty_text_counterexample for the parsers that panic on the empty text."
  },
  {
   "property": "C35",
   "status": "proved",
   "theorems": [
    "Fall.C35_peg",
    "Fall.C35_peg_tokens"
   ],
   "note": "For environments without a reparse cache."
  },
  {
   "property": "C36",
   "status": "proved",
   "theorems": [
    "Fall.C36_optional",
    "Fall.C36_repetition",
    "Fall.C36_repetition_ends"
   ],
   "note": ""
  },
  {
   "property": "C37",
   "status": "proved",
   "theorems": [
    "Fall.C37_commit",
    "Fall.C37_no_commit"
   ],
   "note": ""
  },
  {
   "property": "C38",
   "status": "proved",
   "theorems": [
    "Fall.C38_layer",
    "Fall.C38_layer_confines"
   ],
   "note": ""
  },
  {
   "property": "C39",
   "status": "proved",
   "theorems": [
    "Fall.C39_with_skip"
   ],
   "note": ""
  },
  {
   "property": "C40",
   "status": "proved",
   "theorems": [
    "Fall.C40_one_grouping",
    "Fall.C40_grouping",
    "Fall.C40_no_operand",
    "Fall.C40_arith_round_trip"
   ],
   "note": "C40_arith_round_trip states it for whole parses of the arithmetic example against the usual stratified grammar."
  },
  {
   "property": "C41",
   "status": "proved",
   "theorems": [
    "Fall.C41_contextual_token",
    "Fall.C41_counterexample"
   ],
   "note": "For strings in which no whitespace token begins; C41_counterexample shows that the condition, part of the statement, is necessary."
  },
  {
   "property": "C42",
   "status": "partial",
   "theorems": [
    "Fall.C42_empty_cache_partial",
    "Fall.C42_sound_cache",
    "Fall.C42_sound_cache_partial",
    "Fall.C42_counterexample_end",
    "Fall.C42_counterexample_layer"
   ],
   "note": "Equality with an empty cache is proved for grammars whose cached rules are not run in lookahead or layers (C42_sound_cache); equality with no cache up to panics (C42_sound_cache_partial). Both restrictions are necessary (C42_counterexample_end, C42_counterexample_layer)."
  },
  {
   "property": "C43",
   "status": "partial",
   "theorems": [
    "Fall.C43_salvage_partial",
    "Fall.C43_salvage_total",
    "Fall.C43_counterexample"
   ],
   "note": "Proved except for the offset of fragments with empty text, for which it is false (C43_counterexample)."
  },
  {
   "property": "C44",
   "status": "partial",
   "theorems": [
    "Fall.C44_reparse_partial",
    "Fall.C44_session_partial",
    "Fall.C44_reparse_sound_partial",
    "Fall.C44_counterexample"
   ],
   "note": "Proved in full for grammars without cached rules, also for sequences of edits; with cached rules it is proved, up to panics, if the salvaged cache is sound, and false in general (C44_counterexample)."
  },
  {
   "property": "C45",
   "status": "proved",
   "theorems": [
    "Fall.C45_translate",
    "Fall.C45_order",
    "Fall.C45_partition"
   ],
   "note": ""
  },
  {
   "property": "C46",
   "status": "proved",
   "theorems": [
    "Fall.C46_accepts",
    "Fall.C46_hints",
    "Fall.C46_characters",
    "Fall.C46_characters_counterexample"
   ],
   "note": "On bytes, as the code works; C46_characters_counterexample shows the difference to characters."
  },
  {
   "property": "C47",
   "status": "proved",
   "theorems": [
    "Fall.C47_last_look",
    "Fall.C47_up_to_date",
    "Fall.C47_removed_directory_counterexample",
    "Fall.C47_replaced_file_counterexample"
   ],
   "note": "The value at each path is what the last look at it saw; the counterexamples show for removed directories and replaced files that no notification looks at the stale path."
  },
  {
   "property": "C48",
   "status": "proved",
   "theorems": [
    "Fall.C48_extend",
    "Fall.C48_repeat",
    "Fall.C48_caret",
    "Fall.C48_caret_counterexample",
    "Fall.C48_empty_file"
   ],
   "note": "C48_caret describes the extension of a caret, which need not contain the caret (C48_caret_counterexample)."
  },
  {
   "property": "C49",
   "status": "proved",
   "theorems": [
    "Fall.C49_answers",
    "Fall.C49_diagnostics",
    "Fall.C49_complete",
    "Fall.C49_schedule",
    "Fall.C49_terminates",
    "Fall.C49_progress"
   ],
   "note": "For any query bodies, any number of threads and any interleaving. C49_terminates assumes that evaluation without a cache terminates."
  },
  {
   "property": "C50",
   "status": "proved",
   "theorems": [
    "Fall.C50_resolve",
    "Fall.C50_unique",
    "Fall.C50_history"
   ],
   "note": "On the tree, with the accessors of the typed nodes; C50_history for every state of the shared cache."
  },
  {
   "property": "C51",
   "status": "proved",
   "theorems": [
    "Fall.C51_swap",
    "Fall.C51_involution",
    "Fall.C51_offered",
    "Fall.C51_swap_alternatives"
   ],
   "note": "Both actions; that the second swap finds the exchanged nodes depends on parsing the new text and is a hypothesis of C51_involution."
  },
  {
   "property": "C52",
   "status": "proved",
   "theorems": [
    "Fall.C52_children",
    "Fall.C52_descendants",
    "Fall.C52_ancestor",
    "Fall.C52_node_at_offset"
   ],
   "note": ""
  },
  {
   "property": "C53",
   "status": "proved",
   "theorems": [
    "Fall.C53_parse_follows_grammar"
   ],
   "note": ""
  },
  {
   "property": "C57",
   "status": "proved",
   "theorems": [
    "Fall.C57_index",
    "Fall.C57_search",
    "Fall.C57_hidden_counterexample",
    "Fall.C57_case_counterexample"
   ],
   "note": "C57_hidden_counterexample and C57_case_counterexample show symbols that a user would expect to be found."
  },
  {
   "property": "C58",
   "status": "proved",
   "theorems": [
    "Fall.C58_ends",
    "Fall.C58_terminates",
    "Fall.C58_finishes",
    "Fall.C58_together"
   ],
   "note": "For every tree, consistent or not."
  },
  {
   "property": "C59",
   "status": "proved",
   "theorems": [
    "Fall.C59_duplicate_rules",
    "Fall.C59_duplicate_tokens",
    "Fall.C59_unused",
    "Fall.C59_reported",
    "Fall.C59_alone",
    "Fall.C59_history_counterexample",
    "Fall.C59_sorted"
   ],
   "note": "C59_history_counterexample shows that rules of the same name are reported only if somebody looks up a rule."
  },
  {
   "property": "C61",
   "status": "proved",
   "theorems": [
    "Fall.C61_contexts",
    "Fall.C61_calls",
    "Fall.C61_unique"
   ],
   "note": "C61_unique shows that the description determines the answer."
  },
  {
   "property": "C62",
   "status": "proved",
   "theorems": [
    "Fall.C62_operator",
    "Fall.C62_unique"
   ],
   "note": "C62_unique shows that the description determines the answer."
  },
  {
   "property": "C63",
   "status": "proved",
   "theorems": [
    "Fall.C63_traits",
    "Fall.C63_methods",
    "Fall.C63_unique"
   ],
   "note": "C63_unique shows that the description determines the answer."
  },
  {
   "property": "C54",
   "status": "proved",
   "theorems": [
    "Fall.C54_raw_string",
    "Fall.C54_open",
    "Fall.C54_hashes_counterexample"
   ],
   "note": "C54_hashes_counterexample: the lexer panics on more than 30 hashes."
  },
  {
   "property": "C55",
   "status": "proved",
   "theorems": [
    "Fall.C55_comment"
   ],
   "note": ""
  },
  {
   "property": "C64",
   "status": "proved",
   "theorems": [
    "Fall.C64_fall_declarations",
    "Fall.C64_child",
    "Fall.C64_within",
    "Fall.C64_without",
    "Fall.C64_leaves",
    "Fall.C64_tokens",
    "Fall.C64_fall_child",
    "Fall.C64_fall_within",
    "Fall.C64_fall_without",
    "Fall.C64_fall_top",
    "Fall.C64_fall_root",
    "Fall.C64_exn",
    "Fall.C64_bnf_child",
    "Fall.C64_commit_counterexample",
    "Fall.C64_rust_child"
   ],
   "note": "C64_child, C64_without, C64_within and C64_leaves for every grammar; the instances list the accessors. C64_commit_counterexample: accessors for what comes after a commit may panic."
  },
  {
   "property": "C60",
   "status": "proved",
   "theorems": [
    "Fall.C60_panics",
    "Fall.C60_collect",
    "Fall.C60_parsed",
    "Fall.C60_fall",
    "Fall.C60_fall_collect",
    "Fall.C60_edit_counterexample"
   ],
   "note": "C60_panics and C60_collect for every consistent tree with the children that accessors expect; C60_parsed: parsed files are such. C60_edit_counterexample: two texts for which collecting the diagnostics panics."
  },
  {
   "property": "C65",
   "status": "proved",
   "theorems": [
    "Fall.C65_translates",
    "Fall.C65_unambiguous",
    "Fall.C65_readable",
    "Fall.C65_parsed",
    "Fall.C65_text"
   ],
   "note": "For trees in which the bodies of rules are blocks (BlockBodies); C65_parsed: every parsed text has such a tree."
  },
  {
   "property": "C66",
   "status": "proved",
   "theorems": [
    "Fall.C66_same_events",
    "Fall.C66_same_tree",
    "Fall.C66_derives"
   ],
   "note": "For parsing from scratch; results memorised for reparsing are keyed by rule."
  },
  {
   "property": "C67",
   "status": "proved",
   "theorems": [
    "Fall.C67_types",
    "Fall.C67_no_other_types",
    "Fall.C67_parameters"
   ],
   "note": "That there are at most 16 parameters is checked neither by the analysis nor by the generator."
  },
  {
   "property": "C68",
   "status": "proved",
   "theorems": [
    "Fall.C68_goto",
    "Fall.C68_usages",
    "Fall.C68_usages_total",
    "Fall.C68_touching_counterexample",
    "Fall.C68_usages_counterexample"
   ],
   "note": ""
  },
  {
   "property": "C69",
   "status": "proved",
   "theorems": [
    "Fall.C69_test",
    "Fall.C69_fall"
   ],
   "note": ""
  },
  {
   "property": "C70",
   "status": "proved",
   "theorems": [
    "Fall.C70_reformat",
    "Fall.C70_ink",
    "Fall.C70_fall",
    "Fall.C70_again_counterexample"
   ],
   "note": ""
  },
  {
   "property": "C71",
   "status": "proved",
   "theorems": [
    "Fall.C71_offered",
    "Fall.C71_extract",
    "Fall.C71_panics",
    "Fall.C71_fall",
    "Fall.C71_selection_counterexample",
    "Fall.C71_name_counterexample"
   ],
   "note": ""
  },
  {
   "property": "C72",
   "status": "proved",
   "theorems": [
    "Fall.C72_structure",
    "Fall.C72_fall"
   ],
   "note": ""
  },
  {
   "property": "C73",
   "status": "proved",
   "theorems": [
    "Fall.C73_highlight",
    "Fall.C73_fall",
    "Fall.C73_panics_counterexample",
    "Fall.C73_within_counterexample"
   ],
   "note": ""
  },
  {
   "property": "C74",
   "status": "proved",
   "theorems": [
    "Fall.C74_offered",
    "Fall.C74_fall"
   ],
   "note": ""
  },
  {
   "property": "C75",
   "status": "proved",
   "theorems": [
    "Fall.C75_balanced",
    "Fall.C75_unique",
    "Fall.C75_fall",
    "Fall.C75_fall_block",
    "Fall.C75_rust"
   ],
   "note": "C75_balanced for every grammar with such a rule; C75_fall, C75_fall_block and C75_rust for the two grammars that have one."
  },
  {
   "property": "C76",
   "status": "proved",
   "theorems": [
    "Fall.C76_reparse",
    "Fall.C76_unquoted",
    "Fall.C76_session",
    "Fall.C76_quoted_counterexample"
   ],
   "note": "C76_reparse for any edit with right tokens, C76_unquoted without a condition on relexing, C76_session for sequences of edits; with double quotes relexing can be wrong (C76_quoted_counterexample)."
  },
  {
   "property": "C77",
   "status": "proved",
   "theorems": [
    "Fall.C77_relex",
    "Fall.C77_relex_counterexample"
   ],
   "note": "C77_relex for the seven lexers; C77_relex_counterexample shows that the conditions for Fall and Rust are needed."
  },
  {
   "property": "C78",
   "status": "proved",
   "theorems": [
    "Fall.C78_reparse",
    "Fall.C78_session",
    "Fall.C78_rust_counterexample",
    "Fall.C78_rust_panic_counterexample"
   ],
   "note": ""
  },
  {
   "property": "C79",
   "status": "proved",
   "theorems": [
    "Fall.C79_generates",
    "Fall.C79_text",
    "Fall.C79_syntax",
    "Fall.C79_no_errors",
    "Fall.C79_unreported_counterexample"
   ],
   "note": "Exact for the generator itself; that a grammar without reported errors is generated needs the conditions of Tidy, each with a counterexample."
  },
  {
   "property": "C80",
   "status": "proved",
   "theorems": [
    "Fall.C80_generates",
    "Fall.C80_says",
    "Fall.C80_text",
    "Fall.C80_unreported_counterexample"
   ],
   "note": "C80_generates and C80_says for any file with the shape of C64, C80_text for texts; C80_unreported_counterexample shows quiet grammars that fail."
  },
  {
   "property": "C81",
   "status": "proved",
   "theorems": [
    "Fall.C81_types",
    "Fall.C81_wraps",
    "Fall.C81_methods",
    "Fall.C81_resolves",
    "Fall.C81_unreported_counterexample"
   ],
   "note": "For usual names; C81_unreported_counterexample shows quiet grammars whose module does not compile. Tera and the Rust compiler are not modelled; the template is read as definitions."
  },
  {
   "property": "C82",
   "status": "proved",
   "theorems": [
    "Fall.C82_semicolon",
    "Fall.C82_if_let_counterexample"
   ],
   "note": ""
  },
  {
   "property": "C83",
   "status": "proved",
   "theorems": [
    "Fall.C83_expands",
    "Fall.C83_panics",
    "Fall.C83_ending_counterexample"
   ],
   "note": ""
  },
  {
   "property": "C84",
   "status": "proved",
   "theorems": [
    "Fall.C84_breadcrumbs",
    "Fall.C84_caret_counterexample"
   ],
   "note": ""
  },
  {
   "property": "C85",
   "status": "proved",
   "theorems": [
    "Fall.C85_symbols",
    "Fall.C85_structure"
   ],
   "note": ""
  },
  {
   "property": "C86",
   "status": "proved",
   "theorems": [
    "Fall.C86_braces",
    "Fall.C86_impl",
    "Fall.C86_offered",
    "Fall.C86_parsed",
    "Fall.C86_renamed_counterexample"
   ],
   "note": ""
  },
  {
   "property": "C87",
   "status": "proved",
   "theorems": [
    "Fall.C87_tree_ws",
    "Fall.C87_tree",
    "Fall.C87_equal_files",
    "Fall.C87_syntax",
    "Fall.C87_parsed",
    "Fall.C87_fall",
    "Fall.C87_rust",
    "Fall.C87_hidden_counterexample"
   ],
   "note": "C87_tree_ws and C87_tree for all consistent trees, C87_parsed, C87_fall and C87_rust for parsed files; C87_hidden_counterexample: without white space the text of the file is not determined."
  },
  {
   "property": "C88",
   "status": "proved",
   "theorems": [
    "Fall.C88_offset",
    "Fall.C88_offset_panics",
    "Fall.C88_range",
    "Fall.C88_range_panics",
    "Fall.C88_offset_round",
    "Fall.C88_range_round",
    "Fall.C88_overlap_counterexample"
   ],
   "note": "C88_overlap_counterexample: that the text does not have the caret is not enough."
  },
  {
   "property": "C89",
   "status": "proved",
   "theorems": [
    "Fall.C89_collect",
    "Fall.C89_collect_counterexample",
    "Fall.C89_check",
    "Fall.C89_rewrite",
    "Fall.C89_trees",
    "Fall.C89_file",
    "Fall.C89_cut_counterexample"
   ],
   "note": "C89_collect under the condition that `test r` is only where tests are; C89_collect_counterexample without it. C89_cut_counterexample: an incomplete file passes."
  },
  {
   "property": "C90",
   "status": "proved",
   "theorems": [
    "Fall.C90_tests",
    "Fall.C90_tests_counterexample"
   ],
   "note": "An equivalence; C90_tests_counterexample for the cases in which tests are changed."
  },
  {
   "property": "C91",
   "status": "proved",
   "theorems": [
    "Fall.C91_record",
    "Fall.C91_text",
    "Fall.C91_session",
    "Fall.C91_fall",
    "Fall.C91_utf16_counterexample",
    "Fall.C91_rust_counterexample"
   ],
   "note": "C91_session for any backend that is right, C91_fall for Fall on ASCII documents without double quotes. C91_utf16_counterexample for other characters; C91_rust_counterexample: the backend for Rust can panic."
  },
  {
   "property": "C92",
   "status": "proved",
   "theorems": [
    "Fall.C92_clamp",
    "Fall.C92_range",
    "Fall.C92_range_counterexample",
    "Fall.C92_editor",
    "Fall.C92_format"
   ],
   "note": "C92_editor for all structural edits of ASCII files; C92_clamp: columns behind the end of a line mean its end; C92_range_counterexample for other characters."
  },
  {
   "property": "C93",
   "status": "proved",
   "theorems": [
    "Fall.C93_json",
    "Fall.C93_tree",
    "Fall.C93_parses",
    "Fall.C93_unique"
   ],
   "note": "C93_json: no ERROR iff the tokens are those of a document; C93_tree, C93_parses, C93_unique. The lexer is a parameter."
  },
  {
   "property": "C94",
   "status": "proved",
   "theorems": [
    "Fall.C94_sentence",
    "Fall.C94_child",
    "Fall.C94_fall_child",
    "Fall.C94_fall_queries",
    "Fall.C94_rust",
    "Fall.C94_errors_counterexample"
   ],
   "note": "C94_sentence and C94_child for any grammar, C94_fall_child, C94_fall_queries and C94_rust for the shipped ones; C94_errors_counterexample shows that without the condition it is false."
  },
  {
   "property": "C95",
   "status": "proved",
   "theorems": [
    "Fall.C95_boundary",
    "Fall.C95_lex",
    "Fall.C95_nodes",
    "Fall.C95_edit",
    "Fall.C95_substring",
    "Fall.C95_languages",
    "Fall.C95_substring_counterexample"
   ],
   "note": "C95_nodes and C95_edit for any grammar and any lexer that cuts between characters, C95_languages for Fall and Rust; C95_substring_counterexample for ranges inside of a character."
  },
  {
   "property": "C96",
   "status": "proved",
   "theorems": [
    "Fall.C96_structural",
    "Fall.C96_debug",
    "Fall.C96_fall",
    "Fall.C96_rust",
    "Fall.C96_selection",
    "Fall.C96_debug_counterexample"
   ],
   "note": "C96_structural, C96_fall, C96_rust, C96_selection; C96_debug under the condition on the place that it takes, with C96_debug_counterexample."
  },
  {
   "property": "C97",
   "status": "proved",
   "theorems": [
    "Fall.C97_bnf",
    "Fall.C97_tree",
    "Fall.C97_unique"
   ],
   "note": "C97_bnf: no ERROR iff the tokens are those of a grammar; C97_tree, C97_unique. The lexer is a parameter."
  },
  {
   "property": "C98",
   "status": "partial",
   "theorems": [
    "Fall.C98_bnf_partial",
    "Fall.C98_counterexample"
   ],
   "note": "False as stated: C98_counterexample shows that alternatives and symbols are never shown. C98_bnf_partial: heads are there, and below the nodes that the typed view skips there are alternatives and symbols."
  },
  {
   "property": "C99",
   "status": "proved",
   "theorems": [
    "Fall.C99_sexp",
    "Fall.C99_tree",
    "Fall.C99_unique"
   ],
   "note": "C99_sexp: no ERROR iff the tokens are those of expressions; C99_tree, C99_unique. The lexer is a parameter."
  },
  {
   "property": "C100",
   "status": "proved",
   "theorems": [
    "Fall.C100_tree",
    "Fall.C100_arith",
    "Fall.C100_unique"
   ],
   "note": "C100_arith: no ERROR iff the tokens are those of an expression; C100_tree: the file has its tree; C100_unique. The lexer is a parameter."
  },
  {
   "property": "C101",
   "status": "proved",
   "theorems": [
    "Fall.C101_file",
    "Fall.C101_search"
   ],
   "note": "C101_file: the symbols of a file; C101_search: the search in a project. The lexer, lower-casing and the binary search are parameters."
  },
  {
   "property": "C102",
   "status": "partial",
   "theorems": [
    "Fall.C102_scope",
    "Fall.C102_argument_partial",
    "Fall.C102_passed_partial",
    "Fall.C102_plain",
    "Fall.C102_rust",
    "Fall.C102_fall",
    "Fall.C102_argument_counterexample"
   ],
   "note": "False as stated: C102_argument_counterexample. C102_argument_partial, C102_passed_partial: for arguments that do not reach the parameters of the called rule. C102_plain: in full for grammars whose arguments are passed on or mention no parameters, which are those for Fall and Rust (C102_fall, C102_rust). C102_scope."
  },
  {
   "property": "C103",
   "status": "proved",
   "theorems": [
    "Fall.C103_text",
    "Fall.C103_append"
   ],
   "note": "C103_text: an equivalence, for all ASCII texts and with the budget of C34; C103_append. The crate m_lexer is a parameter that applies the rules of the language (LexesAscii)."
  },
  {
   "property": "C104",
   "status": "proved",
   "theorems": [
    "Fall.C104_text",
    "Fall.C104_parses"
   ],
   "note": "C104_text: an equivalence, for all ASCII texts that are parsed; C104_parses: the texts of expressions are. The crate m_lexer is a parameter that applies the rules of the language (LexesAscii)."
  },
  {
   "property": "C105",
   "status": "proved",
   "theorems": [
    "Fall.C105_text",
    "Fall.C105_parses"
   ],
   "note": "C105_text: an equivalence, for all ASCII texts that are parsed; C105_parses: the texts of documents are. The crate m_lexer is a parameter that applies the rules of the language (LexesAscii)."
  },
  {
   "property": "C106",
   "status": "proved",
   "theorems": [
    "Fall.C106_layout",
    "Fall.C106_types",
    "Fall.C106_parses",
    "Fall.C106_fall",
    "Fall.C106_words_counterexample"
   ],
   "note": "C106_layout, C106_parses for all definitions whose strings lie within single tokens (WholeWords); C106_fall for the Fall language without further hypotheses on the texts; C106_types for grammars without strings. C106_words_counterexample: with strings over several tokens the claim is false."
  }
 ]
}
