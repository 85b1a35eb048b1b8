# Axioms of the theorems of MANIFEST.json

Output of `#print axioms`, written by `scripts/axioms.sh`.

| theorem | axioms |
|---|---|
| `Oak.C01_read` | propext, Classical.choice, Quot.sound |
| `Oak.C01_compare` | propext, Classical.choice, Quot.sound |
| `Oak.C02_consume_prefix` | propext, Classical.choice, Quot.sound |
| `Oak.C02_history` | propext, Classical.choice, Quot.sound |
| `Oak.C03_history` | propext, Classical.choice, Quot.sound |
| `Oak.C03_failed` | propext, Classical.choice, Quot.sound |
| `Oak.C04_classification` | propext, Classical.choice, Quot.sound |
| `Oak.C04_unwrap` | propext, Classical.choice, Quot.sound |
| `Oak.C04_success_failure` | propext |
| `Oak.C05_exact` | propext, Classical.choice, Quot.sound |
| `Oak.C05_partial` | propext, Classical.choice, Quot.sound |
| `Oak.C05_counterexample` | propext, Classical.choice, Quot.sound |
| `Oak.C05_location` | propext |
| `Oak.C06_end` | propext |
| `Oak.C06_exact` | propext, Quot.sound |
| `Oak.C06_partial` | propext, Quot.sound |
| `Oak.C06_counterexample` | propext, Classical.choice, Quot.sound |
| `Oak.C06_message_counterexample` | propext, Classical.choice, Quot.sound |
| `Oak.C06_message_partial` | propext, Classical.choice, Quot.sound |
| `Oak.C07_message` | propext, Classical.choice, Quot.sound |
| `Oak.C07_order` | propext, Classical.choice, Quot.sound |
| `Oak.C08_success_iff` | propext, Classical.choice, Quot.sound |
| `Oak.C08_partial_iff` | propext, Classical.choice, Quot.sound |
| `Oak.C08_failure_iff` | propext, Classical.choice, Quot.sound |
| `Oak.C08_position` | propext, Classical.choice, Quot.sound |
| `Oak.C08_failure` | propext, Classical.choice, Quot.sound |
| `Oak.C09_semantics_deterministic` | propext, Classical.choice, Quot.sound |
| `Oak.C09_result_unique` | propext, Classical.choice, Quot.sound |
| `Oak.C09_result_stable` | propext, Classical.choice, Quot.sound |
| `Oak.C10_agree` | propext, Classical.choice, Quot.sound |
| `Oak.C10_agree_state` | propext, Classical.choice, Quot.sound |
| `Oak.C11_success_data` | propext, Classical.choice, Quot.sound |
| `Oak.C11_data` | propext, Classical.choice, Quot.sound |
| `Oak.C11_recognizer_data` | propext, Classical.choice, Quot.sound |
| `Oak.C12_no_panic` | propext, Classical.choice, Quot.sound |
| `Oak.C12_no_panic_result` | propext, Classical.choice, Quot.sound |
| `Oak.C13_terminates` | propext, Classical.choice, Quot.sound |
| `Oak.C13_terminates_at` | propext, Classical.choice, Quot.sound |
| `Oak.C13_terminates_closed` | propext, Classical.choice, Quot.sound |
| `Oak.C14_first_match` | propext, Classical.choice, Quot.sound |
| `Oak.C14_all_fail` | propext, Classical.choice, Quot.sound |
| `Oak.C14_commit` | propext, Classical.choice, Quot.sound |
| `Oak.C14_no_retry` | propext, Classical.choice, Quot.sound |
| `Oak.C14_nesting` | propext, Classical.choice, Quot.sound |
| `Oak.C15_star` | propext, Classical.choice, Quot.sound |
| `Oak.C15_star_never_fails` | propext, Classical.choice, Quot.sound |
| `Oak.C15_plus` | propext, Classical.choice, Quot.sound |
| `Oak.C15_plus_fails` | propext, Classical.choice, Quot.sound |
| `Oak.C15_possessive` | propext, Classical.choice, Quot.sound |
| `Oak.C15_data` | propext, Classical.choice, Quot.sound |
| `Oak.C16_and` | propext, Classical.choice, Quot.sound |
| `Oak.C16_not` | propext, Classical.choice, Quot.sound |
| `Oak.C16_inside_sequence` | propext, Classical.choice, Quot.sound |
| `Oak.C16_no_data` | propext, Classical.choice, Quot.sound |
| `Oak.C17_calls` | propext, Classical.choice, Quot.sound |
| `Oak.C17_recognizer_calls` | propext, Classical.choice, Quot.sound |
| `Oak.C17_after_match` | propext, Classical.choice, Quot.sound |
| `Oak.C17_match_calls` | propext, Classical.choice, Quot.sound |
| `Oak.C17_shown` | propext, Classical.choice, Quot.sound |
| `Oak.C17_abandoned` | propext, Classical.choice, Quot.sound |
| `Oak.C17_recognizer` | propext, Classical.choice, Quot.sound |
| `Oak.C17_parser` | propext, Classical.choice, Quot.sound |
| `Oak.C17_not_live` | propext |
| `Oak.C18_exact` | propext, Classical.choice, Quot.sound |
| `Oak.C18_state` | propext, Classical.choice, Quot.sound |
| `Oak.C19_range` | propext, Classical.choice, Quot.sound |
| `Oak.C19_span` | propext, Classical.choice, Quot.sound |
| `Oak.C19_span_exact` | propext, Classical.choice, Quot.sound |
| `Oak.C19_adjacent` | propext, Classical.choice, Quot.sound |
| `Oak.C19_within` | propext, Classical.choice, Quot.sound |
| `Oak.C19_shown` | propext, Classical.choice, Quot.sound |
| `Oak.C19_counterexample` | propext, Classical.choice, Quot.sound |
| `Oak.C20_left_recursion_rejected` | propext, Classical.choice, Quot.sound |
| `Oak.C20_empty_loop_rejected` | propext, Classical.choice, Quot.sound |
| `Oak.C20_never_called_again` | propext, Classical.choice, Quot.sound |
| `Oak.C20_repeats_consume` | propext, Classical.choice, Quot.sound |
| `Oak.C21_diagnostics_true` | propext, Classical.choice, Quot.sound |
| `Oak.C21_attributes_true` | propext, Classical.choice, Quot.sound |
| `Oak.C21_always_consume` | propext, Classical.choice, Quot.sound |
| `Oak.C21_rejected_iff` | propext, Classical.choice, Quot.sound |
| `Oak.C21_exact` | propext, Classical.choice, Quot.sound |
| `Oak.C21_found` | propext, Classical.choice, Quot.sound |
| `Oak.C21_forms` | propext, Classical.choice, Quot.sound |
| `Oak.C21_each_condition` | propext, Classical.choice, Quot.sound |
| `Oak.C22_terminates` | propext, Classical.choice, Quot.sound |
| `Oak.C22_verdict` | propext, Classical.choice, Quot.sound |
| `Oak.C22_shape_needed` | propext, Classical.choice, Quot.sound |
| `Oak.C23_rewriting` | propext, Classical.choice, Quot.sound |
| `Oak.C23_occurs` | propext, Classical.choice, Quot.sound |
| `Oak.C23_reported` | propext, Quot.sound |
| `Oak.C23_wrong_star_plus` | propext, Classical.choice, Quot.sound |
| `Oak.C23_wrong_sequence` | propext, Classical.choice, Quot.sound |
| `Oak.C23_wrong_choice` | propext, Classical.choice, Quot.sound |
| `Oak.C24_terminates` | propext, Classical.choice, Quot.sound |
| `Oak.C24_acceptance_needed` | propext, Classical.choice, Quot.sound |
| `Oak.C25_accepts_iff` | propext, Classical.choice, Quot.sound |
| `Oak.C25_retained` | propext, Classical.choice, Quot.sound |
| `Oak.C25_rules_kept` | propext, Quot.sound |
| `Oak.C26_unchanged` | propext, Quot.sound |
| `Oak.C26_exact` | propext, Quot.sound |
| `Oak.C27_terminates` | propext, Classical.choice, Quot.sound |
| `Oak.C27_accepts` | propext, Quot.sound |
| `Oak.C27_rejects` | propext, Classical.choice, Quot.sound |
| `Oak.C27_set` | propext, Quot.sound |
| `Oak.C27_matches` | propext, Classical.choice, Quot.sound |
| `Oak.C28_matches` | propext, Classical.choice, Quot.sound |
| `Oak.C28_fails` | propext, Classical.choice, Quot.sound |
| `Oak.C28_unread` | propext, Classical.choice, Quot.sound |
| `Oak.C29_distinct` | propext, Classical.choice, Quot.sound |
| `Oak.C29_collisions` | propext, Classical.choice, Quot.sound |
| `Oak.C29_counterexample` | propext, Classical.choice, Quot.sound |
| `Oak.C29_identifier` | propext, Classical.choice, Quot.sound |
| `Oak.C29_digit` | propext, Classical.choice, Quot.sound |
| `Oak.C29_reserved` | propext, Classical.choice, Quot.sound |
| `Oak.C29_context` | propext, Quot.sound |
| `Oak.C29_generated` | propext, Classical.choice, Quot.sound |
| `Oak.C29_closures` | propext, Classical.choice, Quot.sound |
| `Oak.C29_functions` | propext, Classical.choice, Quot.sound |
| `Oak.C29_call` | propext |
| `Oak.C29_external_call` | propext |
| `Oak.C30_scopes_partial` | propext, Classical.choice, Quot.sound |
| `Oak.C30_recognizer` | propext, Classical.choice, Quot.sound |
| `Oak.C30_top_action` | propext, Quot.sound |
| `Oak.C30_no_action` | propext, Quot.sound |
| `Oak.C30_calls` | propext, Classical.choice, Quot.sound |
| `Oak.C30_counterexample` | propext, Classical.choice, Quot.sound |
| `Oak.C31_documented` | propext, Classical.choice, Quot.sound |
| `Oak.C31_unique` | propext, Quot.sound |
| `Oak.C31_known` | propext, Classical.choice, Quot.sound |
| `Oak.C31_ascription` | propext, Classical.choice, Quot.sound |
| `Oak.C31_recursion_needed` | propext, Quot.sound |
| `Oak.C32_terminates` | propext, Classical.choice, Quot.sound |
| `Oak.C32_no_panic` | propext, Classical.choice, Quot.sound |
| `Oak.C32_direct_needed` | propext, Classical.choice, Quot.sound |
| `Oak.C33_finite` | propext, Classical.choice, Quot.sound |
| `Oak.C34_no_panic` | propext, Classical.choice, Quot.sound |
| `Oak.C34_recognizer` | propext, Classical.choice, Quot.sound |
| `Oak.C34_variables` | propext, Classical.choice, Quot.sound |
| `Oak.C34_arity` | propext, Classical.choice, Quot.sound |
| `Oak.C34_counterexample` | propext, Classical.choice, Quot.sound |
| `Oak.C34_generated` | propext, Classical.choice, Quot.sound |
| `Oak.C35_unknown` | propext |
| `Oak.C35_increasing` | propext, Quot.sound |
| `Oak.C35_not_increasing` | propext, Quot.sound |
| `Oak.C35_analysed` | propext, Classical.choice, Quot.sound |
| `Oak.C36_calls` | propext, Classical.choice, Quot.sound |
| `Oak.C36_recognizer` | propext, Classical.choice, Quot.sound |
| `Oak.C36_parser` | propext, Classical.choice, Quot.sound |
| `Oak.C36_span` | propext, Classical.choice, Quot.sound |
| `Oak.C36_lines_partial` | propext, Quot.sound |
| `Oak.C36_fits` | propext, Quot.sound |
| `Oak.C36_lines_kept` | propext |
| `Oak.C36_lines_exact` | propext, Quot.sound |
| `Oak.C36_lines_iff` | propext, Quot.sound |
| `Oak.C36_lines_counterexample` | propext, Classical.choice, Quot.sound |
| `Oak.C37_optional` | propext, Classical.choice, Quot.sound |
| `Oak.C37_choice` | propext, Classical.choice, Quot.sound |
| `Oak.C37_iteration` | propext, Classical.choice, Quot.sound |
| `Oak.C38_deployed` | propext, Classical.choice, Quot.sound |
| `Oak.C38_position` | propext, Classical.choice, Quot.sound |
| `Oak.C38_failure` | propext, Classical.choice, Quot.sound |
| `Oak.C38_report` | propext, Classical.choice, Quot.sound |
| `Oak.C38_data` | propext, Classical.choice, Quot.sound |
| `Oak.C39_terminates` | propext, Classical.choice, Quot.sound |
| `Oak.C39_reads` | propext, Classical.choice, Quot.sound |
| `Oak.C39_rejects` | propext, Classical.choice, Quot.sound |
| `Oak.C39_unambiguous` | propext, Classical.choice, Quot.sound |
| `Oak.C39_one_reading` | propext, Classical.choice, Quot.sound |
| `Oak.C39_round_trip` | propext, Classical.choice, Quot.sound |
| `Oak.C39_writable` | propext, Classical.choice, Quot.sound |
| `Oak.C39_late_span` | propext, Classical.choice, Quot.sound |
| `Oak.C39_type_arguments` | propext, Classical.choice, Quot.sound |
| `Oak.C40_consuming_externals` | propext, Classical.choice, Quot.sound |
| `Oak.C40_condition_needed` | propext, Classical.choice, Quot.sound |
| `Oak.C41_counterexample` | propext, Classical.choice, Quot.sound |
| `Oak.C41_partial` | propext, Classical.choice, Quot.sound |
| `Oak.C41_exact` | propext, Classical.choice, Quot.sound |
| `Oak.C41_cause` | propext, Classical.choice, Quot.sound |
| `Oak.C42_history` | propext, Classical.choice, Quot.sound |
| `Oak.C42_data` | propext, Classical.choice, Quot.sound |
| `Oak.C43_error_iff` | propext, Classical.choice, Quot.sound |
| `Oak.C43_accepted` | propext, Classical.choice, Quot.sound |
| `Oak.C43_terminates` | propext, Classical.choice, Quot.sound |
| `Oak.C44_stream` | propext, Quot.sound |
| `Oak.C45_numbering` | propext, Classical.choice, Quot.sound |
| `Oak.C45_distinct` | propext, Classical.choice, Quot.sound |
| `Oak.C46_built` | propext, Classical.choice, Quot.sound |
| `Oak.C46_pipeline` | propext, Classical.choice, Quot.sound |
| `Oak.C47_checked_generated` | propext, Classical.choice, Quot.sound |
| `Oak.C47_checked` | propext, Classical.choice, Quot.sound |
| `Oak.C47_terminates` | propext, Classical.choice, Quot.sound |
| `Oak.C47_bounds` | propext, Classical.choice, Quot.sound |
| `Oak.C47_syntax` | propext, Classical.choice, Quot.sound |
| `Oak.C47_messages` | propext, Classical.choice, Quot.sound |
| `Oak.C47_no_panic` | propext, Classical.choice, Quot.sound |
| `Oak.C47_faithful` | propext, Classical.choice, Quot.sound |
| `Oak.C47_generated` | propext, Classical.choice, Quot.sound |
| `Oak.C47_end_to_end` | propext, Classical.choice, Quot.sound |
| `Oak.C47_regular_needed` | propext, Classical.choice, Quot.sound |
| `Oak.C47_recursion_needed` | propext, Classical.choice, Quot.sound |
| `Oak.C47_typed_end_to_end` | propext, Classical.choice, Quot.sound |
| `Oak.C48_reported` | propext, Quot.sound |
| `Oak.C48_unit_action` | propext, Quot.sound |
| `Oak.C48_levels` | propext, Quot.sound |
| `Oak.C49_checked` | propext, Classical.choice, Quot.sound |
| `Oak.C49_well_typed_partial` | propext, Classical.choice, Quot.sound |
| `Oak.C49_recognizer_partial` | propext, Classical.choice, Quot.sound |
| `Oak.C49_macro_partial` | propext, Classical.choice, Quot.sound |
| `Oak.C49_references_needed` | propext, Classical.choice, Quot.sound |
| `Oak.C49_agreement_needed` | propext, Classical.choice, Quot.sound |
| `Oak.C50_first_error` | propext, Classical.choice, Quot.sound |
| `Oak.C50_other_messages` | propext, Classical.choice, Quot.sound |
| `Oak.C50_accepts` | propext, Classical.choice, Quot.sound |
| `Oak.C50_macro_rejects` | propext, Classical.choice, Quot.sound |
| `Oak.C50_macro_accepts` | propext, Classical.choice, Quot.sound |
| `Oak.C50_untangled_needed` | propext, Quot.sound |
| `Oak.C50_spans_needed` | propext, Quot.sound |
| `Oak.C51_checked` | propext, Classical.choice, Quot.sound |
| `Oak.C51_moves` | propext, Classical.choice, Quot.sound |
| `Oak.C51_accepted` | propext, Classical.choice, Quot.sound |
| `Oak.C51_macro` | propext, Classical.choice, Quot.sound |
| `Oak.C51_apart_needed` | propext, Classical.choice, Quot.sound |
| `Oak.C52_checked` | propext, Classical.choice, Quot.sound |
| `Oak.C52_scopes` | propext, Classical.choice, Quot.sound |
| `Oak.C52_conditions` | propext, Classical.choice, Quot.sound |
| `Oak.C52_types` | propext, Classical.choice, Quot.sound |
| `Oak.C52_macro` | propext, Classical.choice, Quot.sound |
| `Oak.C53_results` | propext, Classical.choice, Quot.sound |
| `Oak.C53_compiles` | propext, Classical.choice, Quot.sound |
| `Oak.C54_module` | propext, Classical.choice, Quot.sound |
| `Oak.C54_names` | propext, Classical.choice, Quot.sound |
| `Oak.C54_links` | propext, Classical.choice, Quot.sound |
| `Oak.C54_external` | propext |
| `Oak.C54_paths` | propext, Classical.choice, Quot.sound |
| `Oak.C54_panics` | propext, Classical.choice, Quot.sound |
| `Oak.Sample.C54_clash` | propext, Classical.choice, Quot.sound |
| `Oak.C55_recognizer` | propext, Classical.choice, Quot.sound |
| `Oak.C55_parser` | propext, Classical.choice, Quot.sound |
| `Oak.C55_grammar` | propext, Classical.choice, Quot.sound |
| `Oak.C55_no_action` | propext, Classical.choice, Quot.sound |
| `Oak.C55_actions_last` | propext, Classical.choice, Quot.sound |
| `Oak.C55_exponential` | propext, Classical.choice, Quot.sound |
| `Oak.C56_cycle` | propext, Classical.choice, Quot.sound |
| `Oak.C56_annotated` | propext, Classical.choice, Quot.sound |
| `Oak.C56_silent` | propext, Classical.choice, Quot.sound |
| `Oak.C56_refused` | propext, Classical.choice, Quot.sound |
| `Oak.C56_lost_silently` | propext, Quot.sound |
| `Oak.C56_reversed` | propext, Classical.choice, Quot.sound |
| `Oak.C56_outside` | propext, Quot.sound |
| `Oak.C57_reordered` | propext, Classical.choice, Quot.sound |
| `Oak.C57_renamed` | propext, Classical.choice, Quot.sound |
| `Oak.C57_extended` | propext, Quot.sound |
| `Oak.C57_language` | propext, Classical.choice, Quot.sound |
| `Oak.C57_recognizers` | propext, Classical.choice, Quot.sound |
| `Oak.C57_parsers` | propext, Classical.choice, Quot.sound |
| `Oak.C57_accepted` | propext, Classical.choice, Quot.sound |
| `Oak.C57_verdict` | propext, Classical.choice, Quot.sound |
| `Oak.C57_types` | propext, Classical.choice, Quot.sound |
| `Oak.C57_signatures` | propext, Classical.choice, Quot.sound |
| `Oak.C57_order_matters` | propext, Quot.sound |
| `Oak.C58_nesting` | propext, Classical.choice, Quot.sound |
| `Oak.C58_bound_at` | propext, Classical.choice, Quot.sound |
| `Oak.C58_bound` | propext, Classical.choice, Quot.sound |
| `Oak.C58_bound_closed` | propext, Classical.choice, Quot.sound |
| `Oak.C58_linear_needed` | propext, Classical.choice, Quot.sound |
| `Oak.C58_exponential_calls` | propext, Classical.choice, Quot.sound |
| `Oak.C59_description` | propext, Classical.choice, Quot.sound |
| `Oak.C59_distinct` | propext, Classical.choice, Quot.sound |
| `Oak.C59_expected` | propext, Classical.choice, Quot.sound |
| `Oak.C60_results` | propext, Classical.choice, Quot.sound |
| `Oak.C60_valid` | propext, Classical.choice, Quot.sound |
| `Oak.C60_no_panic` | propext, Classical.choice, Quot.sound |
| `Oak.C60_same` | propext, Classical.choice, Quot.sound |
| `Oak.C60_same_recognizer` | propext, Classical.choice, Quot.sound |
| `Oak.C60_unique` | propext, Classical.choice, Quot.sound |
| `Oak.C60_terminates` | propext, Classical.choice, Quot.sound |
| `Oak.C60_str` | propext, Classical.choice, Quot.sound |
| `Oak.C60_file` | propext, Classical.choice, Quot.sound |
| `Oak.C60_prefix_needed` | propext, Classical.choice, Quot.sound |
| `Oak.C60_order_needed` | propext, Classical.choice, Quot.sound |
| `Oak.C60_has_next_needed` | propext, Classical.choice, Quot.sound |
| `Oak.C61_report_laws` | propext, Classical.choice, Quot.sound |
| `Oak.C61_match_laws` | propext, Classical.choice, Quot.sound |
| `Oak.C61_sound` | propext, Classical.choice, Quot.sound |
| `Oak.C61_sound_reports` | propext, Classical.choice, Quot.sound |
| `Oak.C61_recognizers` | propext, Classical.choice, Quot.sound |
| `Oak.C61_recognizers_kind` | propext, Classical.choice, Quot.sound |
| `Oak.C61_either_way` | propext, Classical.choice, Quot.sound |
| `Oak.C61_acceptance_needed` | propext, Classical.choice, Quot.sound |
| `Oak.C61_errors_differ` | propext, Classical.choice, Quot.sound |
| `Oak.C62_printed` | propext, Classical.choice, Quot.sound |
| `Oak.C62_failure` | propext, Classical.choice, Quot.sound |
| `Oak.C63_no_panic` | propext, Classical.choice, Quot.sound |
| `Oak.C63_panic` | propext, Classical.choice, Quot.sound |
| `Oak.C63_exponential` | propext, Classical.choice, Quot.sound |
| `Oak.C63_language` | propext, Classical.choice, Quot.sound |
| `Oak.C63_unambiguous` | propext, Classical.choice, Quot.sound |
| `Oak.C63_panics` | propext, Classical.choice, Quot.sound |
| `Oak.C63_recognizer` | propext, Classical.choice, Quot.sound |
| `Oak.C63_round_trip` | propext, Classical.choice, Quot.sound |
| `Oak.C64_accepted_derived` | propext, Classical.choice, Quot.sound |
| `Oak.C64_partial_derived` | propext, Classical.choice, Quot.sound |
| `Oak.C64_exact` | propext, Classical.choice, Quot.sound |
| `Oak.C64_unambiguous` | propext, Classical.choice, Quot.sound |
| `Oak.C64_checked` | propext, Classical.choice, Quot.sound |
| `Oak.C64_calls` | propext, Classical.choice, Quot.sound |
| `Oak.C64_calls_checked` | propext, Classical.choice, Quot.sound |
| `Oak.C64_calls_condition_needed` | propext, Classical.choice, Quot.sound |
| `Oak.C64_condition_needed` | propext, Classical.choice, Quot.sound |
| `Oak.C65_tokens` | propext, Classical.choice, Quot.sound |
| `Oak.C65_prefix` | propext, Classical.choice, Quot.sound |
| `Oak.C65_text` | propext, Classical.choice, Quot.sound |
| `Oak.C65_unambiguous` | propext, Classical.choice, Quot.sound |
| `Oak.C65_round_trip` | propext, Classical.choice, Quot.sound |
| `Oak.C65_condition_needed` | propext, Classical.choice, Quot.sound |
| `Oak.C66_identifier` | propext, Classical.choice, Quot.sound |
| `Oak.C66_keyword` | propext, Classical.choice, Quot.sound |
| `Oak.C66_position` | propext, Classical.choice, Quot.sound |
| `Oak.C66_exclusive` | propext, Classical.choice, Quot.sound |
| `Oak.C66_tail_needed` | propext, Classical.choice, Quot.sound |
| `Oak.C67_after` | propext, Classical.choice, Quot.sound |
| `Oak.C67_before` | propext, Classical.choice, Quot.sound |
| `Oak.C67_before_accepted` | propext, Classical.choice, Quot.sound |
| `Oak.C67_exact` | propext, Classical.choice, Quot.sound |
| `Oak.C67_checked` | propext, Classical.choice, Quot.sound |
| `Oak.C67_predicates_needed` | propext, Classical.choice, Quot.sound |
| `Oak.C68_language` | propext, Classical.choice, Quot.sound |
| `Oak.C68_unambiguous` | propext, Classical.choice, Quot.sound |
| `Oak.C68_recognizer` | propext, Classical.choice, Quot.sound |
| `Oak.C68_round_trip` | propext, Classical.choice, Quot.sound |
| `Oak.C68_panics` | propext, Classical.choice, Quot.sound |
| `Oak.C68_no_panic` | propext, Classical.choice, Quot.sound |
| `Oak.C68_calls` | propext, Classical.choice, Quot.sound |
| `Oak.C68_exponential` | propext, Classical.choice, Quot.sound |
| `Oak.C68_empty` | propext, Classical.choice, Quot.sound |
| `Oak.C69_same_front_end` | propext, Classical.choice, Quot.sound |
| `Oak.C69_table` | propext, Classical.choice, Quot.sound |
| `Oak.C69_points` | propext, Classical.choice, Quot.sound |
| `Oak.C69_rules` | propext, Classical.choice, Quot.sound |
| `Oak.C69_apart` | propext, Classical.choice, Quot.sound |
| `Oak.C69_typing` | propext, Classical.choice, Quot.sound |
| `Oak.C69_messages` | propext, Classical.choice, Quot.sound |
| `Oak.C69_left_out` | propext, Classical.choice, Quot.sound |
| `Oak.C70_written` | propext, Classical.choice, Quot.sound |
| `Oak.C70_mismatch` | propext, Classical.choice, Quot.sound |
| `Oak.C70_ascription` | propext, Classical.choice, Quot.sound |
| `Oak.C70_unambiguous` | propext, Classical.choice, Quot.sound |
| `Oak.C70_told_apart` | propext, Classical.choice, Quot.sound |
| `Oak.C70_macro` | propext, Classical.choice, Quot.sound |
| `Oak.C70_same_branches` | propext, Classical.choice, Quot.sound |
| `Oak.C70_same_ascription` | propext, Classical.choice, Quot.sound |
| `Oak.C71_terminates` | propext, Classical.choice, Quot.sound |
| `Oak.C71_rejected` | propext, Classical.choice, Quot.sound |
| `Oak.C71_same` | propext, Classical.choice, Quot.sound |
| `Oak.C71_place` | propext, Classical.choice, Quot.sound |
| `Oak.C71_first` | propext, Classical.choice, Quot.sound |
| `Oak.C71_left` | propext, Classical.choice, Quot.sound |
| `Oak.C71_no_expression` | propext, Classical.choice, Quot.sound |
| `Oak.C71_swapped` | propext, Classical.choice, Quot.sound |
| `Oak.C71_not_first` | propext, Classical.choice, Quot.sound |
| `Oak.C72_no_rules` | propext, Classical.choice, Quot.sound |
| `Oak.C72_messages` | propext, Classical.choice, Quot.sound |
| `Oak.C72_left_recursion` | propext, Classical.choice, Quot.sound |
| `Oak.C72_terminates` | propext, Classical.choice, Quot.sound |
| `Oak.C73_visits` | propext, Classical.choice, Quot.sound |
| `Oak.C73_match` | propext, Classical.choice, Quot.sound |
| `Oak.C73_calls` | propext, Classical.choice, Quot.sound |
| `Oak.C73_reads` | propext, Classical.choice, Quot.sound |
| `Oak.C73_exponential` | propext, Classical.choice, Quot.sound |
| `Oak.C73_calls_exponential` | propext, Classical.choice, Quot.sound |
| `Oak.C73_once` | propext, Classical.choice, Quot.sound |
| `Oak.C73_linear` | propext, Classical.choice, Quot.sound |
| `Oak.C73_calls_linear` | propext, Classical.choice, Quot.sound |
| `Oak.C73_checked` | propext, Classical.choice, Quot.sound |
| `Oak.C73_exponential_reached` | propext, Classical.choice, Quot.sound |
| `Oak.C73_counted` | propext, Classical.choice, Quot.sound |
| `Oak.C73_functions` | propext, Classical.choice, Quot.sound |
| `Oak.C73_functions_exponential` | propext, Classical.choice, Quot.sound |
| `Oak.C73_functions_linear` | propext, Classical.choice, Quot.sound |
| `Oak.C73_functions_reached` | propext, Classical.choice, Quot.sound |
| `Oak.C74_recognizers_calc2` | propext, Classical.choice, Quot.sound |
| `Oak.C74_recognizers_calc3` | propext, Classical.choice, Quot.sound |
| `Oak.C74_parsers_calc2` | propext, Classical.choice, Quot.sound |
| `Oak.C74_parsers_calc3` | propext, Classical.choice, Quot.sound |
| `Oak.C74_calc2` | propext, Classical.choice, Quot.sound |
| `Oak.C74_calc3` | propext, Classical.choice, Quot.sound |
| `Oak.C74_recognizers` | propext, Classical.choice, Quot.sound |
| `Oak.C74_parsers` | propext, Classical.choice, Quot.sound |
| `Oak.C75_digits` | propext, Classical.choice, Quot.sound |
| `Oak.C75_split` | propext, Classical.choice, Quot.sound |
| `Oak.C75_digits_accepted` | propext, Classical.choice, Quot.sound |
| `Oak.C75_spans` | propext, Classical.choice, Quot.sound |
| `Oak.C75_span_of_choice` | propext, Classical.choice, Quot.sound |
| `Oak.C75_spans_accepted` | propext, Classical.choice, Quot.sound |
| `Oak.C76_accepted` | propext, Classical.choice, Quot.sound |
| `Oak.C76_predicate` | propext, Classical.choice, Quot.sound |
| `Oak.C76_predicate_fails` | propext, Classical.choice, Quot.sound |
| `Oak.C76_predicate_rest` | propext, Classical.choice, Quot.sound |
| `Oak.C76_char_class` | propext, Classical.choice, Quot.sound |
| `Oak.C76_non_terminal` | propext, Classical.choice, Quot.sound |
| `Oak.C76_optional` | propext, Classical.choice, Quot.sound |
