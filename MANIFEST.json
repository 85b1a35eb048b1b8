{
 "claims": [
  {
   "property": "C01",
   "status": "proved",
   "theorems": [
    "Oak.C01_read",
    "Oak.C01_compare"
   ],
   "note": ""
  },
  {
   "property": "C02",
   "status": "proved",
   "theorems": [
    "Oak.C02_consume_prefix",
    "Oak.C02_history"
   ],
   "note": ""
  },
  {
   "property": "C03",
   "status": "proved",
   "theorems": [
    "Oak.C03_history",
    "Oak.C03_failed"
   ],
   "note": ""
  },
  {
   "property": "C04",
   "status": "proved",
   "theorems": [
    "Oak.C04_classification",
    "Oak.C04_unwrap",
    "Oak.C04_success_failure"
   ],
   "note": ""
  },
  {
   "property": "C05",
   "status": "partial",
   "theorems": [
    "Oak.C05_exact",
    "Oak.C05_partial",
    "Oak.C05_counterexample",
    "Oak.C05_location"
   ],
   "note": "False of the code for lines ending in a carriage return (C05_counterexample); C05_exact characterises exactly when the location is right."
  },
  {
   "property": "C06",
   "status": "partial",
   "theorems": [
    "Oak.C06_end",
    "Oak.C06_exact",
    "Oak.C06_partial",
    "Oak.C06_counterexample",
    "Oak.C06_message_counterexample",
    "Oak.C06_message_partial"
   ],
   "note": "False of the code for multi-byte characters (C06_counterexample); C06_exact characterises the result and the panics; messages never panic on one-byte texts (C06_message_partial)."
  },
  {
   "property": "C07",
   "status": "proved",
   "theorems": [
    "Oak.C07_message",
    "Oak.C07_order"
   ],
   "note": ""
  },
  {
   "property": "C08",
   "status": "proved",
   "theorems": [
    "Oak.C08_success_iff",
    "Oak.C08_partial_iff",
    "Oak.C08_failure_iff",
    "Oak.C08_position",
    "Oak.C08_failure"
   ],
   "note": ""
  },
  {
   "property": "C09",
   "status": "proved",
   "theorems": [
    "Oak.C09_semantics_deterministic",
    "Oak.C09_result_unique",
    "Oak.C09_result_stable"
   ],
   "note": ""
  },
  {
   "property": "C10",
   "status": "proved",
   "theorems": [
    "Oak.C10_agree",
    "Oak.C10_agree_state"
   ],
   "note": ""
  },
  {
   "property": "C11",
   "status": "proved",
   "theorems": [
    "Oak.C11_success_data",
    "Oak.C11_data",
    "Oak.C11_recognizer_data"
   ],
   "note": ""
  },
  {
   "property": "C12",
   "status": "proved",
   "theorems": [
    "Oak.C12_no_panic",
    "Oak.C12_no_panic_result"
   ],
   "note": ""
  },
  {
   "property": "C13",
   "status": "proved",
   "theorems": [
    "Oak.C13_terminates",
    "Oak.C13_terminates_at",
    "Oak.C13_terminates_closed"
   ],
   "note": ""
  },
  {
   "property": "C14",
   "status": "proved",
   "theorems": [
    "Oak.C14_first_match",
    "Oak.C14_all_fail",
    "Oak.C14_commit",
    "Oak.C14_no_retry",
    "Oak.C14_nesting"
   ],
   "note": ""
  },
  {
   "property": "C15",
   "status": "proved",
   "theorems": [
    "Oak.C15_star",
    "Oak.C15_star_never_fails",
    "Oak.C15_plus",
    "Oak.C15_plus_fails",
    "Oak.C15_possessive",
    "Oak.C15_data"
   ],
   "note": ""
  },
  {
   "property": "C16",
   "status": "proved",
   "theorems": [
    "Oak.C16_and",
    "Oak.C16_not",
    "Oak.C16_inside_sequence",
    "Oak.C16_no_data"
   ],
   "note": ""
  },
  {
   "property": "C17",
   "status": "proved",
   "theorems": [
    "Oak.C17_calls",
    "Oak.C17_recognizer_calls",
    "Oak.C17_after_match",
    "Oak.C17_match_calls",
    "Oak.C17_shown",
    "Oak.C17_abandoned",
    "Oak.C17_recognizer",
    "Oak.C17_parser",
    "Oak.C17_not_live"
   ],
   "note": "Static part (code) and dynamic part (calls recorded in a ghost field of the parse state, which no operation reads). External rules are assumed not to call the user functions of the grammar (QuietExt). C17_abandoned shows that actions also run in abandoned branches."
  },
  {
   "property": "C18",
   "status": "proved",
   "theorems": [
    "Oak.C18_exact",
    "Oak.C18_state"
   ],
   "note": ""
  },
  {
   "property": "C19",
   "status": "partial",
   "theorems": [
    "Oak.C19_range",
    "Oak.C19_span",
    "Oak.C19_span_exact",
    "Oak.C19_adjacent",
    "Oak.C19_within",
    "Oak.C19_shown",
    "Oak.C19_counterexample"
   ],
   "note": "Ranges and spans are exact for inputs below 2^32 bytes; C19_counterexample refutes the claim above (as u32 truncates)."
  },
  {
   "property": "C20",
   "status": "proved",
   "theorems": [
    "Oak.C20_left_recursion_rejected",
    "Oak.C20_empty_loop_rejected",
    "Oak.C20_never_called_again",
    "Oak.C20_repeats_consume"
   ],
   "note": ""
  },
  {
   "property": "C21",
   "status": "proved",
   "theorems": [
    "Oak.C21_diagnostics_true",
    "Oak.C21_attributes_true",
    "Oak.C21_always_consume",
    "Oak.C21_rejected_iff",
    "Oak.C21_exact",
    "Oak.C21_found",
    "Oak.C21_forms",
    "Oak.C21_each_condition"
   ],
   "note": ""
  },
  {
   "property": "C22",
   "status": "proved",
   "theorems": [
    "Oak.C22_terminates",
    "Oak.C22_verdict",
    "Oak.C22_shape_needed"
   ],
   "note": ""
  },
  {
   "property": "C23",
   "status": "proved",
   "theorems": [
    "Oak.C23_rewriting",
    "Oak.C23_occurs",
    "Oak.C23_reported",
    "Oak.C23_wrong_star_plus",
    "Oak.C23_wrong_sequence",
    "Oak.C23_wrong_choice"
   ],
   "note": ""
  },
  {
   "property": "C24",
   "status": "proved",
   "theorems": [
    "Oak.C24_terminates",
    "Oak.C24_acceptance_needed"
   ],
   "note": ""
  },
  {
   "property": "C25",
   "status": "proved",
   "theorems": [
    "Oak.C25_accepts_iff",
    "Oak.C25_retained",
    "Oak.C25_rules_kept"
   ],
   "note": ""
  },
  {
   "property": "C26",
   "status": "proved",
   "theorems": [
    "Oak.C26_unchanged",
    "Oak.C26_exact"
   ],
   "note": ""
  },
  {
   "property": "C27",
   "status": "proved",
   "theorems": [
    "Oak.C27_terminates",
    "Oak.C27_accepts",
    "Oak.C27_rejects",
    "Oak.C27_set",
    "Oak.C27_matches"
   ],
   "note": ""
  },
  {
   "property": "C28",
   "status": "proved",
   "theorems": [
    "Oak.C28_matches",
    "Oak.C28_fails",
    "Oak.C28_unread"
   ],
   "note": ""
  },
  {
   "property": "C29",
   "status": "proved",
   "theorems": [
    "Oak.C29_distinct",
    "Oak.C29_collisions",
    "Oak.C29_counterexample",
    "Oak.C29_identifier",
    "Oak.C29_digit",
    "Oak.C29_reserved",
    "Oak.C29_context",
    "Oak.C29_generated",
    "Oak.C29_closures",
    "Oak.C29_functions",
    "Oak.C29_call",
    "Oak.C29_external_call"
   ],
   "note": ""
  },
  {
   "property": "C30",
   "status": "partial",
   "theorems": [
    "Oak.C30_scopes_partial",
    "Oak.C30_recognizer",
    "Oak.C30_top_action",
    "Oak.C30_no_action",
    "Oak.C30_calls",
    "Oak.C30_counterexample"
   ],
   "note": "False of the code when a semantic action containing a non-final choice is used where outer variables are live (C30_counterexample: three grammars that compile to unscoped Rust); proved for all other grammars (C30_scopes_partial) and for all recognizers. C52_scopes: this condition is exact."
  },
  {
   "property": "C31",
   "status": "proved",
   "theorems": [
    "Oak.C31_documented",
    "Oak.C31_unique",
    "Oak.C31_known",
    "Oak.C31_ascription",
    "Oak.C31_recursion_needed"
   ],
   "note": ""
  },
  {
   "property": "C32",
   "status": "proved",
   "theorems": [
    "Oak.C32_terminates",
    "Oak.C32_no_panic",
    "Oak.C32_direct_needed"
   ],
   "note": ""
  },
  {
   "property": "C33",
   "status": "proved",
   "theorems": [
    "Oak.C33_finite"
   ],
   "note": ""
  },
  {
   "property": "C34",
   "status": "proved",
   "theorems": [
    "Oak.C34_no_panic",
    "Oak.C34_recognizer",
    "Oak.C34_variables",
    "Oak.C34_arity",
    "Oak.C34_counterexample",
    "Oak.C34_generated"
   ],
   "note": ""
  },
  {
   "property": "C35",
   "status": "proved",
   "theorems": [
    "Oak.C35_unknown",
    "Oak.C35_increasing",
    "Oak.C35_not_increasing",
    "Oak.C35_analysed"
   ],
   "note": ""
  },
  {
   "property": "C36",
   "status": "partial",
   "theorems": [
    "Oak.C36_calls",
    "Oak.C36_recognizer",
    "Oak.C36_parser",
    "Oak.C36_span",
    "Oak.C36_lines_partial",
    "Oak.C36_fits",
    "Oak.C36_lines_kept",
    "Oak.C36_lines_exact",
    "Oak.C36_lines_iff",
    "Oak.C36_lines_counterexample"
   ],
   "note": "Streams, results and spans proved; registered lines are those of the file with Windows line endings replaced (C36_lines_exact), hence right iff no Windows line ending is followed by something (C36_lines_iff); C36_lines_counterexample shows that they can be wrong."
  },
  {
   "property": "C37",
   "status": "proved",
   "theorems": [
    "Oak.C37_optional",
    "Oak.C37_choice",
    "Oak.C37_iteration"
   ],
   "note": ""
  },
  {
   "property": "C38",
   "status": "proved",
   "theorems": [
    "Oak.C38_deployed",
    "Oak.C38_position",
    "Oak.C38_failure",
    "Oak.C38_report",
    "Oak.C38_data"
   ],
   "note": ""
  },
  {
   "property": "C39",
   "status": "proved",
   "theorems": [
    "Oak.C39_terminates",
    "Oak.C39_reads",
    "Oak.C39_rejects",
    "Oak.C39_unambiguous",
    "Oak.C39_one_reading",
    "Oak.C39_round_trip",
    "Oak.C39_writable",
    "Oak.C39_late_span",
    "Oak.C39_type_arguments"
   ],
   "note": ""
  },
  {
   "property": "C40",
   "status": "proved",
   "theorems": [
    "Oak.C40_consuming_externals",
    "Oak.C40_condition_needed"
   ],
   "note": ""
  },
  {
   "property": "C41",
   "status": "partial",
   "theorems": [
    "Oak.C41_counterexample",
    "Oak.C41_partial",
    "Oak.C41_exact",
    "Oak.C41_cause"
   ],
   "note": "False of the code for rules with negative lookahead (C41_counterexample). C41_exact: nothing is expected iff no terminal was tried in vain; C41_cause: this is due to a `!e` whose operand matches or to an external rule. Proved for grammars without ! and external rules (C41_partial)."
  },
  {
   "property": "C42",
   "status": "proved",
   "theorems": [
    "Oak.C42_history",
    "Oak.C42_data"
   ],
   "note": ""
  },
  {
   "property": "C43",
   "status": "proved",
   "theorems": [
    "Oak.C43_error_iff",
    "Oak.C43_accepted",
    "Oak.C43_terminates"
   ],
   "note": ""
  },
  {
   "property": "C44",
   "status": "proved",
   "theorems": [
    "Oak.C44_stream"
   ],
   "note": ""
  },
  {
   "property": "C45",
   "status": "proved",
   "theorems": [
    "Oak.C45_numbering",
    "Oak.C45_distinct"
   ],
   "note": ""
  },
  {
   "property": "C46",
   "status": "proved",
   "theorems": [
    "Oak.C46_built",
    "Oak.C46_pipeline"
   ],
   "note": ""
  },
  {
   "property": "C47",
   "status": "proved",
   "theorems": [
    "Oak.C47_checked_generated",
    "Oak.C47_checked",
    "Oak.C47_terminates",
    "Oak.C47_bounds",
    "Oak.C47_syntax",
    "Oak.C47_messages",
    "Oak.C47_no_panic",
    "Oak.C47_faithful",
    "Oak.C47_generated",
    "Oak.C47_end_to_end",
    "Oak.C47_regular_needed",
    "Oak.C47_recursion_needed",
    "Oak.C47_typed_end_to_end"
   ],
   "note": "C47_end_to_end for regular grammars; C47_typed_end_to_end: code that type checks is right. C47_checked: for recursive grammars too, when the inferred types agree with the number of values (sized and coherent, computable)."
  },
  {
   "property": "C48",
   "status": "proved",
   "theorems": [
    "Oak.C48_reported",
    "Oak.C48_unit_action",
    "Oak.C48_levels"
   ],
   "note": ""
  },
  {
   "property": "C49",
   "status": "partial",
   "theorems": [
    "Oak.C49_checked",
    "Oak.C49_well_typed_partial",
    "Oak.C49_recognizer_partial",
    "Oak.C49_macro_partial",
    "Oak.C49_references_needed",
    "Oak.C49_agreement_needed"
   ],
   "note": "False of the code when a closure assigns or borrows one of its &mut parameters (C49_references_needed: r = (\"a\" / \"b\") \"c\" / \"d\") or where C30 is false; proved for all other accepted grammars (C49_well_typed_partial, C49_macro_partial from the tokens). C49_agreement_needed shows that the agreement of the written Rust types is needed. C52: these conditions are exact. C49_checked: for recursive grammars too, when the inferred types pass the computable check `consistent` (Spec/Checked)."
  },
  {
   "property": "C50",
   "status": "proved",
   "theorems": [
    "Oak.C50_first_error",
    "Oak.C50_other_messages",
    "Oak.C50_accepts",
    "Oak.C50_macro_rejects",
    "Oak.C50_macro_accepts",
    "Oak.C50_untangled_needed",
    "Oak.C50_spans_needed"
   ],
   "note": ""
  },
  {
   "property": "C51",
   "status": "proved",
   "theorems": [
    "Oak.C51_checked",
    "Oak.C51_moves",
    "Oak.C51_accepted",
    "Oak.C51_macro",
    "Oak.C51_apart_needed"
   ],
   "note": "C51_moves; C51_accepted gives the typing and the moves together; C51_macro from the tokens; C51_apart_needed: r = num (\"+\" > op / \"-\" > op) num does not compile if the type of num is not Copy. C51_moves holds for any types that agree with the number of values; C51_checked: with the computable check, for recursive grammars too."
  },
  {
   "property": "C52",
   "status": "proved",
   "theorems": [
    "Oak.C52_checked",
    "Oak.C52_scopes",
    "Oak.C52_conditions",
    "Oak.C52_types",
    "Oak.C52_macro"
   ],
   "note": "C52_scopes (names), C52_types and C52_macro (types: if and only if), C52_conditions (necessity without the agreement of written types); C47_typed_end_to_end: code that is well typed is right. scopable and refable are in Spec/Scoped and Spec/Refs. C52_checked: the same equivalence for all grammars whose inferred types pass the computable check, recursive or not."
  },
  {
   "property": "C53",
   "status": "proved",
   "theorems": [
    "Oak.C53_results",
    "Oak.C53_compiles"
   ],
   "note": "The tokens of the grammars are extracted from /repo/tests by scripts/corpus.py (Corpus/Grammars.lean); the checks of Spec/Checked.lean are evaluated by the kernel on their expansions (Corpus/Verdict.lean), and C47_checked, C49_checked, C51_checked, which quantify over all texts, apply."
  },
  {
   "property": "C54",
   "status": "proved",
   "theorems": [
    "Oak.C54_module",
    "Oak.C54_names",
    "Oak.C54_links",
    "Oak.C54_external",
    "Oak.C54_paths",
    "Oak.C54_panics",
    "Oak.Sample.C54_clash"
   ],
   "note": "The order of the hash map of the functions of the user is any permutation. C54_clash shows that the names of the user are not checked against the generated ones."
  },
  {
   "property": "C55",
   "status": "proved",
   "theorems": [
    "Oak.C55_recognizer",
    "Oak.C55_parser",
    "Oak.C55_grammar",
    "Oak.C55_no_action",
    "Oak.C55_actions_last",
    "Oak.C55_exponential"
   ],
   "note": "Sizes count statements, expressions, and conditions of character classes; lists of variables count for nothing. The documentation (back/mod.rs) claims that choices never duplicate the code that follows; C55_exponential shows that they do inside semantic actions."
  },
  {
   "property": "C56",
   "status": "proved",
   "theorems": [
    "Oak.C56_cycle",
    "Oak.C56_annotated",
    "Oak.C56_silent",
    "Oak.C56_refused",
    "Oak.C56_lost_silently",
    "Oak.C56_reversed",
    "Oak.C56_outside"
   ],
   "note": "C56_lost_silently, C56_reversed and C56_outside show where the documentation of the warning does not hold."
  },
  {
   "property": "C57",
   "status": "proved",
   "theorems": [
    "Oak.C57_reordered",
    "Oak.C57_renamed",
    "Oak.C57_extended",
    "Oak.C57_language",
    "Oak.C57_recognizers",
    "Oak.C57_parsers",
    "Oak.C57_accepted",
    "Oak.C57_verdict",
    "Oak.C57_types",
    "Oak.C57_signatures",
    "Oak.C57_order_matters"
   ],
   "note": ""
  },
  {
   "property": "C58",
   "status": "proved",
   "theorems": [
    "Oak.C58_nesting",
    "Oak.C58_bound_at",
    "Oak.C58_bound",
    "Oak.C58_bound_closed",
    "Oak.C58_linear_needed",
    "Oak.C58_exponential_calls"
   ],
   "note": "Depth is the fuel of the interpreter of generated programs, which bounds the nesting of function calls and the iterations of each loop. External functions come with their own bound N."
  },
  {
   "property": "C59",
   "status": "proved",
   "theorems": [
    "Oak.C59_description",
    "Oak.C59_distinct",
    "Oak.C59_expected"
   ],
   "note": "Spec/Literal.lean states the part of the syntax of Rust string literals that is needed."
  },
  {
   "property": "C60",
   "status": "proved",
   "theorems": [
    "Oak.C60_results",
    "Oak.C60_valid",
    "Oak.C60_no_panic",
    "Oak.C60_same",
    "Oak.C60_same_recognizer",
    "Oak.C60_unique",
    "Oak.C60_terminates",
    "Oak.C60_str",
    "Oak.C60_file",
    "Oak.C60_prefix_needed",
    "Oak.C60_order_needed",
    "Oak.C60_has_next_needed"
   ],
   "note": "Spec/Stream.lean (LawfulStream) states the contracts of the traits; Spec/UserStream.lean what a call should return."
  },
  {
   "property": "C61",
   "status": "proved",
   "theorems": [
    "Oak.C61_report_laws",
    "Oak.C61_match_laws",
    "Oak.C61_sound",
    "Oak.C61_sound_reports",
    "Oak.C61_recognizers",
    "Oak.C61_recognizers_kind",
    "Oak.C61_either_way",
    "Oak.C61_acceptance_needed",
    "Oak.C61_errors_differ"
   ],
   "note": "Spec/Refactor.lean: laws and the relation between a grammar and its refactorings."
  },
  {
   "property": "C62",
   "status": "proved",
   "theorems": [
    "Oak.C62_printed",
    "Oak.C62_failure"
   ],
   "note": "Spec/Message.lean. Added after the wrong programs NR04 and NR06 (texts of messages) survived. The condition on carriage returns is that of C05; the panics are those of C06."
  },
  {
   "property": "C63",
   "status": "proved",
   "theorems": [
    "Oak.C63_no_panic",
    "Oak.C63_panic",
    "Oak.C63_exponential",
    "Oak.C63_language",
    "Oak.C63_unambiguous",
    "Oak.C63_panics",
    "Oak.C63_recognizer",
    "Oak.C63_round_trip"
   ],
   "note": "Spec/Calculator.lean: lexemes, a context-free grammar of expressions and the user functions of calc.rs, independently of parsing expression grammars. The grammar is the one the model of the macro reads from the tokens of tests/grammars/calc.rs (Corpus/CalcShape, by the kernel)."
  },
  {
   "property": "C64",
   "status": "proved",
   "theorems": [
    "Oak.C64_accepted_derived",
    "Oak.C64_partial_derived",
    "Oak.C64_exact",
    "Oak.C64_unambiguous",
    "Oak.C64_checked",
    "Oak.C64_calls",
    "Oak.C64_calls_checked",
    "Oak.C64_calls_condition_needed",
    "Oak.C64_condition_needed"
   ],
   "note": "Spec/ContextFree.lean: derivation trees, first and following characters, LL(1). Proofs/LL1Check.lean: a checker of the condition, used on two sample grammars. C64_calls: no user function is called for nothing."
  },
  {
   "property": "C65",
   "status": "proved",
   "theorems": [
    "Oak.C65_tokens",
    "Oak.C65_prefix",
    "Oak.C65_text",
    "Oak.C65_unambiguous",
    "Oak.C65_round_trip",
    "Oak.C65_condition_needed"
   ],
   "note": "Spec/Precedence.lean: tables, ways to write expressions, the template. Any number of levels; tokens abstract or plain."
  },
  {
   "property": "C66",
   "status": "proved",
   "theorems": [
    "Oak.C66_identifier",
    "Oak.C66_keyword",
    "Oak.C66_position",
    "Oak.C66_exclusive",
    "Oak.C66_tail_needed"
   ],
   "note": "Spec/Lexer.lean: the scanner with its table, the rules. Any keywords and classes."
  },
  {
   "property": "C67",
   "status": "proved",
   "theorems": [
    "Oak.C67_after",
    "Oak.C67_before",
    "Oak.C67_before_accepted",
    "Oak.C67_exact",
    "Oak.C67_checked",
    "Oak.C67_predicates_needed"
   ],
   "note": "Spec/ContextFree.lean states the context-free reading and LL(1). C67_checked: the conditions can be checked by computation."
  },
  {
   "property": "C68",
   "status": "proved",
   "theorems": [
    "Oak.C68_language",
    "Oak.C68_unambiguous",
    "Oak.C68_recognizer",
    "Oak.C68_round_trip",
    "Oak.C68_panics",
    "Oak.C68_no_panic",
    "Oak.C68_calls",
    "Oak.C68_exponential",
    "Oak.C68_empty"
   ],
   "note": "Spec/Json.lean: lexemes, a context-free grammar of data, the user functions of json.rs, the number of calls, independently of parsing expression grammars. The grammar is the one the model of the macro reads from the tokens of tests/grammars/json.rs (Corpus/JsonShape, by the kernel)."
  },
  {
   "property": "C69",
   "status": "proved",
   "theorems": [
    "Oak.C69_same_front_end",
    "Oak.C69_table",
    "Oak.C69_points",
    "Oak.C69_rules",
    "Oak.C69_apart",
    "Oak.C69_typing",
    "Oak.C69_messages",
    "Oak.C69_left_out"
   ],
   "note": "Front-end with places (Model/FrontSpans), proved to read the same grammars as Model/Front; text and span rules in Spec/FrontSpans. Finding: the span of `e > f` and of `e:T` leaves out `e` (C69_left_out)."
  },
  {
   "property": "C70",
   "status": "proved",
   "theorems": [
    "Oak.C70_written",
    "Oak.C70_mismatch",
    "Oak.C70_ascription",
    "Oak.C70_unambiguous",
    "Oak.C70_told_apart",
    "Oak.C70_macro",
    "Oak.C70_same_branches",
    "Oak.C70_same_ascription"
   ],
   "note": "Texts in Model/Texts, on the log of the errors in Model/Typing; documented notation in Spec/Texts. The text of a Rust type is the one in the model (spaces added by quote! are not modelled). Finding: `.:char` gives `found type char but expected type char` (C70_same_branches, C70_same_ascription)."
  },
  {
   "property": "C71",
   "status": "proved",
   "theorems": [
    "Oak.C71_terminates",
    "Oak.C71_rejected",
    "Oak.C71_same",
    "Oak.C71_place",
    "Oak.C71_first",
    "Oak.C71_left",
    "Oak.C71_no_expression",
    "Oak.C71_swapped",
    "Oak.C71_not_first"
   ],
   "note": "Errors in Model/FrontErrors, specification in Spec/FrontErrors (the prefix before the place of the error, closed and completed, is a grammar in the concrete syntax of C39). Errors of syn itself (Rust types, items, `expected identifier`) have a place and a kind, no text; the place of an error inside a Rust type is that of its first token. Findings: a later error hides an earlier token left in a group (C71_not_first); swapped arguments in the message for operators (C71_swapped)."
  },
  {
   "property": "C72",
   "status": "proved",
   "theorems": [
    "Oak.C72_no_rules",
    "Oak.C72_messages",
    "Oak.C72_left_recursion",
    "Oak.C72_terminates"
   ],
   "note": "Texts in Model/AnalysisTexts; specification of each message in Spec/AnalysisTexts, independent of the analyses. The text of a warning on useless chains is as the code writes it; that the rewriting is not always equivalent is C23. Completeness of the warnings on chains is the one of C23 (chains without a choice in between)."
  },
  {
   "property": "C73",
   "status": "proved",
   "theorems": [
    "Oak.C73_visits",
    "Oak.C73_match",
    "Oak.C73_calls",
    "Oak.C73_reads",
    "Oak.C73_exponential",
    "Oak.C73_calls_exponential",
    "Oak.C73_once",
    "Oak.C73_linear",
    "Oak.C73_calls_linear",
    "Oak.C73_checked",
    "Oak.C73_exponential_reached",
    "Oak.C73_counted",
    "Oak.C73_functions",
    "Oak.C73_functions_exponential",
    "Oak.C73_functions_linear",
    "Oak.C73_functions_reached"
   ],
   "note": "Expressions evaluated and characters read are counted on the matching relation (Spec/Work: one visit for each expression evaluated; a literal tried in vain reads nothing). They are tied to the generated code by the calls of functions: Program.count (Spec/Count) runs the generated module and records each call of a recognizer, parser or external function next to those of user functions; it is proved to return what Program.run returns, and its record to have at most two entries for each visit, plus 2. Work between two calls (statements of one function, characters of one literal) is bounded by the size of the function and is not counted."
  },
  {
   "property": "C74",
   "status": "proved",
   "theorems": [
    "Oak.C74_recognizers_calc2",
    "Oak.C74_recognizers_calc3",
    "Oak.C74_parsers_calc2",
    "Oak.C74_parsers_calc3",
    "Oak.C74_calc2",
    "Oak.C74_calc3",
    "Oak.C74_recognizers",
    "Oak.C74_parsers"
   ],
   "note": "C74_recognizers and C74_parsers: any two grammars that are the same but for the functions, types and modules (both linked as in C08/C38; the first one decides, e.g. because it is accepted: C13). C74_recognizers_calc2/_calc3, C74_parsers_calc2/_calc3: the three calculators of the test-suite, for each rule. C74_calc2, C74_calc3: the values that calc2 and calc3 build are the expressions that the text is a way to write, as in C63. calc3 is deployed with the functions generated for calc2."
  },
  {
   "property": "C75",
   "status": "proved",
   "theorems": [
    "Oak.C75_digits",
    "Oak.C75_split",
    "Oak.C75_digits_accepted",
    "Oak.C75_spans",
    "Oak.C75_span_of_choice",
    "Oak.C75_spans_accepted"
   ],
   "note": "C75_digits gives the result of each generated function on each text (three parts, C75_split: exactly one way to cut a text). C75_spans, C75_span_of_choice: full matches of the rules of stream_span.rs; spans in bytes (texts of at most 10 bytes, hence no truncation)."
  },
  {
   "property": "C76",
   "status": "proved",
   "theorems": [
    "Oak.C76_accepted",
    "Oak.C76_predicate",
    "Oak.C76_predicate_fails",
    "Oak.C76_predicate_rest",
    "Oak.C76_char_class",
    "Oak.C76_non_terminal",
    "Oak.C76_optional"
   ],
   "note": "C76_predicate and C76_predicate_fails: full matches and failures of the rule predicate on each text, with data; C76_predicate_rest its partial matches. C76_char_class, C76_non_terminal, C76_optional: full matches of these rules, with data. The rules and unit nodes come from the tokens of the grammar, in the kernel."
  }
 ]
}