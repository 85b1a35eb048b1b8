{
 "C17": {
  "status": "proved",
  "note": "Static part (code) and dynamic part (calls recorded in a ghost field of the parse state, which no operation reads). External rules are assumed not to call the user functions of the grammar (QuietExt). C17_abandoned shows that actions also run in abandoned branches."
 },
 "C19": {
  "status": "partial",
  "note": "Ranges and spans are exact for inputs below 2^32 bytes; C19_counterexample refutes the claim above (as u32 truncates)."
 },
 "C41": {
  "status": "partial",
  "note": "False of the code for rules with negative lookahead (C41_counterexample). C41_exact: nothing is expected iff no terminal was tried in vain; C41_cause: this is due to a `!e` whose operand matches or to an external rule. Proved for grammars without ! and external rules (C41_partial)."
 },
 "C05": {
  "status": "partial",
  "note": "False of the code for lines ending in a carriage return (C05_counterexample); C05_exact characterises exactly when the location is right."
 },
 "C06": {
  "status": "partial",
  "note": "False of the code for multi-byte characters (C06_counterexample); C06_exact characterises the result and the panics; messages never panic on one-byte texts (C06_message_partial)."
 },
 "C36": {
  "status": "partial",
  "note": "Streams, results and spans proved; registered lines are those of the file with Windows line endings replaced (C36_lines_exact), hence right iff no Windows line ending is followed by something (C36_lines_iff); C36_lines_counterexample shows that they can be wrong."
 },
 "C30": {
  "status": "partial",
  "note": "False of the code when a semantic action containing a non-final choice is used where outer variables are live (C30_counterexample: three grammars that compile to unscoped Rust); proved for all other grammars (C30_scopes_partial) and for all recognizers. C52_scopes: this condition is exact."
 },
 "C49": {
  "status": "partial",
  "note": "False of the code when a closure assigns or borrows one of its &mut parameters (C49_references_needed: r = (\"a\" / \"b\") \"c\" / \"d\") or where C30 is false; proved for all other accepted grammars (C49_well_typed_partial, C49_macro_partial from the tokens). C49_agreement_needed shows that the agreement of the written Rust types is needed. C52: these conditions are exact. C49_checked: for recursive grammars too, when the inferred types pass the computable check `consistent` (Spec/Checked)."
 },
 "C51": {
  "status": "proved",
  "note": "C51_moves; C51_accepted gives the typing and the moves together; C51_macro from the tokens; C51_apart_needed: r = num (\"+\" > op / \"-\" > op) num does not compile if the type of num is not Copy. C51_moves holds for any types that agree with the number of values; C51_checked: with the computable check, for recursive grammars too."
 },
 "C52": {
  "status": "proved",
  "note": "C52_scopes (names), C52_types and C52_macro (types: if and only if), C52_conditions (necessity without the agreement of written types); C47_typed_end_to_end: code that is well typed is right. scopable and refable are in Spec/Scoped and Spec/Refs. C52_checked: the same equivalence for all grammars whose inferred types pass the computable check, recursive or not."
 },
 "C53": {
  "status": "proved",
  "note": "The tokens of the grammars are extracted from /repo/tests by scripts/corpus.py (Corpus/Grammars.lean); the checks of Spec/Checked.lean are evaluated by the kernel on their expansions (Corpus/Verdict.lean), and C47_checked, C49_checked, C51_checked, which quantify over all texts, apply."
 },
 "C47": {
  "status": "proved",
  "note": "C47_end_to_end for regular grammars; C47_typed_end_to_end: code that type checks is right. C47_checked: for recursive grammars too, when the inferred types agree with the number of values (sized and coherent, computable)."
 },
 "C54": {
  "status": "proved",
  "note": "The order of the hash map of the functions of the user is any permutation. C54_clash shows that the names of the user are not checked against the generated ones."
 },
 "C55": {
  "status": "proved",
  "note": "Sizes count statements, expressions, and conditions of character classes; lists of variables count for nothing. The documentation (back/mod.rs) claims that choices never duplicate the code that follows; C55_exponential shows that they do inside semantic actions."
 },
 "C56": {
  "status": "proved",
  "note": "C56_lost_silently, C56_reversed and C56_outside show where the documentation of the warning does not hold."
 },
 "C58": {
  "status": "proved",
  "note": "Depth is the fuel of the interpreter of generated programs, which bounds the nesting of function calls and the iterations of each loop. External functions come with their own bound N."
 },
 "C59": {
  "status": "proved",
  "note": "Spec/Literal.lean states the part of the syntax of Rust string literals that is needed."
 },
 "C60": {
  "status": "proved",
  "note": "Spec/Stream.lean (LawfulStream) states the contracts of the traits; Spec/UserStream.lean what a call should return."
 },
 "C61": {
  "status": "proved",
  "note": "Spec/Refactor.lean: laws and the relation between a grammar and its refactorings."
 },
 "C62": {
  "status": "proved",
  "note": "Spec/Message.lean. Added after the wrong programs NR04 and NR06 (texts of messages) survived. The condition on carriage returns is that of C05; the panics are those of C06."
 },
 "C63": {
  "status": "proved",
  "note": "Spec/Calculator.lean: lexemes, a context-free grammar of expressions and the user functions of calc.rs, independently of parsing expression grammars. The grammar is the one the model of the macro reads from the tokens of tests/grammars/calc.rs (Corpus/CalcShape, by the kernel)."
 },
 "C64": {
  "status": "proved",
  "note": "Spec/ContextFree.lean: derivation trees, first and following characters, LL(1). Proofs/LL1Check.lean: a checker of the condition, used on two sample grammars. C64_calls: no user function is called for nothing."
 },
 "C65": {
  "status": "proved",
  "note": "Spec/Precedence.lean: tables, ways to write expressions, the template. Any number of levels; tokens abstract or plain."
 },
 "C66": {
  "status": "proved",
  "note": "Spec/Lexer.lean: the scanner with its table, the rules. Any keywords and classes."
 },
 "C67": {
  "status": "proved",
  "note": "Spec/ContextFree.lean states the context-free reading and LL(1). C67_checked: the conditions can be checked by computation."
 },
 "C68": {
  "status": "proved",
  "note": "Spec/Json.lean: lexemes, a context-free grammar of data, the user functions of json.rs, the number of calls, independently of parsing expression grammars. The grammar is the one the model of the macro reads from the tokens of tests/grammars/json.rs (Corpus/JsonShape, by the kernel)."
 },
 "C69": {
  "status": "proved",
  "note": "Front-end with places (Model/FrontSpans), proved to read the same grammars as Model/Front; text and span rules in Spec/FrontSpans. Finding: the span of `e > f` and of `e:T` leaves out `e` (C69_left_out)."
 },
 "C70": {
  "status": "proved",
  "note": "Texts in Model/Texts, on the log of the errors in Model/Typing; documented notation in Spec/Texts. The text of a Rust type is the one in the model (spaces added by quote! are not modelled). Finding: `.:char` gives `found type char but expected type char` (C70_same_branches, C70_same_ascription)."
 },
 "C71": {
  "status": "proved",
  "note": "Errors in Model/FrontErrors, specification in Spec/FrontErrors (the prefix before the place of the error, closed and completed, is a grammar in the concrete syntax of C39). Errors of syn itself (Rust types, items, `expected identifier`) have a place and a kind, no text; the place of an error inside a Rust type is that of its first token. Findings: a later error hides an earlier token left in a group (C71_not_first); swapped arguments in the message for operators (C71_swapped)."
 },
 "C72": {
  "status": "proved",
  "note": "Texts in Model/AnalysisTexts; specification of each message in Spec/AnalysisTexts, independent of the analyses. The text of a warning on useless chains is as the code writes it; that the rewriting is not always equivalent is C23. Completeness of the warnings on chains is the one of C23 (chains without a choice in between)."
 },
 "C73": {
  "status": "proved",
  "note": "Expressions evaluated and characters read are counted on the matching relation (Spec/Work: one visit for each expression evaluated; a literal tried in vain reads nothing). They are tied to the generated code by the calls of functions: Program.count (Spec/Count) runs the generated module and records each call of a recognizer, parser or external function next to those of user functions; it is proved to return what Program.run returns, and its record to have at most two entries for each visit, plus 2. Work between two calls (statements of one function, characters of one literal) is bounded by the size of the function and is not counted."
 },
 "C74": {
  "status": "proved",
  "note": "C74_recognizers and C74_parsers: any two grammars that are the same but for the functions, types and modules (both linked as in C08/C38; the first one decides, e.g. because it is accepted: C13). C74_recognizers_calc2/_calc3, C74_parsers_calc2/_calc3: the three calculators of the test-suite, for each rule. C74_calc2, C74_calc3: the values that calc2 and calc3 build are the expressions that the text is a way to write, as in C63. calc3 is deployed with the functions generated for calc2."
 },
 "C75": {
  "status": "proved",
  "note": "C75_digits gives the result of each generated function on each text (three parts, C75_split: exactly one way to cut a text). C75_spans, C75_span_of_choice: full matches of the rules of stream_span.rs; spans in bytes (texts of at most 10 bytes, hence no truncation)."
 },
 "C76": {
  "status": "proved",
  "note": "C76_predicate and C76_predicate_fails: full matches and failures of the rule predicate on each text, with data; C76_predicate_rest its partial matches. C76_char_class, C76_non_terminal, C76_optional: full matches of these rules, with data. The rules and unit nodes come from the tokens of the grammar, in the kernel."
 }
}