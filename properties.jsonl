{"id": "C01", "title": "Stream iteration reads exactly the characters of the input", "statement": "Creating a stream from a string and calling next() repeatedly yields exactly the characters of the string in order and then None forever; has_next() is true exactly while a character remains; bytes_offset() always equals the UTF-8 length of what has been read; next() never panics on a stream obtained this way; a clone compares greater than an earlier one iff more characters were read and equal iff the same number was read.", "quantifier": "all strings (any mix of 1- to 4-byte characters) and every number of next() calls", "why_tests_cant": "unbounded set of strings; multi-byte boundaries", "anchors": ["runtime/src/str_stream.rs: StrStream::next, has_next, current_char, PartialOrd/Eq/Ord"]}
{"id": "C02", "title": "consume_prefix is exact and safe", "statement": "consume_prefix(p) returns true iff the remaining input starts with p (character by character), in which case the stream advances by exactly p; otherwise it returns false and the stream does not move. After any mix of next/consume_prefix the stream is on a character boundary, so later reads never panic.", "quantifier": "all inputs, all prefixes, all reachable stream positions, all histories of next/consume_prefix calls", "why_tests_cant": "the code compares raw bytes; soundness relies on UTF-8 being prefix free for all strings", "anchors": ["runtime/src/str_stream.rs: ConsumePrefix::consume_prefix"]}
{"id": "C03", "title": "Error tracking keeps exactly the expectations at the farthest failure", "statement": "After any history of error() calls on a state (with the cursor moved arbitrarily between them), farthest_read is the maximum of the initial farthest position and the positions at which error() was called, and expected is exactly the list, in call order, of the expectations reported at that farthest position (plus the initial ones if it did not move).", "quantifier": "all histories of error calls at arbitrary positions, all initial states", "why_tests_cant": "depends on the whole history", "anchors": ["runtime/src/parse_state.rs: ParseState::error"]}
{"id": "C04", "title": "into_result classification", "statement": "A state returned by a generated function maps to Success iff it carries data and all input is consumed, Partial iff it carries data and input remains, Failure iff it carries no data; data is returned unchanged, the expectation carries farthest_read and the set of expected items, and the internal assertion never fires on a state produced by a generated recognizer or parser. is_successful and unwrap_data agree with this: unwrap_data returns the data of a success or of a partial match, and panics exactly on failures.", "quantifier": "all states produced by success()/failure() and all runs of generated functions", "why_tests_cant": "must hold for every reachable state", "anchors": ["runtime/src/parse_state.rs: into_result, success, failure"]}
{"id": "C05", "title": "Reported line and column are correct", "statement": "location()/line_column() at a position returns 1 + the number of newline characters before the position, and 1 + the number of bytes since the last newline.", "quantifier": "all inputs and all character-boundary positions", "why_tests_cant": "quantifies over all strings; CRLF is a corner that tests miss", "anchors": ["runtime/src/str_stream.rs: line_column, location"]}
{"id": "C06", "title": "Error snippets are safe and correct", "statement": "code_snippet(n) never panics, returns `<end-of-file>` exactly at the end of input, and otherwise a non-empty prefix of the remaining input of at most n bytes.", "quantifier": "all inputs, positions and length hints", "why_tests_cant": "multi-byte characters at the cut position", "anchors": ["runtime/src/str_stream.rs: code_snippet"]}
{"id": "C07", "title": "Expected-items message", "statement": "expected_items() lists every expected item between backquotes separated by ` or `, with no trailing separator and the empty string when there is none; the set of items listed is exactly the set of items recorded.", "quantifier": "all lists of expected items (with duplicates) and all iteration orders of the hash set", "why_tests_cant": "unbounded lists, nondeterministic set order", "anchors": ["runtime/src/parse_state.rs: ParseExpectation::new, expected_items"]}
{"id": "C08", "title": "Generated recognizers implement PEG semantics", "statement": "For every grammar and rule r, running the generated recognize_r on an input returns Success iff the PEG semantics of r matches the whole input, Partial iff it matches a strict prefix and Failure iff PEG fails; on success the position reached is exactly the end of the PEG match.", "quantifier": "all grammars (with the generated code accepted by rustc), all rules, all inputs, all derivation depths", "why_tests_cant": "infinite grammars x inputs", "anchors": ["src/liboak/back/compiler/*.rs", "src/liboak/back/context.rs"]}
{"id": "C09", "title": "PEG results are deterministic", "statement": "For a grammar and an input, a generated function has at most one outcome, and the PEG semantics relates each (rule, input) to at most one outcome: no grammar is ambiguous.", "quantifier": "all grammars, rules, inputs", "why_tests_cant": "all derivations", "anchors": ["src/liboak/back/compiler/choice.rs", "src/liboak/back/compiler/repeat.rs"]}
{"id": "C10", "title": "Parser and recognizer agree", "statement": "parse_r and recognize_r succeed on the same inputs, stop at the same position, and report the same farthest position and the same expected items.", "quantifier": "all grammars with consistent types, all rules, all inputs", "why_tests_cant": "two separately generated functions must agree everywhere", "anchors": ["src/liboak/back/compiler/mod.rs: parser_compiler, recognizer_compiler", "src/liboak/back/compiler/rule.rs"]}
{"id": "C11", "title": "The parser builds the AST described by the grammar", "statement": "When parse_r succeeds, the returned data is the AST value of the (unique) PEG parse: sequences concatenate their non-unit components in order, e* / e+ collect one element per iteration in order, e? yields Some/None, a semantic action f is applied to the values of its sub-expression in left-to-right order, spans come before the values of the spanned expression, and unit-typed parts contribute nothing.", "quantifier": "all grammars with consistent types, all inputs", "why_tests_cant": "the value is assembled by CPS code through fresh variables, closures and scopes; any mix of combinators", "anchors": ["src/liboak/back/context.rs: value_constructor, success_as_closure, open_scope, next_free_var_skip", "src/liboak/back/compiler/*.rs"]}
{"id": "C12", "title": "Generated code never trips a runtime assertion", "statement": "Running a generated function never panics through the runtime's assertions (mark on failed state, restore_from_failure on successful state, restore with data, extract_data without data, slicing).", "quantifier": "all grammars, rules, inputs", "why_tests_cant": "assertions guard dynamic protocol states on all paths", "anchors": ["runtime/src/parse_state.rs: mark, restore, restore_from_failure, extract_data, into_result"]}
{"id": "C13", "title": "Accepted grammars always terminate", "statement": "If the well-formedness analysis accepts the grammar then every generated recognizer and parser terminates on every input (provided external rules terminate and consume input when they succeed).", "quantifier": "all accepted grammars, all rules, all inputs", "why_tests_cant": "termination over infinitely many inputs", "anchors": ["src/liboak/middle/analysis/well_formedness.rs"]}
{"id": "C14", "title": "Ordered choice commits to the first matching branch", "statement": "For e1 / ... / en, the result is the result of the first branch that matches at the current position; later branches are tried only from the same starting position and only if all earlier ones failed there; once a branch matched, a later failure of the rest of the sequence does not retry other branches; associativity: nesting choices does not matter.", "quantifier": "all choice expressions, continuations and inputs", "why_tests_cant": "quantifies over all branch lists and contexts", "anchors": ["src/liboak/back/compiler/choice.rs"]}
{"id": "C15", "title": "Repetition is greedy and possessive", "statement": "e* matches exactly the maximal iteration of e: it consumes successive matches of e until e fails and leaves the position after the last match; e+ is the same with at least one match; they never give back input.", "quantifier": "all expressions and inputs, any number of iterations", "why_tests_cant": "unbounded iterations", "anchors": ["src/liboak/back/compiler/repeat.rs"]}
{"id": "C16", "title": "Syntactic predicates consume nothing", "statement": "&e and !e leave the input position unchanged; &e succeeds iff e does, !e succeeds iff e fails; neither contributes to the AST.", "quantifier": "all expressions and inputs", "why_tests_cant": "all runs", "anchors": ["src/liboak/back/compiler/syntactic_predicate.rs"]}
{"id": "C17", "title": "Semantic actions are called exactly when building data, after a match, in order", "statement": "Recognizer functions and code generated under predicates or for unit-typed expressions contain no call to user actions and a recognizer run calls none. A parser run calls each user action whenever, and only when, its sub-expression has just matched while data is being built, on the values of that match, in the order of the evaluation; so every action application occurring in the returned data (unless an external rule returned it) was called, in order. Actions called in a branch that is abandoned later are not undone.", "quantifier": "all grammars, rules, start states and inputs", "why_tests_cant": "the calls depend on the whole backtracking history of a run", "anchors": ["src/liboak/back/compiler/mod.rs: recognizer_compiler", "src/liboak/back/compiler/semantic_action.rs", "src/liboak/back/continuation.rs"]}
{"id": "C18", "title": "Reported failure position and expectations are exact", "statement": "When a generated function fails (or matches partially), farthest_read is the farthest position at which the PEG evaluation attempted and failed a terminal, and expected is exactly the set of terminals that failed there.", "quantifier": "all grammars, rules, inputs", "why_tests_cant": "depends on the whole backtracking history", "anchors": ["runtime/src/parse_state.rs: error", "src/liboak/back/compiler/*.rs"]}
{"id": "C19", "title": "Spans are exact", "statement": "`.. e` and `... e` produce the byte range [start,end) consumed by e, for every match, including nested in repetition, choice and actions; start <= end; spans of consecutive elements are adjacent. (Byte offsets fit u32 only for inputs below 4 GiB.)", "quantifier": "all grammars, inputs", "why_tests_cant": "marks are threaded through closures and loops", "anchors": ["src/liboak/back/compiler/spanned_expr.rs", "runtime/src/lib.rs: make_span"]}
{"id": "C20", "title": "Left recursion and empty loops are always rejected", "statement": "Every grammar in which some rule can call itself (directly or through other rules) without any input being consumed in between, or that repeats an expression which can succeed without consuming input, is rejected by the analysis.", "quantifier": "all grammars", "why_tests_cant": "graph reachability over arbitrary grammars", "anchors": ["src/liboak/middle/analysis/well_formedness.rs: visit_rule, visit_repeat"]}
{"id": "C21", "title": "Well-formedness diagnoses are true statements about the language", "statement": "When the analysis computes that an expression cannot fail / cannot succeed / always consumes / never consumes, then on every input the expression behaves so; hence `never succeed`, `always succeeds without consuming` and `unreachable branch` errors are only raised on expressions for which it is true. The verdict is exact: a grammar is rejected if and only if a rule is left-recursive, a repeated expression is nullable, an expression is bound (by its form) to fail or to succeed without reading, or a branch follows one bound to succeed.", "quantifier": "all grammars, expressions, inputs", "why_tests_cant": "universally quantified over inputs", "anchors": ["src/liboak/middle/analysis/well_formedness.rs: WFA"]}
{"id": "C22", "title": "The well-formedness analysis terminates and never trips its assertions", "statement": "For every grammar (whose calls resolve to declared rules) the fixpoint iteration stops after finitely many passes and neither of its two internal assertions can fire.", "quantifier": "all grammars", "why_tests_cant": "fixpoint iteration over unbounded grammars", "anchors": ["src/liboak/middle/analysis/well_formedness.rs: visit_rules, visit_expr"]}
{"id": "C23", "title": "Chaining warnings suggest equivalent expressions", "statement": "On an accepted grammar, whenever the analysis warns that an operator applied to an operator (up to actions, type ascriptions, spans and rule calls) can be rewritten, the reported pattern is that chain and the suggested expression matches exactly the same inputs with the same consumption, except for the pattern (e+)*; every chain of the reported kinds is covered by a warning. The exception is needed, and so is the restriction to direct operands: (e+)* ~~> e+ is wrong on the empty input, and the suggestions made through the first element of a sequence or through the common operator of the branches of a choice are wrong on some inputs.", "quantifier": "all grammars, expressions, inputs", "why_tests_cant": "semantic equivalence on all inputs", "anchors": ["src/liboak/middle/analysis/useless_chaining.rs"]}
{"id": "C24", "title": "The chaining analysis terminates on accepted grammars", "statement": "On every grammar accepted by the well-formedness analysis the useless-chaining analysis terminates although it follows rule references.", "quantifier": "all accepted grammars", "why_tests_cant": "recursion over cyclic grammars", "anchors": ["src/liboak/middle/analysis/useless_chaining.rs: InnerPredicateOrRepeat::visit_non_terminal_symbol"]}
{"id": "C25", "title": "Duplicate rules are rejected", "statement": "The duplicate analysis accepts a rule list iff all names are distinct; the retained items are the first definitions, in order.", "quantifier": "all lists of items", "why_tests_cant": "unbounded lists", "anchors": ["src/liboak/middle/analysis/duplicate.rs"]}
{"id": "C26", "title": "Name resolution is exact", "statement": "After resolution a call denotes a local rule iff its path is a single identifier naming a declared rule; all other nodes are unchanged, so every local call refers to a declared rule.", "quantifier": "all grammars", "why_tests_cant": "unbounded ASTs", "anchors": ["src/liboak/middle/analysis/resolve_non_terminal.rs"]}
{"id": "C27", "title": "Character class syntax", "statement": "The character-class parser accepts a string iff it belongs to the documented grammar (optional leading dash, items c or c-c, optional trailing dash, non-empty) and the intervals returned denote exactly the set described.", "quantifier": "all strings", "why_tests_cant": "unbounded strings, corner positions of `-`", "anchors": ["src/liboak/front/parser.rs: parse_set_of_char_range, parse_char_range"]}
{"id": "C28", "title": "Character class matching", "statement": "A character class expression matches iff the next character lies in one of the intervals, consumes exactly that character, and otherwise consumes nothing.", "quantifier": "all interval lists (including reversed or overlapping) and characters", "why_tests_cant": "all code points", "anchors": ["src/liboak/back/compiler/character_class.rs: compile_condition, compile_interval"]}
{"id": "C29", "title": "Generated variable names do not collide", "statement": "In the code generated for a rule of at most 187262 expressions, all identifiers made by the code generator (value variables, marks, counters, branch flags, closures) are pairwise distinct, distinct from the fixed names of the templates (state and so on), valid Rust identifiers ending with a digit; the functions of different rules have different names. The bound is exact for the factory: the 187264-th group of variables is called mark0, mark1, ... and collides with the marks, and this (with the 5308018614-th, counter) is the only way two identifiers collide.", "quantifier": "all sequences of requests to the factory, all rules", "why_tests_cant": "unbounded sequences", "anchors": ["src/liboak/back/name_factory.rs"]}
{"id": "C30", "title": "Generated code is well scoped", "statement": "Every variable read or assigned in a generated function is bound at that point; closures only use their parameters and earlier closures.", "quantifier": "all grammars accepted by analysis and typing", "why_tests_cant": "all generated programs", "anchors": ["src/liboak/back/context.rs: closure_params, open_scope, success_as_closure"]}
{"id": "C31", "title": "The inferred types are the documented ones", "statement": "In an accepted grammar whose recursion always goes through a semantic action, a type ascription or a predicate, every expression whose value is built gets the Rust type of its documented type, which is unique: literals and predicates give nothing and disappear (also from e*, e+, e?), other expressions of unit type give (), a sequence gives the tuple of its non-unit values with inner tuples flattened, a spanned expression adds one component, a call has the type of the rule, a semantic action the return type of its function, a choice the common type of its branches. The type of a rule is known, and what is ascribed a Rust type has a Rust type or an unknown one. The condition on recursion is needed: r = (\"x\" r / .)* is accepted with branches of different types.", "quantifier": "all grammars given to the typing phase, all expressions of their rules", "why_tests_cant": "inference over unbounded expressions and calls between rules", "anchors": ["src/liboak/middle/typing/surface.rs", "src/liboak/middle/typing/depth.rs", "src/liboak/middle/typing/type_rewriting.rs", "src/liboak/middle/typing/ast.rs", "src/liboak/back/compiler/rtype.rs: compile_type"]}
{"id": "C32", "title": "Type inference terminates without panicking", "statement": "On every grammar given by the analysis, type inference terminates. It does not panic when rules do not call each other recursively except through a semantic action, a type ascription or a predicate (a rule can call itself). The condition is needed: z = \"w\" a / \"q\"; a = \"x\" a / \"y\" z makes it panic.", "quantifier": "all grammars given to the typing phase, including recursive ones", "why_tests_cant": "recursion over cyclic grammars", "anchors": ["src/liboak/middle/typing/surface.rs", "src/liboak/middle/typing/depth.rs", "src/liboak/middle/typing/type_rewriting.rs"]}
{"id": "C33", "title": "Rust types are finite", "statement": "In every accepted grammar, recursive or not, every expression has a finite Rust type: the generation of the types terminates.", "quantifier": "all accepted grammars", "why_tests_cant": "cyclic grammars and cyclic references between types", "anchors": ["src/liboak/middle/typing/depth.rs: reduce_all_rec", "src/liboak/middle/typing/surface.rs: infer_rec_type", "src/liboak/middle/typing/type_rewriting.rs: reduce_rec", "src/liboak/back/compiler/rtype.rs: compile_type"]}
{"id": "C34", "title": "Code generation never panics on consistently typed grammars", "statement": "For a grammar whose expression cardinalities are consistent, code generation binds every free variable exactly once: `Free variables are all bound`, the close-scope assertion and the unreachable!() are never hit.", "quantifier": "all grammars", "why_tests_cant": "all ASTs", "anchors": ["src/liboak/back/context.rs: next_free_var, close_scope, next_free_var_skip", "src/liboak/back/compiler/mod.rs: parser_compiler"]}
{"id": "C35", "title": "Print-level attributes accumulate", "statement": "Print attributes are merged in order and the level is the most verbose requested as long as each request is strictly more verbose than the previous ones; other attributes are ignored with one warning each. The condition is needed: a request that follows a request at least as verbose (the same attribute twice, show_typing after debug_typing) resets the level to nothing.", "quantifier": "all attribute lists", "why_tests_cant": "all sequences", "anchors": ["src/liboak/middle/analysis/ast.rs: PrintLevel::merge", "src/liboak/middle/analysis/attribute.rs"]}
{"id": "C36", "title": "File-map streams behave as string streams with absolute positions", "statement": "A FileMapStream over a registered file reads the same characters, has the same prefix behaviour and ordering as a string stream on the same text; spans are the offsets shifted by the start position of the file; registered line starts are the byte offsets following each newline.", "quantifier": "all file contents and start positions", "why_tests_cant": "all strings and positions", "anchors": ["runtime/src/file_map_stream.rs"]}
{"id": "C37", "title": "Failing expressions never leak consumption", "statement": "When a branch of a choice, an optional or an iteration fails, whatever it consumed is given back: evaluation resumes at the exact position before it.", "quantifier": "all expressions, inputs", "why_tests_cant": "all backtracking histories", "anchors": ["runtime/src/parse_state.rs: restore_from_failure", "src/liboak/back/compiler/choice.rs", "src/liboak/back/compiler/optional.rs"]}
{"id": "C38", "title": "Grammars compose through external rules", "statement": "If an external rule's functions implement a PEG rule of another grammar, then the calling grammar's generated functions implement the PEG semantics of the combined grammar.", "quantifier": "all pairs of grammars and inputs", "why_tests_cant": "compositionality over all programs", "anchors": ["src/liboak/back/compiler/non_terminal.rs: external_parser, external_recognizer"]}
{"id": "C39", "title": "The grammar front-end reads what is written", "statement": "The front-end reads a list of tokens as a grammar exactly when the documented concrete syntax (choices, actions, spans, sequences, type ascriptions, predicates, repetitions, atoms, in this order of precedence) says so, and rejects the other lists with an error. The syntax is unambiguous, and printing an expression with the parentheses its precedence requires then reading it gives it back.", "quantifier": "all lists of tokens and all expressions", "why_tests_cant": "unbounded syntax trees", "anchors": ["src/liboak/front/parser.rs: parse_blocks, parse_rule, parse_rule_choice, parse_spanned_expr, parse_seq, parse_typed_expr, parse_prefixed_expr, parse_suffixed_expr, parse_rule_atom, peek_rule_lhs, parse_type"]}
{"id": "C40", "title": "External rules must consume", "statement": "Accepted grammars terminate with every external rule that has an outcome everywhere and consumes input when it succeeds, even if it is repeated. The condition is needed: the analysis accepts grammars that repeat an external rule, and such a grammar loops forever on every input with an external rule that succeeds without consuming.", "quantifier": "all accepted grammars and all external rules", "why_tests_cant": "all external behaviours", "anchors": ["src/liboak/middle/analysis/well_formedness.rs", "src/liboak/visitor.rs: visit_external_non_terminal_symbol"]}
{"id": "C41", "title": "Failure reports always say what was expected", "statement": "When a generated function reports Failure, the set of expected items is not empty.", "quantifier": "all grammars and inputs", "why_tests_cant": "all runs", "anchors": ["src/liboak/back/compiler/syntactic_predicate.rs", "runtime/src/parse_state.rs"]}
{"id": "C42", "title": "Results depend only on the remaining input", "statement": "Running a rule on a state depends only on the characters that remain, not on what was consumed before nor on the error history: same outcome, same number of characters consumed, same data (up to absolute positions).", "quantifier": "all grammars, rules, and all pairs of inputs with equal suffixes", "why_tests_cant": "all prefixes and histories", "anchors": ["runtime/src/parse_state.rs", "src/liboak/back/compiler/*.rs"]}
{"id": "C43", "title": "The analysis phase is total and loses no error", "statement": "On every grammar built by the front-end, the analysis phase (at least one rule, duplicates, resolution, well-formedness, chaining, attributes) terminates without panicking; it produces a grammar iff no error was emitted, and then the grammar has exactly the rules that were written, with distinct names and resolved calls, and is well formed.", "quantifier": "all grammars built by the front-end", "why_tests_cant": "all combinations of errors in the phases; the later phases run on partial results of the earlier ones", "anchors": ["src/liboak/middle/mod.rs: typecheck, at_least_one_rule_declared", "src/liboak/middle/analysis/mod.rs: analyse", "src/liboak/middle/analysis/duplicate.rs", "src/liboak/middle/analysis/resolve_non_terminal.rs", "src/liboak/middle/analysis/well_formedness.rs: analyse", "src/liboak/middle/analysis/useless_chaining.rs: analyse", "src/liboak/middle/analysis/attribute.rs"]}
{"id": "C44", "title": "The stream type is the one of the user", "statement": "The generated functions use the first type alias named Stream among the user items, which are emitted unchanged; without one, a default alias is added, once.", "quantifier": "all lists of items", "why_tests_cant": "unbounded lists of items", "anchors": ["src/liboak/middle/mod.rs: extract_stream_type"]}
{"id": "C45", "title": "Every expression has its own slot", "statement": "The expressions of a grammar are numbered in the order in which they are read, children before their parent, without gaps, and two expressions never share an index: whatever a later phase attaches to an index concerns one occurrence only.", "quantifier": "all lists of tokens", "why_tests_cant": "unbounded grammars", "anchors": ["src/liboak/front/ast.rs: alloc_expr", "src/liboak/front/parser.rs: parse_rule_choice, parse_rule_atom"]}
{"id": "C46", "title": "From the tokens to the analysed grammar the macro never panics", "statement": "Every grammar the front-end builds has non-empty choices, sequences and character classes and unresolved calls, which is what the analysis phase assumes. So for every list of tokens, the macro stops after the analysis phase without panicking, with an analysed grammar or an error.", "quantifier": "all lists of tokens", "why_tests_cant": "unbounded token lists", "anchors": ["src/liboak/lib.rs: oak", "src/liboak/front/parser.rs", "src/liboak/middle/mod.rs: typecheck", "src/liboak/middle/analysis/mod.rs: analyse"]}
{"id": "C47", "title": "The macro from the tokens to the parsers", "statement": "On every list of tokens the macro stops. It reports a syntax error exactly when the tokens are not a grammar; when it aborts after the analysis or the typing phase an error was reported by this phase, and it generates code only if no error was reported but that of a unit action. It does not panic otherwise when recursion goes through semantic actions or type ascriptions and no choice mixes a branch of unknown type with a branch that gives several values. The generated code is that of the rules as they are written: on every text each generated function returns, and returns what the written rule says (provided that the code passes the scope checks of rustc, C30, and that external rules are total and read something when they succeed).", "quantifier": "all lists of tokens, all texts, all rules, all external functions that meet the contract", "why_tests_cant": "unbounded token lists and texts", "anchors": ["src/liboak/lib.rs: oak", "src/liboak/middle/mod.rs: typecheck", "src/liboak/back/mod.rs: compile"]}
{"id": "C48", "title": "The typing phase is refused exactly when it reports an error", "statement": "The typing phase gives a typed grammar exactly when it reported no type mismatch, no ascription mismatch and no rule without a type; warnings about recursive types and the error on unit actions do not stop it.", "quantifier": "all analysed grammars", "why_tests_cant": "unbounded grammars", "anchors": ["src/liboak/middle/typing/depth.rs: infer", "src/liboak/middle/typing/surface.rs: surface"]}
{"id": "C49", "title": "Generated functions type-check in Rust", "statement": "For every accepted grammar in which recursion goes through semantic actions or type ascriptions and whose written Rust types agree with each other (branches of a choice, ascriptions, results of boxed and upper-case functions), the recognizer generated for a rule has type ParseState<S,()> -> ParseState<S,()> and its parser has the type ParseState<S,()> -> ParseState<S,T> announced in its signature, T being the inferred type: every statement, closure, closure call and branch is well typed by the rules of Rust (ownership aside).", "quantifier": "all accepted grammars of any shape, all rules, all inferred types", "why_tests_cant": "unbounded grammars: the generated code of a grammar is type-checked only when somebody compiles it", "anchors": ["src/liboak/back/compiler/rtype.rs: TypeCompiler", "src/liboak/back/context.rs: Context", "src/liboak/back/compiler/choice.rs: ChoiceCompiler", "src/liboak/back/compiler/semantic_action.rs: SemanticActionCompiler", "src/liboak/back/compiler/repeat.rs: RepeatCompiler", "src/liboak/back/compiler/optional.rs"]}
{"id": "C50", "title": "Errors of type are right, and right grammars are accepted", "statement": "Take a grammar whose recursion goes through semantic actions, ascriptions or predicates. If the typing phase refuses it, its first error (unit actions aside) is right: the branches of the choice it names have documented types that do not agree, or the expression it names must have a Rust type by an ascription and has another documented type, or the ascription it names is inside an ascription of another kind, or the documented type of the rule it names is not known. Reported unit actions are declared with the type (), and no warning about recursive types is given. Conversely, if every choice has a documented type, Rust types are ascribed to expressions of Rust or unknown type, the types of rules are known, no ascription is inside an ascription of another kind, and no span is ascribed a Rust type, then the grammar is accepted, and the macro generates code.", "quantifier": "all analysed grammars without seen recursion", "why_tests_cant": "unbounded grammars: tests show some refused grammars, not that every refused grammar deserves it", "anchors": ["src/liboak/middle/typing/depth.rs: infer", "src/liboak/middle/typing/surface.rs: surface", "src/liboak/middle/typing/type_rewriting.rs", "src/liboak/middle/mod.rs: typecheck"]}
{"id": "C51", "title": "Generated functions use no moved value", "statement": "Let any set of the Rust types written in an accepted grammar be Copy. However the variables of a generated function are typed, the function uses no variable after it was moved, on no path, whether through branches, loop turns or closure calls, and no closure call borrows a variable mutably twice: always for recognizers, and for parsers if no choice follows, in a sequence, an expression with values that are not Copy (otherwise the value is moved in each branch).", "quantifier": "all accepted grammars of any shape, all sets of Copy types, all typings of the generated functions", "why_tests_cant": "unbounded grammars: the moves of the generated code are checked only when somebody compiles it", "anchors": ["src/liboak/back/context.rs: success_as_closure, closure_args", "src/liboak/back/compiler/choice.rs: ChoiceCompiler", "src/liboak/back/compiler/repeat.rs: RepeatCompiler", "src/liboak/back/compiler/optional.rs", "src/liboak/back/compiler/syntactic_predicate.rs", "src/liboak/back/compiler/spanned_expr.rs"]}
{"id": "C52", "title": "Which grammars give code that compiles", "statement": "For every accepted grammar in which recursion goes through semantic actions or ascriptions and whose written Rust types agree, whether the generated functions pass name resolution and type checking is decided by two syntactic conditions on the typed grammar: (1) no semantic action containing a choice that is followed by something stands where the code that follows needs outer variables, and (2) no choice that is followed by something stands where the code that follows must assign the flag of an outer choice or the result of an option, or lend it or the vector of a repetition to another closure. If both hold the code is accepted; if one fails, whatever the written types are, some generated function is rejected. Code that is accepted does what the grammar says.", "quantifier": "all accepted grammars of any shape", "why_tests_cant": "unbounded grammars: tests show some grammars that compile, not which ones do not", "anchors": ["src/liboak/back/context.rs: success_as_closure, open_scope, closure_params", "src/liboak/back/compiler/choice.rs: ChoiceCompiler", "src/liboak/back/compiler/semantic_action.rs", "src/liboak/back/compiler/optional.rs", "src/liboak/back/compiler/repeat.rs"]}
{"id": "C53", "title": "The grammars of the test-suite, on every text", "statement": "Each of the fourteen grammars of tests/grammars (calc, calc2, calc3, combinators, issue94, json, ntcc, recursive_type, stream_span, type_name, typing, unreachable_rule, useless_chaining, well_formedness) expands to code, and on every text, not only on the samples of data/test, each generated recognizer and parser returns, and returns exactly what the grammar as it is written says: success, partial match or failure, value, rest of the text and reported error. The code generated for each of them (but calc3, which uses two names for one type) passes name resolution, type checking and move checking, whichever of the types of the user are Copy.", "quantifier": "the fourteen grammars; all texts, all rules, all semantic functions, all sets of Copy types", "why_tests_cant": "the tests run each grammar on a few texts only", "anchors": ["tests/grammars/*.rs", "tests/testoak.rs", "src/liboak/middle/analysis/..", "src/liboak/back/.."]}
{"id": "C54", "title": "The module the macro expands to", "statement": "When the macro generates code, the expansion contains the three imports of the run-time, every item of the user that is not a function, once and in order, the alias Stream = StrStream exactly when the user wrote no alias Stream, every function of the user once, and for each rule r one function recognize_r of type ParseState<Stream,()> -> ParseState<Stream,()> and one function parse_r whose announced type is the type inferred for r, and nothing else. Generated functions have different names, and a call to recognize_p or parse_p in generated code denotes the function generated for the rule p, and no generated function if p is not a rule; the rule r of another module m is called as m::recognize_r or m::parse_r. All functions of the module have different names iff no function of the user is called recognize_r or parse_r for a rule r.", "quantifier": "all lists of tokens that expand to code, all orders of the hash map of the functions", "why_tests_cant": "unbounded grammars; the order of the hash map changes from one run to the next", "anchors": ["src/liboak/back/compiler/grammar.rs: compile_grammar_module, compile_mod_content, compile_rules", "src/liboak/back/compiler/rule.rs: RuleCompiler", "src/liboak/back/context.rs: function, into_recognizer_function, into_parser_alias, into_parser_function", "src/liboak/back/name_factory.rs: parser_name, recognizer_name, parser_id, recognizer_id", "src/liboak/middle/mod.rs: extract_stream_type", "src/liboak/middle/analysis/duplicate.rs: rust_functions_duplicate"]}
{"id": "C55", "title": "The size of the generated code", "statement": "A choice does not duplicate the code that follows it: the code of every generated recognizer has a size of at most 8n\u00b2, n being the size of the rule (operators, atoms and intervals), and so has every generated parser of a rule in which no semantic action that gives a value has a body that ends by different branches (choices), unless the action ends the rule or a branch; in particular rules without semantic actions, and rules whose branches are sequences each with one action on the whole. The condition is needed: the parser of a sequence of k items ((\"a\" / \"b\") > f) has a size of at least 2^k.", "quantifier": "all grammars of any shape, all inferred types", "why_tests_cant": "unbounded grammars: a test measures the code of one grammar", "anchors": ["src/liboak/back/mod.rs", "src/liboak/back/context.rs: do_not_duplicate_success, success_as_closure, open_scope", "src/liboak/back/compiler/choice.rs: ChoiceCompiler", "src/liboak/back/compiler/semantic_action.rs", "src/liboak/back/continuation.rs"]}
{"id": "C56", "title": "Warnings about recursive types", "statement": "The rules listed by a warning about an infinite recursive type are different rules of the grammar and form a cycle: the type of each one depends on that of the previous one in the list, and the type of the first one on that of the last one. A rule to which a type is ascribed is never listed, so that an ascription removes the warning as the documentation says. No warning is given when rules only call themselves directly (outside of actions, ascriptions and predicates). A rule whose body is a choice with a branch in which the rule calls itself next to an expression with data is refused with an error on the choice. Contrary to the documentation, such a rule can have its type replaced by (^) without a warning; the list is in the reverse order of the calls; and rules outside of the cycle can lose their type too, depending on which rule of the cycle they call.", "quantifier": "all grammars given to the typing phase", "why_tests_cant": "cycles of any length among any number of rules, in any order of declaration", "anchors": ["src/liboak/middle/typing/depth.rs: warn_recursive_type, reduce_all_rec", "src/liboak/middle/typing/surface.rs: visit_rule, infer_rec_type", "src/liboak/middle/typing/type_rewriting.rs: reduce_rec_entry_point, reduce_rec", "src/liboak/middle/typing/ast.rs: RecSet, RecPath", "doc/src/type-inference.md: Recursive type"]}
{"id": "C57", "title": "The presentation of a grammar does not matter: order and names of the rules, numbering, unused rules", "statement": "If the rules of a grammar are written in another order, given other (different) names, or if rules that are not called are added, then every recognizer returns the same results on every text (success, rest, position and expectations of errors), the well-formedness verdict is the same, and, when no recursion is seen by the type inference, the parsers have the same Rust types and return the same values. With recursion seen by the inference the order matters (counterexample).", "quantifier": "all pairs of grammars whose rules correspond, all inputs", "why_tests_cant": "metamorphic property over all grammars and texts", "anchors": ["src/liboak/middle/analysis/well_formedness.rs: visit_rules", "src/liboak/middle/typing/surface.rs", "src/liboak/middle/typing/depth.rs", "src/liboak/back/mod.rs: compile", "src/liboak/ast.rs: find_rule_by_ident"]}
{"id": "C58", "title": "Parsing needs a stack linear in the text, and no memoization: calls may be exponentially many", "statement": "When the well-formedness analysis accepts a grammar (and its external rules read something when they succeed and return), a recognizer or a parser never has more nested rule calls than rules times positions of the text, nor more than two function calls for each of them, no loop iterates more than there are characters left (plus one), so it returns within a call depth 2*rules*(length+1)+length+2; a depth that grows with the text can be needed. What was matched is not remembered: there are accepted grammars whose parser calls a user function 2^n times on a text of n+1 characters.", "quantifier": "all accepted grammars, all texts, all starting positions", "why_tests_cant": "a bound on the call depth for every grammar and every text; tests measure a few", "anchors": ["src/liboak/middle/analysis/well_formedness.rs", "src/liboak/back/compiler/rule.rs: compile", "src/liboak/back/compiler/repeat.rs", "runtime/src/parse_state.rs"]}
{"id": "C59", "title": "The expectation reported for a character class can be read as that class", "statement": "When a character class is expected, the message shows it as it could be written in the grammar: a bracketed string literal made of printable ASCII characters which, read back by the front-end, gives the same intervals. Two classes with the same description accept the same characters.", "quantifier": "all class texts accepted by the front-end (any Unicode characters), all texts on which the class fails", "why_tests_cant": "escaping must be right for every character; a round trip over all classes", "anchors": ["src/liboak/ast.rs: CharacterClassExpr, CharacterInterval", "src/liboak/front/parser.rs: parse_char_class", "src/liboak/back/compiler/character_class.rs"]}
{"id": "C60", "title": "Any stream type that meets the contracts of the traits works", "statement": "For a stream type written by the user whose operations do what the traits of the run-time document (next gives the next character or nothing, consume_prefix leaves the stream as it is when the prefix does not match, has_next tells whether something can be read, streams over one text compare as the amount of text read), every recognizer and parser returns exactly the results that the grammar specifies on the text of the stream, gives back a stream over that text, does not panic, and returns on every text when the grammar is accepted. Two such types over the same text lead to the same results. Streams over strings and over registered files meet the contracts. The contracts of consume_prefix, has_next and of comparisons are needed: without one of them the result can be wrong.", "quantifier": "all stream types meeting the contracts, all grammars, all texts", "why_tests_cant": "unbounded: the tests use one stream type", "anchors": ["runtime/src/stream.rs: ConsumePrefix, HasNext, StreamSpan", "runtime/src/parse_state.rs: error, into_result, mark, restore", "src/liboak/back/compiler/str_literal.rs", "src/liboak/back/compiler/any_single_char.rs", "src/liboak/back/compiler/character_class.rs"]}
{"id": "C61", "title": "Refactoring a grammar: laws of expressions, used anywhere", "statement": "The usual laws hold of the recognizers: rules can be inlined, sequences and choices flattened, e+ is e e*, e* is (e e*) / \"\", e? is e / \"\", (e+)? is e*, &e is !!e, !!!e is !e, what follows a branch that cannot fail is useless, actions, ascriptions and spans do not matter (same texts matched, same errors reported); a b / a c is a (b / c), a branch tried before can be removed, a literal is the sequence of its parts, a class the choice of its parts (same texts matched). If a grammar is rewritten with such laws, used in any direction, anywhere in the rules and any number of times, and the new grammar is accepted, then every recognizer of the new grammar returns what it returned before (same results with the laws of the first kind; same kind of result and same rest with all of them). Even if it is not accepted, every result of the new grammar is a result of the old one. Acceptance is needed, and errors can differ with the laws of the second kind.", "quantifier": "all grammars, all sequences of rewritings, all texts", "why_tests_cant": "metamorphic property over all grammars, rewritings and texts", "anchors": ["src/liboak/back/compiler/*.rs", "src/liboak/middle/analysis/well_formedness.rs", "runtime/src/parse_state.rs"]}
{"id": "C62", "title": "The text printed for a result says what happened and where", "statement": "Printing the result of a generated function (Debug of ParseResult) gives exactly: `Full match, got data ...` when the rule matches the whole text; `Partial match, got data ... It stopped because:` or `Error:` when it matches a part or fails, followed by line:column, the next ten bytes of the text (or <end-of-file>) and the terminals tried there, each once between backquotes and separated by ` or `, where line, column and terminals are those of the farthest position at which a terminal was tried in vain. It panics exactly when a character lies across the tenth byte after this position. (Line and column are right if no carriage return ends a line before the position.)", "quantifier": "all grammars, rules, texts, orders of the set of expected items and ways to print data", "why_tests_cant": "all texts and positions; the order of a hash set is not fixed", "anchors": ["runtime/src/parse_state.rs: Debug for ParseResult, ParseExpectation", "runtime/src/str_stream.rs"]}
{"id": "C63", "title": "The calculator of the tutorial reads arithmetic expressions as an ordinary grammar defines them", "statement": "For the calculator grammar of the test-suite (the one of the tutorial): parse_program returns a full match on a text, with a value that the user functions build into the expression t, if and only if the text is a way to write t in the usual sense: numbers, names that are not keywords, parentheses, let-in whose body extends as far right as possible, ^ grouped to the right and binding tighter than * and /, which are grouped to the left and bind tighter than + and -, with spaces between lexemes. Each text is a way to write at most one expression; recognize_program fully matches the same texts; every expression whose variables are names can be written and is read back; a user function panics on a fully matched text exactly if one of its numbers does not fit in 32 bits, and on any text, matched or not, only if the text contains digits whose number does not fit. The number of calls of user functions is exponential in the nesting of parentheses: 10 * 2^n - 3 calls for a digit between n pairs of parentheses.", "quantifier": "all texts and all expressions", "why_tests_cant": "infinitely many texts; the tests check a few dozen of them and never look at the values", "anchors": ["tests/grammars/calc.rs", "doc/src/full-calc-grammar.md", "doc/src/learn-oak.md"]}
{"id": "C64", "title": "A grammar and its context-free reading", "statement": "Read as a context-free grammar (branches of choices in any order, as many repetitions as one wants, predicates ignored), a grammar has at least the texts that the parser accepts: a success, or a partial match, returns the data of a derivation tree of the text read. When the grammar has no predicates, is accepted, and one character of lookahead is enough to choose (LL(1): no two branches start with the same character, what is repeated or optional does not start with a character that may follow), the parser succeeds exactly on the texts of the context-free grammar, each of them has exactly one derivation tree, and the data returned is that of this tree; if moreover every expression has a text and actions apply to expressions that cannot be empty, the user functions called are exactly those of the derivation tree, once for each node with an action: nothing is called for what is abandoned. The conditions are needed: `r = \"a\" / \"ab\"` does not accept `ab`, and `r = \"a\"* \"a\"` accepts nothing, although Oak accepts both grammars.", "quantifier": "all grammars, all texts", "why_tests_cant": "all grammars and texts; a test shows some texts of some grammars", "anchors": ["src/liboak/back/compiler/choice.rs", "src/liboak/back/compiler/repeat.rs", "src/liboak/back/compiler/optional.rs", "src/liboak/back/compiler/sequence.rs", "src/liboak/middle/analysis/well_formedness.rs", "doc/src/learn-oak.md: PEG and prioritized choice"]}
{"id": "C65", "title": "The tutorial's template for operators works for any table of precedences", "statement": "For any number of levels of binary operators, each grouped to the left or to the right, and rules written as the tutorial shows (expr_i = expr_{i+1} (op_i expr_{i+1})* > fold_left, or (expr_{i+1} op_i)* expr_{i+1} > fold_right, last level a value or parentheses): the parser of the first level returns a full match on a text, with a value that the user functions build into the expression t, if and only if the text is a way to write t with these precedences and groupings; no text is a way to write two expressions; every expression over the table can be written with parentheses only where they are needed and is read back; if something remains after an expression, the match is partial with that expression. This holds for symbols of which none begins another one, and more generally for any rules of tokens (with spacing, for example) that are not taken for one another. The condition is needed: with `<` and `<=`, in this order, `1<=2` is not read.", "quantifier": "all tables of operators, all texts, all expressions", "why_tests_cant": "any number of levels and operators, all texts; the tests have one table with three levels", "anchors": ["doc/src/learn-oak.md: Operator precedence, Operator associativity", "tests/grammars/calc.rs", "src/liboak/back/compiler/choice.rs", "src/liboak/back/compiler/repeat.rs", "src/liboak/back/compiler/sequence.rs", "src/liboak/back/compiler/semantic_action.rs"]}
{"id": "C66", "title": "The tutorial's rules for identifiers and keywords do what a lexer with a table of keywords does", "statement": "For any list of keywords made of characters of words, and any classes for characters of words, digits and spaces, with the rules of the tutorial (identifier = !digit !keyword ident_char+ spacing > to_string, kw_tail = !ident_char spacing, one rule \"...\" kw_tail for each keyword): a lexer that takes the longest run of characters of words, looks it up in the table of keywords, takes it for a name if it is not there and does not begin with a digit, and skips spaces, finds a name exactly where the rule of identifiers matches, with the same remaining text and the characters of the name passed to the user function; it finds a keyword exactly where the rule of that keyword matches. Hence an identifier is never read where a keyword is read, nor a keyword where another one is. kw_tail is needed: without it, letter is not read as an identifier.", "quantifier": "all lists of keywords, all classes, all texts and positions", "why_tests_cant": "any number of keywords, all texts; the tests have two keywords", "anchors": ["doc/src/learn-oak.md: Identifier and keyword", "tests/grammars/calc.rs: identifier, kw_tail, keyword", "src/liboak/back/compiler/syntactic_predicate.rs", "src/liboak/back/compiler/repeat.rs"]}
{"id": "C67", "title": "The location of an error is where the text goes wrong", "statement": "For a grammar without predicates and external rules: what follows the location of a reported failure does not matter (any text that begins as the given one up to this location, and goes on with the same next m characters, m being the length of the longest literal and at least 1, is refused at the same location with the same expectations); if every expression has a text, what comes before the location of a failure, or of the expectations of a partial match, begins a text of the grammar read as a context-free one, and, when one character of lookahead is enough to choose (LL(1)), a text that the parser accepts. If moreover literals have one character, the location of a failure is exactly where the text goes wrong: what comes before begins an accepted text, and what comes before with the next character begins none. Predicates break it: `!(\"a\" \"b\") \"a\"` fails at the start of `ab` but not on `ac`.", "quantifier": "all grammars without predicates, all texts and all their continuations", "why_tests_cant": "quantifies over all the continuations of a text; tests look at the reported location for some texts", "anchors": ["runtime/src/parse_state.rs: error, into_result", "runtime/src/parse_state.rs: ParseExpectation", "src/liboak/back/compiler/choice.rs", "src/liboak/back/compiler/str_literal.rs", "doc/src/learn-oak.md"]}
{"id": "C68", "title": "The JSON grammar of the test-suite reads its part of JSON, on every text", "statement": "For the JSON grammar of the test-suite: parse_program returns a full match on a text, with a value that the user functions build into the data d, if and only if the text is a way to write d: natural numbers, strings over the characters of the grammar, arrays of one or more elements separated by commas, objects of zero or more pairs separated by commas, spaces between lexemes. Each text is a way to write at most one data; recognize_program fully matches the same texts; the data that can be written are those whose strings have only these characters and whose arrays are not empty, and they are read back from their text; a user function panics on a fully matched text exactly if a number does not fit in 32 bits, and on any text only if it contains digits whose number does not fit. The number of calls of user functions on a text of d is a function of d, in which the last element of each array counts twice: it is exponential in the nesting of arrays, 3 * 2^n - 1 calls for a digit in n arrays. The empty array `[]` is rejected, although `{}` is accepted.", "quantifier": "all texts and all data", "why_tests_cant": "infinitely many texts; the grammar is only compiled by the test-suite, its values are never looked at", "anchors": ["tests/grammars/json.rs", "src/liboak/back/compiler/repeat.rs", "src/liboak/back/compiler/optional.rs", "src/liboak/back/compiler/choice.rs", "src/liboak/back/compiler/semantic_action.rs"]}
{"id": "C69", "title": "Messages of the macro point at the text of the expression they are about", "statement": "Every message of the macro about an expression (never succeeds, always succeeds, infinite loop, unreachable alternative, useless chaining, unit action, mismatching branches, wrong ascription) is about an expression written in the grammar, and its span points at the text of that expression in the source: it is not empty, lies within the tokens from which the expression was read, and is built from them by fixed rules (token, from first token to operator, from the first branch to the last, token after > or after the colon). Spans of different rules do not overlap and follow the order of the source. The places of tokens do not influence what is read.", "quantifier": "all token trees with places, all grammars read from them, all their sub-expressions, all messages of the analysis and typing phases", "why_tests_cant": "tests compare a few messages; the claim is about the spans of all expressions of all sources", "anchors": ["src/liboak/front/parser.rs: FGrammar::parse, alloc_expr, span_of, parse_rule_choice, parse_seq, parse_semantic_action, parse_typed_expr, parse_prefixed_expr, parse_suffixed_expr", "src/liboak/front/ast.rs: ExpressionInfo", "src/liboak/middle/analysis/well_formedness.rs", "src/liboak/middle/analysis/useless_chaining.rs: check_chain", "src/liboak/middle/typing/surface.rs: type_mismatch_branches", "src/liboak/middle/typing/depth.rs: error_if_not_match_ty_ascription", "src/liboak/middle/typing/ast.rs: error_unit_action_type"]}
{"id": "C70", "title": "Texts of the messages of the typing phase", "statement": "For every message of the typing phase a text is written: the compiler does not panic or loop while it writes it, and messages are given in order, each at its place and with its level. A mismatch between the branches of a choice has one note for each branch, in order, and at most one more, on rule cycles, only if the type of a branch is written `(^)*`; the cycles are made of rules of the grammar. When recursion always goes through actions, ascriptions or predicates, the types in the text of the first error are the documented types: those of the branches of the choice, that of the expression and that of the ascription. The notation is not ambiguous on types that have no part written in Rust, so that a mismatch between such branches always shows two different types. Contrary to what a user expects, types of Rust and types of Oak are not told apart: `.:char` is refused with `found type char but expected type char`.", "quantifier": "all grammars given to the typing phase", "why_tests_cant": "types of any depth, choices of any number of branches, any number of errors", "anchors": ["src/liboak/middle/typing/surface.rs: type_mismatch_branches", "src/liboak/middle/typing/depth.rs: error_if_not_match_ty_ascription, warn_recursive_type, check_all_rules_have_type", "src/liboak/middle/typing/ast.rs: IType::display, Type::display, RecSet::display", "src/liboak/ast.rs: display_path_cycle"]}
{"id": "C71", "title": "Syntax errors: where, why, and in which rule", "statement": "For every text given to the macro, checking the syntax ends with one answer, and an error is reported exactly when the text is not a grammar. The error is about what is at its place (no expression where one is needed, a type without an expression, an operator without operand, empty parentheses, an empty or ill-formed character class, something that is not a Rust type, no function after >, neither a rule nor an item, a token left in a group), and what comes before this place is the beginning of a grammar: completing it with one expression (or function, or rule) and closing the open groups gives a grammar, whose last rule is the rule that the message names. So no token before the error is wrong, except that tokens left at the end of a group are not counted when another error comes later: the later error is reported instead of the first. The message for an operator without operand names the operator as the rule and the rule as the operator.", "quantifier": "all token trees with places", "why_tests_cant": "tests give a few wrong grammars and look at the text of the message only", "anchors": ["src/liboak/front/parser.rs: parse_blocks, parse_rule, parse_rule_choice, parse_semantic_action, parse_seq, parse_typed_expr, parse_type, parse_prefixed_expr2, parse_rule_atom, parse_char_class, parse_set_of_char_range, parse_char_range", "src/liboak/lib.rs: oak"]}
{"id": "C72", "title": "Texts of the messages of the analysis phase", "statement": "For every parser read by the macro, the texts of the messages of the analysis phase are written, in this order: a message for each rule that has the name of a rule before it, at its name, with a note at the first rule of this name; the same for Rust functions; an error for each fault in the form of the rules (left recursion, expression that never succeeds, expression that always succeeds without reading, infinite loop, unreachable branch), with a text that is true of the expression it points to; if there is none, and exactly then the rules are well formed, a warning for each useless chain of operators, whose text shows the two operators that are written and the operator they could be replaced by, and a warning for each unknown attribute. The cycle displayed by an error on left recursion is a cycle: distinct rules of the grammar, each calling the next one in leftmost position, the last one calling the first one, and the error points to the first definition of the first rule of the cycle. A parser without rules gets exactly one message.", "quantifier": "all grammars read by the macro, with any number of rules, functions, attributes and faults", "why_tests_cant": "tests look at one message each and never at the cycle; any number of messages, cycles of any length", "anchors": ["src/liboak/middle/analysis/duplicate.rs: populate, duplicate_items", "src/liboak/middle/analysis/well_formedness.rs: left_recursion_detected, never_succeed, always_succeed, loop_repeat, unreachable_choice", "src/liboak/middle/analysis/useless_chaining.rs: warn_useless_chaining, check_chain", "src/liboak/middle/analysis/attribute.rs", "src/liboak/middle/mod.rs: at_least_one_rule_declared", "src/liboak/ast.rs: display_path_cycle"]}
{"id": "C73", "title": "How long parsing takes", "statement": "For an accepted grammar whose external rules consume what they match: the number of expressions evaluated (an expression evaluated twice counts twice) is at most a constant of the grammar times the number of characters read, where a character read again counts again; it is at most c^(n+1) on a text of n characters, and so is the number of calls of functions made by the generated code (recognizers, parsers, external rules and user functions), which is at most twice the number of expressions evaluated plus 2; this is reached, there is an accepted grammar for which a parser calls user functions 2^n times on a text of n+1 characters. When the grammar has no predicates and no external rules and one character of lookahead is enough to choose (LL(1)), no character is read twice, whether the text is accepted or not, and the number of expressions evaluated and of calls of functions is linear in the length of the text.", "quantifier": "all accepted grammars, all rules, all texts", "why_tests_cant": "the time is bounded for all texts of any length; a test only measures some texts", "anchors": ["src/liboak/back/compiler/choice.rs", "src/liboak/back/compiler/repeat.rs", "src/liboak/back/compiler/optional.rs", "src/liboak/back/compiler/syntactic_predicate.rs", "src/liboak/back/compiler/sequence.rs", "runtime/src/parse_state.rs: mark, restore", "src/liboak/middle/analysis/well_formedness.rs"]}
{"id": "C74", "title": "The same grammar with other functions", "statement": "Two grammars whose rules are written alike but for the user functions and constructors, the types written, the names of the rules, the expressions with a type written, and rules that are called in the module of another grammar instead of being written there, recognize the same texts: the recognizers of corresponding rules return the same result (matched or not, where the match ends, the position of the error and what was expected there), and the parsers return the same result but for the functions that built the data, each being replaced by the one that takes its place. In particular the three calculators of the test-suite, with functions (calc), with constructors (calc2), and with rules of calc2 called from another module (calc3), are the same recognizers, and each is a calculator: parse_program returns an expression exactly if the text is a way to write it, no text is a way to write two expressions, and a user function panics exactly if a number does not fit in 32 bits.", "quantifier": "all pairs of such grammars, all rules, all texts", "why_tests_cant": "the tests run the three calculators on the same few texts only", "anchors": ["tests/grammars/calc.rs", "tests/grammars/calc2.rs", "tests/grammars/calc3.rs", "src/liboak/back/compiler/semantic_action.rs", "src/liboak/back/compiler/non_terminal.rs", "src/liboak/back/compiler/rule.rs"]}
{"id": "C75", "title": "The tests on underscores in numbers and on spans, on every text", "statement": "For the grammar issue94.rs: each text is made, in only one way, of a part of digits and underscores that ends with a digit or is empty, of underscores, and of the rest, which starts with neither; parse_digits fails exactly if the first part is empty, fully matches exactly if the two others are, and otherwise matches partially; the data is what the user function returns on the digits of the first part in order, without the underscores; the error is always reported at the rest, where an underscore and a digit are expected, in this order; recognize_digits returns the same without data. For the grammar stream_span.rs: parse_expr and parse_expr2 fully match exactly the texts of an a, two characters and a b; the data is what the user function returns on the span of the text, that of a, the first character, the span of the second one, in bytes, and this character; parse_expr3 fully matches exactly ac and bc, and returns the span of the text.", "quantifier": "all texts", "why_tests_cant": "infinitely many texts; the tests check one text for each rule (and none with characters of several bytes)", "anchors": ["tests/grammars/issue94.rs", "tests/grammars/stream_span.rs", "src/liboak/back/compiler/repeat.rs", "src/liboak/back/compiler/spanned_expr.rs", "runtime/src/parse_state.rs", "runtime/src/str_stream.rs"]}
{"id": "C76", "title": "Rules of combinators.rs with predicates, classes, options and calls, on every text", "statement": "For the grammar combinators.rs, which is accepted: predicate fails exactly on the texts that start neither with a nor with b, fully matches exactly those that start with a and have no b or start with b and have no a, and matches the others partially, up to the first b or a; the data is the list of the characters matched, in order, the looked-ahead one once only (predicates read nothing and return nothing). char_class fully matches exactly the texts made of one or more characters among a-z, A-Z, 1, 2 and the underscore, a tab or a space or nothing, and a dash; the data is the list of these characters, the tab or space if any, and the dash. non_terminal fully matches exactly the texts made of an a, a b or a c, any character, one or more characters other than d, and a d: its repetition runs exactly once (the called rule reads up to a d), and the data shows it. optional fully matches exactly bz, abz, and these with a c or a d and any character before the z; the data says if there is one, and which (bcz is no such text: the z is read as the character after c, without backtracking).", "quantifier": "all texts, recognizers and parsers (predicate), parsers (the three other rules)", "why_tests_cant": "infinitely many texts; the tests of combinators.rs check fewer than ten texts for each rule and none of the data", "anchors": ["tests/grammars/combinators.rs", "src/liboak/back/compiler/syntactic_predicate.rs", "src/liboak/back/compiler/character_class.rs", "src/liboak/back/compiler/choice.rs", "src/liboak/back/compiler/optional.rs"]}
