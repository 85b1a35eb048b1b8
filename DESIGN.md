# Formal model of ptal/oak in Lean 4

`/verif/lean/Verif`:

| directory | contents |
|---|---|
| `Model/` | the code of `/repo`, function by function; each definition cites the file and lines it models and says what is simplified |
| `Spec/` | small specifications, independent of the model's helpers: parsing expression grammars on lists of characters, documented types, the grammar of `oak!` as an inductive relation, typing rules of Rust, ... |
| `Proofs/` | lemmas, invariants, simulations |
| `Corpus/` | the grammars of the test-suite of the repository as tokens, and a runner: see `CONFORMANCE.md` |
| `Properties/` | the theorems of `MANIFEST.json` (`Cxx_name` is about property `Cxx` of `properties.jsonl`), each with concrete cases that meet its hypotheses |

`seeded/` holds the wrong programs (`mutants.py`), the runner and the log; `scripts/` regenerates `properties.jsonl`, `MANIFEST.json`, `AXIOMS.md` and the imports.

## 1. What is modelled

Outcomes of functions that can panic or not terminate are values of `Res` (`ok`, `stuck`, `panic`, `timeout`): `assert!`, `unwrap`, slicing at a byte that is not a boundary,
`unreachable!` and explicit panics are `panic`. Recursions of the code that are not structural take a fuel, and `timeout` is its exhaustion; theorems say that for all large
enough fuels the result is the same, so that termination is a theorem and not an assumption.

| code | model | remarks |
|---|---|---|
| `runtime/src/str_stream.rs`, `stream.rs` | `Model/Stream` | text as a list of characters, positions in bytes of the UTF-8 encoding, `consume_prefix` on raw bytes; `PartialOrd` on streams; ranges, spans (with the truncation to `u32`), `line_column`, `code_snippet` |
| `runtime/src/file_map_stream.rs` | `Model/FileMap` | the part of `syntex_pos` that is used: files, line starts |
| `runtime/src/parse_state.rs`, `make_result`, `ParseResult`, messages | `Model/ParseState`, `Model/Report` | one ghost field `calls`, written by calls of user functions and read by nothing (for C17) |
| `src/liboak/front/parser.rs`, `front/ast.rs`, `ast.rs` | `Model/Front`, `Model/Ast` | tokens as lists of token trees; the interface with `syn` is: identifiers, paths, literals, groups, punctuation with spacing; the four `Span::join(..).unwrap()` are assumed to return (tokens of one file, nightly compiler: otherwise the macro panics) |
| `src/liboak/front/parser.rs` (spans), `front/ast.rs` | `Model/FrontSpans` | the same functions with `ps.span()`, `Span::join`, `alloc_expr` and the table `exprs_info`; the span at the end of tokens is a dummy that is proved never to be used |
| `src/liboak/front/parser.rs` (errors), `lib.rs` | `Model/FrontErrors` | the same functions from the side of their errors: kind, text, place, rule; tokens left in a group are kept aside as `syn` 1.0 does (`ParseBuffer::drop`); places inside Rust types are simplified to their first token; texts of the errors of `syn` are not modelled |
| `src/liboak/middle/typing` (texts), `ast.rs: display_path_cycle` | `Model/Texts` | `IType::display`, `Type::display`, `RecSet::display`, `display_path_cycle`, the texts, notes, levels and places of all the messages of the typing phase; the spaces `quote!` puts in Rust types are not modelled |
| `middle/mod.rs`, `middle/analysis/*` (texts) | `Model/AnalysisTexts` | texts, notes, levels and places of all the messages of the analysis phase |
| `middle/analysis/*` (duplicate, resolve, attribute, well_formedness, useless_chaining), `partial` | `Model/Analysis`, `Model/WellFormed`, `Model/Chaining` | mutable state of visitors is passed explicitly; `unreachable_rule.rs` is not compiled by the repository and not modelled |
| `middle/typing/*` | `Model/Typing` | types per expression index, as the code does; messages are recorded |
| `back/*` (`context.rs`, `continuation.rs`, `name_factory.rs`, `compiler/*.rs`) | `Model/Compiler`, `Model/Names`, `Model/CharClass` | a function from typed expressions and continuations to programs of a small fragment of Rust |
| the fragment of Rust of the generated code | `Model/Code` | syntax and evaluator: variables, closures with `&mut` parameters, loops, `match`, calls of generated functions and of functions of the user |
| `back/compiler/grammar.rs`, `back/compiler/rule.rs`, `back/context.rs:50-100`, `back/name_factory.rs:18-39` | `Model/Module` | the expanded module; attributes `#[inline]`, `#[allow]` and the generics of the stream alias are left out |
| `lib.rs`, `middle/mod.rs`, `back/mod.rs` | `Model/Macro` | the macro from tokens to functions, with abort messages |

### Simplifications (also said in the comments of the definitions)

* Rust types, user functions and external parsers are opaque. A value built by a user function is a term (function, arguments), hence the theorems on values hold for
  every interpretation of pure functions. External parsers are any functions that meet the contract stated in each theorem (`ExtOk`, `Forward`, `Consuming`, ...).
* `usize` and `u64` do not overflow; `as u32` in spans does truncate.
* Iteration of hash maps/sets: where it is observable (expected items) the theorems quantify over every order.
* In `Model/Front` and the phases after it, messages carry the index of the expression or the name of the rule; `Model/FrontSpans` gives the span of each index.
* The crate `partial` 0.2.3 (`Partial::{Value, Fake, Nothing}`, `and_then`, `map`, `ensure`) is modelled from its documentation; `syn` 1.0 is modelled as the list of tokens
  described in `Model/Front`.
* `PartialEq` of `Type` is not reached on two Rust types (it would panic); see `Model/Typing`.
* Text around the functions in the generated module (`use`, signatures, attributes) is modelled only by the types of the signatures (`AGrammar.sigs`).
* rustc: name resolution (C30), typing (C49) and moves (C51) of the generated code are modelled. Borrows are checked only in the arguments of closure calls; lifetimes are not modelled.

## 2. How the main results are proved

* **Generated code = semantics.** `Proofs/CompileCorrect*`: the evaluation of the code of `e` in continuation style equals a direct-style interpreter `run e`, by induction on `e`,
  with an invariant relating environments, names already generated, scopes and closures. `Proofs/RunSound`, `RunComplete`: `run` = `Peg` (big-step semantics that also gives the
  tree and the list of failed terminals), by induction on fuel and on derivations. `Proofs/Main` joins them (`Deployed.returns_iff`).
* **Termination.** `Proofs/WF*`: the verdict of the well-formedness analysis is equivalent to the absence of left recursion and empty loops (inductive specification); accepted
  grammars have a result on each text, by induction on the length of the text, the path of calls and the expression.
* **Typing.** `Proofs/Typing*`: an invariant of the two phases relates the table of types to the documented types (`HasType`), including recursive rules; from it finiteness, known
  types, sizes of tuples (no panic of the back-end) and the typing of the generated code (`Proofs/Rust*`).
* **Front-end.** `Proofs/Front*`: the reader is sound, complete and terminates with respect to an inductive grammar of tokens; with a printer and a round trip.
* **Macro.** `Properties/Macro`: composition from the tokens to the results of the parsers (C47).

## 3. Properties

`p`: proved; `P`: partial, with what is missing.

| | | model and proof |
|---|---|---|
| C01, C02 | p | streams; induction on the text; prefix-freeness of UTF-8 |
| C03, C04, C07 | p | parse states and results; induction on histories of calls; every order of the hash set |
| C05 | P | false with carriage returns (counterexample); exact characterisation, true without them |
| C06 | P | false with multi-byte characters (counterexample: panic); exact characterisation |
| C08–C12, C14–C16, C18, C37, C42 | p | code = `run` = `Peg` |
| C13, C20–C22, C40 | p | well-formedness analysis; the verdict is characterised exactly by the form of the grammar (`WellFormed`) |
| C17 | p | static (code) and dynamic (ghost field `calls`) |
| C19 | P | false above 2^32 bytes (counterexample); exact below |
| C23, C24 | p | chaining analysis; the right suggestions are equivalences, the wrong ones are refuted |
| C25, C26, C35, C43–C46 | p | duplicates, resolution, attributes, pipeline |
| C27, C28 | p | character classes against an inductive grammar |
| C29 | p | names; injectivity up to the collision with `mark` |
| C30 | P | false in three shapes (counterexamples); proved for all the other grammars and all recognizers |
| C31–C34, C48 | p | typing |
| C51 | p | ownership: `Own` (moves at most these variables when all known names are available) by induction on expressions; types of variables by inversion of any typing; counterexample outside the condition |
| C50 | p | typing: every message carries its reason through the two passes (`Sane`); with tangled ascriptions right grammars are refused (counterexamples) |
| C36 | P | false with Windows line endings (counterexample); streams, results, spans proved |
| C38 | p | external rules given by another generated parser |
| C39 | p | front-end |
| C41 | P | false with `!e` (counterexample); proved without `!` and external rules |
| C47 | p | the macro from tokens to results |
| C49 | P | false when a closure assigns or borrows a `&mut` parameter (counterexample); proved otherwise |
| C52 | p | the conditions of C30 and C49 are exact: the compiler as a relation (`Comp`), occurrences of variables in closures computed along it, inversion of any typing |
| C53 | p | the checks of `Spec/Checked` (sound by induction on expressions) evaluated by the kernel on the fourteen grammars of tests/grammars; C47/C49/C51 in their checked form, for all texts |
| C54 | p | the expanded module: names, order and signatures of the items; linking by name equals the lookup of the evaluator |
| C55 | p | size of the generated syntax trees, by induction on expressions with a bound on the number of copies of the success continuation; explicit exponential family |
| C56 | p | invariant of the surface inference: the paths of recursive types are cycles of seen calls; messages of the other visits are never warnings; `C56_refused`: first visit of the rule, the sum of a branch with data and of the rule itself is an error; examples for the limits |
| C57 | p | a relation between grammars (renaming, reordering, renumbering, unused rules) that is a bisimulation for `Peg`, for well-formedness (through the exact verdict C21_exact) and for the documented types; counterexample with recursion seen by the inference |
| C58 | p | chains of nested calls (`Nested`) never repeat a rule at a position (C20), hence are at most rules x positions long; the interpreter of generated programs is shown not to run out of fuel above a bound computed from the longest chain, by induction on the match; a family of texts on which smaller fuel is not enough; a family on which user functions are called 2^n times |
| C59 | p | an independent relation `LitOf` for Rust string literals (deterministic); the description of every class read by the front-end is a literal whose value is the text of a class with the same intervals (through the exact reader of C27) |
| C60 | p | `LawfulStream` = the documented contracts, without injectivity of positions nor a numeric offset; soundness and completeness of the interpreter over any lawful stream, results compared through the text that remains; instances `StrStream`, `FileMapStream`, and a stream that counts characters; three counterexamples, one for each law dropped |
| C61 | p | laws as inductive relations, each proved equivalent through the outcomes of the operators; congruence closed under everything (`Refactor`); every outcome of the refactored grammar is one of the grammar, by induction on the derivation in the new grammar (the other direction is false because of recursion), and totality of accepted grammars gives the converse |
| C62 | p | the printed text as a relation between the outcome of the grammar and a string (`Prints`, Spec/Message), composed from C18, C05_exact, C06_exact and C07 |
| C63 | p | an independent context-free grammar of expressions over lexemes (`Written`, Spec/Calculator) and the user functions of tests/grammars/calc.rs (`Denotes`); the rules characterised one by one as relations between text, rest and values (`Yields`), then soundness by induction on the length of the text (with the flag of expressions that end with the body of a `let`) and completeness by induction on derivations, with conditions on what follows |
| C64 | p | derivation trees of the context-free reading (`Derives`, Spec/ContextFree), with `Starts`, `CanFollow` and LL(1) defined from them; soundness by induction on the matching relation, completeness by induction on derivations with the character that follows; termination (C13) decides the branches that are not the right one; calls (C64_calls): nothing is called for an expression that does not start with the next character (induction on `UserCalls`), then induction again with the place of the match |
| C65 | p | Spec/Precedence: tables, expressions, ways to write them (`Writes`), what the folds compute (`Denotes`), the template as a shape of rules with any names and types. Soundness by induction on the length of the text, then on the level; completeness by induction on ways to write, a chain of operands of one level being put together from the left or from the right; tokens are abstract (`Tokens`), the plain lexical syntax being one instance |
| C66 | p | Spec/Lexer: an executable scanner with a table, and the shape of the rules; matches and failures of each rule are characterised in terms of the longest run of characters of words (`takeWhile`, `dropWhile`); the calculator is an instance |
| C67 | p | Proofs/Location: by induction on the big-step semantics, a match only looks at the text before its farthest failure plus the characters of one literal, so the text after it can be swapped; and the text before every logged failure is a prefix of a derivation in which the rest of the expression is completed by texts of its parts |
| C68 | p | as C63 for tests/grammars/json.rs: an independent context-free grammar over lexemes (`Written`, Spec/Json), the user functions (`Denotes`), the rules characterised one by one (`Yields`), soundness by induction on the length of the text, completeness by induction on derivations; the calls counted by induction on derivations with the calls of abandoned branches (`UserCalls`) |
| C69 | p | the front-end again, on tokens with places, passing the table of spans; proved equal to `Model/Front` after erasure (`Res.Same`), by simultaneous induction on the bound; the text of a sub-expression is defined by the concrete syntax of C39 (`SrcText`), spans by `SpanRule`; all messages of both phases traced to sub-expressions of the source |
| C70 | p | the errors are logged with what their texts are made of; invariant of the visits: the types of the log have finite depth and the paths name rules (`TFine`), and unfold to documented types for the first error (`TDoc`); texts of types by induction on the documented type; unique readability of the notation by mutual induction; counterexamples for Rust types |
| C71 | p | correct-prefix property by induction on the fuel, for each function: what is read is a part of the concrete syntax, what is before an error completed with a patch is one too (`ReadOk`); tokens left aside (`Leaves`); simulation of the front-end of C69 (`Sim`); fuel by size of tokens; counterexamples by computation |
| C72 | p | the phase is decomposed into the lists of messages of its steps; each duplicate is found again from the names only (`repeatsOf`); the path of recursion is an invariant of the visit (distinct rules, each calling the next one: `LeftCycle`); the other diagnostics from C21, the chains from C23 and a table |
| C73 | p | `Work` (Spec/Work) gives the numbers of visits and characters read of each match, with its result; it exists and is unique for each match (Proofs/Work). Well-formedness bounds the visits made without reading (`Bd`, `near`): bounded by induction on the derivation of acceptance; then each character read pays for a bounded number of visits. Exponential bound by induction on the length of the remaining text; LL(1): the characters read by abandoned branches are none, by the facts of C64 (Proofs/WorkLL1). Retry grammar of C58 for the lower bound. The calls of functions are counted by an instrumented run (`Program.count`, Spec/Count), proved to behave as the program (the ghost record is not read: Proofs/Ghost) and charged to the visits by induction on the direct-style semantics (Proofs/Count) |
| C74 | p | `Restyled` (Spec/Restyle) relates the expressions of the two grammars, `ValStyle` the values; by induction on the matching relation each match of the first grammar is one of the second, with related values (Proofs/Restyle); with termination and determinism the results are the same. The three calculators: their grammars and the unit nodes of their types are computed in the kernel from the tokens (Corpus/CalcShape, CalcsShape), the relation is checked rule by rule (Proofs/CalcsStyle), the rules of calc2 called by calc3 through C38's linking (Proofs/CalcsLinked), and the values read with the constructors of calc2.rs (`Builds`, Spec/Calculators) follow from C63 |
| C75 | p | the rules and the unit nodes of the two grammars are computed in the kernel from the tokens (Corpus/NumeralsShape); the matching relation is then computed on every text: for issue94 by induction on the length of the text, with the positions of the terminals tried in vain (Proofs/Numerals), for stream_span by inversion; the results follow from C08/C11/C18 (`returns_iff`) and determinism |
| C76 | p | as C75, for four rules of combinators.rs: a repetition of `!"b" .` reads the text up to the first b (induction on the text), the lookaheads choose the branch by the first character; for char_class, non_terminal and optional, inversion and construction of the matching derivation (Proofs/Combinators) |

## 4. Findings about the code

Each is a theorem (named) or noted in a comment.

1. `code_snippet` panics when its cut splits a character (C06_counterexample, C06_message_counterexample).
2. `line_column` is wrong with `\r\n`; `FileMap` too (C05_counterexample, C36_lines_counterexample).
3. Spans are truncated to `u32` (C19_counterexample).
4. A failure of `!e` records no expectation (C41_counterexample).
5. The well-formedness analysis assumes that external rules consume (C40_condition_needed).
6. Chaining suggestions `(e+)* -> e+`, in sequences and in choices are wrong (C23_wrong_*).
7. Merging of print levels loses requests (C35_not_increasing).
8. A semantic action hides the variables of the outer scopes from closures: unscoped code (C30_counterexample).
9. Closures use their `&mut` parameters without dereferencing: ill-typed code (C49_references_needed).
10. A choice of an unknown type and a tuple panics in the back-end (C47_regular_needed, C34_counterexample); mutual recursion panics (C32_direct_needed).
11. The prefix of variables number 187264 is `mark` and collides with marks (C29_counterexample).
12. Recursion that is seen through a repetition gives unequal branch types (C31_recursion_needed).
13. A semantic action of type `()` reports an error but the inference continues (C48_unit_action).
14. Semantic actions run in branches that are abandoned (C17_abandoned).
15. Declared functions with a capital applied to no value are not called; boxes of unknown content are accepted beside a character (C49_agreement_needed).
16. An ascription inside an ascription of another kind, and a Rust type ascribed to a span, are refused in grammars without errors of type (C50_untangled_needed, C50_spans_needed).
17. `a:T (b)` is read as the type `T(b)` (C39_type_arguments); the error for `..` inside a sequence is unreachable (C39_late_span).
18. A value that is not `Copy`, read before a choice of the same sequence, is moved in each branch of the choice: the generated code does not compile (C51_apart_needed).
19. A function of the user named `parse_r` or `recognize_r` for a rule `r` clashes with the generated one, without an error of Oak (C54_clash).
20. `open_scope` resets the counter of compiled combinators, so that a choice inside a semantic action duplicates the code that follows the action, although `back/mod.rs` says that closures prevent it: the parser of a sequence of k items `(("a" / "b") > f)` has more than 2^k statements (C55_exponential).
21. The documentation says that a warning is printed when types of rules in a type cycle are reduced to `(^)`. `ab = ["ab"] ab?` is typed `(^)` without any warning (C56_lost_silently); the cycle is printed in the reverse order of the calls, `a -> c -> b -> a` when `a` calls `b`, `b` calls `c` and `c` calls `a` (C56_reversed); a rule outside of the cycle that calls one of its rules is typed `(^)` as well, unless it calls the entry point of the cycle (C56_outside).
22. The order of the rules changes the types, hence the values, when rules call each other recursively out of semantic actions (C57_order_matters).
23. Nothing is memoized: accepted grammars can take exponential time, calling user functions 2^n times (C58_exponential_calls).
24. Direct recursion under a sequence makes the code generator panic without a message: `r = "(" r r ")" / .` is typed as a character, but its first branch has two values (C47_recursion_needed, C34_counterexample).
25. The calculator of the tutorial takes exponential time in the nesting of parentheses: `exponent = (factor exponent_op)* factor > fold_right` reads each factor that is not followed by `^`
    twice, so `((((1))))` with `n` pairs of parentheses makes `10 * 2 ^ n - 3` calls of user functions (C63_exponential).
26. The tutorial's template for precedences needs symbols of which none begins another one: with `<` tried before `<=`, the text `1<=2` is not read (C65_condition_needed); no error or warning tells so.
27. The JSON grammar of the test-suite rejects `[]` (C68_empty), and takes exponential time in the nesting of arrays: `(json_expr coma)* json_expr` reads the last element of each array twice (C68_exponential).
28. The span of a semantic action `e > f` is that of `f` and the span of an ascription `e:T` that of `T`; so messages about a choice whose first branch has an action point at a text that begins in the middle of this branch (C69_left_out).
29. The texts of errors of type do not tell types of Oak from types of Rust: `.:char` is refused with `found type char but expected type char`, and `. / "x" > f` where `f` returns a `char` with two branches `of type `char`` (C70_same_branches, C70_same_ascription).
30. `parse_prefixed_expr2` (front/parser.rs:250-254) writes `{rule} is not followed by a valid expression (in rule {predicate})`: the two arguments of `format!` are swapped (C71_swapped).
31. A token left at the end of a group is reported only if no other error is found later: `r = ("x" =) ()` is refused with an error on `()`, not on `=` (C71_not_first; from the way `syn` checks groups).

## 5. Trusted base

* Lean 4.33.0 kernel. Axioms: `propext`, `Classical.choice`, `Quot.sound` and no other; the axioms of each theorem are in `AXIOMS.md`. `decide +kernel` is used on closed
  decidable propositions (examples, counterexamples, tables): it is evaluated by the kernel.
* The correspondence between `Model/` and the Rust code, by reading (citations), and between `Spec/` and the English properties.
* The mini-Rust evaluator (`Model/Code`) as the meaning of the generated Rust, and `Spec/RustTyping`, `Spec/Scope` as what rustc checks.
* The assumptions on external crates given above.
