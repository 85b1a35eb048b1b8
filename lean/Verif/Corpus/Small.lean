import Verif.Corpus.Verdict
/-! The small grammars of the test-suite, checked by the kernel. -/
set_option autoImplicit false

namespace Oak.Corpus

theorem combinators_verdict : verdict combinatorsGrammar = some (true, true) := by decide +kernel
theorem issue94_verdict : verdict issue94Grammar = some (true, true) := by decide +kernel
theorem json_verdict : verdict jsonGrammar = some (true, true) := by decide +kernel
theorem recursive_type_verdict : verdict recursive_typeGrammar = some (true, true) := by decide +kernel
theorem stream_span_verdict : verdict stream_spanGrammar = some (true, true) := by decide +kernel
theorem type_name_verdict : verdict type_nameGrammar = some (true, true) := by decide +kernel
theorem typing_verdict : verdict typingGrammar = some (true, true) := by decide +kernel
theorem unreachable_rule_verdict : verdict unreachable_ruleGrammar = some (true, true) := by decide +kernel
theorem useless_chaining_verdict : verdict useless_chainingGrammar = some (true, true) := by decide +kernel
theorem well_formedness_verdict : verdict well_formednessGrammar = some (true, true) := by decide +kernel

end Oak.Corpus
