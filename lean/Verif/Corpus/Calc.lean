import Verif.Corpus.Verdict
/-! The grammar `calc` of the test-suite, checked by the kernel. -/
set_option autoImplicit false

namespace Oak.Corpus

theorem calc_verdict : verdict calcGrammar = some (true, true) := by decide +kernel

end Oak.Corpus
