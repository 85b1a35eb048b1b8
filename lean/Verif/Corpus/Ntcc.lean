import Verif.Corpus.Verdict
/-! The grammar `ntcc` of the test-suite, checked by the kernel. -/
set_option autoImplicit false

namespace Oak.Corpus

theorem ntcc_verdict : verdict ntccGrammar = some (true, true) := by decide +kernel

end Oak.Corpus
