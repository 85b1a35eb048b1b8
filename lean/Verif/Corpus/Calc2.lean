import Verif.Corpus.Verdict
/-! The grammar `calc2` of the test-suite, checked by the kernel. -/
set_option autoImplicit false

namespace Oak.Corpus

theorem calc2_verdict : verdict calc2Grammar = some (true, true) := by decide +kernel

end Oak.Corpus
