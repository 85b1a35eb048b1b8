import Verif.Corpus.Verdict
/-! The grammar `calc3` of the test-suite, checked by the kernel. -/
set_option autoImplicit false

namespace Oak.Corpus

theorem calc3_verdict : verdict calc3Grammar = some (true, false) := by decide +kernel

end Oak.Corpus
