import Verif.Model.Macro
import Verif.Spec.Checked
import Verif.Spec.Scoped
import Verif.Spec.Refs
import Verif.Corpus.Grammars
/-! The checks made on the grammars of the test-suite of the repository. -/
set_option autoImplicit false

namespace Oak

/-- The checks on the expansion of a grammar: its types agree with the number of values; it compiles (types, scopes, references and moves, whichever types are `Copy`). -/
def Corpus.verdict (ts : List Tok) : Option (Bool × Bool) :=
  match oak 100 ts with
  | .ok (.code _ _ A T _) => some (A.grammar.sized T && A.grammar.coherent T && A.grammar.scopable T,
      A.consistent T 100 && A.grammar.refable T && A.separate T (fun _ => false) 100)
  | _ => none

end Oak
