import Verif.Corpus.CalcShape
import Verif.Proofs.JsonGrammar
/-! The model of the macro reads the grammar of `tests/grammars/json.rs` as `jsonG`: checked by the kernel. -/
set_option autoImplicit false

namespace Oak.Corpus

/-- The rules and the types that the macro computes are those of `jsonG`. -/
def jsonShape : Bool :=
  match oak 100 jsonGrammar with
  | .ok (.code _ _ A T _) => sameRules A.grammar.rules JsonText.jsonG.rules && (List.range 88).all fun i => decide (T i = .unit) == JsonText.jsonUnits.contains i
  | _ => false

theorem json_shape : jsonShape = true := by decide +kernel

end Oak.Corpus
