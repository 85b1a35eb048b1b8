import Verif.Corpus.CalcShape
import Verif.Proofs.CalcsGrammar
/-! The model of the macro reads the grammars of `tests/grammars/calc2.rs` and `calc3.rs` as `calc2G` and `calc3G`: checked by the kernel. -/
set_option linter.constructorNameAsVariable false
set_option autoImplicit false

namespace Oak.Corpus

/-- The rules and the types that the macro computes for calc2 are those of `calc2G`. -/
def calc2Shape : Bool :=
  match oak 100 calc2Grammar with
  | .ok (.code _ _ A T _) => sameRules A.grammar.rules Calculator.calc2G.rules && (List.range 116).all fun i => decide (T i = .unit) == Calculator.calc2Units.contains i
  | _ => false

/-- The rules and the types that the macro computes for calc3 are those of `calc3G`. -/
def calc3Shape : Bool :=
  match oak 100 calc3Grammar with
  | .ok (.code _ _ A T _) => sameRules A.grammar.rules Calculator.calc3G.rules && (List.range 101).all fun i => decide (T i = .unit) == Calculator.calc3Units.contains i
  | _ => false

theorem calc2_shape : calc2Shape = true := by decide +kernel

theorem calc3_shape : calc3Shape = true := by decide +kernel

end Oak.Corpus
