import Verif.Spec.Peg
/-!
# Specification: matches together with the values they give
-/
set_option autoImplicit false

namespace Oak
open Spec

/-- The expression matches at `s`, leaves `rest` and yields the values `vs`. -/
def Yields (G : Grammar) (X : ExtSpec) (T : Nat → Ty) (sp : SpanSpec) (e : Expr) (s rest : List Char) (vs : List Val) : Prop :=
  ∃ t L, Peg G X e s (.ok rest t) L ∧ ast G T sp e t = vs

end Oak
