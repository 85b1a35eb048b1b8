import Verif.Model.Compiler
import Verif.Spec.Peg
/-! The test of variants of the compiler is the one of the specification. -/
set_option autoImplicit false

namespace Oak

theorem startsUpper_eq (f : Path) : startsUpper f = Spec.isVariant f := rfl

/-- The call written by the compiler, with the test of the specification. -/
theorem actionCall_eq (boxed : Bool) (f : Path) (u : Bool) (args : List Name) :
    actionCall boxed f u args = if boxed then .box (if Spec.isVariant f && u then VEx.path f else .call f args) else if Spec.isVariant f && u then VEx.path f else .call f args := by
  unfold actionCall
  rw [startsUpper_eq]

end Oak
