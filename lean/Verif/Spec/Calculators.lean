import Verif.Spec.Calculator
import Verif.Spec.Restyle
/-!
# Specification: the values of the calculators `calc2` and `calc3`

`tests/grammars/calc2.rs` and `tests/grammars/calc3.rs` have the rules of `tests/grammars/calc.rs`, but build the expressions with the constructors of the types instead of
functions; and calc3 calls rules of calc2.
-/
set_option autoImplicit false

namespace Oak.Calculator
open Oak

/-- The variants of `BinOp`, calc2.rs:30-33, calc3.rs:30-33. -/
def opVariant : Op → String
  | .add => "Add"
  | .sub => "Sub"
  | .mul => "Mul"
  | .div => "Div"
  | .exp => "Exp"

/-- The value of type `PExpr` computed by the functions and constructors of calc2.rs (calc3.rs) when they are called as the term of calls says is the expression.
(Unless one of the calls panics: see `Panics`.) -/
inductive Builds : Val → Term → Prop where
  /-- calc2.rs:51, 91-93 -/
  | number {ds} : Builds (.box (.app ["Number"] [.app ["to_number"] [.list (ds.map .chr)]])) (.num (decimal ds))
  /-- calc2.rs:52, 95-97 -/
  | var {x} : Builds (.box (.app ["Variable"] [nameVal x])) (.var x)
  /-- calc2.rs:53 -/
  | letIn {x v b tv tb} : Builds v tv → Builds b tb → Builds (.box (.app ["LetIn"] [nameVal x, v, b])) (.letIn x tv tb)
  /-- calc2.rs:99-102, no operator -/
  | leftNil {h t} : Builds h t → Builds (.app ["fold_left"] [h, .list []]) t
  /-- calc2.rs:99-102, the last operator is applied last -/
  | leftSnoc {h vs op v a b} : Builds (.app ["fold_left"] [h, .list vs]) a → Builds v b →
      Builds (.app ["fold_left"] [h, .list (vs ++ [.tup [.path [opVariant op], v]])]) (.bin op a b)
  /-- calc2.rs:104-107, no operator -/
  | rightNil {l t} : Builds l t → Builds (.app ["fold_right"] [.list [], l]) t
  /-- calc2.rs:104-107, the first operator is applied last -/
  | rightCons {vs l op v a b} : Builds v a → Builds (.app ["fold_right"] [.list vs, l]) b →
      Builds (.app ["fold_right"] [.list (.tup [v, .path [opVariant op]] :: vs), l]) (.bin op a b)

/-- A call of `to_number` that panics occurs in the value. -/
inductive PanicsIn : Val → Prop where
  | number {ds} : 2 ^ 32 ≤ decimal ds → PanicsIn (.app ["to_number"] [.list (ds.map .chr)])
  | app {f vs v} : v ∈ vs → PanicsIn v → PanicsIn (.app f vs)
  | box {v} : PanicsIn v → PanicsIn (.box v)
  | tup {vs v} : v ∈ vs → PanicsIn v → PanicsIn (.tup vs)
  | list {vs v} : v ∈ vs → PanicsIn v → PanicsIn (.list vs)

/-- What takes the place of the functions of calc.rs in calc2.rs and calc3.rs. -/
inductive CalcStyle : Restyling where
  | number : CalcStyle false false ["number_expr"] true ["Number"]
  | var : CalcStyle false false ["variable_expr"] true ["Variable"]
  | letIn : CalcStyle false false ["let_in_expr"] true ["LetIn"]
  | op (o : Op) : CalcStyle true false [opName o] false [opVariant o]
  | left : CalcStyle false false ["fold_left"] false ["fold_left"]
  | right : CalcStyle false false ["fold_right"] false ["fold_right"]
  | digits : CalcStyle false false ["to_number"] false ["to_number"]
  | chars : CalcStyle false false ["to_string"] false ["to_string"]

/-- The rules of calc2 that calc3 calls: calc3.rs:51, 52, 57, 71. -/
def calc2Rules : Path → Option String
  | ["calc2", r] => if r = "number" ∨ r = "identifier" ∨ r = "ident_char" then some r else none
  | _ => none

end Oak.Calculator
