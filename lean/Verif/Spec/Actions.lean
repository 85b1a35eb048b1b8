import Verif.Model.Code
/-!
# Specification: semantic actions in generated code and in grammars
-/
set_option autoImplicit false

namespace Oak

/-- User functions and constructors named by a value expression. -/
def VEx.actions : VEx → List Path
  | .tup _ | .range _ | .span _ => []
  | .call f _ => [f]
  | .path f => [f]
  | .box v => v.actions

/-- User functions named by a statement. -/
def Stmt.actions : Stmt → List Path
  | .letVal _ v => v.actions
  | .setSome _ v => v.actions
  | .push _ v => v.actions
  | _ => []

/-- User functions named by a piece of generated code. -/
def Ex.actions : Ex → List Path
  | .st => []
  | .success v => v.actions
  | .failure => []
  | .call _ _ _ _ => []
  | .stmt s e => s.actions ++ e.actions
  | .bind e k => e.actions ++ k.actions
  | .loop body _ _ k => body.actions ++ k.actions
  | .ite _ a b => a.actions ++ b.actions
  | .ifPrefix _ a b => a.actions ++ b.actions
  | .matchNext _ a b => a.actions ++ b.actions
  | .matchClass _ _ a b => a.actions ++ b.actions

/-- User functions named by a generated function, closures included. -/
def Fn.actions (f : Fn) : List Path := f.closures.flatMap (fun c => c.body.actions) ++ f.body.actions

mutual
/-- The actions of an expression whose data is wanted: none below a predicate or an expression of unit type; `p` tells whether data
is wanted at all. -/
def liveActions (T : Nat → Ty) (p : Bool) (e : Expr) : List Path :=
  match e with
  | .str _ _ | .any _ | .cls _ _ | .nt _ _ | .ext _ _ | .not _ _ | .and _ _ => []
  | .seq i es | .choice i es => liveActionsAll T (p && T i ≠ .unit) es
  | .star i e | .plus i e | .opt i e | .asc i e _ | .span i e | .range i e => liveActions T (p && T i ≠ .unit) e
  | .act i e _ f => if p && T i ≠ .unit then f :: liveActions T true e else []
/-- The live actions of a list of expressions. -/
def liveActionsAll (T : Nat → Ty) (p : Bool) (es : List Expr) : List Path :=
  match es with
  | [] => []
  | e :: es => liveActions T p e ++ liveActionsAll T p es
end

end Oak
