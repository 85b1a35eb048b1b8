import Verif.Model.Code
/-!
# Specification: lexical scoping of the generated code

What `rustc` checks about the names of a generated function: every variable that is read or assigned is declared in an
enclosing block or is a parameter; a closure assigns no outer variable except its `&mut` parameters; a closure is
declared before it is called.
-/
set_option autoImplicit false

namespace Oak

/-- Variables of a value expression. -/
def VEx.fv : VEx → List Name
  | .tup vs => vs
  | .call _ vs => vs
  | .path _ => []
  | .box v => v.fv
  | .range m => [m]
  | .span m => [m]

/-- Free variables of a statement. -/
def Stmt.fv : Stmt → List Name
  | .letMark _ | .letNone _ | .letVec _ | .letTrue _ | .letZero _ | .letIsSuccess | .error _ | .discard | .call _
  | .extract _ | .fail => []
  | .letVal _ v => v.fv
  | .setMark m => [m]
  | .setSome r v => r :: v.fv
  | .push r v => r :: v.fv
  | .setFalse b => [b]
  | .restoreFailed _ m | .restore m | .ifFailedRestore m => [m]

/-- Variables assigned by a statement. -/
def Stmt.asg : Stmt → List Name
  | .setMark m => [m]
  | .setSome r _ => [r]
  | .push r _ => [r]
  | .setFalse b => [b]
  | _ => []

/-- Free variables of a condition. -/
def Cond.fv : Cond → List Name
  | .isSuccessful => []
  | .var b => [b]
  | .lt c _ => [c]

/-- Free variables of an expression (assigned variables included). -/
def Ex.fv : Ex → List Name
  | .st => []
  | .success v => v.fv
  | .failure => []
  | .call _ muts vars marks => muts ++ vars ++ marks
  | .stmt s e => s.fv ++ e.fv.filter (fun x => decide (x ∉ s.binds))
  | .bind e k => e.fv ++ k.fv
  | .loop body c m k => c.toList ++ m :: (body.fv ++ k.fv)
  | .ite c a b => c.fv ++ (a.fv ++ b.fv)
  | .ifPrefix _ a b => a.fv ++ b.fv
  | .matchNext p a b => a.fv.filter (fun x => decide (x ∉ p.toList)) ++ b.fv
  | .matchClass p _ a b => a.fv.filter (fun x => decide (x ≠ p)) ++ b.fv

/-- Free variables an expression may assign. -/
def Ex.asg : Ex → List Name
  | .st => []
  | .success _ => []
  | .failure => []
  | .call _ muts _ _ => muts
  | .stmt s e => s.asg ++ e.asg.filter (fun x => decide (x ∉ s.binds))
  | .bind e k => e.asg ++ k.asg
  | .loop body c m k => c.toList ++ m :: (body.asg ++ k.asg)
  | .ite _ a b => a.asg ++ b.asg
  | .ifPrefix _ a b => a.asg ++ b.asg
  | .matchNext p a b => a.asg.filter (fun x => decide (x ∉ p.toList)) ++ b.asg
  | .matchClass p _ a b => a.asg.filter (fun x => decide (x ≠ p)) ++ b.asg

/-- Closures an expression may call. -/
def Ex.calls : Ex → List Nat
  | .st => []
  | .success _ => []
  | .failure => []
  | .call k _ _ _ => [k]
  | .stmt _ e => e.calls
  | .bind e k => e.calls ++ k.calls
  | .loop body _ _ k => body.calls ++ k.calls
  | .ite _ a b => a.calls ++ b.calls
  | .ifPrefix _ a b => a.calls ++ b.calls
  | .matchNext _ a b => a.calls ++ b.calls
  | .matchClass _ _ a b => a.calls ++ b.calls

/-- The body of a closure uses only its parameters, and assigns only its `&mut` parameters. -/
def Closure.closed (c : Closure) : Bool :=
  c.body.fv.all (fun x => decide (x ∈ c.muts ++ c.vars ++ c.marks)) && c.body.asg.all (fun x => decide (x ∈ c.muts))

/-- All the variables of a generated function are declared. -/
def Fn.scopeOk (f : Fn) : Bool := f.closures.all Closure.closed && f.body.fv.isEmpty

/-- All the generated functions are well scoped. -/
def Program.scopeOk (P : Program) : Bool := P.fns.all fun f => f.2.scopeOk

end Oak
