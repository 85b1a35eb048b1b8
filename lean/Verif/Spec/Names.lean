import Verif.Model.Names
/-!
# Specification: the identifiers of a generated function

Sequences of requests to the factory, and the names written in the generated code.
-/
set_option autoImplicit false

namespace Oak

/-- A request to the name factory. -/
inductive Request where
  | vars (cardinality : Nat)
  | mark
  | branchFailed
  | counter
  | closure
deriving DecidableEq

/-- The identifiers given for one request. -/
def NameFactory.serve (f : NameFactory) : Request → List String × NameFactory
  | .vars n => f.freshVarNames n
  | .mark => ([f.nextMarkName.1], f.nextMarkName.2)
  | .branchFailed => ([f.nextBranchFailedName.1], f.nextBranchFailedName.2)
  | .counter => ([f.nextCounterName.1], f.nextCounterName.2)
  | .closure => ([f.nextClosureName.1], f.nextClosureName.2)

/-- All the identifiers given for a sequence of requests. -/
def NameFactory.serveAll (f : NameFactory) : List Request → List String
  | [] => []
  | r :: rs => (f.serve r).1 ++ (f.serve r).2.serveAll rs

/-- The number of requests of variables. -/
def varRequests : List Request → Nat
  | [] => 0
  | .vars _ :: rs => varRequests rs + 1
  | _ :: rs => varRequests rs

/-- The other identifiers of the templates. -/
def reservedNames : List String := ["state", "stateful", "stateless", "x", "is_success"]

/-- Is this character allowed in an identifier (the ASCII part of it), and as its first character? -/
def identStart (c : Char) : Bool := c.isAlpha || c == '_'
def identChar (c : Char) : Bool := c.isAlphanum || c == '_'

/-- The names in a value expression. -/
def VEx.names : VEx → List Name
  | .tup vs => vs
  | .call _ vs => vs
  | .path _ => []
  | .box v => v.names
  | .range m => [m]
  | .span m => [m]

/-- The names in a statement. -/
def Stmt.names : Stmt → List Name
  | .letMark m | .setMark m | .restoreFailed _ m | .restore m | .ifFailedRestore m => [m]
  | .letVal r v | .setSome r v | .push r v => r :: v.names
  | .letNone r | .letVec r | .letTrue r | .letZero r | .setFalse r => [r]
  | .letIsSuccess => [.isSuccess]
  | .extract vs => vs
  | .error _ | .discard | .call _ | .fail => []

/-- The names in a condition. -/
def Cond.names : Cond → List Name
  | .isSuccessful => []
  | .var b => [b]
  | .lt c _ => [c]

/-- All the names written in an expression, declared, read or assigned. -/
def Ex.names : Ex → List Name
  | .st => []
  | .success v => v.names
  | .failure => []
  | .call _ muts vars marks => muts ++ vars ++ marks
  | .stmt s e => s.names ++ e.names
  | .bind e k => e.names ++ k.names
  | .loop body c m k => c.toList ++ m :: (body.names ++ k.names)
  | .ite c a b => c.names ++ (a.names ++ b.names)
  | .ifPrefix _ a b => a.names ++ b.names
  | .matchNext p a b => p.toList ++ (a.names ++ b.names)
  | .matchClass p _ a b => p :: (a.names ++ b.names)

/-- All the names written in a closure. -/
def Closure.names (c : Closure) : List Name := c.muts ++ c.vars ++ c.marks ++ c.body.names

/-- All the names written in a function. -/
def Fn.names (f : Fn) : List Name := f.closures.flatMap Closure.names ++ f.body.names

mutual
/-- The number of nodes of an expression. -/
def Expr.nodes (e : Expr) : Nat :=
  match e with
  | .str _ _ | .any _ | .cls _ _ | .nt _ _ | .ext _ _ => 1
  | .seq _ es | .choice _ es => nodesAll es + 1
  | .star _ e | .plus _ e | .opt _ e | .not _ e | .and _ e | .act _ e _ _ | .asc _ e _ | .span _ e | .range _ e => e.nodes + 1
/-- The same for lists of expressions. -/
def nodesAll (es : List Expr) : Nat :=
  match es with
  | [] => 0
  | e :: es => e.nodes + nodesAll es
end

end Oak
