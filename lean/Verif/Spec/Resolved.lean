import Verif.Model.Ast
/-!
# Specification: resolved grammars

Every rule called by name is declared; an expression marked external is not the name of a declared rule.
-/
set_option autoImplicit false

namespace Oak

mutual
/-- All the names of an expression are resolved. -/
def Expr.resolved (G : Grammar) (e : Expr) : Bool :=
  match e with
  | .str _ _ | .any _ | .cls _ _ => true
  | .nt _ r => (G.find r).isSome
  | .ext _ [r] => (G.find r).isNone
  | .ext _ _ => true
  | .seq _ es | .choice _ es => resolvedAll G es
  | .star _ e | .plus _ e | .opt _ e | .not _ e | .and _ e | .act _ e _ _ | .asc _ e _ | .span _ e | .range _ e => e.resolved G
/-- All the names of a list of expressions are resolved. -/
def resolvedAll (G : Grammar) (es : List Expr) : Bool :=
  match es with
  | [] => true
  | e :: es => e.resolved G && resolvedAll G es
end

mutual
/-- Choices have at least one branch and character classes at least one interval. -/
def Expr.shaped (e : Expr) : Bool :=
  match e with
  | .str _ _ | .any _ | .nt _ _ | .ext _ _ => true
  | .cls _ ivs => !ivs.isEmpty
  | .seq _ es => shapedAll es
  | .choice _ es => !es.isEmpty && shapedAll es
  | .star _ e | .plus _ e | .opt _ e | .not _ e | .and _ e | .act _ e _ _ | .asc _ e _ | .span _ e | .range _ e => e.shaped
/-- Shape of a list of expressions. -/
def shapedAll (es : List Expr) : Bool :=
  match es with
  | [] => true
  | e :: es => e.shaped && shapedAll es
end

/-- Choices have at least one branch and character classes at least one interval. -/
def Grammar.shaped (G : Grammar) : Bool := G.rules.all fun r => r.2.shaped

/-- All the names of a grammar are resolved. -/
def Grammar.resolved (G : Grammar) : Bool := G.rules.all fun r => r.2.resolved G

end Oak
