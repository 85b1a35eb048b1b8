import Verif.Spec.Sized
/-!
# Specification: expressions whose generated code is well scopable

The code that follows a choice is put in a closure when something follows the choice in its expression, and a closure takes as parameters the
variables of the innermost scope.  A semantic action opens a new scope although the code that follows the action is still compiled inside it.  `scopable`
says that whenever a semantic action contains such a choice, the code that follows the action needs no variable of the outer scope.
-/
set_option autoImplicit false

namespace Oak

mutual
/-- The code that follows the expression is put in a closure; `n` tells whether something follows the expression in its scope. -/
def captures (T : Nat → Ty) (p n : Bool) (e : Expr) : Bool :=
  match e with
  | .str _ _ | .any _ | .cls _ _ | .nt _ _ | .ext _ _ | .not _ _ | .and _ _ => false
  | .star _ _ | .plus _ _ | .opt _ _ => false
  | .seq i es => capturesSeq T (p && T i ≠ .unit) n es
  | .choice i es => n || capturesAny T (p && T i ≠ .unit) es
  | .act i e _ _ => captures T (p && T i ≠ .unit) (n && !(p && T i ≠ .unit)) e
  | .asc i e _ => captures T (p && T i ≠ .unit) n e
  | .span i e | .range i e => captures T (p && T i ≠ .unit) n e
/-- The same for a sequence: something follows every expression but the last. -/
def capturesSeq (T : Nat → Ty) (p n : Bool) (es : List Expr) : Bool :=
  match es with
  | [] => false
  | e :: es => captures T p (n || !es.isEmpty) e || capturesSeq T p n es
/-- The same for the branches of a choice. -/
def capturesAny (T : Nat → Ty) (p : Bool) (es : List Expr) : Bool :=
  match es with
  | [] => false
  | e :: es => captures T p false e || capturesAny T p es
end

mutual
/-- No semantic action that puts the code that follows it in a closure occurs where this code needs outer variables.  `u` tells that the code that
follows the expression needs variables: values of previous expressions of a sequence, a flag of a choice, the result of a repetition or option. -/
def scopable (T : Nat → Ty) (p u : Bool) (e : Expr) : Bool :=
  match e with
  | .str _ _ | .any _ | .cls _ _ | .nt _ _ | .ext _ _ | .not _ _ | .and _ _ => true
  | .seq i es => scopableSeq T (p && T i ≠ .unit) u es
  | .choice i es => scopableBranches T (p && T i ≠ .unit) u es
  | .star i e | .plus i e | .opt i e => scopable T (p && T i ≠ .unit) true e
  | .act i e _ _ => scopable T (p && T i ≠ .unit) u e && !((p && T i ≠ .unit) && u && captures T true false e)
  | .asc i e _ | .span i e | .range i e => scopable T (p && T i ≠ .unit) u e
/-- In a sequence, the values of the previous expressions are needed by what follows. -/
def scopableSeq (T : Nat → Ty) (p u : Bool) (es : List Expr) : Bool :=
  match es with
  | [] => true
  | e :: es => scopable T p u e && scopableSeq T p (u || decide (arity T p e > 0)) es
/-- In a choice, what follows every branch but the last needs the flag of the choice. -/
def scopableBranches (T : Nat → Ty) (p u : Bool) (es : List Expr) : Bool :=
  match es with
  | [] => true
  | e :: es => scopable T p (u || !es.isEmpty) e && scopableBranches T p u es
end

/-- All the rules that build an AST are scopable. -/
def Grammar.scopable (G : Grammar) (T : Nat → Ty) : Bool := G.rules.all fun r => T r.2.id == .unit || Oak.scopable T true false r.2

end Oak
