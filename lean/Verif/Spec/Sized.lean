import Verif.Spec.Typed
/-!
# Specification: types that tell how many values expressions give

The code generator makes as many variables as the type of an expression tells, and every sub-expression takes those it needs.  `sized`
says that the two numbers agree wherever an AST is built; under an expression of unit type nothing is required.
-/
set_option autoImplicit false

namespace Oak

mutual
/-- The types agree with the number of values: `p` is false below an expression of unit type. -/
def sized (T : Nat → Ty) (p : Bool) (e : Expr) : Bool :=
  match e with
  | .str _ _ | .any _ | .cls _ _ | .nt _ _ | .ext _ _ => true
  | .seq i es => sizedAll T (p && T i ≠ .unit) es
  | .choice i es => sizedAll T (p && T i ≠ .unit) es && sameArity T (p && T i ≠ .unit) (arityHead T (p && T i ≠ .unit) es) es
  | .star i e | .plus i e | .opt i e | .act i e _ _ | .span i e | .range i e =>
    !(p && T i ≠ .unit) || (sized T true e && arity T true e == (T e.id).card)
  | .not i _ | .and i _ => !(p && T i ≠ .unit)
  | .asc i e _ => sized T (p && T i ≠ .unit) e
/-- All the expressions of a list are sized. -/
def sizedAll (T : Nat → Ty) (p : Bool) (es : List Expr) : Bool :=
  match es with
  | [] => true
  | e :: es => sized T p e && sizedAll T p es
end

/-- The types of the rules of a grammar agree with the number of values. -/
def Grammar.sized (G : Grammar) (T : Nat → Ty) : Bool :=
  G.rules.all fun r => T r.2.id == .unit || (Oak.sized T true r.2 && arity T true r.2 == (T r.2.id).card)

end Oak
