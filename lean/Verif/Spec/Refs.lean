import Verif.Spec.Scoped
/-!
# Specification: expressions whose generated code uses references rightly

The code that follows a choice is put in a closure when something follows the choice in its expression.  The closure takes by reference the vector or the option that the innermost
repetition or option builds, and the flags of the enclosing choices, and uses these parameters as if they were not references: `push` works on a reference, but an assignment
(`flag = false`, `option = Some(..)`) does not, neither does `&mut x` in the call of another closure.  `refable` tells that no closure does this.
-/
set_option autoImplicit false

namespace Oak

mutual
/-- The code that follows the expression only occurs in closures: unlike for `captures`, this must be so for all the branches of a choice. -/
def hides (T : Nat → Ty) (p n : Bool) (e : Expr) : Bool :=
  match e with
  | .str _ _ | .any _ | .cls _ _ | .nt _ _ | .ext _ _ | .not _ _ | .and _ _ => false
  | .star _ _ | .plus _ _ | .opt _ _ => false
  | .seq i es => hidesSeq T (p && T i ≠ .unit) n es
  | .choice i es => n || hidesAll T (p && T i ≠ .unit) es
  | .act i e _ _ => hides T (p && T i ≠ .unit) (n && !(p && T i ≠ .unit)) e
  | .asc i e _ => hides T (p && T i ≠ .unit) n e
  | .span i e | .range i e => hides T (p && T i ≠ .unit) n e
/-- The same for a sequence. -/
def hidesSeq (T : Nat → Ty) (p n : Bool) (es : List Expr) : Bool :=
  match es with
  | [] => false
  | e :: es => hides T p (n || !es.isEmpty) e || hidesSeq T p n es
/-- The same for the branches of a choice. -/
def hidesAll (T : Nat → Ty) (p : Bool) (es : List Expr) : Bool :=
  match es with
  | [] => true
  | e :: es => hides T p false e && hidesAll T p es
end

mutual
/-- The code of an expression assigns or borrows a variable `x` that is passed by reference to the closures; `n` tells whether something follows the expression in its scope,
and `d` whether the code that follows assigns or borrows `x`. -/
def touches (T : Nat → Ty) (p n d : Bool) (e : Expr) : Bool :=
  match e with
  | .str _ _ | .any _ | .cls _ _ | .nt _ _ | .ext _ _ => d
  | .not _ e | .and _ e => d || touches T false n false e
  | .star i e | .plus i e | .opt i e => d || (!(p && T i ≠ .unit) && touches T false n false e)
  | .seq i es => touchesSeq T (p && T i ≠ .unit) n d es
  | .choice i es => touchesAny T (p && T i ≠ .unit) (n || d) es
  | .act i e _ _ => if p && T i ≠ .unit then d && !hides T true false e else touches T false n d e
  | .asc i e _ | .span i e | .range i e => touches T (p && T i ≠ .unit) n d e
/-- The same for a sequence. -/
def touchesSeq (T : Nat → Ty) (p n d : Bool) (es : List Expr) : Bool :=
  match es with
  | [] => d
  | e :: es => touches T p (n || !es.isEmpty) (touchesSeq T p n d es) e
/-- The same for the branches of a choice: the code that follows is called from each of them. -/
def touchesAny (T : Nat → Ty) (p d : Bool) (es : List Expr) : Bool :=
  match es with
  | [] => false
  | e :: es => touches T p false d e || touchesAny T p d es
end

mutual
/-- No closure of the code of the expression assigns or borrows one of its references; `n` tells whether something follows the expression in its scope, `m` whether some
variable is passed by reference, and `d` whether the code that follows assigns or borrows such a variable. -/
def refable (T : Nat → Ty) (p n m d : Bool) (e : Expr) : Bool :=
  match e with
  | .str _ _ | .any _ | .cls _ _ | .nt _ _ | .ext _ _ => true
  | .not _ e | .and _ e => refable T false n m false e
  | .star i e | .plus i e => if p && T i ≠ .unit then refable T true false true false e else refable T false n m false e
  | .opt i e => if p && T i ≠ .unit then refable T true false true true e else refable T false n m false e
  | .seq i es => refableSeq T (p && T i ≠ .unit) n m d es
  | .choice i es => !(n && d) && refableBranches T (p && T i ≠ .unit) m (if n then m else d) es
  | .act i e _ _ => if p && T i ≠ .unit then refable T true false false false e else refable T false n m d e
  | .asc i e _ | .span i e | .range i e => refable T (p && T i ≠ .unit) n m d e
/-- The same for a sequence. -/
def refableSeq (T : Nat → Ty) (p n m d : Bool) (es : List Expr) : Bool :=
  match es with
  | [] => true
  | e :: es => refable T p (n || !es.isEmpty) m (m && touchesSeq T p n d es) e && refableSeq T p n m d es
/-- The same for the branches of a choice: what follows every branch but the last assigns the flag of the choice. -/
def refableBranches (T : Nat → Ty) (p m d : Bool) (es : List Expr) : Bool :=
  match es with
  | [] => true
  | e :: es => (if es.isEmpty then refable T p false m d e else refable T p false true true e) && refableBranches T p m d es
end

/-- The closures of the recognizers, and of the parsers of the rules that build an AST, use their references rightly. -/
def Grammar.refable (G : Grammar) (T : Nat → Ty) : Bool :=
  G.rules.all fun r => Oak.refable T false false false false r.2 && (T r.2.id == .unit || Oak.refable T true false false false r.2)

end Oak
