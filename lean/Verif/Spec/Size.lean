import Verif.Model.Compiler
import Verif.Spec.Peg
/-!
Sizes of expressions and of generated code, and how many times the code that follows an expression is written.
-/
set_option autoImplicit false

namespace Oak

mutual
/-- The size of an expression: its operators and atoms, and the intervals of its character classes. -/
def Expr.weight (e : Expr) : Nat :=
  match e with
  | .str .. | .any .. | .nt .. | .ext .. => 1
  | .cls _ ivs => 1 + ivs.length
  | .seq _ es | .choice _ es => 1 + weightAll es
  | .star _ e | .plus _ e | .opt _ e | .not _ e | .and _ e | .act _ e _ _ | .asc _ e _ | .span _ e | .range _ e => 1 + e.weight
/-- The sum of the sizes. -/
def weightAll (es : List Expr) : Nat :=
  match es with
  | [] => 0
  | e :: es => e.weight + weightAll es
end

/-- The size of a condition. -/
def CharCond.weight : CharCond → Nat
  | .eq _ | .between _ _ => 1
  | .or a b => 1 + a.weight + b.weight

/-- The size of generated code: expressions and statements. A list of variables counts for nothing. -/
def Ex.weight : Ex → Nat
  | .st | .success _ | .failure | .call .. => 1
  | .stmt _ e => 1 + e.weight
  | .bind e k => 1 + e.weight + k.weight
  | .loop body _ _ k => 1 + body.weight + k.weight
  | .ite _ a b => 1 + a.weight + b.weight
  | .ifPrefix _ a b => 1 + a.weight + b.weight
  | .matchNext _ a b => 1 + a.weight + b.weight
  | .matchClass _ c a b => 1 + c.weight + a.weight + b.weight

/-- The size of closures. -/
def closuresWeight : List Closure → Nat
  | [] => 0
  | cl :: cls => 1 + cl.body.weight + closuresWeight cls

/-- The size of a generated function. -/
def Fn.weight (f : Fn) : Nat := closuresWeight f.closures + f.body.weight

mutual
/-- How many times the code that follows the expression is written. `first` tells that this code is new: nothing was compiled in it. A choice writes it in each of its
branches if it is new (in a closure otherwise), and it is always considered as new in a semantic action. -/
def copiesOf (T : Nat → Ty) (p first : Bool) (e : Expr) : Nat :=
  match e with
  | .seq i es => copiesSeq T (p && T i ≠ .unit) first es
  | .choice i es => if first then copiesAlts T (p && T i ≠ .unit) es else 1
  | .act i e _ _ => if p && T i ≠ .unit then copiesOf T true true e else copiesOf T false first e
  | .asc i e _ => copiesOf T (p && T i ≠ .unit) first e
  | .span i e | .range i e => copiesOf T (p && T i ≠ .unit) first e
  | _ => 1
/-- The same for a sequence. -/
def copiesSeq (T : Nat → Ty) (p first : Bool) (es : List Expr) : Nat :=
  match es with
  | [] => 1
  | e :: es => copiesOf T p (first && es.isEmpty) e * copiesSeq T p first es
/-- The same for the branches of a choice. -/
def copiesAlts (T : Nat → Ty) (p : Bool) (es : List Expr) : Nat :=
  match es with
  | [] => 0
  | e :: es => copiesOf T p true e + copiesAlts T p es
end

mutual
/-- No semantic action that gives a value writes several times the code that follows, unless this code is new. -/
def thrifty (T : Nat → Ty) (p first : Bool) (e : Expr) : Bool :=
  match e with
  | .seq i es => thriftySeq T (p && T i ≠ .unit) first es
  | .choice i es => thriftyAlts T (p && T i ≠ .unit) es
  | .act i e _ _ => if p && T i ≠ .unit then (first || copiesOf T true true e == 1) && thrifty T true true e else true
  | .asc i e _ => thrifty T (p && T i ≠ .unit) first e
  | .span i e | .range i e => thrifty T (p && T i ≠ .unit) first e
  | .star i e | .plus i e | .opt i e => if p && T i ≠ .unit then thrifty T true true e else true
  | _ => true
/-- The same for a sequence. -/
def thriftySeq (T : Nat → Ty) (p first : Bool) (es : List Expr) : Bool :=
  match es with
  | [] => true
  | e :: es => thrifty T p (first && es.isEmpty) e && thriftySeq T p first es
/-- The same for the branches of a choice. -/
def thriftyAlts (T : Nat → Ty) (p : Bool) (es : List Expr) : Bool :=
  match es with
  | [] => true
  | e :: es => thrifty T p true e && thriftyAlts T p es
end

end Oak
