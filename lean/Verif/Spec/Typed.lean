import Verif.Model.Ast
/-!
# Specification: coherence of the types given to expressions

`T i` is the type of node `i`.  An expression of unit type contributes no value; otherwise `arity` counts the values it
contributes.  `coherent` says that the types agree with the shape of the expressions wherever the back-end relies on them.
-/
set_option autoImplicit false

namespace Oak

mutual
/-- Number of values an expression contributes to the AST of its context; `p` is false below a unit-typed expression. -/
def arity (T : Nat → Ty) (p : Bool) (e : Expr) : Nat :=
  match e with
  | .str _ _ => 0
  | .any i => if p && T i ≠ .unit then 1 else 0
  | .cls i _ => if p && T i ≠ .unit then 1 else 0
  | .nt i _ => if p && T i ≠ .unit then (T i).card else 0
  | .ext i _ => if p && T i ≠ .unit then (T i).card else 0
  | .seq i es => aritySeq T (p && T i ≠ .unit) es
  | .choice i es => arityHead T (p && T i ≠ .unit) es
  | .star i _ => if p && T i ≠ .unit then 1 else 0
  | .plus i _ => if p && T i ≠ .unit then 1 else 0
  | .opt i _ => if p && T i ≠ .unit then 1 else 0
  | .not _ _ => 0
  | .and _ _ => 0
  | .act i _ _ _ => if p && T i ≠ .unit then 1 else 0
  | .asc i e _ => arity T (p && T i ≠ .unit) e
  | .span i e => if p && T i ≠ .unit then arity T true e + 1 else 0
  | .range i e => if p && T i ≠ .unit then arity T true e + 1 else 0
/-- Values of a sequence. -/
def aritySeq (T : Nat → Ty) (p : Bool) (es : List Expr) : Nat :=
  match es with
  | [] => 0
  | e :: es => arity T p e + aritySeq T p es
/-- Values of a choice: those of its first branch. -/
def arityHead (T : Nat → Ty) (p : Bool) (es : List Expr) : Nat :=
  match es with
  | [] => 0
  | e :: _ => arity T p e
end

/-- Does every branch contribute `n` values? -/
def sameArity (T : Nat → Ty) (p : Bool) (n : Nat) (es : List Expr) : Bool := es.all fun e => arity T p e == n

mutual
/-- The types are coherent: the branches of a choice contribute the same number of values; the expression of a spanned
expression contributes as many values as its type tells; a call of a rule has the cardinality of the rule (`R r`); an external
rule gives one value. -/
def coherent (T : Nat → Ty) (R : String → Nat) (p : Bool) (e : Expr) : Bool :=
  match e with
  | .str _ _ => true
  | .any _ => true
  | .cls _ _ => true
  | .nt i r => !(p && T i ≠ .unit) || (T i).card == R r
  | .ext i _ => !(p && T i ≠ .unit) || (T i).card == 1
  | .seq i es => coherentAll T R (p && T i ≠ .unit) es
  | .choice i es => coherentAll T R (p && T i ≠ .unit) es &&
      sameArity T (p && T i ≠ .unit) (arityHead T (p && T i ≠ .unit) es) es
  | .star i e => coherent T R (p && T i ≠ .unit) e
  | .plus i e => coherent T R (p && T i ≠ .unit) e
  | .opt i e => coherent T R (p && T i ≠ .unit) e
  | .not _ e => coherent T R false e
  | .and _ e => coherent T R false e
  | .act i e _ _ => coherent T R (p && T i ≠ .unit) e
  | .asc i e _ => coherent T R (p && T i ≠ .unit) e
  | .span i e => coherent T R (p && T i ≠ .unit) e && (!(p && T i ≠ .unit) || arity T true e == (T e.id).card)
  | .range i e => coherent T R (p && T i ≠ .unit) e && (!(p && T i ≠ .unit) || arity T true e == (T e.id).card)
/-- All the expressions of a list are coherent. -/
def coherentAll (T : Nat → Ty) (R : String → Nat) (p : Bool) (es : List Expr) : Bool :=
  match es with
  | [] => true
  | e :: es => coherent T R p e && coherentAll T R p es
end

/-- The types of a grammar are coherent. -/
def Grammar.coherent (G : Grammar) (T : Nat → Ty) : Bool :=
  G.rules.all fun r => Oak.coherent T (fun n => match G.find n with | some b => (T b.id).card | none => 0) true r.2

end Oak
