import Verif.Spec.Operators
import Verif.Spec.WellFormed
import Verif.Model.Chaining
/-!
# Specification: rewriting of chains of operators
-/
set_option autoImplicit false

namespace Oak
open Spec

/-- The expressions match the same texts: same failures, same remaining text. -/
def SameMatches (G : Grammar) (X : ExtSpec) (a b : Expr) : Prop :=
  ∀ s, (∀ s', Matches G X a s s' ↔ Matches G X b s s') ∧ (Fails G X a s ↔ Fails G X b s)

/-- The expression described by the text of a warning, `e` standing for `x`. -/
def described (x : Expr) : String → Option Expr
  | "&e" => some (.and 0 x)
  | "!e" => some (.not 0 x)
  | "e?" => some (.opt 0 x)
  | "e*" => some (.star 0 x)
  | "e+" => some (.plus 0 x)
  | "!(!e)" => some (.not 0 (.not 0 x))
  | "&(&e)" => some (.and 0 (.and 0 x))
  | "!(&e)" => some (.not 0 (.and 0 x))
  | "&(!e)" => some (.and 0 (.not 0 x))
  | "(e?)?" => some (.opt 0 (.opt 0 x))
  | "(e+)?" => some (.opt 0 (.plus 0 x))
  | "(e*)?" => some (.opt 0 (.star 0 x))
  | "(e+)+" => some (.plus 0 (.plus 0 x))
  | "(e+)*" => some (.star 0 (.plus 0 x))
  | "(e*)*" => some (.star 0 (.star 0 x))
  | _ => none

/-- `e` is an operator applied to `x`, up to actions, type ascriptions, spans and rule calls. -/
inductive Direct (G : Grammar) : Expr → Op → Expr → Prop where
  | opt {i x} : Direct G (.opt i x) .optional x
  | plus {i x} : Direct G (.plus i x) .oneOrMore x
  | star {i x} : Direct G (.star i x) .zeroOrMore x
  | not {i x} : Direct G (.not i x) .not x
  | and {i x} : Direct G (.and i x) .and x
  | nt {i r e op x} : G.find r = some e → Direct G e op x → Direct G (.nt i r) op x
  | act {i e b f op x} : Direct G e op x → Direct G (.act i e b f) op x
  | asc {i e t op x} : Direct G e op x → Direct G (.asc i e t) op x
  | span {i e op x} : Direct G e op x → Direct G (.span i e) op x
  | range {i e op x} : Direct G e op x → Direct G (.range i e) op x

/-- `e` is an operator applied to `x`, up to actions, type ascriptions and spans: no rule is called. -/
inductive Immediate : Expr → Op → Expr → Prop where
  | opt {i x} : Immediate (.opt i x) .optional x
  | plus {i x} : Immediate (.plus i x) .oneOrMore x
  | star {i x} : Immediate (.star i x) .zeroOrMore x
  | not {i x} : Immediate (.not i x) .not x
  | and {i x} : Immediate (.and i x) .and x
  | act {i e b f op x} : Immediate e op x → Immediate (.act i e b f) op x
  | asc {i e t op x} : Immediate e op x → Immediate (.asc i e t) op x
  | span {i e op x} : Immediate e op x → Immediate (.span i e) op x
  | range {i e op x} : Immediate e op x → Immediate (.range i e) op x

/-- Pairs of an operator and an operator applied to its result that are always reported. -/
def Redundant (outer inner : Op) : Prop :=
  (outer, inner) ∈ [(Op.and, Op.and), (.and, .not), (.optional, .optional), (.optional, .zeroOrMore), (.oneOrMore, .oneOrMore), (.zeroOrMore, .oneOrMore), (.zeroOrMore, .zeroOrMore)]

/-- Pairs reported when no rule call is crossed. -/
def RedundantHere (outer inner : Op) : Prop :=
  Redundant outer inner ∨ (outer, inner) ∈ [(Op.not, Op.not), (.not, .and), (.optional, .oneOrMore)]

/-- The operator at the root of an expression and its operand. -/
def rootOp : Expr → Option (Op × Expr)
  | .opt _ c => some (.optional, c)
  | .plus _ c => some (.oneOrMore, c)
  | .star _ c => some (.zeroOrMore, c)
  | .not _ c => some (.not, c)
  | .and _ c => some (.and, c)
  | _ => none

mutual
/-- Sequences and choices have at least one element, as the front-end builds them. -/
def Expr.filled (e : Expr) : Bool :=
  match e with
  | .str _ _ | .any _ | .cls _ _ | .nt _ _ | .ext _ _ => true
  | .seq _ es | .choice _ es => !es.isEmpty && filledAll es
  | .star _ e | .plus _ e | .opt _ e | .not _ e | .and _ e | .act _ e _ _ | .asc _ e _ | .span _ e | .range _ e => e.filled
/-- The same for lists of expressions. -/
def filledAll (es : List Expr) : Bool :=
  match es with
  | [] => true
  | e :: es => e.filled && filledAll es
end

/-- The same for the bodies of all rules. -/
def Grammar.filled (G : Grammar) : Bool := G.rules.all fun r => r.2.filled

end Oak
