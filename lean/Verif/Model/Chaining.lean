import Verif.Model.Ast
import Verif.Model.Res
/-!
Model of the analysis of useless chains of operators: `src/liboak/middle/analysis/useless_chaining.rs`, with the traversal of
`src/liboak/visitor.rs`.
-/
set_option autoImplicit false

namespace Oak

/-- `PredicateOrRepeat`, useless_chaining.rs:41-49. -/
inductive Op where
  | and
  | not
  | optional
  | oneOrMore
  | zeroOrMore
  | nothing
deriving Repr, DecidableEq

/-- `check_chain`, useless_chaining.rs:88-103: the pattern detected and its rewriting. -/
def checkChain (outer inner : Op) (crossed : Bool) : Option (String × String) :=
  match outer, inner, crossed with
  | .not, .not, false => some ("!(!e)", "&e")
  | .and, .and, _ => some ("&(&e)", "&e")
  | .not, .and, false => some ("!(&e)", "!e")
  | .and, .not, _ => some ("&(!e)", "!e")
  | .optional, .optional, _ => some ("(e?)?", "e?")
  | .optional, .oneOrMore, false => some ("(e+)?", "e*")
  | .optional, .zeroOrMore, _ => some ("(e*)?", "e*")
  | .oneOrMore, .oneOrMore, _ => some ("(e+)+", "e+")
  | .zeroOrMore, .oneOrMore, _ => some ("(e+)*", "e+")
  | .zeroOrMore, .zeroOrMore, _ => some ("(e*)*", "e*")
  | _, _, _ => none

mutual
/-- `InnerPredicateOrRepeat::visit_expr`, useless_chaining.rs:129-171, through `walk_expr`, visitor.rs:102-155. `vr` is the visit of the body of
a rule. -/
def innerExpr (vr : String → Res (Op × Bool)) (e : Expr) : Res (Op × Bool) :=
  match e with
  | .str _ _ | .any _ | .cls _ _ | .ext _ _ => .ok (.nothing, false)   -- defaults, visitor.rs:29-38
  | .nt _ r => do                                                      -- useless_chaining.rs:130-133
    let (op, _) ← vr r
    .ok (op, true)
  | .opt _ _ => .ok (.optional, false)
  | .plus _ _ => .ok (.oneOrMore, false)
  | .star _ _ => .ok (.zeroOrMore, false)
  | .not _ _ => .ok (.not, false)
  | .and _ _ => .ok (.and, false)
  | .seq _ es => match es with                                         -- useless_chaining.rs:156-158
    | [] => .panic
    | e :: _ => innerExpr vr e
  | .choice _ es => match es with                                      -- useless_chaining.rs:160-170
    | [] => .panic
    | e :: es => do
      let (op, c) ← innerExpr vr e
      let (op2, c2) ← innerExpr vr e        -- the loop visits the first branch again
      if op ≠ op2 then .ok (.nothing, false) else innerBranches vr op (c || c2) es
  | .act _ e _ _ | .asc _ e _ | .span _ e | .range _ e => innerExpr vr e  -- visitor.rs:40-46, 79-85
/-- The loop of `visit_choice`, useless_chaining.rs:162-168. -/
def innerBranches (vr : String → Res (Op × Bool)) (op : Op) (crossed : Bool) (es : List Expr) : Res (Op × Bool) :=
  match es with
  | [] => .ok (op, crossed)
  | e :: es => do
    let (op2, c2) ← innerExpr vr e
    if op ≠ op2 then .ok (.nothing, false) else innerBranches vr op (crossed || c2) es
end

/-- `visit_non_terminal_symbol` of `InnerPredicateOrRepeat`, useless_chaining.rs:130-133. `n` bounds the depth of nested rules. -/
def innerRule (G : Grammar) : Nat → String → Res (Op × Bool)
  | 0, _ => .timeout
  | n + 1, r => match G.find r with
    | none => .panic
    | some e => innerExpr (innerRule G n) e

/-- A warning: the expression, the pattern and the rewriting. -/
structure Warning where
  this : Expr
  pattern : String
  rewrite : String

/-- `check_chain_and_visit`, useless_chaining.rs:105-110, where `inner` visits the child with `InnerPredicateOrRepeat` and `visit` visits it
with `UselessChaining`. -/
def chainAndVisit (outer : Op) (this : Expr) (inner : Res (Op × Bool)) (visit : Res (List Warning)) : Res (List Warning) := do
  let (op, crossed) ← inner
  match checkChain outer op crossed with
  | some (p, r) => .ok [⟨this, p, r⟩]
  | none => visit

mutual
/-- `UselessChaining::visit_expr`, useless_chaining.rs:180-204. -/
def chainExpr (vr : String → Res (Op × Bool)) (e : Expr) : Res (List Warning) :=
  match e with
  | .str _ _ | .any _ | .cls _ _ | .ext _ _ | .nt _ _ => .ok []
  | .seq _ es | .choice _ es => chainAll vr es
  | .plus _ c => chainAndVisit .oneOrMore e (innerExpr vr c) (chainExpr vr c)
  | .star _ c => chainAndVisit .zeroOrMore e (innerExpr vr c) (chainExpr vr c)
  | .opt _ c => chainAndVisit .optional e (innerExpr vr c) (chainExpr vr c)
  | .not _ c => chainAndVisit .not e (innerExpr vr c) (chainExpr vr c)
  | .and _ c => chainAndVisit .and e (innerExpr vr c) (chainExpr vr c)
  | .act _ c _ _ | .asc _ c _ | .span _ c | .range _ c => chainExpr vr c
/-- `walk_exprs`, visitor.rs:157-161. -/
def chainAll (vr : String → Res (Op × Bool)) (es : List Expr) : Res (List Warning) :=
  match es with
  | [] => .ok []
  | e :: es => do
    let a ← chainExpr vr e
    let b ← chainAll vr es
    .ok (a ++ b)
end

/-- `check_chaining`, useless_chaining.rs:67-72. -/
def chaining (G : Grammar) (n : Nat) : Res (List Warning) := chainAll (innerRule G n) (G.rules.map (·.2))

end Oak
