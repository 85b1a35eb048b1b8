import Verif.Spec.Peg
/-!
# Specification: calls of user functions

The calls of semantic actions made while the data of an expression is built. They are made as soon as the expression below the action has matched, even if
what follows fails and the value is thrown away.
-/
set_option autoImplicit false

namespace Oak.Spec
open Oak

/-- The call made by an action once its expression has matched: none if it is a variant without argument. -/
def actionCalls (G : Grammar) (T : Nat → Ty) (sp : SpanSpec) (f : Path) (e : Expr) (t : Tree) : List Val :=
  if isVariant f && T e.id = .unit then [] else [.app f (ast G T sp e t)]

mutual
/-- The calls of the actions of a match, in the order in which their expressions are completed, given the parse tree of the match. -/
def treeCalls (G : Grammar) (T : Nat → Ty) (sp : SpanSpec) (e : Expr) : Tree → List Val
  | .leaf | .chr _ | .ext _ | .none => []
  | .nt t => if T e.id = .unit then [] else
      match e with
      | .nt _ r => match G.find r with
        | some b => treeCalls G T sp b t
        | none => []
      | _ => []
  | .seq ts => if T e.id = .unit then [] else
      match e with
      | .seq _ es => treeCallsSeq G T sp es ts
      | _ => []
  | .alt k t => if T e.id = .unit then [] else
      match e with
      | .choice _ es => match es[k]? with
        | some b => treeCalls G T sp b t
        | none => []
      | _ => []
  | .rep ts => if T e.id = .unit then [] else
      match e with
      | .star _ c | .plus _ c => treeCallsRep G T sp c ts
      | _ => []
  | .some t => if T e.id = .unit then [] else
      match e with
      | .opt _ c => treeCalls G T sp c t
      | _ => []
  | .act t => if T e.id = .unit then [] else
      match e with
      | .act _ c _ f => treeCalls G T sp c t ++ actionCalls G T sp f c t
      | _ => []
  | .asc t => if T e.id = .unit then [] else
      match e with
      | .asc _ c _ => treeCalls G T sp c t
      | _ => []
  | .spanned _ _ t => if T e.id = .unit then [] else
      match e with
      | .span _ c | .range _ c => treeCalls G T sp c t
      | _ => []
/-- Those of the elements of a sequence. -/
def treeCallsSeq (G : Grammar) (T : Nat → Ty) (sp : SpanSpec) (es : List Expr) : List Tree → List Val
  | [] => []
  | t :: ts => match es with
    | [] => []
    | e :: es => treeCalls G T sp e t ++ treeCallsSeq G T sp es ts
/-- Those of the iterations of a repetition. -/
def treeCallsRep (G : Grammar) (T : Nat → Ty) (sp : SpanSpec) (e : Expr) : List Tree → List Val
  | [] => []
  | t :: ts => treeCalls G T sp e t ++ treeCallsRep G T sp e ts
end

/-- `UserCalls G X T sp e s cs`: building the data of `e` at position `s` calls user functions as told by `cs`, in this order, whether `e` matches or not. -/
inductive UserCalls (G : Grammar) (X : ExtSpec) (T : Nat → Ty) (sp : SpanSpec) : Expr → List Char → List Val → Prop where
  /-- Nothing is built for an expression of unit type. -/
  | unit {e s} : T e.id = .unit → UserCalls G X T sp e s []
  | str {i l s} : UserCalls G X T sp (.str i l) s []
  | any {i s} : UserCalls G X T sp (.any i) s []
  | cls {i ivs s} : UserCalls G X T sp (.cls i ivs) s []
  /-- The calls made by external rules are those of another grammar. -/
  | ext {i p s} : UserCalls G X T sp (.ext i p) s []
  | not {i e s} : UserCalls G X T sp (.not i e) s []
  | and {i e s} : UserCalls G X T sp (.and i e) s []
  | nt {i r b s cs} : T i ≠ .unit → G.find r = some b → UserCalls G X T sp b s cs → UserCalls G X T sp (.nt i r) s cs
  | seq_nil {i s} : UserCalls G X T sp (.seq i []) s []
  | seq_fail {i e es s L cs} : T i ≠ .unit → Peg G X e s .fail L → UserCalls G X T sp e s cs → UserCalls G X T sp (.seq i (e :: es)) s cs
  | seq_cons {i e es s s1 t L c1 c2} : T i ≠ .unit → Peg G X e s (.ok s1 t) L → UserCalls G X T sp e s c1 → UserCalls G X T sp (.seq i es) s1 c2 →
      UserCalls G X T sp (.seq i (e :: es)) s (c1 ++ c2)
  | choice_nil {i s} : UserCalls G X T sp (.choice i []) s []
  | choice_first {i e es s s1 t L cs} : T i ≠ .unit → Peg G X e s (.ok s1 t) L → UserCalls G X T sp e s cs → UserCalls G X T sp (.choice i (e :: es)) s cs
  | choice_next {i e es s L c1 c2} : T i ≠ .unit → Peg G X e s .fail L → UserCalls G X T sp e s c1 → UserCalls G X T sp (.choice i es) s c2 →
      UserCalls G X T sp (.choice i (e :: es)) s (c1 ++ c2)
  | star_stop {i e s L cs} : T i ≠ .unit → Peg G X e s .fail L → UserCalls G X T sp e s cs → UserCalls G X T sp (.star i e) s cs
  | star_more {i e s s1 t L c1 c2} : T i ≠ .unit → Peg G X e s (.ok s1 t) L → UserCalls G X T sp e s c1 → UserCalls G X T sp (.star i e) s1 c2 →
      UserCalls G X T sp (.star i e) s (c1 ++ c2)
  | plus {i e s cs} : T i ≠ .unit → UserCalls G X T sp (.star i e) s cs → UserCalls G X T sp (.plus i e) s cs
  | opt {i e s cs} : T i ≠ .unit → UserCalls G X T sp e s cs → UserCalls G X T sp (.opt i e) s cs
  /-- The user function is called on the values of the expression, once it has matched. -/
  | act_ok {i e b f s s1 t L cs} : T i ≠ .unit → Peg G X e s (.ok s1 t) L → UserCalls G X T sp e s cs →
      UserCalls G X T sp (.act i e b f) s (cs ++ actionCalls G T sp f e t)
  | act_fail {i e b f s L cs} : T i ≠ .unit → Peg G X e s .fail L → UserCalls G X T sp e s cs → UserCalls G X T sp (.act i e b f) s cs
  | asc {i e ty s cs} : T i ≠ .unit → UserCalls G X T sp e s cs → UserCalls G X T sp (.asc i e ty) s cs
  | span {i e s cs} : T i ≠ .unit → UserCalls G X T sp e s cs → UserCalls G X T sp (.span i e) s cs
  | range {i e s cs} : T i ≠ .unit → UserCalls G X T sp e s cs → UserCalls G X T sp (.range i e) s cs

/-- `Shown w v`: the value `w` is a part of the value `v`. -/
inductive Shown (w : Val) : Val → Prop where
  | here : Shown w w
  | tup {vs v} : v ∈ vs → Shown w v → Shown w (.tup vs)
  | list {vs v} : v ∈ vs → Shown w v → Shown w (.list vs)
  | some {v} : Shown w v → Shown w (.some v)
  | app {f vs v} : v ∈ vs → Shown w v → Shown w (.app f vs)
  | box {v} : Shown w v → Shown w (.box v)

/-- The values that external rules gave during a match. -/
def Tree.exts : Tree → List Val
  | .leaf | .chr _ | .none => []
  | .ext v => [v]
  | .nt t | .alt _ t | .some t | .act t | .asc t | .spanned _ _ t => t.exts
  | .seq ts | .rep ts => ts.flatMap Tree.exts

end Oak.Spec
