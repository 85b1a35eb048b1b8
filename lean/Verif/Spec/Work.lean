import Verif.Spec.Calls
import Verif.Spec.ContextFree
/-!
# Specification: the work of a parser

What is visited while an expression is matched, with the expressions that are tried in vain and those that are matched again: nothing is remembered. The number of visits
is the number of steps; the number of characters that are read counts those that are given back and read again.
-/
set_option autoImplicit false

namespace Oak.Spec
open Oak

/-- The visits made while an expression is matched. -/
inductive Visits where
  /-- A literal, a class, an external rule... where this number of characters is read. -/
  | leaf (read : Nat)
  /-- An expression with one part visited. -/
  | one (a : Visits)
  /-- An expression with two parts visited, `b` after `a`. `moved` tells if `b` is visited at a later position than `a`. -/
  | two (moved : Bool) (a b : Visits)
deriving DecidableEq, Repr

/-- The number of visits. -/
def Visits.steps : Visits → Nat
  | .leaf _ => 1
  | .one a => a.steps + 1
  | .two _ a b => a.steps + b.steps + 1

/-- The number of characters read. -/
def Visits.reads : Visits → Nat
  | .leaf n => n
  | .one a => a.reads
  | .two _ a b => a.reads + b.reads

/-- Where a match ends; nothing for a failure. -/
def Out.rest : Out → Option (List Char)
  | .fail => none
  | .ok s _ => some s

/-- `Work G X e s o v`: matching `e` at position `s` ends at `o` with the visits `v`. The rules are those of `Peg`. A sequence is visited once more for each of its elements,
a choice for each of its branches that are tried, a repetition for each iteration. -/
inductive Work (G : Grammar) (X : ExtSpec) : Expr → List Char → Option (List Char) → Visits → Prop where
  | str_ok {i lit r} : Work G X (.str i lit) (lit.toList ++ r) (some r) (.leaf lit.toList.length)
  | str_fail {i lit s} : ¬ lit.toList <+: s → Work G X (.str i lit) s none (.leaf 0)
  | any_ok {i c cs} : Work G X (.any i) (c :: cs) (some cs) (.leaf 1)
  | any_fail {i} : Work G X (.any i) [] none (.leaf 0)
  | cls_ok {i ivs c cs} : InClass ivs c → Work G X (.cls i ivs) (c :: cs) (some cs) (.leaf 1)
  | cls_fail {i ivs c cs} : ¬ InClass ivs c → Work G X (.cls i ivs) (c :: cs) none (.leaf 0)
  | cls_eof {i ivs} : Work G X (.cls i ivs) [] none (.leaf 0)
  | nt {i r e s o a} : G.find r = some e → Work G X e s o a → Work G X (.nt i r) s o (.one a)
  | ext_ok {i p s s' t L} : X p s (.ok s' t) L → Work G X (.ext i p) s (some s') (.leaf (s.length - s'.length))
  | ext_fail {i p s L} : X p s .fail L → Work G X (.ext i p) s none (.leaf 0)
  | seq_nil {i s} : Work G X (.seq i []) s (some s) (.leaf 0)
  | seq_cons {i e es s s1 o a b} : Work G X e s (some s1) a → Work G X (.seq i es) s1 o b → Work G X (.seq i (e :: es)) s o (.two (decide (s1 ≠ s)) a b)
  | seq_fail {i e es s a} : Work G X e s none a → Work G X (.seq i (e :: es)) s none (.one a)
  | choice_nil {i s} : Work G X (.choice i []) s none (.leaf 0)
  | choice_first {i e es s s1 a} : Work G X e s (some s1) a → Work G X (.choice i (e :: es)) s (some s1) (.one a)
  | choice_next {i e es s o a b} : Work G X e s none a → Work G X (.choice i es) s o b → Work G X (.choice i (e :: es)) s o (.two false a b)
  | star_stop {i e s a} : Work G X e s none a → Work G X (.star i e) s (some s) (.one a)
  | star_more {i e s s1 o a b} : Work G X e s (some s1) a → Work G X (.star i e) s1 o b → Work G X (.star i e) s o (.two (decide (s1 ≠ s)) a b)
  | plus_fail {i e s a} : Work G X e s none a → Work G X (.plus i e) s none (.one a)
  | plus_ok {i e s s1 o a b} : Work G X e s (some s1) a → Work G X (.star i e) s1 o b → Work G X (.plus i e) s o (.two (decide (s1 ≠ s)) a b)
  | opt_some {i e s s1 a} : Work G X e s (some s1) a → Work G X (.opt i e) s (some s1) (.one a)
  | opt_none {i e s a} : Work G X e s none a → Work G X (.opt i e) s (some s) (.one a)
  | not_ok {i e s a} : Work G X e s none a → Work G X (.not i e) s (some s) (.one a)
  | not_fail {i e s s1 a} : Work G X e s (some s1) a → Work G X (.not i e) s none (.one a)
  | and_ok {i e s s1 a} : Work G X e s (some s1) a → Work G X (.and i e) s (some s) (.one a)
  | and_fail {i e s a} : Work G X e s none a → Work G X (.and i e) s none (.one a)
  | act {i e b f s o a} : Work G X e s o a → Work G X (.act i e b f) s o (.one a)
  | asc {i e ty s o a} : Work G X e s o a → Work G X (.asc i e ty) s o (.one a)
  | span {i e s o a} : Work G X e s o a → Work G X (.span i e) s o (.one a)
  | range {i e s o a} : Work G X e s o a → Work G X (.range i e) s o (.one a)

end Oak.Spec
