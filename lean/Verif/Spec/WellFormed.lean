import Verif.Spec.Peg
import Verif.Model.WellFormed
/-!
# Specification: well-formed grammars

What the well-formedness analysis is supposed to detect, in terms of the language (the relation `Peg`) and of two standard notions:
nullable expressions and calls in leftmost position.
-/
set_option linter.constructorNameAsVariable false
set_option autoImplicit false

namespace Oak
open Spec

/-- `x` occurs in `e`. -/
inductive Sub (x : Expr) : Expr → Prop where
  | refl : Sub x x
  | seq {i es e} : e ∈ es → Sub x e → Sub x (.seq i es)
  | choice {i es e} : e ∈ es → Sub x e → Sub x (.choice i es)
  | star {i e} : Sub x e → Sub x (.star i e)
  | plus {i e} : Sub x e → Sub x (.plus i e)
  | opt {i e} : Sub x e → Sub x (.opt i e)
  | not {i e} : Sub x e → Sub x (.not i e)
  | and {i e} : Sub x e → Sub x (.and i e)
  | act {i e b f} : Sub x e → Sub x (.act i e b f)
  | asc {i e t} : Sub x e → Sub x (.asc i e t)
  | span {i e} : Sub x e → Sub x (.span i e)
  | range {i e} : Sub x e → Sub x (.range i e)

/-- `x` occurs in the body of a rule of `G`. -/
def Occurs (G : Grammar) (x : Expr) : Prop := ∃ r e, G.find r = some e ∧ Sub x e

/-- The expression may succeed without reading anything (whether it does can depend on the text). -/
inductive Nullable (G : Grammar) : Expr → Prop where
  | str {i} : Nullable G (.str i "")
  | nt {i r e} : G.find r = some e → Nullable G e → Nullable G (.nt i r)
  | seq {i es} : (∀ e ∈ es, Nullable G e) → Nullable G (.seq i es)
  | choice {i es e} : e ∈ es → Nullable G e → Nullable G (.choice i es)
  | star {i e} : Nullable G (.star i e)
  | plus {i e} : Nullable G e → Nullable G (.plus i e)
  | opt {i e} : Nullable G (.opt i e)
  | not {i e} : Nullable G (.not i e)
  | and {i e} : Nullable G (.and i e)
  | act {i e b f} : Nullable G e → Nullable G (.act i e b f)
  | asc {i e t} : Nullable G e → Nullable G (.asc i e t)
  | span {i e} : Nullable G e → Nullable G (.span i e)
  | range {i e} : Nullable G e → Nullable G (.range i e)

/-- The expression may call rule `q` before anything is read. -/
inductive LeftCalls (G : Grammar) (q : String) : Expr → Prop where
  | nt {i} : LeftCalls G q (.nt i q)
  | seq_head {i e es} : LeftCalls G q e → LeftCalls G q (.seq i (e :: es))
  | seq_tail {i e es} : Nullable G e → LeftCalls G q (.seq i es) → LeftCalls G q (.seq i (e :: es))
  | choice {i es e} : e ∈ es → LeftCalls G q e → LeftCalls G q (.choice i es)
  | star {i e} : LeftCalls G q e → LeftCalls G q (.star i e)
  | plus {i e} : LeftCalls G q e → LeftCalls G q (.plus i e)
  | opt {i e} : LeftCalls G q e → LeftCalls G q (.opt i e)
  | not {i e} : LeftCalls G q e → LeftCalls G q (.not i e)
  | and {i e} : LeftCalls G q e → LeftCalls G q (.and i e)
  | act {i e b f} : LeftCalls G q e → LeftCalls G q (.act i e b f)
  | asc {i e t} : LeftCalls G q e → LeftCalls G q (.asc i e t)
  | span {i e} : LeftCalls G q e → LeftCalls G q (.span i e)
  | range {i e} : LeftCalls G q e → LeftCalls G q (.range i e)

/-- Rule `q` is called by rule `r` in leftmost position. -/
def LeftStep (G : Grammar) (q r : String) : Prop := ∃ e, G.find r = some e ∧ LeftCalls G q e

/-- A rule reaches itself by calls in leftmost position. -/
def LeftRecursive (G : Grammar) (r : String) : Prop := Relation.TransGen (LeftStep G) r r

/-- Each rule calls the next one in leftmost position, and the last one calls `q`. -/
def LeftChain (G : Grammar) (q : String) : String → List String → Prop
  | r, [] => LeftStep G q r
  | r, r' :: rs => LeftStep G r' r ∧ LeftChain G q r' rs

/-- The rules are distinct, each one calls the next one in leftmost position, and the last one calls the first one. -/
def LeftCycle (G : Grammar) : List String → Prop
  | [] => False
  | r :: rs => (r :: rs).Nodup ∧ LeftChain G r r rs

/-- While `e` is matched at position `s`, the rule `q` is called at position `s'`. -/
inductive Calls (G : Grammar) (X : ExtSpec) (q : String) (s' : List Char) : Expr → List Char → Prop where
  | here {i} : Calls G X q s' (.nt i q) s'
  | inside {i r e s} : G.find r = some e → Calls G X q s' e s → Calls G X q s' (.nt i r) s
  | seq_head {i e es s} : Calls G X q s' e s → Calls G X q s' (.seq i (e :: es)) s
  | seq_tail {i e es s s1 t L} : Peg G X e s (.ok s1 t) L → Calls G X q s' (.seq i es) s1 → Calls G X q s' (.seq i (e :: es)) s
  | choice_head {i e es s} : Calls G X q s' e s → Calls G X q s' (.choice i (e :: es)) s
  | choice_tail {i e es s L} : Peg G X e s .fail L → Calls G X q s' (.choice i es) s → Calls G X q s' (.choice i (e :: es)) s
  | star {i e s} : Calls G X q s' e s → Calls G X q s' (.star i e) s
  | star_again {i e s s1 t L} : Peg G X e s (.ok s1 t) L → Calls G X q s' (.star i e) s1 → Calls G X q s' (.star i e) s
  | plus {i e s} : Calls G X q s' e s → Calls G X q s' (.plus i e) s
  | plus_again {i e s s1 t L} : Peg G X e s (.ok s1 t) L → Calls G X q s' (.star i e) s1 → Calls G X q s' (.plus i e) s
  | opt {i e s} : Calls G X q s' e s → Calls G X q s' (.opt i e) s
  | not {i e s} : Calls G X q s' e s → Calls G X q s' (.not i e) s
  | and {i e s} : Calls G X q s' e s → Calls G X q s' (.and i e) s
  | act {i e b f s} : Calls G X q s' e s → Calls G X q s' (.act i e b f) s
  | asc {i e t s} : Calls G X q s' e s → Calls G X q s' (.asc i e t) s
  | span {i e s} : Calls G X q s' e s → Calls G X q s' (.span i e) s
  | range {i e s} : Calls G X q s' e s → Calls G X q s' (.range i e) s

/-- External rules read something when they succeed. -/
def ExtSpec.Consuming (X : ExtSpec) : Prop := ∀ p s s' t L, X p s (.ok s' t) L → s' ≠ s

/-- The external rules called by `G` have an outcome at every position. -/
def ExtSpec.TotalOn (X : ExtSpec) (G : Grammar) : Prop := ∀ i p, Occurs G (.ext i p) → ∀ s, ∃ o L, X p s o L

/-- The expression fails at no position. -/
def NeverFails (G : Grammar) (X : ExtSpec) (e : Expr) : Prop := ∀ s L, ¬ Peg G X e s .fail L
/-- The expression succeeds at no position. -/
def NeverSucceeds (G : Grammar) (X : ExtSpec) (e : Expr) : Prop := ∀ s s' t L, ¬ Peg G X e s (.ok s' t) L
/-- The expression reads nothing when it succeeds. -/
def NeverConsumes (G : Grammar) (X : ExtSpec) (e : Expr) : Prop := ∀ s s' t L, Peg G X e s (.ok s' t) L → s' = s
/-- The expression reads something when it succeeds. -/
def AlwaysConsumes (G : Grammar) (X : ExtSpec) (e : Expr) : Prop := ∀ s s' t L, Peg G X e s (.ok s' t) L → s' ≠ s

mutual
/-- By its form, the expression succeeds whatever the text. -/
inductive SureOk (G : Grammar) : Expr → Prop where
  | str {i} : SureOk G (.str i "")
  | nt {i r e} : G.find r = some e → SureOk G e → SureOk G (.nt i r)
  | seq {i es} : (∀ e ∈ es, SureOk G e) → SureOk G (.seq i es)
  | choice {i es e} : e ∈ es → SureOk G e → SureOk G (.choice i es)
  | star {i e} : SureOk G (.star i e)
  | plus {i e} : SureOk G e → SureOk G (.plus i e)
  | opt {i e} : SureOk G (.opt i e)
  | not {i e} : SureFail G e → SureOk G (.not i e)
  | and {i e} : SureOk G e → SureOk G (.and i e)
  | act {i e b f} : SureOk G e → SureOk G (.act i e b f)
  | asc {i e t} : SureOk G e → SureOk G (.asc i e t)
  | span {i e} : SureOk G e → SureOk G (.span i e)
  | range {i e} : SureOk G e → SureOk G (.range i e)
/-- By its form, the expression fails whatever the text. -/
inductive SureFail (G : Grammar) : Expr → Prop where
  | nt {i r e} : G.find r = some e → SureFail G e → SureFail G (.nt i r)
  | seq {i es e} : e ∈ es → SureFail G e → SureFail G (.seq i es)
  | choice {i es} : (∀ e ∈ es, SureFail G e) → SureFail G (.choice i es)
  | plus {i e} : SureFail G e → SureFail G (.plus i e)
  | not {i e} : SureOk G e → SureFail G (.not i e)
  | and {i e} : SureFail G e → SureFail G (.and i e)
  | act {i e b f} : SureFail G e → SureFail G (.act i e b f)
  | asc {i e t} : SureFail G e → SureFail G (.asc i e t)
  | span {i e} : SureFail G e → SureFail G (.span i e)
  | range {i e} : SureFail G e → SureFail G (.range i e)
end

/-- By its form, the expression reads nothing, because it is made of predicates. -/
inductive Idle (G : Grammar) : Expr → Prop where
  | nt {i r e} : G.find r = some e → Idle G e → Idle G (.nt i r)
  | seq {i es} : (∀ e ∈ es, Idle G e) → Idle G (.seq i es)
  | choice {i es} : (∀ e ∈ es, Idle G e) → Idle G (.choice i es)
  | star {i e} : Idle G e → Idle G (.star i e)
  | plus {i e} : Idle G e → Idle G (.plus i e)
  | opt {i e} : Idle G e → Idle G (.opt i e)
  | not {i e} : Idle G (.not i e)
  | and {i e} : Idle G (.and i e)
  | act {i e b f} : Idle G e → Idle G (.act i e b f)
  | asc {i e t} : Idle G e → Idle G (.asc i e t)
  | span {i e} : Idle G e → Idle G (.span i e)
  | range {i e} : Idle G e → Idle G (.range i e)

/-- The grammars that should be accepted. -/
structure WellFormed (G : Grammar) : Prop where
  /-- No rule is left-recursive. -/
  left : ∀ r, ¬ LeftRecursive G r
  /-- What is repeated is not nullable. -/
  repeats : ∀ i c, Occurs G (.star i c) ∨ Occurs G (.plus i c) → ¬ Nullable G c
  /-- No expression is bound to fail. -/
  fails : ∀ e, Occurs G e → ¬ SureFail G e
  /-- No expression is bound to succeed without reading anything. -/
  idle : ∀ e, Occurs G e → SureOk G e → ¬ Idle G e
  /-- No branch of a choice follows one that is bound to succeed. -/
  branches : ∀ i before b after, Occurs G (.choice i (before ++ b :: after)) → after ≠ [] → ¬ SureOk G b

/-- What a diagnostic says, with the place and from the form of the grammar only. -/
def Diag.Found (G : Grammar) : Diag → Prop
  | .leftRecursion r cycle => cycle.head? = some r ∧ LeftCycle G cycle
  | .neverSucceed e => Occurs G e ∧ SureFail G e
  | .alwaysSucceed e => Occurs G e ∧ SureOk G e ∧ Idle G e
  | .loopRepeat e => Occurs G e ∧ ∃ i c, (e = .star i c ∨ e = .plus i c) ∧ Nullable G c
  | .unreachable choice branch => Occurs G choice ∧ ∃ i before after, choice = .choice i (before ++ branch :: after) ∧ after ≠ [] ∧ SureOk G branch

/-- What a diagnostic says. -/
def Diag.True (G : Grammar) (X : ExtSpec) : Diag → Prop
  | .leftRecursion r cycle => cycle.head? = some r ∧ LeftCycle G cycle
  | .neverSucceed e => NeverSucceeds G X e
  | .alwaysSucceed e => NeverFails G X e ∧ NeverConsumes G X e
  | .loopRepeat e => ∃ i c, (e = .star i c ∨ e = .plus i c) ∧ Nullable G c
  | .unreachable choice branch => ∃ i before after, choice = .choice i (before ++ branch :: after) ∧ after ≠ [] ∧ NeverFails G X branch

/-- The analysis ends without any error. -/
def Accepted (G : Grammar) : Prop := ∃ n m st, wellFormedness G n m = .ok st ∧ st.wellFormed = true

/-- The analysis ends with an error. -/
def Rejected (G : Grammar) : Prop := ∃ n m st, wellFormedness G n m = .ok st ∧ st.wellFormed = false

end Oak
