import Verif.Spec.Result
/-!
# Specification: the same grammar with other functions

A grammar of Oak is separated from what is computed from it: `e > f` names a function, `e: T` a type, `calc2::number` a rule of another module. Here: what it means that
two grammars are the same but for the functions, for the types that are written, and for rules that are called in other modules; and that two values are built alike, each by
its own functions.
-/
set_option autoImplicit false

namespace Oak
open Spec

/-- The value of `e > f` (of `e > box f` if `b`) when `e` gives the values `vs`; `u` tells that `e` gives no value, and then `f` can be a variant without arguments. -/
def called (u b : Bool) (f : Path) (vs : List Val) : Val :=
  let call := if isVariant f && u then Val.path f else .app f vs
  if b then .box call else call

/-- Which function takes the place of which: `K u b f b' f'` says that `e > f'` replaces `e > f` (`box f` and `box f'` if `b` and `b'`), where `u` tells that `e` gives no
value. -/
abbrev Restyling := Bool → Bool → Path → Bool → Path → Prop

/-- The values are built alike: where a function was called for the first one, the function that takes its place was called for the second one. The values of external
rules are in `E`. -/
inductive ValStyle (K : Restyling) (E : Val → Prop) : Val → Val → Prop where
  | chr {c} : ValStyle K E (.chr c) (.chr c)
  | tup {vs vs' : List Val} : vs.length = vs'.length → (∀ (k : Nat) v v', vs[k]? = some v → vs'[k]? = some v' → ValStyle K E v v') → ValStyle K E (.tup vs) (.tup vs')
  | list {vs vs' : List Val} : vs.length = vs'.length → (∀ (k : Nat) v v', vs[k]? = some v → vs'[k]? = some v' → ValStyle K E v v') → ValStyle K E (.list vs) (.list vs')
  | none : ValStyle K E .none .none
  | some {v v'} : ValStyle K E v v' → ValStyle K E (.some v) (.some v')
  | span {a b} : ValStyle K E (.span a b) (.span a b)
  | range {a b} : ValStyle K E (.range a b) (.range a b)
  | call {u b f b' f'} {vs vs' : List Val} : K u b f b' f' → vs.length = vs'.length → (∀ (k : Nat) v v', vs[k]? = some v → vs'[k]? = some v' → ValStyle K E v v') →
      ValStyle K E (called u b f vs) (called u b' f' vs')
  | ext {v} : E v → ValStyle K E v v

/-- The same for lists of values. -/
def ValsStyle (K : Restyling) (E : Val → Prop) (vs vs' : List Val) : Prop :=
  vs.length = vs'.length ∧ ∀ (k : Nat) v v', vs[k]? = some v → vs'[k]? = some v' → ValStyle K E v v'

/-- The results are the same, but for the functions that built the value. -/
def ResultStyle {S : Type} (K : Restyling) (E : Val → Prop) : PResult S Val → PResult S Val → Prop
  | .success d, .success d' => ValStyle K E d d'
  | .part d far exp, .part d' far' exp' => ValStyle K E d d' ∧ far' = far ∧ exp' = exp
  | .failure far exp, .failure far' exp' => far' = far ∧ exp' = exp
  | _, _ => False

/-- Both expressions give values, or neither does. -/
def Level (T T' : Nat → Ty) (i j : Nat) : Prop := T i = .unit ↔ T' j = .unit

/-- `Restyled K R ρ T T' e e'`: the expressions are written alike but for the functions, related by `K`, for the types written, for the names of the rules, related by `R`, and
for calls of rules that became calls of rules of other modules, as `ρ` tells. They give values at the same places. -/
inductive Restyled (K : Restyling) (R : String → String → Prop) (ρ : String → Path → Prop) (T T' : Nat → Ty) : Expr → Expr → Prop where
  | str {i j l} : Restyled K R ρ T T' (.str i l) (.str j l)
  | any {i j} : Level T T' i j → Restyled K R ρ T T' (.any i) (.any j)
  | cls {i j l} : Level T T' i j → Restyled K R ρ T T' (.cls i l) (.cls j l)
  | nt {i j r r'} : Level T T' i j → R r r' → Restyled K R ρ T T' (.nt i r) (.nt j r')
  | ext {i j p} : Level T T' i j → Restyled K R ρ T T' (.ext i p) (.ext j p)
  | link {i j r p} : Level T T' i j → ρ r p → Restyled K R ρ T T' (.nt i r) (.ext j p)
  | seq_nil {i j} : Level T T' i j → Restyled K R ρ T T' (.seq i []) (.seq j [])
  | seq_cons {i j e e' es es'} : Restyled K R ρ T T' e e' → Restyled K R ρ T T' (.seq i es) (.seq j es') → Restyled K R ρ T T' (.seq i (e :: es)) (.seq j (e' :: es'))
  | choice_nil {i j} : Level T T' i j → Restyled K R ρ T T' (.choice i []) (.choice j [])
  | choice_cons {i j e e' es es'} : Restyled K R ρ T T' e e' → Restyled K R ρ T T' (.choice i es) (.choice j es') →
      Restyled K R ρ T T' (.choice i (e :: es)) (.choice j (e' :: es'))
  | star {i j e e'} : Level T T' i j → Restyled K R ρ T T' e e' → Restyled K R ρ T T' (.star i e) (.star j e')
  | plus {i j e e'} : Level T T' i j → Restyled K R ρ T T' e e' → Restyled K R ρ T T' (.plus i e) (.plus j e')
  | opt {i j e e'} : Level T T' i j → Restyled K R ρ T T' e e' → Restyled K R ρ T T' (.opt i e) (.opt j e')
  | not {i j e e'} : Restyled K R ρ T T' e e' → Restyled K R ρ T T' (.not i e) (.not j e')
  | and {i j e e'} : Restyled K R ρ T T' e e' → Restyled K R ρ T T' (.and i e) (.and j e')
  | act {i j e e' u b b' f f'} : Level T T' i j → Restyled K R ρ T T' e e' → Level T T' e.id e'.id → decide (T e.id = .unit) = u → K u b f b' f' →
      Restyled K R ρ T T' (.act i e b f) (.act j e' b' f')
  | asc {i j e e' t t'} : Level T T' i j → Restyled K R ρ T T' e e' → Restyled K R ρ T T' (.asc i e t) (.asc j e' t')
  /-- A type is written in the second grammar only. -/
  | typed {j e e' t} : Level T T' e.id j → Restyled K R ρ T T' e e' → Restyled K R ρ T T' e (.asc j e' t)
  | span {i j e e'} : Level T T' i j → Restyled K R ρ T T' e e' → Restyled K R ρ T T' (.span i e) (.span j e')
  | range {i j e e'} : Level T T' i j → Restyled K R ρ T T' e e' → Restyled K R ρ T T' (.range i e) (.range j e')

/-- The outcomes of expressions that are the same but for the functions. -/
def OutStyle (K : Restyling) (E : Val → Prop) (vals vals' : Tree → List Val) : Out → Out → Prop
  | .fail, .fail => True
  | .ok s t, .ok s' t' => s' = s ∧ ValsStyle K E (vals t) (vals' t')
  | _, _ => False

/-- The rules related by `R` are the same but for the functions; the external rules of the first grammar are those of the second one, with values in `E`; and the rules of the
first grammar that `ρ` relates to external rules of the second one are the same but for the functions. -/
structure RestyledBy (K : Restyling) (E : Val → Prop) (R : String → String → Prop) (ρ : String → Path → Prop) (T T' : Nat → Ty) (sp : SpanSpec)
    (G : Grammar) (X : ExtSpec) (G' : Grammar) (X' : ExtSpec) : Prop where
  rules : ∀ r r', R r r' → ∃ b b', G.find r = some b ∧ G'.find r' = some b' ∧ Restyled K R ρ T T' b b'
  exts : ∀ p s o L, X p s o L → X' p s o L
  vals : ∀ p s s' v L, X p s (.ok s' (.ext v)) L → E v
  links : ∀ r p, ρ r p → ∃ b, G.find r = some b ∧ ∀ s o L, Peg G X b s o L → ∃ o', X' p s o' L ∧
    match o, o' with
    | .fail, .fail => True
    | .ok s1 t, .ok s2 (.ext v) => s2 = s1 ∧ ValsStyle K E (ast G T sp b t) [v]
    | _, _ => False

end Oak
