import Verif.Spec.WellFormed
/-!
# Specification: the context-free reading of a grammar

Parsing expression grammars look like context-free grammars written with repetitions and options. Here they are read as such: the branches of a choice in any
order, as many repetitions as one wants, predicates ignored. Then the standard condition LL(1), with the characters that may start an expression and those that may follow it.
-/
set_option autoImplicit false

namespace Oak.Spec
open Oak

/-- `Derives G X e s s' t`: `t` is a derivation tree of `e`, in the context-free reading of the grammar, for the text read from `s` to `s'`. External rules read what `X` says. -/
inductive Derives (G : Grammar) (X : ExtSpec) : Expr → List Char → List Char → Tree → Prop where
  | str {i l s} : Derives G X (.str i l) (l.toList ++ s) s .leaf
  | any {i c s} : Derives G X (.any i) (c :: s) s (.chr c)
  | cls {i ivs c s} : InClass ivs c → Derives G X (.cls i ivs) (c :: s) s (.chr c)
  | nt {i r e s s' t} : G.find r = some e → Derives G X e s s' t → Derives G X (.nt i r) s s' (.nt t)
  | ext {i p s s' t L} : X p s (.ok s' t) L → Derives G X (.ext i p) s s' t
  | seq_nil {i s} : Derives G X (.seq i []) s s (.seq [])
  | seq_cons {i e es s s1 s' t ts} : Derives G X e s s1 t → Derives G X (.seq i es) s1 s' (.seq ts) → Derives G X (.seq i (e :: es)) s s' (.seq (t :: ts))
  /-- Any branch. -/
  | choice {i es k e s s' t} : es[k]? = some e → Derives G X e s s' t → Derives G X (.choice i es) s s' (.alt k t)
  /-- Any number of times. -/
  | star_nil {i e s} : Derives G X (.star i e) s s (.rep [])
  | star_cons {i e s s1 s' t ts} : Derives G X e s s1 t → Derives G X (.star i e) s1 s' (.rep ts) → Derives G X (.star i e) s s' (.rep (t :: ts))
  | plus {i e s s1 s' t ts} : Derives G X e s s1 t → Derives G X (.star i e) s1 s' (.rep ts) → Derives G X (.plus i e) s s' (.rep (t :: ts))
  | opt_none {i e s} : Derives G X (.opt i e) s s .none
  | opt_some {i e s s' t} : Derives G X e s s' t → Derives G X (.opt i e) s s' (.some t)
  /-- Predicates are ignored. -/
  | not {i e s} : Derives G X (.not i e) s s .leaf
  | and {i e s} : Derives G X (.and i e) s s .leaf
  | act {i e b f s s' t} : Derives G X e s s' t → Derives G X (.act i e b f) s s' (.act t)
  | asc {i e ty s s' t} : Derives G X e s s' t → Derives G X (.asc i e ty) s s' (.asc t)
  | span {i e s s' t} : Derives G X e s s' t → Derives G X (.span i e) s s' (.spanned s s' t)
  | range {i e s s' t} : Derives G X e s s' t → Derives G X (.range i e) s s' (.spanned s s' t)

/-- `c` is the first character of some text of `e`. -/
def Starts (G : Grammar) (X : ExtSpec) (e : Expr) (c : Char) : Prop := ∃ s s' t, Derives G X e (c :: s) s' t ∧ s' ≠ c :: s

/-- The empty text is a text of `e`. -/
def MayBeEmpty (G : Grammar) (X : ExtSpec) (e : Expr) : Prop := ∃ s t, Derives G X e s s t

/-- `CanFollow G X r e o`: the character `o` may come just after a text of `e` in a text of the rule `r`; `none` is the end of the text. -/
inductive CanFollow (G : Grammar) (X : ExtSpec) (r0 : String) : Expr → Option Char → Prop where
  | start {e} : G.find r0 = some e → CanFollow G X r0 e none
  | nt {i r e o} : CanFollow G X r0 (.nt i r) o → G.find r = some e → CanFollow G X r0 e o
  | seq_next {i before e after c} : Occurs G (.seq i (before ++ e :: after)) → Starts G X (.seq i after) c → CanFollow G X r0 e (some c)
  | seq_last {i before e after o} : CanFollow G X r0 (.seq i (before ++ e :: after)) o → MayBeEmpty G X (.seq i after) → CanFollow G X r0 e o
  | choice {i es e o} : CanFollow G X r0 (.choice i es) o → e ∈ es → CanFollow G X r0 e o
  | star {i e o} : CanFollow G X r0 (.star i e) o → CanFollow G X r0 e o
  | star_again {i e c} : Occurs G (.star i e) → Starts G X e c → CanFollow G X r0 e (some c)
  | plus {i e o} : CanFollow G X r0 (.plus i e) o → CanFollow G X r0 e o
  | plus_again {i e c} : Occurs G (.plus i e) → Starts G X e c → CanFollow G X r0 e (some c)
  | opt {i e o} : CanFollow G X r0 (.opt i e) o → CanFollow G X r0 e o
  | act {i e b f o} : CanFollow G X r0 (.act i e b f) o → CanFollow G X r0 e o
  | asc {i e ty o} : CanFollow G X r0 (.asc i e ty) o → CanFollow G X r0 e o
  | span {i e o} : CanFollow G X r0 (.span i e) o → CanFollow G X r0 e o
  | range {i e o} : CanFollow G X r0 (.range i e) o → CanFollow G X r0 e o

/-- One character of lookahead is enough to choose: LL(1), for the texts of the rule `r`. -/
structure LL1 (G : Grammar) (X : ExtSpec) (r : String) : Prop where
  /-- Two branches of a choice do not start with the same character, nor one with a character that may follow the choice when the other may be empty. -/
  choice : ∀ i es, Occurs G (.choice i es) → ∀ (j k : Nat) x y, j < k → es[j]? = some x → es[k]? = some y → ∀ c, Starts G X x c →
    ¬ Starts G X y c ∧ ¬ (MayBeEmpty G X y ∧ CanFollow G X r (.choice i es) (some c))
  /-- What is repeated or optional does not start with a character that may come after it. -/
  star : ∀ i e, Occurs G (.star i e) → ∀ c, Starts G X e c → ¬ CanFollow G X r (.star i e) (some c)
  plus : ∀ i e, Occurs G (.plus i e) → ∀ c, Starts G X e c → ¬ CanFollow G X r (.plus i e) (some c)
  opt : ∀ i e, Occurs G (.opt i e) → ∀ c, Starts G X e c → ¬ CanFollow G X r (.opt i e) (some c)
  /-- What is optional cannot be empty: otherwise the empty text has two derivations. -/
  absent : ∀ i e, Occurs G (.opt i e) → ¬ MayBeEmpty G X e

/-- There are no predicates in the grammar. -/
def NoPredicates (G : Grammar) : Prop := ∀ i e, ¬ Occurs G (.not i e) ∧ ¬ Occurs G (.and i e)

/-- Every expression of the grammar has a text. -/
def Productive (G : Grammar) (X : ExtSpec) : Prop := ∀ e, Occurs G e → ∃ s s' t, Derives G X e s s' t

/-- The expressions of the actions read something. -/
def ActionsRead (G : Grammar) (X : ExtSpec) : Prop := ∀ i e b f, Occurs G (.act i e b f) → ¬ MayBeEmpty G X e

end Oak.Spec
