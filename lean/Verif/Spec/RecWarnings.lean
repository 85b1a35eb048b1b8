import Verif.Spec.Typing
/-!
# Specification: the warnings about recursive types

The type of a rule depends on those of the rules whose calls are seen (`Expr.seenCalls`); a cycle of such calls is a recursive type.
-/
set_option autoImplicit false

namespace Oak

/-- The type of the rule `a` depends on that of the rule `b`. -/
def Grammar.Sees (G : Grammar) (a b : String) : Prop := ∃ body, G.find a = some body ∧ b ∈ body.seenCalls

/-- Different rules such that the type of each one depends on that of the next one, and the type of the last one on that of the first one. -/
structure Grammar.TypeCycle (G : Grammar) (p : List String) : Prop where
  ne : p ≠ []
  nodup : p.Nodup
  next : ∀ i (h : i + 1 < p.length), G.Sees p[i] p[i + 1]
  last : G.Sees (p.getLast ne) (p.head ne)

/-- A warning about these rules is among the messages. -/
def Warns (ms : List TMsg) (p : List String) : Prop := TMsg.recursive p ∈ ms

/-- Expressions that always have data. -/
def Expr.HasData : Expr → Prop
  | .any _ | .cls _ _ | .ext _ _ | .range _ _ | .asc _ _ (.regular (.rust _)) => True
  | _ => False

end Oak
