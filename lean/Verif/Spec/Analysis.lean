import Verif.Spec.Chaining
import Verif.Spec.Resolved
import Verif.Model.Analysis
/-!
# Specification: the analysis phase
-/
set_option autoImplicit false

namespace Oak

mutual
/-- The expression as it is written: a call is the path of the rule, declared in the grammar or not. -/
def Expr.written (e : Expr) : Expr :=
  match e with
  | .nt i r => .ext i [r]
  | .str i l => .str i l
  | .any i => .any i
  | .cls i k => .cls i k
  | .ext i p => .ext i p
  | .seq i es => .seq i (writtenAll es)
  | .choice i es => .choice i (writtenAll es)
  | .star i e => .star i e.written
  | .plus i e => .plus i e.written
  | .opt i e => .opt i e.written
  | .not i e => .not i e.written
  | .and i e => .and i e.written
  | .act i e b f => .act i e.written b f
  | .asc i e t => .asc i e.written t
  | .span i e => .span i e.written
  | .range i e => .range i e.written
/-- The same for lists of expressions. -/
def writtenAll (es : List Expr) : List Expr :=
  match es with
  | [] => []
  | e :: es => e.written :: writtenAll es
end

/-- No call has been resolved yet, as in the expressions built by the front-end. -/
def Expr.Unresolved (e : Expr) : Prop := ∀ i r, ¬ Sub (.nt i r) e

/-- A name is declared by the rules of a grammar. -/
def Declared (rules : List (String × Expr)) (r : String) : Prop := r ∈ rules.map (·.1)

/-- `a` is at least as verbose as `b`. -/
def PrintLevel.rank : PrintLevel → Nat
  | .nothing => 0
  | .show => 1
  | .debug => 2

/-- The print level requested by an attribute. -/
def requested : Path → Option PrintLevel
  | ["debug_typing"] => some .debug
  | ["show_typing"] => some .show
  | _ => none

/-- Grammars built by the front-end: choices, sequences and character classes are not empty, calls are not resolved. -/
structure FGrammar.Built (F : FGrammar) : Prop where
  shaped : ∀ r ∈ F.rules, r.2.shaped = true
  filled : ∀ r ∈ F.rules, r.2.filled = true
  unresolved : ∀ r ∈ F.rules, r.2.Unresolved

end Oak
