import Verif.Spec.Peg
/-!
# Specification: PEG operators

Independent descriptions of the operators, in terms of the matches of their operands.
-/
set_option autoImplicit false

namespace Oak.Spec
open Oak

/-- `e` matches at `s` and leaves `s'`. -/
def Matches (G : Grammar) (X : ExtSpec) (e : Expr) (s s' : List Char) : Prop := ∃ t L, Peg G X e s (.ok s' t) L

/-- `e` does not match at `s`. -/
def Fails (G : Grammar) (X : ExtSpec) (e : Expr) (s : List Char) : Prop := ∃ L, Peg G X e s .fail L

/-- The position where a match stops, if it succeeds. -/
def Out.stop : Out → Option (List Char)
  | .fail => none
  | .ok s _ => some s

/-- Matching `e` at `s` stops at `x` (`none` if it fails), after trying in vain the terminals of `L`. -/
def Outcome (G : Grammar) (X : ExtSpec) (e : Expr) (s : List Char) (x : Option (List Char)) (L : Log) : Prop :=
  ∃ o, Peg G X e s o L ∧ o.stop = x

/-- Some branch matches, and all the branches before it fail at the same position. -/
def FirstMatch (G : Grammar) (X : ExtSpec) (es : List Expr) (s s' : List Char) : Prop :=
  ∃ before e after, es = before ++ e :: after ∧ (∀ b ∈ before, Fails G X b s) ∧ Matches G X e s s'

/-- `k` successive matches of `e` lead from `s` to `s'`. -/
inductive Chain (G : Grammar) (X : ExtSpec) (e : Expr) : Nat → List Char → List Char → Prop where
  | zero {s} : Chain G X e 0 s s
  | succ {k s s1 s2} : Matches G X e s s1 → Chain G X e k s1 s2 → Chain G X e (k + 1) s s2

/-- The matches of the elements of a sequence follow each other. -/
inductive Follow (G : Grammar) (X : ExtSpec) : List Expr → List Char → List Char → Prop where
  | nil {s} : Follow G X [] s s
  | cons {e es s s1 s2} : Matches G X e s s1 → Follow G X es s1 s2 → Follow G X (e :: es) s s2

/-- The spans of a tree, from left to right. -/
def Tree.spans : Tree → List (List Char × List Char)
  | .leaf | .chr _ | .ext _ | .none => []
  | .nt t | .alt _ t | .some t | .act t | .asc t => t.spans
  | .seq ts | .rep ts => ts.flatMap Tree.spans
  | .spanned lo hi t => (lo, hi) :: t.spans

mutual
/-- Is there no span in the expression? -/
def _root_.Oak.Expr.noSpan : Expr → Bool
  | .str _ _ | .any _ | .cls _ _ | .nt _ _ | .ext _ _ => true
  | .seq _ es | .choice _ es => noSpanAll es
  | .star _ e | .plus _ e | .opt _ e | .not _ e | .and _ e | .act _ e _ _ | .asc _ e _ => e.noSpan
  | .span _ _ | .range _ _ => false
/-- Is there no span in the expressions? -/
def _root_.Oak.noSpanAll : List Expr → Bool
  | [] => true
  | e :: es => e.noSpan && noSpanAll es
end

mutual
/-- Is there neither `!` nor external rule in the expression? -/
def _root_.Oak.Expr.positive : Expr → Bool
  | .str _ _ | .any _ | .cls _ _ | .nt _ _ => true
  | .ext _ _ | .not _ _ => false
  | .seq _ es | .choice _ es => positiveAll es
  | .star _ e | .plus _ e | .opt _ e | .and _ e | .act _ e _ _ | .asc _ e _ | .span _ e | .range _ e => e.positive
/-- Is there neither `!` nor external rule in the expressions? -/
def _root_.Oak.positiveAll : List Expr → Bool
  | [] => true
  | e :: es => e.positive && positiveAll es
end

end Oak.Spec
