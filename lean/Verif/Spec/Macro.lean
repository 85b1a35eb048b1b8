import Verif.Model.Macro
import Verif.Spec.Typing
import Verif.Spec.Result
import Verif.Spec.WellFormed
/-!
# Specification: the macro as a whole
-/
set_option autoImplicit false

namespace Oak
open Spec

/-- `A`, with `k` expressions, is given to the typing phase for the tokens `ts`. -/
def Analysed (ts : List Tok) (A : AGrammar) (k : Nat) : Prop :=
  ∃ n F B ms, parseBlocks n 0 ts = .ok (F, k) ∧ analysisPhase n n F = .ok (.value B, ms) ∧ A = extractStream B

/-- The conditions under which accepted grammars are proved to be compiled correctly: recursion goes through semantic actions or type ascriptions, and no
choice has both a branch of unknown type and a branch that gives several values. -/
structure AGrammar.Regular (A : AGrammar) : Prop where
  rec_ : A.grammar.NoSeenRec
  mixed : A.Unmixed

/-- For large bounds the macro gives `x`. -/
def Expands (ts : List Tok) (x : Res Expansion) : Prop := ∃ N, ∀ n, N ≤ n → oak n ts = x

end Oak
