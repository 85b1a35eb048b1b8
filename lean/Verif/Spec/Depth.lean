import Verif.Spec.WellFormed
import Verif.Spec.External
/-!
How deep the calls of a parser nest (C58).
-/
set_option autoImplicit false

namespace Oak
open Spec

/-- `Nested G X e s l`: while `e` is matched at position `s`, the rules of `l` are being matched one inside the other,
each one at the position given beside it. -/
inductive Nested (G : Grammar) (X : ExtSpec) : Expr → List Char → List (String × List Char) → Prop where
  | nil {e s} : Nested G X e s []
  | cons {e s q s' b l} : Calls G X q s' e s → G.find q = some b → Nested G X b s' l → Nested G X e s ((q, s') :: l)

/-- The external functions called by the grammar return when they are given the fuel `N`. -/
def ExtWithin {σ : Type} (V : σ → Prop) (ext : Nat → FnRef → PState σ Val → Res (PState σ Val)) (G : Grammar) (N : Nat) : Prop :=
  ∀ i path, Occurs G (.ext i path) → ∀ p n, N ≤ n → ∀ st, OkSt V st → ext n ⟨p, path⟩ st ≠ .timeout

end Oak
