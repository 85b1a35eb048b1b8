import Verif.Spec.Peg
import Verif.Model.Code
import Verif.Spec.Stream
/-!
# Specification: behaviour of functions on parse states

What is assumed of the functions generated for the rules of another crate or written by hand (external rules), and the
relation between a PEG match and the parse states before and after a call.
-/
set_option autoImplicit false

namespace Oak
open Spec

/-- Effect of one failed terminal on the farthest position and the expectations. -/
def note (f : List Char × List String) (x : List Char × String) : List Char × List String :=
  if x.1.length < f.1.length then (x.1, [x.2])
  else if x.1.length = f.1.length then (f.1, f.2 ++ [x.2])
  else f

/-- Effect of a log on the farthest position and the expectations. -/
def track (f : List Char × List String) (L : Log) : List Char × List String := L.foldl note f

/-- A state from which a function can be called. -/
structure OkSt {σ : Type} (V : σ → Prop) (st : PState σ Val) : Prop where
  far : V st.far
  cur : V st.cur
  failed : st.failed = false
  data : st.data = none

/-- The streams stay valid and the errors are recorded. -/
structure After {σ : Type} (V : σ → Prop) (rest : σ → List Char) (st st' : PState σ Val) (L : Log) : Prop where
  far : V st'.far
  cur : V st'.cur
  track : (rest st'.far, st'.exp) = track (rest st.far, st.exp) L

/-- The state returned by a function call. -/
def FnRes {σ : Type} (V : σ → Prop) (rest : σ → List Char) (Q : Tree → Val → Prop) (st : PState σ Val) (L : Log) (st' : PState σ Val) : Out → Prop
  | .fail => st'.failed = true ∧ st'.data = none ∧ After V rest st st' L
  | .ok s' t => st'.failed = false ∧ rest st'.cur = s' ∧ (∃ d, st'.data = some d ∧ Q t d) ∧ After V rest st st' L

/-- External functions behave as the specification `X`; in `sound` they may not terminate. -/
structure ExtOk {σ : Type} (V : σ → Prop) (rest : σ → List Char) (ext : Nat → FnRef → PState σ Val → Res (PState σ Val))
    (G : Grammar) (X : ExtSpec) : Prop where
  sound : ∀ n p path st, (∀ r, path = [r] → G.find r = none) → OkSt V st → ext n ⟨p, path⟩ st = .timeout ∨
    ∃ o L st', ext n ⟨p, path⟩ st = .ok st' ∧ X path (rest st.cur) o L ∧
      FnRes V rest (fun t d => p = true → t = .ext d) st L st' o
  complete : ∀ p path s o L, (∀ r, path = [r] → G.find r = none) → X path s o L →
    ∃ n0, ∀ n, n0 ≤ n → ∀ st, OkSt V st → rest st.cur = s → ext n ⟨p, path⟩ st ≠ .timeout
  det : X.Det

end Oak
