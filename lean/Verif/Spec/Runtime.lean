import Verif.Model.ParseState
import Verif.Spec.Stream
/-!
# Specification: histories of calls on streams and states
-/
set_option autoImplicit false

namespace Oak

/-- `n` calls of `next()`: what they return, and the stream after them. -/
def readMany : Nat → StrStream → Res (List (Option Char) × StrStream)
  | 0, s => .ok ([], s)
  | n + 1, s => do
    let (c, s) ← s.next
    let (cs, s) ← readMany n s
    .ok (c :: cs, s)

/-- A call that moves a stream. -/
inductive StreamCall where
  | next
  | consume (p : String)

/-- The effect of a history of calls on a stream. -/
def callMany : List StreamCall → StrStream → Res StrStream
  | [], s => .ok s
  | .next :: cs, s => do
    let (_, s) ← s.next
    callMany cs s
  | .consume p :: cs, s => do
    let (_, s) ← s.consumePrefix p
    callMany cs s

/-- A history of calls of `error` on a state, each one with the cursor on some stream. -/
def errorMany {D : Type} : List (StrStream × String) → PState StrStream D → Res (PState StrStream D)
  | [], st => .ok st
  | (s, e) :: h, st => do
    let st ← PState.error StrStream.ops { st with cur := s } e
    errorMany h st

end Oak
