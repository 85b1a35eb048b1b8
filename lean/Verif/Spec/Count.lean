import Verif.Spec.Result
/-!
# Specification: counting the calls of functions

`Program.count` runs a generated program as `Program.run` does, and adds one entry to the ghost record each time a function is called: a recognizer, a parser or an external
function. The calls of user functions are already in this record. So its length is the number of calls of all functions.
-/
set_option autoImplicit false

namespace Oak

/-- One more call. -/
def PState.tick {S D : Type} (st : PState S D) : PState S D := { st with calls := st.calls ++ [.tup []] }

/-- `Program.run`, where each call of a function is recorded. -/
def Program.count {S : Type} (ops : StreamOps S) (ext : Nat → FnRef → PState S Val → Res (PState S Val)) (P : Program) :
    Nat → FnRef → PState S Val → Res (PState S Val)
  | 0, _, _ => .timeout
  | n + 1, f, st =>
    match P.find f with
    | some fn => evalFn ops (Program.count ops ext P n) n fn st.tick
    | none => ext n f st.tick

/-- A call of `recognize_r` or `parse_r` on a text calls this number of functions: generated ones (itself included), external ones and user functions. -/
def CallsOf (ext : Nat → FnRef → PState StrStream Val → Res (PState StrStream Val)) (fs : List (FnRef × Fn)) (p : Bool) (r : String) (ptr : Nat) (input : List Char) (k : Nat) : Prop :=
  ∃ n st, Program.count StrStream.ops ext ⟨fs⟩ n ⟨p, [r]⟩ (start ptr input) = .ok st ∧ st.calls.length = k

/-- External functions do not read the ghost record, and do not write it. -/
def BlindExt {S : Type} (ext : Nat → FnRef → PState S Val → Res (PState S Val)) : Prop :=
  ∀ n f st cs, ext n f { st with calls := cs } = (ext n f st >>= fun st' => .ok { st' with calls := cs })

end Oak
