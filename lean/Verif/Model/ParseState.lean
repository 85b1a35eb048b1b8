import Verif.Model.Stream
import Verif.Model.Ast
/-!
Model of `runtime/src/parse_state.rs`.
-/
set_option autoImplicit false

namespace Oak

/-- `ParseState<S, T>`, parse_state.rs:117-128.  `calls` is not in the code: it is a ghost field that no function reads, the calls of user
functions made so far by the generated code, in order (C17). -/
structure PState (S : Type) (D : Type) where
  far : S
  exp : List String
  failed : Bool
  cur : S
  data : Option D
  calls : List Val
deriving Repr

/-- `ParseResult<S, T>` (parse_state.rs:84-89) with `ParseExpectation` (parse_state.rs:37-41) as a pair:
the `HashSet` of expected items is kept as the list it is built from. -/
inductive PResult (S : Type) (D : Type) where
  | success (d : D)
  | part (d : D) (far : S) (exp : List String)
  | failure (far : S) (exp : List String)
deriving Repr, DecidableEq

namespace PState
variable {S D E : Type}

/-- `ParseState::new`, parse_state.rs:134-142. -/
def new (s : S) : PState S D := ⟨s, [], false, s, none, []⟩

/-- `ParseState::is_failed`, parse_state.rs:144-146. -/
def isFailed (st : PState S D) : Bool := st.failed

/-- `ParseState::is_successful`, parse_state.rs:148-150. -/
def isSuccessful (st : PState S D) : Bool := !st.isFailed

/-- `ParseState::error`, parse_state.rs:153-162. -/
def error (ops : StreamOps S) (st : PState S D) (e : String) : Res (PState S D) := do
  let st := { st with failed := true }
  match ← ops.cmp st.cur st.far with
  | .gt => .ok { st with far := st.cur, exp := [e] }
  | .eq => .ok { st with exp := st.exp ++ [e] }
  | .lt => .ok st

/-- `ParseState::success`, parse_state.rs:166-174. -/
def success (st : PState S D) (d : E) : PState S E := ⟨st.far, st.exp, false, st.cur, some d, st.calls⟩

/-- `ParseState::failure`, parse_state.rs:177-185. -/
def failure (st : PState S D) : PState S E := ⟨st.far, st.exp, true, st.cur, none, st.calls⟩

/-- `ParseState::mark`, parse_state.rs:187-190. -/
def mark (st : PState S D) : Res S := do
  Res.assert (!st.failed)
  .ok st.cur

/-- `ParseState::restore`, parse_state.rs:197-206. -/
def restore (st : PState S D) (m : S) : Res (PState S E) := do
  Res.assert st.data.isNone
  .ok ⟨st.far, st.exp, false, m, none, st.calls⟩

/-- `ParseState::restore_from_failure`, parse_state.rs:192-195. -/
def restoreFromFailure (st : PState S D) (m : S) : Res (PState S E) := do
  Res.assert st.failed
  st.restore m

/-- `ParseState::into_result`, parse_state.rs:209-225. -/
def intoResult (ops : StreamOps S) (st : PState S D) : Res (PResult S D) :=
  match st.data with
  | some d => if ops.hasNext st.cur then .ok (.part d st.far st.exp) else .ok (.success d)
  | none => do
    Res.assert st.failed
    .ok (.failure st.far st.exp)

/-- `ParseState::extract_data`, parse_state.rs:227-239. -/
def extractData (st : PState S D) : Res (PState S E × D) :=
  if st.isSuccessful then
    match st.data with
    | some d => .ok (⟨st.far, st.exp, st.failed, st.cur, none, st.calls⟩, d)
    | none => .panic
  else .panic

/-- `ParseState::unwrap_data`, parse_state.rs:241-243. -/
def unwrapData (st : PState S D) : Res D :=
  match st.data with
  | some d => .ok d
  | none => .panic

/-- `ParseState::<S, ()>::discard_data`, parse_state.rs:249-251. -/
def discardData (st : PState S D) : PState S D := { st with data := none }

/-- `Iterator::next` on a state, parse_state.rs:254-262. -/
def next (ops : StreamOps S) (st : PState S D) : Res (Option Char × PState S D) := do
  let (c, s) ← ops.next st.cur
  .ok (c, { st with cur := s })

/-- `consume_prefix` on a state, parse_state.rs:264-269. -/
def consumePrefix (ops : StreamOps S) (p : String) (st : PState S D) : Res (Bool × PState S D) := do
  let (b, s) ← ops.consumePrefix p st.cur
  .ok (b, { st with cur := s })

end PState
end Oak
