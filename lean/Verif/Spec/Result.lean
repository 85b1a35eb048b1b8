import Verif.Spec.External
import Verif.Spec.Scope
import Verif.Spec.Typed
import Verif.Spec.Resolved
import Verif.Model.Compiler
import Verif.Spec.Peg
/-!
# Specification: results of generated functions on string streams
-/
set_option autoImplicit false

namespace Oak
open Spec

/-- The code generator produced the program `fs` for the grammar `G` typed by `T`: code generation did not panic, the
generated code passes the scope checks of rustc, types are coherent, names are resolved. -/
structure Generated (G : Grammar) (T : Nat → Ty) (fs : List (FnRef × Fn)) : Prop where
  compiled : compileGrammar T G.rules = .ok fs
  scopes : (Program.mk fs).scopeOk = true
  coherent : G.coherent T = true
  resolved : G.resolved = true

/-- Positions on a string stream: byte offsets; spans are truncated to 32 bits (`as u32`, lib.rs:32-36). -/
def strSpans (input : List Char) : SpanSpec where
  pos r := blen input - blen r
  span a b := ((blen input - blen a) % 2 ^ 32, (blen input - blen b) % 2 ^ 32)

/-- The stream over `input` at the position where `r` remains. -/
def streamAt (ptr : Nat) (input r : List Char) : StrStream := ⟨ptr, input, blen input - blen r⟩

/-- A generated program that runs on the text `input` (stored at address `ptr`), with external functions `ext` that implement the
external rules `X`. -/
structure Deployed (G : Grammar) (T : Nat → Ty) (fs : List (FnRef × Fn))
    (ext : Nat → FnRef → PState StrStream Val → Res (PState StrStream Val)) (X : ExtSpec) (ptr : Nat) (input : List Char) : Prop where
  gen : Generated G T fs
  ext : ExtOk (StrStream.At ptr input) StrStream.rest ext G X
  fwd : X.Forward

/-- No external rule. -/
def noExt : ExtSpec := fun _ _ _ _ => False

/-- No external function. -/
def noFns : Nat → FnRef → PState StrStream Val → Res (PState StrStream Val) := fun _ _ _ => .timeout

/-- What `parse_r(state).into_result()` should return on `input` for a match with outcome `o` and failed terminals `L`. -/
def expectedResult (G : Grammar) (T : Nat → Ty) (e : Expr) (p : Bool) (ptr : Nat) (input : List Char) (L : Log) : Out → PResult StrStream Val
  | .fail => .failure (streamAt ptr input (farthest input L)) (expectedAt (farthest input L) L)
  | .ok s' t =>
    let d := tupleVal (if p then ast G T (strSpans input) e t else [])
    if s' = [] then .success d
    else .part d (streamAt ptr input (farthest input L)) (expectedAt (farthest input L) L)

/-- `into_state` on a fresh stream, one of the generated functions, then `into_result`. -/
def Program.parse {S : Type} (ops : StreamOps S) (ext : Nat → FnRef → PState S Val → Res (PState S Val)) (P : Program) (n : Nat) (f : FnRef)
    (s : S) : Res (PResult S Val) := do
  let st ← P.run ops ext n f (PState.new s)
  st.intoResult ops

/-- The call of `recognize_r` (`p = false`) or `parse_r` (`p = true`) on the text `input`, followed by `into_result`, returns `res`. -/
def Returns (ext : Nat → FnRef → PState StrStream Val → Res (PState StrStream Val)) (fs : List (FnRef × Fn)) (p : Bool) (r : String)
    (ptr : Nat) (input : List Char) (res : PResult StrStream Val) : Prop :=
  ∃ n, Program.parse StrStream.ops ext ⟨fs⟩ n ⟨p, [r]⟩ (StrStream.new ptr input) = .ok res

/-- The call of `recognize_r` or `parse_r` on a state returns a state. -/
def Steps (ext : Nat → FnRef → PState StrStream Val → Res (PState StrStream Val)) (fs : List (FnRef × Fn)) (p : Bool) (r : String)
    (st st' : PState StrStream Val) : Prop :=
  ∃ n, Program.run StrStream.ops ext ⟨fs⟩ n ⟨p, [r]⟩ st = .ok st'

/-- The call of `recognize_r` or `parse_r` on the state `st` succeeds, and `s'` remains to be read in the text `input`. -/
def StepsTo (ext : Nat → FnRef → PState StrStream Val → Res (PState StrStream Val)) (fs : List (FnRef × Fn)) (p : Bool) (r : String)
    (ptr : Nat) (input : List Char) (st : PState StrStream Val) (s' : List Char) : Prop :=
  ∃ st', Steps ext fs p r st st' ∧ st'.failed = false ∧ StrStream.At ptr input st'.cur ∧ st'.cur.rest = s'

/-- The call of `recognize_r` or `parse_r` on the state `st` fails. -/
def StepsFail (ext : Nat → FnRef → PState StrStream Val → Res (PState StrStream Val)) (fs : List (FnRef × Fn)) (p : Bool) (r : String)
    (st : PState StrStream Val) : Prop :=
  ∃ st', Steps ext fs p r st st' ∧ st'.failed = true

/-- The state made by `into_state` on a fresh stream. -/
def start (ptr : Nat) (input : List Char) : PState StrStream Val := PState.new (StrStream.new ptr input)

end Oak
