import Verif.Model.Compiler
import Verif.Spec.Peg
/-!
A direct-style interpreter of expressions over the runtime model: the intermediate semantics between the generated
(continuation-passing) code and the specification.
-/
set_option autoImplicit false

namespace Oak
section
variable {S : Type} (ops : StreamOps S) (fns : FnRef → PState S Val → Res (PState S Val))


/-- Iterations of a repetition: number of successful turns, last mark, values, and the failed state. -/
def runLoop (body : PState S Val → Res (Option (List Val) × PState S Val)) : Nat → Nat → S → List Val → PState S Val →
    Res (Nat × S × List Val × PState S Val)
  | 0, _, _, _, _ => .timeout
  | n + 1, k, m, vs, st => do
    let (r, st') ← body st
    match r with
    | some ws =>
      if st'.isSuccessful then do
        let s ← st'.mark
        runLoop body n (k + 1) s (vs ++ [tupleVal ws]) st'
      else .ok (k, m, vs ++ [tupleVal ws], st')
    | none =>
      if st'.isSuccessful then do
        let s ← st'.mark
        runLoop body n (k + 1) s vs st'
      else .ok (k, m, vs, st')

def runCall (T : Nat → Ty) (p : Bool) (i : Nat) (path : Path) (st : PState S Val) : Res (Option (List Val) × PState S Val) :=
  if p && T i ≠ .unit then do
    let st ← fns ⟨true, path⟩ st
    if st.isSuccessful then do
      let (st, d) ← (st.extractData : Res (PState S Val × Val))
      let ws ← untuple (T i).card d
      .ok (some ws, st)
    else .ok (none, st.failure)
  else do
    let st ← fns ⟨false, path⟩ st
    if st.isSuccessful then .ok (some [], st.discardData)
    else .ok (none, st.failure)

def runRepeat (n : Nat) (plus p : Bool) (body : PState S Val → Res (Option (List Val) × PState S Val)) (st : PState S Val) : Res (Option (List Val) × PState S Val) := do
  let m ← st.mark
  let (k, m, vs, st) ← runLoop body n 0 m [] st
  if plus && decide (k < 1) then .ok (none, st.failure)
  else do
    let st : PState S Val ← st.restoreFromFailure m
    .ok (some (if p then [.list vs] else []), st)

def restoreIf (st : PState S Val) (m : S) : Res (PState S Val) := if st.isFailed then st.restoreFromFailure m else .ok st

def runOpt (p : Bool) (body : PState S Val → Res (Option (List Val) × PState S Val)) (st : PState S Val) : Res (Option (List Val) × PState S Val) := do
  let m ← st.mark
  let (r, st) ← body st
  let st ← restoreIf st m
  .ok (some (if p then [match r with | some ws => .some (tupleVal ws) | none => .none] else []), st)

def runPred (neg : Bool) (body : PState S Val → Res (Option (List Val) × PState S Val)) (st : PState S Val) : Res (Option (List Val) × PState S Val) := do
  let m ← st.mark
  let (_, st) ← body st
  let ok := st.isSuccessful
  let st : PState S Val ← st.restore m
  if ok != neg then .ok (some [], st) else .ok (none, st.failure)

def actVal (boxed : Bool) (f : Path) (unitChild : Bool) (args : List Val) : Val :=
  let call := if Spec.isVariant f && unitChild then Val.path f else .app f args
  if boxed then .box call else call

/-- The calls of user functions made by an action. -/
def actCalls (f : Path) (unitChild : Bool) (args : List Val) : List Val :=
  if Spec.isVariant f && unitChild then [] else [.app f args]

mutual
def run (T : Nat → Ty) (n : Nat) (p : Bool) (e : Expr) (st : PState S Val) : Res (Option (List Val) × PState S Val) :=
  match e with
  | .str _ lit => do
    let (r, st) ← st.consumePrefix ops lit
    if r then .ok (some [], st)
    else do
      let st : PState S Val ← st.error ops lit
      .ok (none, st.failure)
  | .any i => do
    let (r, st) ← st.next ops
    match r with
    | some c => .ok (some (if p && T i ≠ .unit then [.chr c] else []), st)
    | none => do
      let st : PState S Val ← st.error ops "<character>"
      .ok (none, st.failure)
  | .cls i ivs => do
    let m ← st.mark
    let (r, st) ← st.next ops
    match r.filter (fun c => ivs.any fun iv => iv.lo ≤ c ∧ c ≤ iv.hi) with
    | some c => .ok (some (if p && T i ≠ .unit then [.chr c] else []), st)
    | none => do
      let st : PState S Val ← st.restore m
      let st : PState S Val ← st.error ops (classDesc ivs)
      .ok (none, st.failure)
  | .nt i r => runCall fns T p i [r] st
  | .ext i path => runCall fns T p i path st
  | .seq i es => runSeq T n (p && T i ≠ .unit) es st
  | .choice i es => do
    let m ← st.mark
    runBranches T n (p && T i ≠ .unit) m es st
  | .star i e => let p := p && T i ≠ .unit
    runRepeat n false p (run T n p e) st
  | .plus i e => let p := p && T i ≠ .unit
    runRepeat n true p (run T n p e) st
  | .opt i e => let p := p && T i ≠ .unit
    runOpt p (run T n p e) st
  | .not _ e => runPred true (run T n false e) st
  | .and _ e => runPred false (run T n false e) st
  | .act i e boxed f =>
    if p && T i ≠ .unit then do
      let (r, st) ← run T n true e st
      match r with
      | some ws => .ok (some [actVal boxed f (T e.id = .unit) ws], { st with calls := st.calls ++ actCalls f (T e.id = .unit) ws })
      | none => .ok (none, st)
    else run T n false e st
  | .asc i e _ => run T n (p && T i ≠ .unit) e st
  | .span i e =>
    if p && T i ≠ .unit then do
      let lo ← st.mark
      let (r, st) ← run T n true e st
      match r with
      | some ws => do
        let hi ← st.mark
        .ok (some (.span (ops.span lo hi).1 (ops.span lo hi).2 :: ws), st)
      | none => .ok (none, st)
    else run T n false e st
  | .range i e =>
    if p && T i ≠ .unit then do
      let lo ← st.mark
      let (r, st) ← run T n true e st
      match r with
      | some ws => do
        let hi ← st.mark
        .ok (some (.range (ops.pos lo) (ops.pos hi) :: ws), st)
      | none => .ok (none, st)
    else run T n false e st
def runSeq (T : Nat → Ty) (n : Nat) (p : Bool) (es : List Expr) (st : PState S Val) : Res (Option (List Val) × PState S Val) :=
  match es with
  | [] => .ok (some [], st)
  | e :: es => do
    let (r, st) ← run T n p e st
    match r with
    | none => .ok (none, st)
    | some vs => do
      let (r, st) ← runSeq T n p es st
      match r with
      | none => .ok (none, st)
      | some ws => .ok (some (vs ++ ws), st)
def runBranches (T : Nat → Ty) (n : Nat) (p : Bool) (m : S) (es : List Expr) (st : PState S Val) : Res (Option (List Val) × PState S Val) :=
  match es with
  | [] => .ok (none, st)
  | e :: es => do
    let (r, st) ← run T n p e st
    match r with
    | some vs => .ok (some vs, st)
    | none =>
      if es.isEmpty then .ok (none, st)
      else do
        let st : PState S Val ← st.restoreFromFailure m
        runBranches T n p m es st
end

end
end Oak
