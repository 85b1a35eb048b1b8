import Verif.Model.Ast
import Verif.Model.ParseState
/-!
The fragment of Rust in which the back-end writes the generated functions (the templates of
`src/liboak/back/compiler/*.rs` and `src/liboak/back/context.rs`), with its evaluation.

Simplifications.
* The variable `state` is linear in the templates: every expression of type `ParseState` moves it, and
  `state = e;`, `let state = e;` and `let mut state = e;` rebind it to the value of `e`.  It is therefore modelled by one register
  threaded through the evaluation instead of a variable.
* Types are not modelled: `ParseState<S, T>` carries a `Val` for every `T`.
* Moves and borrows play no part in the evaluation (`clone()` is the identity; see `Spec/Ownership.lean` for them); `&mut x` arguments of closures are copied in and out.
-/
set_option autoImplicit false

namespace Oak

/-- Identifiers made by the name factory (back/name_factory.rs:50-101) and the two fixed identifiers of the templates,
`x` (character_class.rs:20-22) and `is_success` (syntactic_predicate.rs:50).
`var p i` is the `i`-th variable of the `p`-th prefix. -/
inductive Name where
  | var (p i : Nat)
  | mark (n : Nat)
  | branchFailed (n : Nat)
  | counter (n : Nat)
  | x
  | isSuccess
deriving Repr, DecidableEq

/-- Conditions on a character, back/compiler/character_class.rs:50-71. -/
inductive CharCond where
  | eq (lo : Char)
  | between (lo hi : Char)
  | or (a b : CharCond)
deriving Repr, DecidableEq

/-- Evaluation of a character condition. -/
def CharCond.eval (c : Char) : CharCond → Bool
  | .eq lo => c == lo
  | .between lo hi => decide (lo ≤ c) && decide (c ≤ hi)
  | .or a b => a.eval c || b.eval c

/-- Value expressions of the templates. -/
inductive VEx where
  | tup (vs : List Name)                 -- `(v1, ..., vn)`, value.rs:20-23
  | call (f : Path) (args : List Name)   -- `f(v1, ..., vn)`, semantic_action.rs:61
  | path (f : Path)                      -- `F`, semantic_action.rs:58
  | box (v : VEx)                        -- `Box::new(v)`, semantic_action.rs:64
  | range (m : Name)                     -- `Range { start: m.clone(), end: state.mark() }`, spanned_expr.rs:38-40
  | span (m : Name)                      -- `(Range { .. }).stream_span()`, spanned_expr.rs:41-43
deriving Repr, DecidableEq

/-- A reference to a generated function: `recognize_p` or `parse_p` (name_factory.rs:18-39). -/
structure FnRef where
  parser : Bool
  path : Path
deriving Repr, DecidableEq

/-- Statements of the templates. -/
inductive Stmt where
  | letMark (m : Name)               -- `let [mut] m = state.mark();`
  | setMark (m : Name)               -- `m = state.mark();`
  | letVal (r : Name) (v : VEx)      -- `let r = v;`
  | letNone (r : Name)               -- `let mut r = None;`
  | letVec (r : Name)                -- `let mut r = vec![];`
  | letTrue (b : Name)               -- `let mut b = true;`
  | letZero (c : Name)               -- `let mut c = 0;`
  | letIsSuccess                     -- `let is_success = state.is_successful();`
  | setSome (r : Name) (v : VEx)     -- `r = Some(v);`
  | push (r : Name) (v : VEx)        -- `r.push(v);`
  | setFalse (b : Name)              -- `b = false;`
  | restoreFailed (clone : Bool) (m : Name) -- `state = state.restore_from_failure(m.clone());` (choice.rs:80) or `.. (m);` (repeat.rs:68, 87)
  | restore (m : Name)               -- `state = state.restore(m);`
  | ifFailedRestore (m : Name)       -- `if state.is_failed() { state = state.restore_from_failure(m); }`
  | error (s : String)               -- `state.error(s);`
  | discard                          -- `state.discard_data();`
  | call (f : FnRef)                 -- `state = f(state);` / `let stateful = f(state);`
  | extract (vs : List Name)         -- `let (stateless, (v1, .., vn)) = stateful.extract_data(); state = stateless;`
  | fail                             -- `state = stateful.failure();`
deriving Repr, DecidableEq

/-- Boolean conditions of the templates. -/
inductive Cond where
  | isSuccessful                     -- `state.is_successful()`
  | var (b : Name)                   -- `b`
  | lt (c : Name) (n : Nat)          -- `c < n`
deriving Repr, DecidableEq

/-- Expressions of type `ParseState`. -/
inductive Ex where
  | st                                                          -- `state`
  | success (v : VEx)                                           -- `state.success(v)`
  | failure                                                     -- `state.failure()`
  | call (k : Nat) (muts vars marks : List Name)                -- `success_continuation_k(state, &mut m.., v.., mark.clone()..)`
  | stmt (s : Stmt) (e : Ex)                                    -- `{ s e }`
  | bind (e : Ex) (k : Ex)                                      -- `{ state = e; k }`, `{ let state = e; k }`
  | loop (body : Ex) (c : Option Name) (m : Name) (k : Ex)      -- `{ loop { state = body; if state.is_successful() { c += 1; m = state.mark(); } else { break; } } k }`
  | ite (c : Cond) (a b : Ex)                                   -- `if c { a } else { b }`
  | ifPrefix (lit : String) (a b : Ex)                          -- `if state.consume_prefix(lit) { a } else { b }`
  | matchNext (p : Option Name) (a b : Ex)                      -- `match state.next() { Some(p) => { a } None => { b } }`
  | matchClass (p : Name) (c : CharCond) (a b : Ex)             -- `match state.next() { Some(p) if c => { a } _ => { b } }`
deriving Repr, DecidableEq

/-- `let success_continuation_k = |mut state, m: &mut T.., v: _.., mark: S..| body;` (context.rs:158). -/
structure Closure where
  name : Nat
  muts : List Name
  vars : List Name
  marks : List Name
  body : Ex
deriving Repr, DecidableEq

/-- A generated function: its closures in order, and its body (context.rs:72-85). -/
structure Fn where
  closures : List Closure
  body : Ex
deriving Repr, DecidableEq

/-- Content of a variable. -/
inductive EV (S : Type) where
  | mark (s : S)
  | val (v : Val)
  | bool (b : Bool)
  | nat (n : Nat)

/-- Environments of local variables. -/
abbrev Env (S : Type) := Name → Option (EV S)

namespace Env
variable {S : Type}

/-- No variable. -/
def empty : Env S := fun _ => none

/-- Bind or assign one variable. -/
def set (env : Env S) (x : Name) (v : Option (EV S)) : Env S := fun y => if y = x then v else env y

/-- Bind a list of variables. -/
def setMany (env : Env S) : List Name → List (Option (EV S)) → Env S
  | x :: xs, v :: vs => (env.set x v).setMany xs vs
  | _, _ => env

/-- Leave the block that declared `xs`: they get back their outer meaning. -/
def restore (env old : Env S) (xs : List Name) : Env S := fun y => if y ∈ xs then old y else env y

/-- Read a mark. -/
def getMark (env : Env S) (x : Name) : Res S :=
  match env x with
  | some (.mark s) => .ok s
  | _ => .stuck

/-- Read a value. -/
def getVal (env : Env S) (x : Name) : Res Val :=
  match env x with
  | some (.val v) => .ok v
  | _ => .stuck

/-- Read several values. -/
def getVals (env : Env S) : List Name → Res (List Val)
  | [] => .ok []
  | x :: xs => do
    let v ← env.getVal x
    let vs ← env.getVals xs
    .ok (v :: vs)

/-- Read a boolean. -/
def getBool (env : Env S) (x : Name) : Res Bool :=
  match env x with
  | some (.bool b) => .ok b
  | _ => .stuck

/-- Read a counter. -/
def getNat (env : Env S) (x : Name) : Res Nat :=
  match env x with
  | some (.nat b) => .ok b
  | _ => .stuck

end Env

/-- Destructuring `(v1, ..., vn)` of a value with `n` variables (value.rs:25-28): a single variable takes the whole value. -/
def untuple (n : Nat) (v : Val) : Res (List Val) :=
  if n = 1 then .ok [v]
  else match v with
    | .tup vs => if vs.length = n then .ok vs else .stuck
    | _ => .stuck

section eval
variable {S : Type} (ops : StreamOps S) (fns : FnRef → PState S Val → Res (PState S Val))

/-- Evaluation of value expressions. -/
def evalV (env : Env S) (st : PState S Val) : VEx → Res Val
  | .tup vs => do .ok (tupleVal (← env.getVals vs))
  | .call f args => do .ok (.app f (← env.getVals args))
  | .path f => .ok (.path f)
  | .box v => do .ok (.box (← evalV env st v))
  | .range m => do
    let lo ← env.getMark m
    let hi ← st.mark
    .ok (.range (ops.pos lo) (ops.pos hi))
  | .span m => do
    let lo ← env.getMark m
    let hi ← st.mark
    .ok (.span (ops.span lo hi).1 (ops.span lo hi).2)

/-- The calls of user functions made when a value expression is evaluated, given its value. -/
def VEx.calls : VEx → Val → List Val
  | .call _ _, w => [w]
  | .box v, .box w => v.calls w
  | _, _ => []

/-- The ghost record of these calls. -/
def PState.called {D : Type} (st : PState S D) (v : VEx) (w : Val) : PState S D := { st with calls := st.calls ++ v.calls w }

/-- Variables declared by a statement (in scope until the end of the enclosing block). -/
def Stmt.binds : Stmt → List Name
  | .letMark m => [m]
  | .letVal r _ => [r]
  | .letNone r => [r]
  | .letVec r => [r]
  | .letTrue b => [b]
  | .letZero c => [c]
  | .letIsSuccess => [.isSuccess]
  | .extract vs => vs
  | _ => []

/-- Execution of a statement. -/
def exec (env : Env S) (st : PState S Val) : Stmt → Res (Env S × PState S Val)
  | .letMark m | .setMark m => do .ok (env.set m (some (.mark (← st.mark))), st)
  | .letVal r v => do
    let w ← evalV ops env st v
    .ok (env.set r (some (.val w)), st.called v w)
  | .letNone r => .ok (env.set r (some (.val .none)), st)
  | .letVec r => .ok (env.set r (some (.val (.list []))), st)
  | .letTrue b => .ok (env.set b (some (.bool true)), st)
  | .letZero c => .ok (env.set c (some (.nat 0)), st)
  | .letIsSuccess => .ok (env.set .isSuccess (some (.bool st.isSuccessful)), st)
  | .setSome r v => do
    let w ← evalV ops env st v
    .ok (env.set r (some (.val (.some w))), st.called v w)
  | .push r v => do
    let w ← evalV ops env st v
    match ← env.getVal r with
    | .list vs => .ok (env.set r (some (.val (.list (vs ++ [w])))), st.called v w)
    | _ => .stuck
  | .setFalse b => .ok (env.set b (some (.bool false)), st)
  | .restoreFailed _ m => do .ok (env, ← st.restoreFromFailure (← env.getMark m))
  | .restore m => do .ok (env, ← st.restore (← env.getMark m))
  | .ifFailedRestore m => do
    if st.isFailed then .ok (env, ← st.restoreFromFailure (← env.getMark m)) else .ok (env, st)
  | .error s => do .ok (env, ← st.error ops s)
  | .discard => .ok (env, st.discardData)
  | .call f => do .ok (env, ← fns f st)
  | .extract vs => do
    let (st', d) ← st.extractData
    let ws ← untuple vs.length d
    .ok (env.setMany vs (ws.map fun w => some (.val w)), st')
  | .fail => .ok (env, st.failure)

/-- Evaluation of conditions. -/
def evalCond (env : Env S) (st : PState S Val) : Cond → Res Bool
  | .isSuccessful => .ok st.isSuccessful
  | .var b => env.getBool b
  | .lt c n => do .ok (decide ((← env.getNat c) < n))

/-- What a closure does: from the contents of its `&mut`, value and mark arguments and the state, to the final contents of the
`&mut` arguments and the resulting state. -/
abbrev Denot (S : Type) :=
  List (Option (EV S)) → List (Option (EV S)) → List (Option (EV S)) → PState S Val →
    Res (List (Option (EV S)) × PState S Val)

/-- `c += 1` when there is a counter. -/
def bump (env : Env S) : Option Name → Res (Env S)
  | some c => do .ok (env.set c (some (.nat ((← env.getNat c) + 1))))
  | none => .ok env

/-- One turn of `loop { state = body; if state.is_successful() { c += 1; m = state.mark(); } else { break; } }`, iterated at
most `n` times. -/
def iterate (body : Env S → PState S Val → Res (Env S × PState S Val)) (c : Option Name) (m : Name) :
    Nat → Env S → PState S Val → Res (Env S × PState S Val)
  | 0, _, _ => .timeout
  | n + 1, env, st => do
    let (env, st) ← body env st
    if st.isSuccessful then do
      let env ← bump env c
      let s ← st.mark
      iterate body c m n (env.set m (some (.mark s))) st
    else .ok (env, st)

/-- Evaluation of an expression; `K` gives the closures in scope, `fuel` bounds the iterations of each loop. -/
def evalEx (fuel : Nat) (K : Nat → Option (Denot S)) : Ex → Env S → PState S Val → Res (Env S × PState S Val)
  | .st, env, st => .ok (env, st)
  | .success v, env, st => do
    let w ← evalV ops env st v
    .ok (env, (st.called v w).success w)
  | .failure, env, st => .ok (env, st.failure)
  | .call k muts vars marks, env, st =>
    match K k with
    | some d => do
      let (ms, st') ← d (muts.map env) (vars.map env) (marks.map env) st
      .ok (env.setMany muts ms, st')
    | none => .stuck
  | .stmt s e, env, st => do
    let (env1, st1) ← exec ops fns env st s
    let (env2, st2) ← evalEx fuel K e env1 st1
    .ok (env2.restore env s.binds, st2)
  | .bind e k, env, st => do
    let (env1, st1) ← evalEx fuel K e env st
    evalEx fuel K k env1 st1
  | .loop body c m k, env, st => do
    let (env1, st1) ← iterate (evalEx fuel K body) c m fuel env st
    evalEx fuel K k env1 st1
  | .ite c a b, env, st => do
    if ← evalCond env st c then evalEx fuel K a env st else evalEx fuel K b env st
  | .ifPrefix lit a b, env, st => do
    let (r, st1) ← st.consumePrefix ops lit
    if r then evalEx fuel K a env st1 else evalEx fuel K b env st1
  | .matchNext p a b, env, st => do
    let (r, st1) ← st.next ops
    match r with
    | some c =>
      match p with
      | some x => do
        let (env2, st2) ← evalEx fuel K a (env.set x (some (.val (.chr c)))) st1
        .ok (env2.restore env [x], st2)
      | none => evalEx fuel K a env st1
    | none => evalEx fuel K b env st1
  | .matchClass x cond a b, env, st => do
    let (r, st1) ← st.next ops
    match r with
    | some c =>
      if cond.eval c then do
        let (env2, st2) ← evalEx fuel K a (env.set x (some (.val (.chr c)))) st1
        .ok (env2.restore env [x], st2)
      else evalEx fuel K b env st1
    | none => evalEx fuel K b env st1

/-- A closure: its body sees only its parameters. -/
def closureDenot (fuel : Nat) (K : Nat → Option (Denot S)) (c : Closure) : Denot S :=
  fun ms vs ks st => do
    let env := ((Env.empty.setMany c.muts ms).setMany c.vars vs).setMany c.marks ks
    let (env', st') ← evalEx ops fns fuel K c.body env st
    .ok (c.muts.map env', st')

/-- The closures in scope after a list of closure declarations. -/
def closuresEnv (fuel : Nat) : List Closure → (Nat → Option (Denot S)) → Nat → Option (Denot S)
  | [], K => K
  | c :: cs, K =>
    closuresEnv fuel cs (fun k => if k = c.name then some (closureDenot ops fns fuel K c) else K k)

/-- Call of a generated function. -/
def evalFn (fuel : Nat) (f : Fn) (st : PState S Val) : Res (PState S Val) := do
  let (_, st') ← evalEx ops fns fuel (closuresEnv ops fns fuel f.closures (fun _ => none)) f.body Env.empty st
  .ok st'

end eval

/-- A generated module: for every rule its recognizer and its parser (back/compiler/rule.rs:26-32). -/
structure Program where
  fns : List (FnRef × Fn)
deriving Repr

/-- Name resolution of a call: the first generated function of that name. -/
def Program.find (P : Program) (f : FnRef) : Option Fn := (P.fns.find? (·.1 == f)).map (·.2)

/-- Running a generated program: `n` bounds the depth of calls and the iterations of each loop.
Functions that are not generated are external (`ext`, which may itself need some fuel). -/
def Program.run {S : Type} (ops : StreamOps S) (ext : Nat → FnRef → PState S Val → Res (PState S Val)) (P : Program) :
    Nat → FnRef → PState S Val → Res (PState S Val)
  | 0, _, _ => .timeout
  | n + 1, f, st =>
    match P.find f with
    | some fn => evalFn ops (Program.run ops ext P n) n fn st
    | none => ext n f st

end Oak
