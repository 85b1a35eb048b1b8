import Verif.Model.Front
import Verif.Model.Typing
import Verif.Model.Compiler
/-!
Model of the macro `oak!`: `src/liboak/lib.rs` and `src/liboak/middle/mod.rs`.
-/
set_option autoImplicit false

namespace Oak

/-- What the expansion of the macro gives, with the messages of the analysis phase and of the typing phase. An error message makes the compilation fail, even
when code is generated. -/
inductive Expansion where
  /-- `parse_macro_input!` gives a compilation error, lib.rs:37. -/
  | syntaxError
  /-- `ensure` panics with "aborting due to previous error (analysis phase).", middle/mod.rs:31. -/
  | analysisError (ms : List Msg)
  /-- `expect` panics with "aborting due to previous error (typing phase).", middle/mod.rs:34. -/
  | typingError (ms : List Msg) (us : List TMsg)
  /-- The generated functions, lib.rs:41. -/
  | code (ms : List Msg) (us : List TMsg) (A : AGrammar) (T : Nat → Ty) (fs : List (FnRef × Fn))

/-- The end of `typecheck`, middle/mod.rs:32-34, and the back-end, lib.rs:41: `extract_stream_type`, the typing phase and the code generation, for an arena of
`k` expressions. -/
def typeAndCompile (n k : Nat) (A : AGrammar) (ms : List Msg) : Res Expansion := do
  let (p, us) ← typeInference A k n n
  match p with
  | .value T =>
    match compileGrammar T A.grammar.rules with
    | .ok fs => .ok (.code ms us A T fs)
    | .error _ => .panic
  | _ => .ok (.typingError ms us)

/-- `typecheck`, middle/mod.rs:27-36, and the back-end. -/
def checkAndCompile (n k : Nat) (F : FGrammar) : Res Expansion := do
  let (p, ms) ← analysisPhase n n F
  match p with
  | .value A => typeAndCompile n k (extractStream A) ms
  | _ => .ok (.analysisError ms)

/-- `oak`, lib.rs:36-42; `n` bounds the recursion of all the phases. -/
def oak (n : Nat) (ts : List Tok) : Res Expansion :=
  match parseBlocks n 0 ts with
  | .ok (F, k) => checkAndCompile n k F
  | .stuck => .ok .syntaxError
  | .panic => .panic
  | .timeout => .timeout

end Oak
