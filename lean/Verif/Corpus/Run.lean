import Verif.Model.Macro
import Verif.Spec.Result
import Verif.Spec.Refs
import Verif.Corpus.Grammars
/-!
Running the model on the test-suite of the repository (`tests/testoak.rs`, `data/test`): see `scripts/corpus.py` and `CONFORMANCE.md`.
-/
set_option autoImplicit false

namespace Oak

/-- The functions that the model generates for a grammar of the corpus; `n` bounds the recursion. -/
def generatedFor (n : Nat) (ts : List Tok) : List (FnRef × Fn) :=
  match oak n ts with
  | .ok (.code _ _ _ _ fs) => fs
  | _ => []

/-- Calls of functions of other modules: only `calc2` is called by another grammar. -/
def corpusExt (n : Nat) (f : FnRef) (st : PState StrStream Val) : Res (PState StrStream Val) :=
  match f.path with
  | ["calc2", r] => Program.run StrStream.ops noFns ⟨generatedFor 300 Corpus.calc2Grammar⟩ n ⟨f.parser, [r]⟩ st
  | _ => .stuck

/-- `test_input`, tests/testoak.rs:240-252: 0 for a full match, 1 for a partial match, 2 for an error, 3 when the model stops otherwise. -/
def outcome (fs : List (FnRef × Fn)) (p : Bool) (r : String) (input : String) : Nat :=
  match Program.parse StrStream.ops corpusExt ⟨fs⟩ (200 + 3 * input.length) ⟨p, [r]⟩ (StrStream.new 0 input.toList) with
  | .ok (.success ..) => 0
  | .ok (.part ..) => 1
  | .ok (.failure ..) => 2
  | _ => 3

/-- Runs the cases (name of the file, rule, expected outcome, text). -/
def runCases (g : String) (ts : List Tok) (cases : List (String × String × Nat × String)) : IO Unit := do
  let fs := generatedFor 300 ts
  let mut bad := 0
  for (file, r, expected, input) in cases do
    for p in [false, true] do
      let o := outcome fs p r input
      if o ≠ expected then
        bad := bad + 1
        IO.println s!"{g} {file} parser={p}: expected {expected}, got {o}"
  IO.println s!"{g}: {fs.length} functions, {cases.length} inputs, {bad} differences"

/-- The kind of a message. -/
def Msg.kind : Msg → String
  | .noRule => "no rule"
  | .duplicateRule _ => "duplicate rule"
  | .duplicateFn _ => "duplicate function"
  | .wellFormed (.leftRecursion _ _) => "left recursion"
  | .wellFormed (.neverSucceed _) => "never succeed"
  | .wellFormed (.alwaysSucceed _) => "always succeed, never consume"
  | .wellFormed (.loopRepeat _) => "loop repeat"
  | .wellFormed (.unreachable ..) => "unreachable branch"
  | .chain w => "useless chaining (" ++ w.pattern ++ " -> " ++ w.rewrite ++ ")"
  | .unknownAttr => "unknown attribute"

/-- Prints what the macro does with a grammar. -/
def report (g : String) (ts : List Tok) : IO Unit := do
  let r := match oak 300 ts with
    | .ok .syntaxError => "syntax error"
    | .ok (.analysisError ms) => s!"rejected: {ms.map Msg.kind}"
    | .ok (.typingError _ _) => "typing error"
    | .ok (.code ms _ _ _ _) => s!"accepted {ms.map Msg.kind}"
    | _ => "panic"
  IO.println s!"{g}\n      => {r}"

end Oak
