import Verif.Model.Macro
/-!
Model of the expansion of the macro: `src/liboak/back/compiler/grammar.rs`, `src/liboak/back/compiler/rule.rs`, `src/liboak/back/context.rs:50-100` and
`src/liboak/back/name_factory.rs:18-39`.
-/
set_option autoImplicit false

namespace Oak

/-- `modify_path`, name_factory.rs:18-23: a prefix is added to the last segment of the path. -/
def modifyPath (pre : String) : Path → Path
  | [] => []
  | [x] => [pre ++ "_" ++ x]
  | x :: p => x :: modifyPath pre p

/-- `parser_name` and `recognizer_name`, name_factory.rs:25-31: the path that is written where a rule is called. -/
def FnRef.callPath (f : FnRef) : Path := modifyPath (if f.parser then "parse" else "recognize") f.path

/-- `parser_id`, name_factory.rs:33-35. -/
def parserId (r : String) : String := "parse_" ++ r

/-- `recognizer_id`, name_factory.rs:37-39. -/
def recognizerId (r : String) : String := "recognize_" ++ r

/-- A generated function with its signature, context.rs:72-85:
`#[inline] pub fn name (mut? state: ParseState<Stream, ()>) -> ParseState<Stream, ty> { closures body }`; `stream` is the alias it uses (with its generics). -/
structure GenFn where
  name : String
  stream : String
  mutState : Bool
  ty : RTy
  fn : Fn

/-- The items of the expansion. -/
inductive MItem where
  /-- `#[allow(unused_imports)] use path;`, grammar.rs:43-48. -/
  | use (path : String)
  /-- An item of the user, or the alias of the stream. -/
  | user (i : Item)
  /-- A generated function. -/
  | gen (f : GenFn)

/-- A panic of the code generation is a panic of the macro. -/
def orPanic {α : Type} : Except String α → Res α
  | .ok a => .ok a
  | .error _ => .panic

/-- `compile_recognizer`, rule.rs:41-50, and `into_recognizer_function`, context.rs:52-55. -/
def recognizerItem (A : AGrammar) (T : Nat → Ty) (r : String) (e : Expr) : Res GenFn := do
  let f ← orPanic (compileRecognizer T e)
  .ok ⟨recognizerId r, A.streamAlias, true, .unit, f⟩

/-- `compile_parser`, rule.rs:52-69, `into_parser_alias` and `into_parser_function`, context.rs:57-70; `n` bounds the depth of the announced type. -/
def parserItem (n : Nat) (A : AGrammar) (T : Nat → Ty) (r : String) (e : Expr) : Res GenFn := do
  let f ← orPanic (compileParser T r e)
  if T e.id = .unit then .ok ⟨parserId r, A.streamAlias, false, .unit, f⟩
  else do
    let t ← compileType T n e.id
    .ok ⟨parserId r, A.streamAlias, true, t, f⟩

/-- `compile_rules`, grammar.rs:62-66, and `RuleCompiler::compile`, rule.rs:26-32. -/
def ruleItems (n : Nat) (A : AGrammar) (T : Nat → Ty) : List (String × Expr) → Res (List GenFn)
  | [] => .ok []
  | (r, e) :: rs => do
    let a ← recognizerItem A T r e
    let b ← parserItem n A T r e
    let rest ← ruleItems n A T rs
    .ok (a :: b :: rest)

/-- `compile_mod_content` and `compile_grammar_module`, grammar.rs:40-60. The functions of the user are in a hash map: `us` are its values, in any order. -/
def compileModule (n : Nat) (A : AGrammar) (T : Nat → Ty) (us : List RustFn) : Res (List MItem) := do
  let fs ← ruleItems n A T A.grammar.rules
  .ok ([.use "oak_runtime::stream::*", .use "oak_runtime::str_stream::StrStream", .use "std::ops::Range"] ++
    A.items.map .user ++ fs.map .gen ++ us.map fun f => .user (.fn f))

end Oak
