import Verif.Model.WellFormed
import Verif.Model.Chaining
/-!
Model of the analysis phase: `src/liboak/middle/mod.rs`, `src/liboak/middle/analysis/{mod,duplicate,resolve_non_terminal,attribute,ast}.rs`.

A phase returns a `Partial` and emits messages (`Diagnostic::emit`), which are collected in a list. `Partial` is an external crate (version
0.2, not in the repository): its behaviour here is the documented one.
-/
set_option autoImplicit false

namespace Oak

/-- `partial::Partial`: a result, a result built in spite of errors, or nothing. -/
inductive Partial (α : Type) where
  | value (a : α)
  | fake (a : α)
  | nothing
deriving Repr, DecidableEq

namespace Partial
variable {α β : Type}

/-- `Partial::map`. -/
def map (f : α → β) : Partial α → Partial β
  | value a => value (f a)
  | fake a => fake (f a)
  | nothing => nothing

/-- How `Partial::and_then` marks the result of the second phase when the first one gave a `Fake`. -/
def demote : Partial β → Partial β
  | value b => fake b
  | p => p

end Partial

/-- `syn::ReturnType`. -/
inductive RetTy where
  | default
  | ty (t : String)
deriving Repr, DecidableEq

/-- `syn::ItemFn`: the name and the return type. -/
structure RustFn where
  name : String
  ret : RetTy
deriving Repr, DecidableEq

/-- `syn::Item`: functions, type aliases and the other items. -/
inductive Item where
  | fn (f : RustFn)
  | alias (name : String) (text : String)
  | other (text : String)
deriving Repr, DecidableEq

/-- `FGrammar`, front/ast.rs:17-25: what the front-end reads. An attribute is kept as its path. -/
structure FGrammar where
  rules : List (String × Expr)
  items : List Item
  attrs : List Path

/-- `PrintLevel`, analysis/ast.rs:43-49. -/
inductive PrintLevel where
  | debug
  | show
  | nothing
deriving Repr, DecidableEq

/-- `PrintLevel::merge`, analysis/ast.rs:53-61. -/
def PrintLevel.merge (a b : PrintLevel) : PrintLevel :=
  match a, b with
  | .nothing, .debug | .show, .debug => .debug
  | .nothing, .show => .show
  | _, _ => .nothing

/-- `AGrammar`, ast.rs:40-50 and analysis/ast.rs:21. -/
structure AGrammar where
  grammar : Grammar
  functions : List (String × RustFn)
  items : List Item
  streamAlias : String
  printTyping : PrintLevel

/-- The messages of the analysis phase. -/
inductive Msg where
  | noRule                        -- middle/mod.rs:40-42
  | duplicateRule (name : String) -- duplicate.rs:87-92
  | duplicateFn (name : String)
  | wellFormed (d : Diag)         -- well_formedness.rs
  | chain (w : Warning)           -- useless_chaining.rs:112-120
  | unknownAttr                   -- attribute.rs:24-28

/-- `error` or `warning`, at the lines above. -/
def Msg.isError : Msg → Bool
  | .noRule | .duplicateRule _ | .duplicateFn _ | .wellFormed _ => true
  | .chain _ | .unknownAttr => false

/-- A phase: its result and the messages it emits. -/
abbrev Phase (α : Type) := Res (Partial α × List Msg)

/-- `Partial::and_then`: the second phase is run on a `Value` or a `Fake`; after a `Fake` the result is at best a `Fake`. -/
def Phase.andThen {α β : Type} (x : Phase α) (f : α → Phase β) : Res (Partial β × List Msg) := do
  let (p, ms) ← x
  match p with
  | .value a => do
    let (q, ms2) ← f a
    .ok (q, ms ++ ms2)
  | .fake a => do
    let (q, ms2) ← f a
    .ok (q.demote, ms ++ ms2)
  | .nothing => .ok (.nothing, ms)

/-- State of `DuplicateItem::populate`, duplicate.rs:68-84: retained items and names of the reported duplicates. -/
def populate {α : Type} (name : α → String) (items : List (String × α)) (dups : List String) : List α → List (String × α) × List String
  | [] => (items, dups)
  | x :: xs =>
    if items.any fun y => y.1 == name x then populate name items (dups ++ [name x]) xs
    else populate name (items ++ [(name x, x)]) dups xs

/-- `DuplicateItem::analyse` and `make`, duplicate.rs:57-66 and 94-101. -/
def duplicates {α : Type} (name : α → String) (xs : List α) : Partial (List (String × α)) × List String :=
  let (items, dups) := populate name [] [] xs
  (if dups.isEmpty then .value items else .fake items, dups)

/-- `AGrammar::new`, ast.rs:54-68. -/
def AGrammar.new : AGrammar := ⟨⟨[]⟩, [], [], "StrStream", .nothing⟩

/-- `rule_duplicate`, duplicate.rs:20-27. -/
def ruleDuplicate (A : AGrammar) (rules : List (String × Expr)) : Phase AGrammar :=
  let (p, dups) := duplicates (·.1) rules
  .ok (p.map fun rs => { A with grammar := ⟨rs.map (·.2)⟩ }, dups.map .duplicateRule)

/-- The functions among the items, duplicate.rs:31-40. -/
def splitFns : List Item → List RustFn × List Item
  | [] => ([], [])
  | .fn f :: is => (f :: (splitFns is).1, (splitFns is).2)
  | i :: is => ((splitFns is).1, i :: (splitFns is).2)

/-- `rust_functions_duplicate`, duplicate.rs:29-47. -/
def functionsDuplicate (A : AGrammar) (items : List Item) : Phase AGrammar :=
  let (p, dups) := duplicates RustFn.name (splitFns items).1
  .ok (p.map fun fs => { A with functions := fs, items := (splitFns items).2 }, dups.map .duplicateFn)

mutual
/-- `ResolveNonTerminal`, resolve_non_terminal.rs:44-58, through `walk_expr`, visitor.rs:102-155. Paths are segments only. -/
def resolveExpr (names : List String) (e : Expr) : Expr :=
  match e with
  | .str i l => .str i l
  | .any i => .any i
  | .cls i k => .cls i k
  | .nt i r => .nt i r
  | .ext i p => match p with
    | [r] => if names.contains r then .nt i r else .ext i p
    | _ => .ext i p
  | .seq i es => .seq i (resolveAll names es)
  | .choice i es => .choice i (resolveAll names es)
  | .star i e => .star i (resolveExpr names e)
  | .plus i e => .plus i (resolveExpr names e)
  | .opt i e => .opt i (resolveExpr names e)
  | .not i e => .not i (resolveExpr names e)
  | .and i e => .and i (resolveExpr names e)
  | .act i e b f => .act i (resolveExpr names e) b f
  | .asc i e t => .asc i (resolveExpr names e) t
  | .span i e => .span i (resolveExpr names e)
  | .range i e => .range i (resolveExpr names e)
/-- `walk_exprs`, visitor.rs:157-161. -/
def resolveAll (names : List String) (es : List Expr) : List Expr :=
  match es with
  | [] => []
  | e :: es => resolveExpr names e :: resolveAll names es
end

/-- `ResolveNonTerminal::resolve`, resolve_non_terminal.rs:28-35. -/
def resolveGrammar (G : Grammar) : Grammar := ⟨G.rules.map fun r => (r.1, resolveExpr (G.rules.map (·.1)) r.2)⟩

/-- The same as a phase. -/
def resolvePhase (A : AGrammar) : Phase AGrammar := .ok (.value { A with grammar := resolveGrammar A.grammar }, [])

/-- `WellFormedness::analyse`, well_formedness.rs:68-74. -/
def wellFormedPhase (n m : Nat) (A : AGrammar) : Res (Partial AGrammar × List Msg) := do
  let st ← wellFormedness A.grammar n m
  .ok (if st.wellFormed then .value A else .nothing, st.diags.reverse.map .wellFormed)

/-- `UselessChaining::analyse`, useless_chaining.rs:63-66. -/
def chainPhase (n : Nat) (A : AGrammar) : Res (Partial AGrammar × List Msg) := do
  let ws ← chaining A.grammar n
  .ok (.value A, ws.map .chain)

/-- `merge_grammar_attributes` and `merge_grammar_attr`, attribute.rs:30-54. -/
def mergeAttrs (lvl : PrintLevel) : List Path → PrintLevel × List Msg
  | [] => (lvl, [])
  | ["debug_typing"] :: as => mergeAttrs (lvl.merge .debug) as
  | ["show_typing"] :: as => mergeAttrs (lvl.merge .show) as
  | _ :: as => ((mergeAttrs lvl as).1, .unknownAttr :: (mergeAttrs lvl as).2)

/-- `decorate_with_attributes`, attribute.rs:17-22. -/
def attributesPhase (attrs : List Path) (A : AGrammar) : Phase AGrammar :=
  .ok (.value { A with printTyping := (mergeAttrs A.printTyping attrs).1 }, (mergeAttrs A.printTyping attrs).2)

/-- `analyse`, analysis/mod.rs:32-43; `n` bounds the depth of calls and `m` the number of passes. -/
def analyse (n m : Nat) (F : FGrammar) : Phase AGrammar :=
  Phase.andThen (Phase.andThen (Phase.andThen (Phase.andThen (Phase.andThen (ruleDuplicate .new F.rules)
    fun A => functionsDuplicate A F.items) resolvePhase) (wellFormedPhase n m)) (chainPhase n)) (attributesPhase F.attrs)

/-- `at_least_one_rule_declared`, middle/mod.rs:38-47. -/
def atLeastOneRule (F : FGrammar) : Phase FGrammar := .ok (if F.rules.isEmpty then (.nothing, [.noRule]) else (.value F, []))

/-- The first alias named `Stream` among the items, middle/mod.rs:54-64. -/
def findStream : List Item → Option String
  | [] => none
  | .alias n t :: is => if n == "Stream" then some t else findStream is
  | _ :: is => findStream is

/-- `extract_stream_type`, middle/mod.rs:50-77. -/
def extractStream (A : AGrammar) : AGrammar :=
  match findStream A.items with
  | some t => { A with streamAlias := t }
  | none => { A with items := A.items ++ [.alias "Stream" A.streamAlias] }

/-- The analysis phase of `typecheck`, middle/mod.rs:28-34: `ensure` panics unless the result is a `Value`. -/
def analysisPhase (n m : Nat) (F : FGrammar) : Phase AGrammar := Phase.andThen (atLeastOneRule F) (analyse n m)

end Oak
