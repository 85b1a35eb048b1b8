import Verif.Model.Analysis
import Verif.Model.Texts
/-!
The texts of the messages of the analysis phase: `src/liboak/middle/mod.rs`, `src/liboak/middle/analysis/{duplicate,well_formedness,useless_chaining,attribute}.rs`.
Texts are lists of characters.
-/
set_option autoImplicit false

namespace Oak

/-- What a message is attached to: the first token of the macro (`start_span`, middle/mod.rs:40), the name of the `j`-th rule that is written (`Spanned for Rule`,
ast.rs:153-158), the `j`-th Rust function, the `j`-th attribute (its name, attribute.rs:50, when it has no `::`), or an expression. -/
inductive APlace where
  | start
  | rule (j : Nat)
  | fn (j : Nat)
  | attr (j : Nat)
  | expr (i : Nat)
deriving Repr, DecidableEq

/-- `Diagnostic` of `proc_macro`: is it an error, where, the text, and the notes with their places. -/
structure AEmitted where
  error : Bool
  place : APlace
  text : List Char
  notes : List (APlace × List Char)
deriving DecidableEq

/-- `populate`, duplicate.rs:68-84, with the places: `items` are the retained items and `j` is the place of the first item to come. The duplicates: the places of the
item that is retained and of the current one, and the name. -/
def duplicatesAt {α : Type} (name : α → String) (items : List (String × Nat)) (j : Nat) : List α → List (Nat × Nat × String)
  | [] => []
  | x :: xs =>
    match items.find? fun y => y.1 == name x with
    | some y => (y.2, j, name x) :: duplicatesAt name items (j + 1) xs
    | none => duplicatesAt name (items ++ [(name x, j)]) (j + 1) xs

/-- `duplicate_items`, duplicate.rs:87-92. -/
def duplicateText (what : String) (place : Nat → APlace) (d : Nat × Nat × String) : AEmitted :=
  ⟨true, place d.2.1, ("duplicate definition of " ++ what ++ " with name `" ++ d.2.2 ++ "`").toList,
    [(place d.1, ("previous definition of `" ++ d.2.2 ++ "` here").toList)]⟩

/-- The errors of the well-formedness analysis, well_formedness.rs:170-232. The rule of a left recursion is the first one with this name (`find_rule_by_ident`, 172). -/
def Diag.render (rules : List (String × Expr)) : Diag → Res AEmitted
  | .leftRecursion r cycle =>
    match rules.findIdx? fun x => x.1 == r with
    | none => .panic
    | some j => do
      let x ← dispCycle cycle
      .ok ⟨true, .rule j, "Left-recursion is not supported in Oak; the following rule cycle do not consume any input and would therefore loop forever\n\
        Detected cycle: ".toList ++ x ++ "\n\
        Solution: Rewrite one of the incriminated rules such that it consumes at least one atom in the input before calling the next one. \
        Usually, left-recursion is rewritten with a repeat operator (`e*` or `e+`).".toList, []⟩
  | .neverSucceed e => .ok ⟨true, .expr e.id, "Expression will never succeed.\nSolution: Remove this expression.".toList, []⟩
  | .alwaysSucceed e => .ok ⟨true, .expr e.id, "Expression will always succeed without consuming any input.\nSolution: Remove this expression.".toList, []⟩
  | .loopRepeat e => .ok ⟨true, .expr e.id, "Infinite loop detected. A repeat operator (`e*` or `e+`) will never stop because the sub-expression does not consume input.\n\
      Solution: Rewrite the expression such that it consumes at least one atom in the input or get rid of the repeat operator.".toList, []⟩
  | .unreachable choice branch => .ok ⟨true, .expr choice.id, "Unreachable branch in a choice expression. We detected that some branches cannot be reached in this expression.\n\
      Solution: Either remove (or rewrite) this branch or move it to the end of the choice expression.".toList,
      [(.expr branch.id, "Branch always succeeding".toList)]⟩

/-- `warn_useless_chaining`, useless_chaining.rs:76-83. -/
def Warning.render (w : Warning) : AEmitted :=
  ⟨false, .expr w.this.id, ("unnecessary chaining of predicates of the form `" ++ w.pattern ++ "`\nYou can rewrite this expression to the equivalent one `" ++ w.rewrite ++
    "`.\n(" ++ w.pattern ++ " ~~~> " ++ w.rewrite ++ ")").toList, []⟩

/-- The attributes that are not known, attribute.rs:30-54; `j` is the place of the first one. -/
def unknownAt (j : Nat) : List Path → List Nat
  | [] => []
  | ["debug_typing"] :: as => unknownAt (j + 1) as
  | ["show_typing"] :: as => unknownAt (j + 1) as
  | _ :: as => j :: unknownAt (j + 1) as

/-- The messages as they are emitted. The places of the duplicates (of rules and of functions) and of the attributes are taken in order. -/
def renderMsgs (rules : List (String × Expr)) : List (Nat × Nat × String) → List (Nat × Nat × String) → List Nat → List Msg → Res (List AEmitted)
  | _, _, _, [] => .ok []
  | rs, fs, as, msg :: ms => do
    match msg, rs, fs, as with
    | .noRule, rs, fs, as => do                   -- middle/mod.rs:40-42
      let ds ← renderMsgs rules rs fs as ms
      .ok (⟨true, .start, "At least one rule must be declared.".toList, []⟩ :: ds)
    | .duplicateRule _, r :: rs, fs, as => do
      let ds ← renderMsgs rules rs fs as ms
      .ok (duplicateText "rule" .rule r :: ds)
    | .duplicateFn _, rs, f :: fs, as => do
      let ds ← renderMsgs rules rs fs as ms
      .ok (duplicateText "rust function" .fn f :: ds)
    | .wellFormed x, rs, fs, as => do
      let d ← x.render rules
      let ds ← renderMsgs rules rs fs as ms
      .ok (d :: ds)
    | .chain w, rs, fs, as => do
      let ds ← renderMsgs rules rs fs as ms
      .ok (w.render :: ds)
    | .unknownAttr, rs, fs, a :: as => do         -- attribute.rs:24-28
      let ds ← renderMsgs rules rs fs as ms
      .ok (⟨false, .attr a, "unknown attribute: it will be ignored.".toList, []⟩ :: ds)
    | _, _, _, _ => .stuck

/-- The diagnostics emitted by the analysis phase, middle/mod.rs:28-31. -/
def analysisTexts (n m : Nat) (F : FGrammar) : Res (List AEmitted) := do
  let (_, ms) ← analysisPhase n m F
  renderMsgs F.rules (duplicatesAt (·.1) [] 0 F.rules) (duplicatesAt RustFn.name [] 0 (splitFns F.items).1) (unknownAt 0 F.attrs) ms

end Oak
