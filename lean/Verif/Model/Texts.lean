import Verif.Model.Typing
/-!
The texts of the messages of the typing phase. Texts are lists of characters.
-/
set_option autoImplicit false

namespace Oak

/-- `IType::display` and `Type::display`, typing/ast.rs:322-330 and 410-433. The text of a Rust type is the one in the model (`quote!` puts spaces between tokens: not
modelled). `pop` of an empty text does nothing. -/
def dispTy (T : Nat → IType) : Nat → IType → Res (List Char)
  | 0, _ => .timeout
  | n + 1, t =>
    match t with
    | .infer => .ok ['_']
    | .rec_ _ => .ok ['(', '^', ')', '*']
    | .invisible => .ok ['(', '^', ')']
    | .external => .ok ['_']
    | .regular .unit => .ok ['(', ')']
    | .regular .atom => .ok ['c', 'h', 'a', 'r']
    | .regular (.optional i) => do
      let x ← dispTy T n (T i)
      .ok (['O', 'p', 't', 'i', 'o', 'n', '<'] ++ x ++ ['>'])
    | .regular (.list i) => do
      let x ← dispTy T n (T i)
      .ok (['V', 'e', 'c', '<'] ++ x ++ ['>'])
    | .regular (.tuple is) => do
      let xs ← is.mapM fun i => dispTy T n (T i)
      .ok ((xs.foldl (fun d x => d ++ x ++ [',', ' ']) ['(']).dropLast.dropLast ++ [')'])
    | .regular (.rust s) => .ok s.toList

/-- `display_path_cycle`, ast.rs:244-251 (`RecPath::display`, typing/ast.rs:201-203): `path[0]` panics on an empty path. -/
def dispCycle (path : List String) : Res (List Char) :=
  match path with
  | [] => .panic
  | x :: _ => .ok (path.foldl (fun d r => d ++ r.toList ++ [' ', '-', '>', ' ']) [] ++ x.toList)

/-- `RecSet::display`, typing/ast.rs:272-280. -/
def dispRecs (r : RecSet) : Res (List Char) := do
  let xs ← r.mapM fun p => dispCycle p.path
  .ok (xs.foldl (fun d x => d ++ x ++ ['\n']) []).dropLast

/-- The set of recursive paths that `reduce_sum` gives with a mismatch, type_rewriting.rs:170-187 and 209: those of the types of the branches. -/
def recsOf (tys : List IType) : RecSet :=
  tys.foldl (fun acc t =>
    match t with
    | .rec_ r => acc.union r
    | _ => acc) []

/-- What a message is attached to: the `span` of an expression, of a branch of a choice (`branches[i]`, surface.rs:100), of the name of a rule (depth.rs:92-93), or of
a rule (surface.rs:104-105 and depth.rs:119). -/
inductive MPlace where
  | expr (i : Nat)
  | branch (i n : Nat)
  | name (r : String)
  | rule (r : String)
deriving Repr, DecidableEq

/-- `Diagnostic` of `proc_macro`: is it an error, where, the text, and the notes with their places. -/
structure Emitted where
  error : Bool
  place : MPlace
  text : List Char
  notes : List (MPlace × List Char)
deriving Repr, DecidableEq

/-- The notes on the branches, surface.rs:99-102. The loop is over the branches; `tys` are their types (192-193). -/
def branchNotes (i : Nat) (T : Nat → IType) (n : Nat) : Nat → List IType → Res (List (MPlace × List Char))
  | _, [] => .ok []
  | j, t :: ts => do
    let x ← dispTy T n t
    let xs ← branchNotes i T n (j + 1) ts
    .ok ((.branch i j, ['b', 'r', 'a', 'n', 'c', 'h', ' '] ++ (toString (j + 1)).toList ++ " of type `".toList ++ x ++ ['`']) :: xs)

/-- The text before the cycles, surface.rs:106-107. -/
def cycleHead : List Char :=
  "Types annotated with `*` have been reduced to (^) because they are involved in one of the following rule cycle (generating recursive types):\n".toList

/-- The note on recursive types, surface.rs:103-109. -/
def cycleNotes (G : Grammar) (r : RecSet) : Res (List (MPlace × List Char)) :=
  if r.isEmpty then .ok []
  else do
    let e ← r.entryPoint
    match G.find e with
    | none => .panic
    | some _ => do
      let x ← dispRecs r
      .ok [(.rule e, cycleHead ++ x)]

/-- The errors that stop the inference: `type_mismatch_branches`, surface.rs:95-111, `error_if_not_match_ty_ascription`, depth.rs:134-142, and
`check_all_rules_have_type`, depth.rs:88-97. -/
def TDiag.render (G : Grammar) (n : Nat) : TDiag → Res Emitted
  | .mismatch i tys T => do
    let xs ← branchNotes i T n 0 tys
    let ys ← cycleNotes G (recsOf tys)
    .ok ⟨true, .expr i, "Type mismatch between branches of the choice operator.".toList, xs ++ ys⟩
  | .ascription i t a T => do
    let x ← dispTy T n t
    let y ← dispTy T n a
    .ok ⟨true, .expr i, "found type ".toList ++ x ++ " but expected type ".toList ++ y, []⟩
  | .untyped r => .ok ⟨true, .name r, "could not infer the type of this rule, please use type ascription, e.g. `r: Expr = e`.".toList, []⟩

/-- The other messages: `error_unit_action_type`, typing/ast.rs:53-57, and `warn_recursive_type`, depth.rs:119-122. The first three cases do not occur here. -/
def TMsg.render : TMsg → Res Emitted
  | .mismatch _ | .ascription _ | .untyped _ => .stuck
  | .unitAction i => .ok ⟨true, .expr i, ("a semantic action with type unit (`()`) will never be called as a semantic action is supposed to produce data.\n" ++
      "If this is intentional because the function has side-effects, return a custom type such as `MyUnit` with `type MyUnit = ()`.\n").toList, []⟩
  | .recursive path =>
    match path with
    | [] => .panic
    | r :: _ => do
      let x ← dispCycle path
      .ok ⟨false, .rule r, "infinite recursive type automatically replaced by `(^)`: ".toList ++ x ++ "\nSemantic actions along the path are ignored.".toList, []⟩

/-- The messages as they are emitted: the errors that stop the inference are those of the log, in the same order. -/
def renderAll (G : Grammar) (n : Nat) : List TMsg → List TDiag → Res (List Emitted)
  | [], _ => .ok []
  | .unitAction i :: ms, log => do
    let d ← (TMsg.unitAction i).render
    let ds ← renderAll G n ms log
    .ok (d :: ds)
  | .recursive p :: ms, log => do
    let d ← (TMsg.recursive p).render
    let ds ← renderAll G n ms log
    .ok (d :: ds)
  | _ :: _, [] => .stuck
  | _ :: ms, x :: log => do
    let d ← x.render G n
    let ds ← renderAll G n ms log
    .ok (d :: ds)

/-- The diagnostics emitted by `type_inference`, typing/mod.rs:26-29; `n'` bounds the depth of the types that are displayed. -/
def typingTexts (A : AGrammar) (k m n n' : Nat) : Res (List Emitted) := do
  let (_, s) ← typingRun A k m n
  renderAll A.grammar n' s.msgs s.log

end Oak
