import Verif.Spec.Rejections
import Verif.Model.Texts
/-!
The texts of the messages of the typing phase, written with the notation of the documentation (doc/src/type-inference.md).
-/
set_option autoImplicit false

namespace Oak

mutual
/-- The documented notation of a type. -/
def DType.shown : DType → List Char
  | .hidden => ['(', '^', ')']
  | .unit => ['(', ')']
  | .char => ['c', 'h', 'a', 'r']
  | .external => ['_']
  | .list t => ['V', 'e', 'c', '<'] ++ t.shown ++ ['>']
  | .option t => ['O', 'p', 't', 'i', 'o', 'n', '<'] ++ t.shown ++ ['>']
  | .tuple ts => ['('] ++ shownAll ts ++ [')']
  | .rust s => s.toList
/-- Components are separated by commas. -/
def shownAll : List DType → List Char
  | [] => []
  | [t] => t.shown
  | t :: u :: ts => t.shown ++ [',', ' '] ++ shownAll (u :: ts)
end

mutual
/-- No part of the type is written in Rust. -/
def DType.Known : DType → Prop
  | .rust _ => False
  | .list t | .option t => t.Known
  | .tuple ts => KnownAll ts
  | _ => True
/-- The same for lists. -/
def KnownAll : List DType → Prop
  | [] => True
  | t :: ts => t.Known ∧ KnownAll ts
end

/-- `branch n of type ...`, where branches are counted from 1. -/
def branchLine (n : Nat) (v : DType) : List Char := ['b', 'r', 'a', 'n', 'c', 'h', ' '] ++ (toString n).toList ++ " of type `".toList ++ v.shown ++ ['`']

/-- The rule cycle `a -> b -> a`. -/
def cycleLine : List String → List Char
  | [] => []
  | r :: rs => r.toList ++ (rs.flatMap fun x => [' ', '-', '>', ' '] ++ x.toList) ++ [' ', '-', '>', ' '] ++ r.toList

/-- The note on recursive types: one line for each cycle. -/
def cycleText (paths : List (List String)) : List Char :=
  "Types annotated with `*` have been reduced to (^) because they are involved in one of the following rule cycle (generating recursive types):\n".toList ++
    (paths.flatMap fun p => cycleLine p ++ ['\n']).dropLast

/-- The notes of a mismatch between the branches `es` of the choice `i`: one for each branch, in order, followed by at most one, on the rule cycles, that is given only
when the type of a branch is written `(^)*`; the rules of the cycles are rules of the grammar, and the place is the first one. -/
def MismatchNotes (G : Grammar) (i : Nat) (es : List Expr) (notes : List (MPlace × List Char)) : Prop :=
  ∃ (tys : List (List Char)) (cycles : List (MPlace × List Char)), notes = (tys.mapIdx fun l t => (MPlace.branch i l, "branch ".toList ++ (toString (l + 1)).toList ++ " of type `".toList ++ t ++ ['`'])) ++ cycles ∧
    tys.length = es.length ∧
    (cycles = [] ∨ ['(', '^', ')', '*'] ∈ tys ∧ ∃ r path paths, cycles = [(.rule r, cycleText ((r :: path) :: paths))] ∧
      ∀ p ∈ (r :: path) :: paths, p ≠ [] ∧ ∀ x ∈ p, (G.find x).isSome = true)

/-- The texts of the messages of the typing phase, with their places. -/
def TMsg.At (G : Grammar) (m : TMsg) (d : Emitted) : Prop :=
  match m with
  | .mismatch i => ∃ es notes, Occurs G (.choice i es) ∧ MismatchNotes G i es notes ∧
      d = ⟨true, .expr i, "Type mismatch between branches of the choice operator.".toList, notes⟩
  | .ascription i => (∃ e, Occurs G e ∧ e.id = i) ∧ ∃ x y, d = ⟨true, .expr i, "found type ".toList ++ x ++ " but expected type ".toList ++ y, []⟩
  | .unitAction i => d = ⟨true, .expr i, ("a semantic action with type unit (`()`) will never be called as a semantic action is supposed to produce data.\n" ++
      "If this is intentional because the function has side-effects, return a custom type such as `MyUnit` with `type MyUnit = ()`.\n").toList, []⟩
  | .untyped r => (G.find r).isSome = true ∧
      d = ⟨true, .name r, "could not infer the type of this rule, please use type ascription, e.g. `r: Expr = e`.".toList, []⟩
  | .recursive path => ∃ r, path.head? = some r ∧
      d = ⟨false, .rule r, "infinite recursive type automatically replaced by `(^)`: ".toList ++ cycleLine path ++ "\nSemantic actions along the path are ignored.".toList, []⟩

/-- The messages given by the typing phase on a grammar with `k` expressions, once it has enough fuel. -/
def Emits (A : AGrammar) (k : Nat) (es : List Emitted) : Prop := ∃ N, ∀ m n n', N ≤ m → N ≤ n → N ≤ n' → typingTexts A k m n n' = .ok es

/-- The message `j` is the first one that stops the inference. -/
def FirstAt (ms : List TMsg) (j : Nat) (x : TMsg) : Prop :=
  ms[j]? = some x ∧ x.blocking = true ∧ ∀ l y, l < j → ms[l]? = some y → y.blocking = false

end Oak
