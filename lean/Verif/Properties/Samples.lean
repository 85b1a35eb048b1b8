import Verif.Proofs.Main
/-!
Concrete grammars used beside the theorems to show that their hypotheses can be met.
-/
set_option autoImplicit false

namespace Oak.Sample
open Oak Spec

/-- `sum = num ("+" num)* > add ; num = ["0-9"]+ > to_num` -/
def sum : Grammar := ⟨[
  ("sum", .act 6 (.seq 5 [.nt 0 "num", .star 4 (.seq 3 [.str 1 "+", .nt 2 "num"])]) false ["add"]),
  ("num", .act 9 (.plus 8 (.cls 7 [⟨'0', '9'⟩])) false ["to_num"])]⟩

/-- Types of the nodes of `sum`. -/
def sumT : Nat → Ty
  | 0 | 2 | 9 => .rust "u32"
  | 1 => .unit
  | 3 => .tuple [2]
  | 4 => .list 3
  | 5 => .tuple [0, 4]
  | 6 => .rust "u32"
  | 7 => .atom
  | 8 => .list 7
  | _ => .unit

/-- Its generated program. -/
def sumFs : List (FnRef × Fn) := match compileGrammar sumT sum.rules with | .ok f => f | .error _ => []

theorem sum_generated : Generated sum sumT sumFs where
  compiled := by rfl
  scopes := by decide +kernel
  coherent := by decide +kernel
  resolved := by decide +kernel

/-- `digits = ["0-9"]+` -/
def digits : Grammar := ⟨[("digits", .plus 1 (.cls 0 [⟨'0', '9'⟩]))]⟩

/-- Types of the nodes of `digits`. -/
def digitsT : Nat → Ty
  | 0 => .atom
  | 1 => .list 0
  | _ => .unit

/-- Its generated program. -/
def digitsFs : List (FnRef × Fn) := match compileGrammar digitsT digits.rules with | .ok f => f | .error _ => []

theorem digits_generated : Generated digits digitsT digitsFs where
  compiled := by rfl
  scopes := by decide +kernel
  coherent := by decide +kernel
  resolved := by decide +kernel

/-- Rules without data.
`commit = ("ab" / "a") "c" ; nested = "a" / ("b" / "c") / "d" ; flat = "a" / "b" / "c" / "d" ; star = "ab"* ; possessive = "a"* "a" ;
not = !"a" ; and = &"a" ; opt = ("a" "b")? "a" "c"` -/
def ops : Grammar := ⟨[
  ("commit", .seq 4 [.choice 2 [.str 0 "ab", .str 1 "a"], .str 3 "c"]),
  ("nested", .choice 5 [.str 0 "a", .choice 3 [.str 1 "b", .str 2 "c"], .str 4 "d"]),
  ("flat", .choice 5 [.str 0 "a", .str 1 "b", .str 2 "c", .str 4 "d"]),
  ("star", .star 1 (.str 0 "ab")),
  ("possessive", .seq 3 [.star 1 (.str 0 "a"), .str 2 "a"]),
  ("not", .not 1 (.str 0 "a")),
  ("and", .and 1 (.str 0 "a")),
  ("opt", .seq 6 [.opt 3 (.seq 2 [.str 0 "a", .str 1 "b"]), .str 4 "a", .str 5 "c"])]⟩

/-- Types of the nodes of `ops`. -/
def opsT : Nat → Ty := fun _ => .unit

/-- Its generated program. -/
def opsFs : List (FnRef × Fn) := match compileGrammar opsT ops.rules with | .ok f => f | .error _ => []

theorem ops_generated : Generated ops opsT opsFs where
  compiled := by rfl
  scopes := by decide +kernel
  coherent := by decide +kernel
  resolved := by decide +kernel

/-- `list = ...item (...item)* ; item = ["a-z"]+ > name ; all = ...(.*) ; look = &"a" !"b" item > wrap`, `r = ...e` being a range. -/
def spans : Grammar := ⟨[
  ("list", .seq 4 [.range 1 (.nt 0 "item"), .range 3 (.nt 2 "item")]),
  ("item", .act 6 (.cls 5 [⟨'a', 'z'⟩]) false ["name"]),
  ("all", .span 9 (.star 8 (.any 7))),
  ("look", .act 15 (.seq 14 [.and 11 (.act 10 (.str 18 "a") false ["unused"]), .not 13 (.str 12 "b"), .nt 16 "item"]) false ["wrap"])]⟩

/-- Types of the nodes of `spans`. -/
def spansT : Nat → Ty
  | 0 | 2 | 6 | 16 => .rust "N"
  | 1 => .tuple [100, 0]
  | 3 => .tuple [100, 2]
  | 4 => .tuple [100, 0, 100, 2]
  | 5 => .atom
  | 7 => .atom
  | 8 => .list 7
  | 9 => .tuple [100, 8]
  | 10 => .rust "N"
  | 14 => .tuple [16]
  | 15 => .rust "W"
  | _ => .unit

/-- Its generated program. -/
def spansFs : List (FnRef × Fn) := match compileGrammar spansT spans.rules with | .ok f => f | .error _ => []

theorem spans_generated : Generated spans spansT spansFs where
  compiled := by rfl
  scopes := by decide +kernel
  coherent := by decide +kernel
  resolved := by decide +kernel

end Oak.Sample
