import Verif.Spec.Report
import Verif.Spec.Peg
/-!
# Specification: the texts printed for results
-/
set_option autoImplicit false

namespace Oak.Spec
open Oak

/-- `items` lists the elements of `l`, each once. -/
def Enumerates (items l : List String) : Prop := items.Nodup ∧ ∀ x, x ∈ items ↔ x ∈ l

/-- `shown` stands for the remaining text `rest` in a message: `<end-of-file>` when nothing remains, its first ten bytes (or all of it)
otherwise. -/
def Shows (rest shown : List Char) : Prop :=
  (rest = [] ∧ shown = "<end-of-file>".toList) ∨ (rest ≠ [] ∧ shown <+: rest ∧ blen shown = min 10 (blen rest))

/-- The complaint after `read` was read. -/
def complaint (read shown : List Char) (items : List String) : String :=
  toString (lineAfter read) ++ ":" ++ toString (columnAfter read) ++ ": unexpected `" ++ String.ofList shown ++ "`, expecting " ++
    String.ofList (itemList items) ++ "."

/-- `msg` is the text for a match with outcome `o`: `data` prints the data of a tree, and the farthest position where something was expected is
between `read` and `rest`, with the items `items`. -/
def Prints (data : Tree → String) (read rest : List Char) (items : List String) (o : Out) (msg : String) : Prop :=
  match o with
  | .fail => ∃ shown, Shows rest shown ∧ msg = "Error:\n\t" ++ complaint read shown items
  | .ok [] t => msg = "Full match, got data `" ++ data t ++ "`."
  | .ok (_ :: _) t => ∃ shown, Shows rest shown ∧
      msg = "Partial match, got data `" ++ data t ++ "`. It stopped because:\n\t" ++ complaint read shown items

end Oak.Spec
