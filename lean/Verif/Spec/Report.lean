import Verif.Model.Stream
/-!
# Specification: locations in a text
-/
set_option autoImplicit false

namespace Oak.Spec
open Oak

/-- The characters after the last newline of `p`. -/
def lastLine (p : List Char) : List Char := (p.reverse.takeWhile (· ≠ '\n')).reverse

/-- Line number of the position after `p`: 1 + the number of newlines of `p`. -/
def lineAfter (p : List Char) : Nat := 1 + p.count '\n'

/-- Column of the position after `p`: 1 + the number of bytes since the last newline. -/
def columnAfter (p : List Char) : Nat := 1 + blen (lastLine p)

/-- No carriage return of `p` ends a line of the text `p ++ r`. -/
def NoEndingCR (p r : List Char) : Prop :=
  ∀ q s, p = q ++ '\r' :: s → ∃ c t, s ++ r = c :: t ∧ c ≠ '\n'

/-- Items between backquotes, separated by ` or `. -/
def itemList : List String → List Char
  | [] => []
  | [x] => '`' :: x.toList ++ ['`']
  | x :: xs => '`' :: x.toList ++ "` or ".toList ++ itemList xs

end Oak.Spec
