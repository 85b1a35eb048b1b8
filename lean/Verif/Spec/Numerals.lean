import Verif.Spec.Result
/-!
# Specification: the grammars `tests/grammars/issue94.rs` and `tests/grammars/stream_span.rs`

What their parsers read and give, without parsing expression grammars.
-/
set_option autoImplicit false

namespace Oak.Numerals
open Oak

/-- Digits. -/
def isDigit (c : Char) : Bool := '0' ≤ c && c ≤ '9'

/-- Digits and underscores. -/
def isPart (c : Char) : Bool := isDigit c || c = '_'

/-- A text in three parts: `m` is made of digits and underscores and ends with a digit, unless it is empty; `us` is made of underscores; what comes after is not a digit nor
an underscore. -/
structure Split (m us e : List Char) : Prop where
  parts : ∀ c ∈ m, isPart c = true
  last : ∀ c, m.getLast? = some c → isDigit c = true
  underscores : ∀ c ∈ us, c = '_'
  stop : ∀ c, e.head? = some c → isPart c = false

/-- The value of digits, without the underscores: issue94.rs:22, 25-27. -/
def value (m : List Char) : Val := .app ["id"] [.list ((m.filter isDigit).map .chr)]

/-- The value of `expr` and `expr2` on the text `a`, `c`, `d`, `b`: the spans of the text, of `a`, and of `d`; stream_span.rs:23-26, 40-48. -/
def spans (c d : Char) : Val :=
  .app ["make_expr"] [.span 0 (2 + c.utf8Size + d.utf8Size), .span 0 1, .chr c, .span (1 + c.utf8Size) (1 + c.utf8Size + d.utf8Size), .chr d]

/-- Characters of the first class of `char_class`, combinators.rs. -/
def isLetter (c : Char) : Bool := ('a' ≤ c && c ≤ 'z') || ('A' ≤ c && c ≤ 'Z') || c = '1' || c = '2' || c = '_'

end Oak.Numerals
