/-!
# Specification: string literals of Rust

The part of the Rust reference (Tokens, string literals) needed to read the description of a character class (C59).
-/
set_option autoImplicit false

namespace Oak

/-- The value of a hexadecimal digit. -/
def hexDigit (c : Char) : Option Nat :=
  if '0' ≤ c ∧ c ≤ '9' then some (c.toNat - '0'.toNat)
  else if 'a' ≤ c ∧ c ≤ 'f' then some (c.toNat - 'a'.toNat + 10)
  else if 'A' ≤ c ∧ c ≤ 'F' then some (c.toNat - 'A'.toNat + 10)
  else none

/-- `HexOf ds n`: the digits `ds` denote `n` in base 16. -/
inductive HexOf : List Char → Nat → Prop where
  | one {c d} : hexDigit c = some d → HexOf [c] d
  | more {ds n c d} : HexOf ds n → hexDigit c = some d → HexOf (ds ++ [c]) (16 * n + d)

/-- The escapes made of a backslash and one character. -/
def simpleEscapes : List (Char × Char) := [('n', '\n'), ('r', '\r'), ('t', '\t'), ('\\', '\\'), ('0', '\x00'), ('\'', '\''), ('"', '"')]

/-- `LitOf src v`: the characters `src`, between double quotes, are a string literal whose value is `v`. -/
inductive LitOf : List Char → List Char → Prop where
  | nil : LitOf [] []
  | plain {c src v} : c ≠ '"' → c ≠ '\\' → c ≠ '\r' → LitOf src v → LitOf (c :: src) (c :: v)
  | simple {x c src v} : (x, c) ∈ simpleEscapes → LitOf src v → LitOf ('\\' :: x :: src) (c :: v)
  | unicode {ds c src v} : HexOf ds c.toNat → ds.length ≤ 6 → LitOf src v → LitOf ('\\' :: 'u' :: '{' :: ds ++ '}' :: src) (c :: v)

/-- Printable ASCII characters. -/
def Printable (c : Char) : Prop := 0x20 ≤ c.toNat ∧ c.toNat ≤ 0x7e

end Oak
