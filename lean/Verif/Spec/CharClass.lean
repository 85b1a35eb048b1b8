import Verif.Model.Ast
/-!
# Specification: the text of a character class

`doc/src/learn-oak.md`, lines 79-84: a class is a list of characters and of ranges `<char>-<char>`; as `-` denotes a range, it must be placed
before or after all of them to be an accepted character.
-/
set_option autoImplicit false

namespace Oak

/-- What a class is made of. -/
inductive ClassItem where
  | one (c : Char)
  | range (lo hi : Char)

/-- The characters of an item: none of them is a dash, except the one between the bounds of a range. -/
def ClassItem.text : ClassItem → List Char
  | .one c => [c]
  | .range lo hi => [lo, '-', hi]

/-- An item is not made of dashes. -/
def ClassItem.Plain : ClassItem → Prop
  | .one c => c ≠ '-'
  | .range lo hi => lo ≠ '-' ∧ hi ≠ '-'

/-- The characters accepted by an item. -/
def ClassItem.Accepts (c : Char) : ClassItem → Prop
  | .one d => c = d
  | .range lo hi => lo.val ≤ c.val ∧ c.val ≤ hi.val

/-- A class: items, possibly a dash before or after all of them. -/
structure ClassText where
  lead : Bool
  items : List ClassItem
  trail : Bool

/-- How a class is written. -/
def ClassText.text (K : ClassText) : List Char :=
  (if K.lead then ['-'] else []) ++ K.items.flatMap ClassItem.text ++ (if K.trail then ['-'] else [])

/-- The classes that can be written. -/
structure ClassText.Valid (K : ClassText) : Prop where
  plain : ∀ x ∈ K.items, x.Plain
  some : K.lead = true ∨ K.items ≠ [] ∨ K.trail = true

/-- The characters accepted by a class. -/
def ClassText.Accepts (K : ClassText) (c : Char) : Prop :=
  (c = '-' ∧ (K.lead = true ∨ K.trail = true)) ∨ ∃ x ∈ K.items, x.Accepts c

/-- The interval of an item. -/
def ClassItem.interval : ClassItem → Interval
  | .one c => ⟨c, c⟩
  | .range lo hi => ⟨lo, hi⟩

/-- The intervals of a class, in the order of the text. -/
def ClassText.intervals (K : ClassText) : List Interval :=
  (if K.lead then [⟨'-', '-'⟩] else []) ++ K.items.map ClassItem.interval ++ (if K.trail then [⟨'-', '-'⟩] else [])

end Oak
