import Verif.Spec.Yields
/-!
# Specification: a scanner with a table of keywords

doc/src/learn-oak.md ("Identifier and keyword"): "Disambiguation is usually done by the lexer with an ad-hoc keyword table; if a string is present in the table, the
corresponding token is returned, otherwise it is considered as an identifier. In PEG, we encode this difference directly in the rules with syntactic predicates". This file
says what such a lexer does, and what the rules of the tutorial are, for any keywords and any classes of characters.
-/
set_option autoImplicit false

namespace Oak.Lexer
open Oak Spec

/-- What a scanner finds. -/
inductive Token where
  | keyword (w : List Char)
  | name (w : List Char)
deriving DecidableEq, Repr

/-- The scanner: the longest run of characters of words is looked up in the table; if it is not there, it is a name, unless it is empty or begins with a digit. The spaces that
follow are skipped. -/
def scan (word digit blank : Char → Bool) (table : List (List Char)) (s : List Char) : Option (Token × List Char) :=
  let w := s.takeWhile word
  let r := (s.dropWhile word).dropWhile blank
  if w ∈ table then some (.keyword w, r)
  else match w with
    | [] => none
    | c :: _ => if digit c then none else some (.name w, r)

/-- The expression is a character class with these characters. -/
def IsClass (p : Char → Bool) (e : Expr) : Prop := ∃ i ivs, e = .cls i ivs ∧ ∀ x, InClass ivs x ↔ p x = true

/-- The rules of the tutorial, for a list of keywords (name of the rule, text):

```text
identifier = !digit !keyword ident_char+ spacing > to_string
ident_char = [...]
digit = [...]
spacing = [...]*:(^)
kw_tail = !ident_char spacing
keyword = k1 / k2 / ...
k1 = "..." kw_tail
...
```

What carries data has been given a type other than `(^)`. Keywords are not empty, and made of characters of words. -/
structure Rules (G : Grammar) (T : Nat → Ty) (word digit blank : Char → Bool) (kws : List (String × String)) : Prop where
  identifier : ∃ a b c d e f g h i, G.find "identifier" =
      some (.act a (.seq b [.not c (.nt d "digit"), .not e (.nt f "keyword"), .plus g (.nt h "ident_char"), .nt i "spacing"]) false ["to_string"]) ∧
    ∀ x ∈ [a, b, g, h], T x ≠ .unit
  ident_char : ∃ e, G.find "ident_char" = some e ∧ IsClass word e ∧ T e.id ≠ .unit
  digit : ∃ e, G.find "digit" = some e ∧ IsClass digit e
  spacing : ∃ a b e, G.find "spacing" = some (.asc a (.star b e) .invisible) ∧ IsClass blank e ∧ T a = .unit
  kw_tail : ∃ a b c d, G.find "kw_tail" = some (.seq a [.not b (.nt c "ident_char"), .nt d "spacing"])
  keyword : ∃ a es, G.find "keyword" = some (.choice a es) ∧ (∀ e ∈ es, ∃ i k, k ∈ kws ∧ e = .nt i k.1) ∧ ∀ k ∈ kws, ∃ i, .nt i k.1 ∈ es
  each : ∀ k ∈ kws, ∃ a b c, G.find k.1 = some (.seq a [.str b k.2, .nt c "kw_tail"])
  words : ∀ k ∈ kws, k.2.toList ≠ [] ∧ ∀ c ∈ k.2.toList, word c = true

end Oak.Lexer
