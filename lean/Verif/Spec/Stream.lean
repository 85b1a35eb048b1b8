import Verif.Model.Stream
/-!
# Specification: streams

A stream over a text is a position in that text, on a character boundary.
-/
set_option autoImplicit false

namespace Oak
namespace StrStream

/-- Streams over the text `raw` located at `ptr`, on a character boundary. -/
def At (ptr : Nat) (raw : List Char) (s : StrStream) : Prop :=
  s.ptr = ptr ∧ s.raw = raw ∧ ∃ p r, raw = p ++ r ∧ s.off = blen p

/-- The characters that remain to be read. -/
def rest (s : StrStream) : List Char := (dropBytes s.raw s.off).getD []

end StrStream

/-- What the proofs need to know about a stream implementation, for the streams over one given input.
`V` is the set of streams reachable over that input, `rest` the characters not read yet. -/
structure LawfulStream {S : Type} (ops : StreamOps S) (V : S → Prop) (rest : S → List Char)
    (input : List Char) : Prop where
  next_cons : ∀ {s c cs}, V s → rest s = c :: cs → ∃ s', ops.next s = .ok (some c, s') ∧ V s' ∧ rest s' = cs
  next_nil : ∀ {s}, V s → rest s = [] → ∃ s', ops.next s = .ok (none, s') ∧ V s' ∧ rest s' = []
  prefix_true : ∀ {s p r}, V s → rest s = p.toList ++ r →
    ∃ s', ops.consumePrefix p s = .ok (true, s') ∧ V s' ∧ rest s' = r
  prefix_false : ∀ {s p}, V s → ¬ p.toList <+: rest s → ops.consumePrefix p s = .ok (false, s)
  hasNext_eq : ∀ {s}, V s → ops.hasNext s = !(rest s).isEmpty
  cmp_eq : ∀ {a b}, V a → V b → ops.cmp a b = .ok (compare (rest b).length (rest a).length)
  suffix : ∀ {s}, V s → rest s <:+ input

end Oak
