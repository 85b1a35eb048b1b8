import Verif.Model.Ast
import Verif.Model.Res
/-!
Model of the reader of character classes, `src/liboak/front/parser.rs`, lines 367-441.

`Res.stuck` stands for the `syn::Error` returned by the front-end, which `parse_macro_input!` (lib.rs:35) turns into a compilation error.
The characters are the ones of the literal once unescaped (`LitStr::value`).
-/
set_option autoImplicit false

namespace Oak

/-- `parse_char_range`, front/parser.rs:404-441: the intervals read at the head of the characters, and the characters left. -/
def parseCharRange : List Char → Res (List Interval × List Char)
  | [] => .ok ([], [])
  | lo :: next =>
    match next with
    | [] => .ok ([⟨lo, lo⟩], [])
    | sep :: more =>
      if lo = '-' then .stuck
      else if sep = '-' then
        match more with
        | [] => .ok ([⟨lo, lo⟩, ⟨'-', '-'⟩], [])
        | hi :: more => if hi = '-' then .stuck else .ok ([⟨lo, hi⟩], more)
      else .ok ([⟨lo, lo⟩], sep :: more)

/-- The loop of `parse_set_of_char_range`, front/parser.rs:394-400; `n` bounds the number of iterations. -/
def charRanges : Nat → List Char → Res (List Interval)
  | 0, _ => .timeout
  | n + 1, cs => do
    let (ivs, rest) ← parseCharRange cs
    if ivs.isEmpty then .ok []
    else do
      let more ← charRanges n rest
      .ok (ivs ++ more)

/-- `parse_set_of_char_range`, front/parser.rs:384-402, on a literal that is not empty (`parse_char_class`, 370-374). -/
def parseCharClass (n : Nat) (cs : List Char) : Res (List Interval) :=
  match cs with
  | [] => .stuck
  | c :: rest =>
    if c = '-' then do
      let more ← charRanges n rest
      .ok (⟨'-', '-'⟩ :: more)
    else charRanges n (c :: rest)

end Oak
