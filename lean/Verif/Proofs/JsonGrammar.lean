import Verif.Proofs.PegVals
import Verif.Spec.Json
import Verif.Properties.WellFormed
/-!
The grammar of `tests/grammars/json.rs` as the macro reads it, with the numbers of its expressions, and the expressions of unit type. `Corpus/JsonShape` shows that this is what the
model of the macro computes from the tokens of the file.
-/
set_option linter.constructorNameAsVariable false
set_option autoImplicit false

namespace Oak.JsonText
open Oak Spec

/-- The rules of tests/grammars/json.rs:21-64. -/
def jsonG : Grammar := ⟨[
  ("program", .seq 3 [.nt 0 "spacing", .nt 1 "json_expr", .nt 2 "spacing"]),
  ("json_expr", .choice 12 [.act 5 (.nt 4 "number") false ["make_json_number"], .act 7 (.nt 6 "json_string") false ["make_json_string"],
    .act 9 (.nt 8 "json_array") false ["make_json_array"], .act 11 (.nt 10 "json_object") false ["make_json_object"]]),
  ("json_object", .seq 18 [.nt 13 "lbrace", .opt 15 (.nt 14 "json_members"), .nt 16 "spacing", .nt 17 "rbrace"]),
  ("json_members", .act 25 (.seq 24 [.nt 19 "json_pair", .star 23 (.seq 22 [.nt 20 "coma", .nt 21 "json_pair"])]) false ["make_json_member"]),
  ("json_pair", .act 30 (.seq 29 [.nt 26 "json_string", .nt 27 "colon", .nt 28 "json_expr"]) false ["make_json_pair"]),
  ("json_array", .seq 39 [.nt 31 "lbracket", .star 35 (.seq 34 [.nt 32 "json_expr", .nt 33 "coma"]), .nt 36 "json_expr", .nt 37 "spacing", .nt 38 "rbracket"]),
  ("json_string", .act 46 (.seq 45 [.nt 40 "dquote", .star 42 (.nt 41 "json_char"), .nt 43 "dquote", .nt 44 "spacing"]) false ["to_string"]),
  ("dquote", .str 47 "\""),
  ("spacing", .asc 50 (.star 49 (.cls 48 [⟨' ', ' '⟩, ⟨'\n', '\n'⟩, ⟨'\r', '\r'⟩, ⟨'\t', '\t'⟩])) .invisible),
  ("digit", .cls 51 [⟨'0', '9'⟩]),
  ("colon", .seq 54 [.str 52 ":", .nt 53 "spacing"]),
  ("semicolon", .seq 57 [.str 55 ";", .nt 56 "spacing"]),
  ("coma", .seq 60 [.str 58 ",", .nt 59 "spacing"]),
  ("number", .act 65 (.seq 64 [.plus 62 (.nt 61 "digit"), .nt 63 "spacing"]) false ["to_number"]),
  ("not_zero_digit", .cls 66 [⟨'1', '9'⟩]),
  ("digits", .plus 68 (.nt 67 "digit")),
  ("json_char", .cls 69 [⟨'a', 'z'⟩, ⟨'A', 'Z'⟩, ⟨'0', '9'⟩, ⟨'_', '_'⟩, ⟨'(', '('⟩, ⟨')', ')'⟩, ⟨' ', ' '⟩, ⟨',', ','⟩, ⟨'.', '.'⟩, ⟨':', ':'⟩, ⟨'&', '&'⟩, ⟨'\'', '\''⟩, ⟨'/', '/'⟩,
    ⟨'@', '@'⟩, ⟨'?', '?'⟩, ⟨'*', '*'⟩, ⟨'=', '='⟩, ⟨';', ';'⟩, ⟨'-', '-'⟩]),
  ("lparen", .seq 72 [.str 70 "(", .nt 71 "spacing"]),
  ("rparen", .seq 75 [.str 73 ")", .nt 74 "spacing"]),
  ("lbracket", .seq 78 [.str 76 "[", .nt 77 "spacing"]),
  ("rbracket", .seq 81 [.str 79 "]", .nt 80 "spacing"]),
  ("lbrace", .seq 84 [.str 82 "{", .nt 83 "spacing"]),
  ("rbrace", .seq 87 [.str 85 "}", .nt 86 "spacing"])]⟩

/-- The expressions that give no value. -/
def jsonUnits : List Nat := [0, 2, 13, 16, 17, 20, 27, 31, 33, 37, 38, 40, 43, 44, 47, 48, 49, 50, 52, 53, 54, 55, 56, 57, 58, 59, 60, 63, 70, 71, 72, 73, 74, 75, 76, 77, 78, 79, 80, 81, 82, 83, 84, 85, 86, 87]

/-- The types of the grammar: which expressions give values. -/
structure JsonTypes (T : Nat → Ty) : Prop where
  u : ∀ i, jsonUnits.contains i = true → T i = .unit
  v : ∀ i, i < 88 → jsonUnits.contains i = false → T i ≠ .unit

theorem jsonTypes_of {T : Nat → Ty} (h : ∀ i, i < 88 → decide (T i = .unit) = jsonUnits.contains i) : JsonTypes T where
  u i hi := by
    have hlt : ∀ j ∈ jsonUnits, j < 88 := by decide
    have := h i (hlt i (by simpa using hi))
    rw [hi] at this
    exact of_decide_eq_true this
  v i hi hn := by
    have := h i hi
    rw [hn] at this
    exact of_decide_eq_false this

end Oak.JsonText
