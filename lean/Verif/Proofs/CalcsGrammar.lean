import Verif.Proofs.CalcGrammar
/-!
The grammars of `tests/grammars/calc2.rs` and `tests/grammars/calc3.rs` as the macro reads them, and which of their expressions give no value. `Corpus/CalcsShape` checks that
this is what the model of the macro computes from the tokens of the files.
-/
set_option linter.constructorNameAsVariable false
set_option autoImplicit false

namespace Oak.Calculator
open Oak Spec

/-- The rules of tests/grammars/calc2.rs:39-89. -/
def calc2G : Grammar := ⟨[
  ("program", .seq 2 [.nt 0 "spacing", .nt 1 "expression"]),
  ("expression", .act 9 (.seq 8 [.nt 3 "term", .star 7 (.seq 6 [.nt 4 "term_op", .nt 5 "term"])]) false ["fold_left"]),
  ("term", .act 16 (.seq 15 [.nt 10 "exponent", .star 14 (.seq 13 [.nt 11 "factor_op", .nt 12 "exponent"])]) false ["fold_left"]),
  ("exponent", .act 23 (.seq 22 [.star 20 (.seq 19 [.nt 17 "factor", .nt 18 "exponent_op"]), .nt 21 "factor"]) false ["fold_right"]),
  ("factor", .asc 35 (.choice 34 [.act 25 (.nt 24 "number") true ["Number"], .act 27 (.nt 26 "identifier") true ["Variable"], .act 29 (.nt 28 "let_expr") true ["LetIn"], .seq 33 [.nt 30 "lparen", .nt 31 "expression", .nt 32 "rparen"]]) (.regular (.rust "PExpr"))),
  ("let_expr", .seq 40 [.nt 36 "let_kw", .nt 37 "let_binding", .nt 38 "in_kw", .nt 39 "expression"]),
  ("let_binding", .seq 44 [.nt 41 "identifier", .nt 42 "bind_op", .nt 43 "expression"]),
  ("term_op", .asc 50 (.choice 49 [.act 46 (.nt 45 "add_op") false ["Add"], .act 48 (.nt 47 "sub_op") false ["Sub"]]) (.regular (.rust "BinOp"))),
  ("factor_op", .asc 56 (.choice 55 [.act 52 (.nt 51 "mul_op") false ["Mul"], .act 54 (.nt 53 "div_op") false ["Div"]]) (.regular (.rust "BinOp"))),
  ("exponent_op", .asc 59 (.act 58 (.nt 57 "exp_op") false ["Exp"]) (.regular (.rust "BinOp"))),
  ("identifier", .act 68 (.seq 67 [.not 61 (.nt 60 "digit"), .not 63 (.nt 62 "keyword"), .plus 65 (.nt 64 "ident_char"), .nt 66 "spacing"]) false ["to_string"]),
  ("ident_char", .cls 69 [⟨'a', 'z'⟩, ⟨'A', 'Z'⟩, ⟨'0', '9'⟩, ⟨'_', '_'⟩]),
  ("digit", .cls 70 [⟨'0', '9'⟩]),
  ("number", .act 75 (.seq 74 [.plus 72 (.nt 71 "digit"), .nt 73 "spacing"]) false ["to_number"]),
  ("spacing", .asc 78 (.star 77 (.cls 76 [⟨' ', ' '⟩, ⟨'\n', '\n'⟩, ⟨'\r', '\r'⟩, ⟨'\t', '\t'⟩])) .invisible),
  ("kw_tail", .seq 82 [.not 80 (.nt 79 "ident_char"), .nt 81 "spacing"]),
  ("keyword", .choice 85 [.nt 83 "let_kw", .nt 84 "in_kw"]),
  ("let_kw", .seq 88 [.str 86 "let", .nt 87 "kw_tail"]),
  ("in_kw", .seq 91 [.str 89 "in", .nt 90 "kw_tail"]),
  ("bind_op", .seq 94 [.str 92 "=", .nt 93 "spacing"]),
  ("add_op", .seq 97 [.str 95 "+", .nt 96 "spacing"]),
  ("sub_op", .seq 100 [.str 98 "-", .nt 99 "spacing"]),
  ("mul_op", .seq 103 [.str 101 "*", .nt 102 "spacing"]),
  ("div_op", .seq 106 [.str 104 "/", .nt 105 "spacing"]),
  ("exp_op", .seq 109 [.str 107 "^", .nt 108 "spacing"]),
  ("lparen", .seq 112 [.str 110 "(", .nt 111 "spacing"]),
  ("rparen", .seq 115 [.str 113 ")", .nt 114 "spacing"])]⟩

/-- The expressions of calc2 that give no value. -/
def calc2Units : List Nat := [0, 30, 32, 36, 38, 42, 45, 47, 51, 53, 57, 60, 61, 62, 63, 66, 73, 76, 77, 78, 79, 80, 81, 82, 83, 84, 85, 86, 87, 88, 89, 90, 91, 92, 93, 94, 95, 96, 97, 98, 99, 100, 101, 102, 103, 104, 105, 106, 107, 108, 109, 110, 111, 112, 113, 114, 115]

/-- The rules of tests/grammars/calc3.rs:39-84. -/
def calc3G : Grammar := ⟨[
  ("program", .seq 2 [.nt 0 "spacing", .nt 1 "expression"]),
  ("expression", .act 9 (.seq 8 [.nt 3 "term", .star 7 (.seq 6 [.nt 4 "term_op", .nt 5 "term"])]) false ["fold_left"]),
  ("term", .act 16 (.seq 15 [.nt 10 "exponent", .star 14 (.seq 13 [.nt 11 "factor_op", .nt 12 "exponent"])]) false ["fold_left"]),
  ("exponent", .act 23 (.seq 22 [.star 20 (.seq 19 [.nt 17 "factor", .nt 18 "exponent_op"]), .nt 21 "factor"]) false ["fold_right"]),
  ("factor", .asc 35 (.choice 34 [.act 25 (.ext 24 ["calc2", "number"]) true ["Number"], .act 27 (.ext 26 ["calc2", "identifier"]) true ["Variable"], .act 29 (.nt 28 "let_expr") true ["LetIn"], .seq 33 [.nt 30 "lparen", .nt 31 "expression", .nt 32 "rparen"]]) (.regular (.rust "Box<Expression>"))),
  ("let_expr", .seq 40 [.nt 36 "let_kw", .nt 37 "let_binding", .nt 38 "in_kw", .nt 39 "expression"]),
  ("let_binding", .seq 45 [.asc 42 (.ext 41 ["calc2", "identifier"]) (.regular (.rust "String")), .nt 43 "bind_op", .nt 44 "expression"]),
  ("term_op", .asc 51 (.choice 50 [.act 47 (.nt 46 "add_op") false ["Add"], .act 49 (.nt 48 "sub_op") false ["Sub"]]) (.regular (.rust "BinOp"))),
  ("factor_op", .asc 57 (.choice 56 [.act 53 (.nt 52 "mul_op") false ["Mul"], .act 55 (.nt 54 "div_op") false ["Div"]]) (.regular (.rust "BinOp"))),
  ("exponent_op", .asc 60 (.act 59 (.nt 58 "exp_op") false ["Exp"]) (.regular (.rust "BinOp"))),
  ("spacing", .asc 63 (.star 62 (.cls 61 [⟨' ', ' '⟩, ⟨'\n', '\n'⟩, ⟨'\r', '\r'⟩, ⟨'\t', '\t'⟩])) .invisible),
  ("kw_tail", .seq 67 [.not 65 (.ext 64 ["calc2", "ident_char"]), .nt 66 "spacing"]),
  ("keyword", .choice 70 [.nt 68 "let_kw", .nt 69 "in_kw"]),
  ("let_kw", .seq 73 [.str 71 "let", .nt 72 "kw_tail"]),
  ("in_kw", .seq 76 [.str 74 "in", .nt 75 "kw_tail"]),
  ("bind_op", .seq 79 [.str 77 "=", .nt 78 "spacing"]),
  ("add_op", .seq 82 [.str 80 "+", .nt 81 "spacing"]),
  ("sub_op", .seq 85 [.str 83 "-", .nt 84 "spacing"]),
  ("mul_op", .seq 88 [.str 86 "*", .nt 87 "spacing"]),
  ("div_op", .seq 91 [.str 89 "/", .nt 90 "spacing"]),
  ("exp_op", .seq 94 [.str 92 "^", .nt 93 "spacing"]),
  ("lparen", .seq 97 [.str 95 "(", .nt 96 "spacing"]),
  ("rparen", .seq 100 [.str 98 ")", .nt 99 "spacing"])]⟩

/-- The expressions of calc3 that give no value. -/
def calc3Units : List Nat := [0, 30, 32, 36, 38, 43, 46, 48, 52, 54, 58, 61, 62, 63, 64, 65, 66, 67, 68, 69, 70, 71, 72, 73, 74, 75, 76, 77, 78, 79, 80, 81, 82, 83, 84, 85, 86, 87, 88, 89, 90, 91, 92, 93, 94, 95, 96, 97, 98, 99, 100]

end Oak.Calculator
