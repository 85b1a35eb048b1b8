import Verif.Proofs.PegVals
import Verif.Spec.Calculator
import Verif.Properties.WellFormed
/-!
The grammar of `tests/grammars/calc.rs` as the macro reads it, with the numbers of its expressions, and the expressions of unit type.  `Properties/Calculator` shows that
this is what the model of the macro computes from the tokens of the file.
-/
set_option linter.constructorNameAsVariable false
set_option autoImplicit false

namespace Oak.Calculator
open Oak Spec

/-- The rules of tests/grammars/calc.rs:21-69. -/
def calcG : Grammar := ⟨[
  ("program", .seq 2 [.nt 0 "spacing", .nt 1 "expression"]),
  ("expression", .act 9 (.seq 8 [.nt 3 "term", .star 7 (.seq 6 [.nt 4 "term_op", .nt 5 "term"])]) false ["fold_left"]),
  ("term", .act 16 (.seq 15 [.nt 10 "exponent", .star 14 (.seq 13 [.nt 11 "factor_op", .nt 12 "exponent"])]) false ["fold_left"]),
  ("exponent", .act 23 (.seq 22 [.star 20 (.seq 19 [.nt 17 "factor", .nt 18 "exponent_op"]), .nt 21 "factor"]) false ["fold_right"]),
  ("factor", .choice 34 [.act 25 (.nt 24 "number") false ["number_expr"], .act 27 (.nt 26 "identifier") false ["variable_expr"], .act 29 (.nt 28 "let_expr") false ["let_in_expr"], .seq 33 [.nt 30 "lparen", .nt 31 "expression", .nt 32 "rparen"]]),
  ("let_expr", .seq 39 [.nt 35 "let_kw", .nt 36 "let_binding", .nt 37 "in_kw", .nt 38 "expression"]),
  ("let_binding", .seq 43 [.nt 40 "identifier", .nt 41 "bind_op", .nt 42 "expression"]),
  ("term_op", .choice 48 [.act 45 (.nt 44 "add_op") false ["add_bin_op"], .act 47 (.nt 46 "sub_op") false ["sub_bin_op"]]),
  ("factor_op", .choice 53 [.act 50 (.nt 49 "mul_op") false ["mul_bin_op"], .act 52 (.nt 51 "div_op") false ["div_bin_op"]]),
  ("exponent_op", .act 55 (.nt 54 "exp_op") false ["exp_bin_op"]),
  ("identifier", .act 64 (.seq 63 [.not 57 (.nt 56 "digit"), .not 59 (.nt 58 "keyword"), .plus 61 (.nt 60 "ident_char"), .nt 62 "spacing"]) false ["to_string"]),
  ("ident_char", .cls 65 [⟨'a', 'z'⟩, ⟨'A', 'Z'⟩, ⟨'0', '9'⟩, ⟨'_', '_'⟩]),
  ("digit", .cls 66 [⟨'0', '9'⟩]),
  ("number", .act 71 (.seq 70 [.plus 68 (.nt 67 "digit"), .nt 69 "spacing"]) false ["to_number"]),
  ("spacing", .asc 74 (.star 73 (.cls 72 [⟨' ', ' '⟩, ⟨'\n', '\n'⟩, ⟨'\r', '\r'⟩, ⟨'\t', '\t'⟩])) .invisible),
  ("kw_tail", .seq 78 [.not 76 (.nt 75 "ident_char"), .nt 77 "spacing"]),
  ("keyword", .choice 81 [.nt 79 "let_kw", .nt 80 "in_kw"]),
  ("let_kw", .seq 84 [.str 82 "let", .nt 83 "kw_tail"]),
  ("in_kw", .seq 87 [.str 85 "in", .nt 86 "kw_tail"]),
  ("bind_op", .seq 90 [.str 88 "=", .nt 89 "spacing"]),
  ("add_op", .seq 93 [.str 91 "+", .nt 92 "spacing"]),
  ("sub_op", .seq 96 [.str 94 "-", .nt 95 "spacing"]),
  ("mul_op", .seq 99 [.str 97 "*", .nt 98 "spacing"]),
  ("div_op", .seq 102 [.str 100 "/", .nt 101 "spacing"]),
  ("exp_op", .seq 105 [.str 103 "^", .nt 104 "spacing"]),
  ("lparen", .seq 108 [.str 106 "(", .nt 107 "spacing"]),
  ("rparen", .seq 111 [.str 109 ")", .nt 110 "spacing"])]⟩

/-- The expressions that give no value. -/
def calcUnits : List Nat := [0, 30, 32, 35, 37, 41, 44, 46, 49, 51, 54, 56, 57, 58, 59, 62, 69, 72, 73, 74, 75, 76, 77, 78, 79, 80, 81, 82, 83, 84, 85, 86, 87, 88, 89, 90, 91, 92, 93, 94, 95, 96, 97, 98, 99, 100, 101, 102, 103, 104, 105, 106, 107, 108, 109, 110, 111]

/-- The types of the calculator: which expressions give values. -/
structure CalcTypes (T : Nat → Ty) : Prop where
  t0 : T 0 = .unit
  t1 : T 1 ≠ .unit
  t2 : T 2 ≠ .unit
  t3 : T 3 ≠ .unit
  t4 : T 4 ≠ .unit
  t5 : T 5 ≠ .unit
  t6 : T 6 ≠ .unit
  t7 : T 7 ≠ .unit
  t8 : T 8 ≠ .unit
  t9 : T 9 ≠ .unit
  t10 : T 10 ≠ .unit
  t11 : T 11 ≠ .unit
  t12 : T 12 ≠ .unit
  t13 : T 13 ≠ .unit
  t14 : T 14 ≠ .unit
  t15 : T 15 ≠ .unit
  t16 : T 16 ≠ .unit
  t17 : T 17 ≠ .unit
  t18 : T 18 ≠ .unit
  t19 : T 19 ≠ .unit
  t20 : T 20 ≠ .unit
  t21 : T 21 ≠ .unit
  t22 : T 22 ≠ .unit
  t23 : T 23 ≠ .unit
  t24 : T 24 ≠ .unit
  t25 : T 25 ≠ .unit
  t26 : T 26 ≠ .unit
  t27 : T 27 ≠ .unit
  t28 : T 28 ≠ .unit
  t29 : T 29 ≠ .unit
  t30 : T 30 = .unit
  t31 : T 31 ≠ .unit
  t32 : T 32 = .unit
  t33 : T 33 ≠ .unit
  t34 : T 34 ≠ .unit
  t35 : T 35 = .unit
  t36 : T 36 ≠ .unit
  t37 : T 37 = .unit
  t38 : T 38 ≠ .unit
  t39 : T 39 ≠ .unit
  t40 : T 40 ≠ .unit
  t41 : T 41 = .unit
  t42 : T 42 ≠ .unit
  t43 : T 43 ≠ .unit
  t44 : T 44 = .unit
  t45 : T 45 ≠ .unit
  t46 : T 46 = .unit
  t47 : T 47 ≠ .unit
  t48 : T 48 ≠ .unit
  t49 : T 49 = .unit
  t50 : T 50 ≠ .unit
  t51 : T 51 = .unit
  t52 : T 52 ≠ .unit
  t53 : T 53 ≠ .unit
  t54 : T 54 = .unit
  t55 : T 55 ≠ .unit
  t56 : T 56 = .unit
  t57 : T 57 = .unit
  t58 : T 58 = .unit
  t59 : T 59 = .unit
  t60 : T 60 ≠ .unit
  t61 : T 61 ≠ .unit
  t62 : T 62 = .unit
  t63 : T 63 ≠ .unit
  t64 : T 64 ≠ .unit
  t65 : T 65 ≠ .unit
  t66 : T 66 ≠ .unit
  t67 : T 67 ≠ .unit
  t68 : T 68 ≠ .unit
  t69 : T 69 = .unit
  t70 : T 70 ≠ .unit
  t71 : T 71 ≠ .unit
  t72 : T 72 = .unit
  t73 : T 73 = .unit
  t74 : T 74 = .unit
  t75 : T 75 = .unit
  t76 : T 76 = .unit
  t77 : T 77 = .unit
  t78 : T 78 = .unit
  t79 : T 79 = .unit
  t80 : T 80 = .unit
  t81 : T 81 = .unit
  t82 : T 82 = .unit
  t83 : T 83 = .unit
  t84 : T 84 = .unit
  t85 : T 85 = .unit
  t86 : T 86 = .unit
  t87 : T 87 = .unit
  t88 : T 88 = .unit
  t89 : T 89 = .unit
  t90 : T 90 = .unit
  t91 : T 91 = .unit
  t92 : T 92 = .unit
  t93 : T 93 = .unit
  t94 : T 94 = .unit
  t95 : T 95 = .unit
  t96 : T 96 = .unit
  t97 : T 97 = .unit
  t98 : T 98 = .unit
  t99 : T 99 = .unit
  t100 : T 100 = .unit
  t101 : T 101 = .unit
  t102 : T 102 = .unit
  t103 : T 103 = .unit
  t104 : T 104 = .unit
  t105 : T 105 = .unit
  t106 : T 106 = .unit
  t107 : T 107 = .unit
  t108 : T 108 = .unit
  t109 : T 109 = .unit
  t110 : T 110 = .unit
  t111 : T 111 = .unit

theorem calcTypes_of {T : Nat → Ty} (h : ∀ i, i < 112 → decide (T i = .unit) = calcUnits.contains i) : CalcTypes T where
  t0 := of_decide_eq_true (h 0 (by decide))
  t1 := of_decide_eq_false (h 1 (by decide))
  t2 := of_decide_eq_false (h 2 (by decide))
  t3 := of_decide_eq_false (h 3 (by decide))
  t4 := of_decide_eq_false (h 4 (by decide))
  t5 := of_decide_eq_false (h 5 (by decide))
  t6 := of_decide_eq_false (h 6 (by decide))
  t7 := of_decide_eq_false (h 7 (by decide))
  t8 := of_decide_eq_false (h 8 (by decide))
  t9 := of_decide_eq_false (h 9 (by decide))
  t10 := of_decide_eq_false (h 10 (by decide))
  t11 := of_decide_eq_false (h 11 (by decide))
  t12 := of_decide_eq_false (h 12 (by decide))
  t13 := of_decide_eq_false (h 13 (by decide))
  t14 := of_decide_eq_false (h 14 (by decide))
  t15 := of_decide_eq_false (h 15 (by decide))
  t16 := of_decide_eq_false (h 16 (by decide))
  t17 := of_decide_eq_false (h 17 (by decide))
  t18 := of_decide_eq_false (h 18 (by decide))
  t19 := of_decide_eq_false (h 19 (by decide))
  t20 := of_decide_eq_false (h 20 (by decide))
  t21 := of_decide_eq_false (h 21 (by decide))
  t22 := of_decide_eq_false (h 22 (by decide))
  t23 := of_decide_eq_false (h 23 (by decide))
  t24 := of_decide_eq_false (h 24 (by decide))
  t25 := of_decide_eq_false (h 25 (by decide))
  t26 := of_decide_eq_false (h 26 (by decide))
  t27 := of_decide_eq_false (h 27 (by decide))
  t28 := of_decide_eq_false (h 28 (by decide))
  t29 := of_decide_eq_false (h 29 (by decide))
  t30 := of_decide_eq_true (h 30 (by decide))
  t31 := of_decide_eq_false (h 31 (by decide))
  t32 := of_decide_eq_true (h 32 (by decide))
  t33 := of_decide_eq_false (h 33 (by decide))
  t34 := of_decide_eq_false (h 34 (by decide))
  t35 := of_decide_eq_true (h 35 (by decide))
  t36 := of_decide_eq_false (h 36 (by decide))
  t37 := of_decide_eq_true (h 37 (by decide))
  t38 := of_decide_eq_false (h 38 (by decide))
  t39 := of_decide_eq_false (h 39 (by decide))
  t40 := of_decide_eq_false (h 40 (by decide))
  t41 := of_decide_eq_true (h 41 (by decide))
  t42 := of_decide_eq_false (h 42 (by decide))
  t43 := of_decide_eq_false (h 43 (by decide))
  t44 := of_decide_eq_true (h 44 (by decide))
  t45 := of_decide_eq_false (h 45 (by decide))
  t46 := of_decide_eq_true (h 46 (by decide))
  t47 := of_decide_eq_false (h 47 (by decide))
  t48 := of_decide_eq_false (h 48 (by decide))
  t49 := of_decide_eq_true (h 49 (by decide))
  t50 := of_decide_eq_false (h 50 (by decide))
  t51 := of_decide_eq_true (h 51 (by decide))
  t52 := of_decide_eq_false (h 52 (by decide))
  t53 := of_decide_eq_false (h 53 (by decide))
  t54 := of_decide_eq_true (h 54 (by decide))
  t55 := of_decide_eq_false (h 55 (by decide))
  t56 := of_decide_eq_true (h 56 (by decide))
  t57 := of_decide_eq_true (h 57 (by decide))
  t58 := of_decide_eq_true (h 58 (by decide))
  t59 := of_decide_eq_true (h 59 (by decide))
  t60 := of_decide_eq_false (h 60 (by decide))
  t61 := of_decide_eq_false (h 61 (by decide))
  t62 := of_decide_eq_true (h 62 (by decide))
  t63 := of_decide_eq_false (h 63 (by decide))
  t64 := of_decide_eq_false (h 64 (by decide))
  t65 := of_decide_eq_false (h 65 (by decide))
  t66 := of_decide_eq_false (h 66 (by decide))
  t67 := of_decide_eq_false (h 67 (by decide))
  t68 := of_decide_eq_false (h 68 (by decide))
  t69 := of_decide_eq_true (h 69 (by decide))
  t70 := of_decide_eq_false (h 70 (by decide))
  t71 := of_decide_eq_false (h 71 (by decide))
  t72 := of_decide_eq_true (h 72 (by decide))
  t73 := of_decide_eq_true (h 73 (by decide))
  t74 := of_decide_eq_true (h 74 (by decide))
  t75 := of_decide_eq_true (h 75 (by decide))
  t76 := of_decide_eq_true (h 76 (by decide))
  t77 := of_decide_eq_true (h 77 (by decide))
  t78 := of_decide_eq_true (h 78 (by decide))
  t79 := of_decide_eq_true (h 79 (by decide))
  t80 := of_decide_eq_true (h 80 (by decide))
  t81 := of_decide_eq_true (h 81 (by decide))
  t82 := of_decide_eq_true (h 82 (by decide))
  t83 := of_decide_eq_true (h 83 (by decide))
  t84 := of_decide_eq_true (h 84 (by decide))
  t85 := of_decide_eq_true (h 85 (by decide))
  t86 := of_decide_eq_true (h 86 (by decide))
  t87 := of_decide_eq_true (h 87 (by decide))
  t88 := of_decide_eq_true (h 88 (by decide))
  t89 := of_decide_eq_true (h 89 (by decide))
  t90 := of_decide_eq_true (h 90 (by decide))
  t91 := of_decide_eq_true (h 91 (by decide))
  t92 := of_decide_eq_true (h 92 (by decide))
  t93 := of_decide_eq_true (h 93 (by decide))
  t94 := of_decide_eq_true (h 94 (by decide))
  t95 := of_decide_eq_true (h 95 (by decide))
  t96 := of_decide_eq_true (h 96 (by decide))
  t97 := of_decide_eq_true (h 97 (by decide))
  t98 := of_decide_eq_true (h 98 (by decide))
  t99 := of_decide_eq_true (h 99 (by decide))
  t100 := of_decide_eq_true (h 100 (by decide))
  t101 := of_decide_eq_true (h 101 (by decide))
  t102 := of_decide_eq_true (h 102 (by decide))
  t103 := of_decide_eq_true (h 103 (by decide))
  t104 := of_decide_eq_true (h 104 (by decide))
  t105 := of_decide_eq_true (h 105 (by decide))
  t106 := of_decide_eq_true (h 106 (by decide))
  t107 := of_decide_eq_true (h 107 (by decide))
  t108 := of_decide_eq_true (h 108 (by decide))
  t109 := of_decide_eq_true (h 109 (by decide))
  t110 := of_decide_eq_true (h 110 (by decide))
  t111 := of_decide_eq_true (h 111 (by decide))

end Oak.Calculator
