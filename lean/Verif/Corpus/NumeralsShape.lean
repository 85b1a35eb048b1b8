import Verif.Corpus.Verdict
/-! The model of the macro reads `tests/grammars/issue94.rs` and `stream_span.rs` as `digitsG` and `spansG`: checked by the kernel. -/
set_option linter.constructorNameAsVariable false
set_option autoImplicit false

namespace Oak.Numerals
open Oak

/-- The rules of issue94.rs, with the numbers of the expressions. -/
def digitsG : Grammar := ⟨[("underscore", .str 0 "_"),
  ("digits", .act 6 (.plus 5 (.seq 4 [.star 2 (.nt 1 "underscore"), .nt 3 "digit"])) false ["id"]),
  ("digit", .cls 7 [⟨'0', '9'⟩])]⟩

/-- Its expressions without value. -/
def digitsUnits : List Nat := [0, 1, 2]

/-- The rules of stream_span.rs, with the numbers of the expressions. -/
def spansG : Grammar := ⟨[
  ("expr", .act 7 (.span 6 (.seq 5 [.nt 0 "span_a", .any 1, .span 3 (.any 2), .str 4 "b"])) false ["make_expr"]),
  ("expr2", .act 14 (.span 13 (.seq 12 [.nt 8 "span_a", .any 9, .nt 10 "inner_expr", .str 11 "b"])) false ["make_expr"]),
  ("inner_expr", .span 18 (.choice 17 [.any 15, .any 16])),
  ("span_a", .span 20 (.str 19 "a")),
  ("expr3", .span 26 (.seq 25 [.choice 23 [.str 21 "a", .str 22 "b"], .str 24 "c"]))]⟩

/-- Its expressions without value. -/
def spansUnits : List Nat := [4, 11, 19, 21, 22, 23, 24, 25]

/-- The rules of combinators.rs, with the numbers of the expressions. -/
def combinatorsG : Grammar := ⟨[
  ("str_literal", .str 0 "return"),
  ("sequence", .seq 6 [.str 1 "if", .str 2 " ", .str 3 "then", .str 4 " ", .str 5 "else"]),
  ("any_single_char", .seq 9 [.any 7, .any 8]),
  ("choice", .choice 34 [
    .seq 14 [.str 10 "if", .any 11, .str 12 "else", .any 13],
    .seq 18 [.str 15 "let", .any 16, .any 17],
    .seq 33 [.str 19 "if ", .choice 24 [.seq 22 [.str 20 "-", .any 21], .any 23], .str 25 " else ",
      .choice 32 [.seq 28 [.str 26 "-", .any 27], .seq 31 [.str 29 "+", .any 30]]]]),
  ("repeat", .seq 44 [.star 41 (.seq 40 [.choice 38 [.str 35 "a", .plus 37 (.str 36 "b")], .any 39]), .star 43 (.str 42 "c")]),
  ("predicate", .choice 61 [
    .seq 52 [.and 46 (.str 45 "a"), .plus 51 (.seq 50 [.not 48 (.str 47 "b"), .any 49])],
    .seq 60 [.and 54 (.str 53 "b"), .plus 59 (.seq 58 [.not 56 (.str 55 "a"), .any 57])]]),
  ("optional", .seq 74 [.opt 63 (.str 62 "a"), .str 64 "b",
    .opt 72 (.choice 71 [.seq 67 [.str 65 "c", .any 66], .seq 70 [.str 68 "d", .any 69]]), .str 73 "z"]),
  ("char_class", .seq 80 [.plus 76 (.cls 75 [⟨'a', 'z'⟩, ⟨'A', 'Z'⟩, ⟨'1', '1'⟩, ⟨'2', '2'⟩, ⟨'_', '_'⟩]),
    .opt 78 (.cls 77 [⟨'\t', '\t'⟩, ⟨' ', ' '⟩]), .cls 79 [⟨'-', '-'⟩]]),
  ("non_terminal", .seq 85 [.str 81 "a", .plus 83 (.nt 82 "non_terminal_bis"), .any 84]),
  ("non_terminal_bis", .seq 98 [.choice 92 [.seq 88 [.str 86 "b", .any 87], .seq 91 [.str 89 "c", .any 90]],
    .plus 97 (.seq 96 [.not 94 (.str 93 "d"), .any 95])])]⟩

/-- Its expressions without value. -/
def combinatorsUnits : List Nat := [0, 1, 2, 3, 4, 5, 6, 10, 12, 15, 19, 20, 25, 26, 29, 35, 36, 37, 38, 42, 43, 45, 46, 47, 48, 53, 54, 55, 56, 62, 63, 64, 65, 68, 73, 81, 86, 89, 93, 94]

end Oak.Numerals

namespace Oak

mutual
/-- Equality of expressions. -/
def Expr.equal : Expr → Expr → Bool
  | .str i l, .str j k => i == j && l == k
  | .any i, .any j => i == j
  | .cls i l, .cls j k => i == j && decide (l = k)
  | .nt i l, .nt j k => i == j && l == k
  | .seq i es, .seq j fs => i == j && Expr.equalAll es fs
  | .choice i es, .choice j fs => i == j && Expr.equalAll es fs
  | .star i e, .star j f => i == j && e.equal f
  | .plus i e, .plus j f => i == j && e.equal f
  | .act i e b p, .act j f c q => i == j && e.equal f && b == c && p == q
  | .span i e, .span j f => i == j && e.equal f
  | .not i e, .not j f => i == j && e.equal f
  | .and i e, .and j f => i == j && e.equal f
  | .opt i e, .opt j f => i == j && e.equal f
  | _, _ => false
/-- Equality of lists of expressions. -/
def Expr.equalAll : List Expr → List Expr → Bool
  | [], [] => true
  | e :: es, f :: fs => e.equal f && Expr.equalAll es fs
  | _, _ => false
end

theorem Expr.equal_eq (e f : Expr) (h : e.equal f = true) : e = f := by
  refine Expr.rec (motive_1 := fun e => ∀ f, e.equal f = true → e = f) (motive_2 := fun es => ∀ fs, Expr.equalAll es fs = true → es = fs)
    ?_ ?_ ?_ ?_ ?_ ?_ ?_ ?_ ?_ ?_ ?_ ?_ ?_ ?_ ?_ ?_ ?_ ?_ e f h
  case refine_17 => intro fs h; cases fs <;> simp_all [Expr.equalAll]
  case refine_18 =>
    intro e es ih ihs fs h
    cases fs with
    | nil => simp [Expr.equalAll] at h
    | cons f fs =>
      simp only [Expr.equalAll, Bool.and_eq_true] at h
      rw [ih f h.1, ihs fs h.2]
  all_goals
    intros
    rename_i f h
    cases f <;> simp only [Expr.equal, Bool.and_eq_true, beq_iff_eq, decide_eq_true_eq, Bool.false_eq_true] at h <;> grind

/-- Equality of rules. -/
def equalRules : List (String × Expr) → List (String × Expr) → Bool
  | [], [] => true
  | q :: qs, p :: ps => q.1 == p.1 && q.2.equal p.2 && equalRules qs ps
  | _, _ => false

theorem equalRules_eq {qs ps : List (String × Expr)} (h : equalRules qs ps = true) : qs = ps := by
  induction qs generalizing ps with
  | nil => cases ps <;> simp_all [equalRules]
  | cons q qs ih =>
    cases ps with
    | nil => simp [equalRules] at h
    | cons p ps =>
      simp only [equalRules, Bool.and_eq_true, beq_iff_eq] at h
      rw [ih h.2, Prod.ext h.1.1 (Expr.equal_eq _ _ h.1.2)]

namespace Corpus

/-- The rules of the grammar, and which expressions give values. -/
def shapeIs (ts : List Tok) (G : Grammar) (us : List Nat) (n : Nat) : Bool :=
  match oak 100 ts with
  | .ok (.code _ _ A T _) => equalRules A.grammar.rules G.rules && (List.range n).all fun i => decide (T i = .unit) == us.contains i
  | _ => false

theorem issue94_shape : shapeIs issue94Grammar Numerals.digitsG Numerals.digitsUnits 8 = true := by decide +kernel

theorem stream_span_shape : shapeIs stream_spanGrammar Numerals.spansG Numerals.spansUnits 27 = true := by decide +kernel

theorem combinators_shape : shapeIs combinatorsGrammar Numerals.combinatorsG Numerals.combinatorsUnits 99 = true := by decide +kernel

theorem shape_read {ts : List Tok} {G : Grammar} {us : List Nat} {n : Nat} (hs : shapeIs ts G us n = true) {ms ws A T fs} (ho : oak 100 ts = .ok (.code ms ws A T fs)) :
    A.grammar = G ∧ ∀ i, i < n → (T i = .unit ↔ i ∈ us) := by
  unfold shapeIs at hs
  rw [ho] at hs
  simp only [Bool.and_eq_true, List.all_eq_true, List.mem_range, beq_iff_eq] at hs
  refine ⟨?_, fun i hi => ?_⟩
  · have := equalRules_eq hs.1
    cases hA : A.grammar; cases G; rw [hA] at this; cases this; rfl
  · have := hs.2 i hi
    rw [← List.contains_iff_mem, ← this, decide_eq_true_iff]

end Corpus
end Oak
