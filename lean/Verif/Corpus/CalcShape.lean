import Verif.Corpus.Verdict
import Verif.Proofs.CalcGrammar
/-! The model of the macro reads the grammar of `tests/grammars/calc.rs` as `calcG`: checked by the kernel. -/
set_option linter.constructorNameAsVariable false
set_option autoImplicit false

namespace Oak

mutual
/-- Equality of expressions. -/
def Expr.same : Expr → Expr → Bool
  | .str i l, .str j k => i == j && l == k
  | .cls i l, .cls j k => i == j && decide (l = k)
  | .nt i l, .nt j k => i == j && l == k
  | .ext i p, .ext j q => i == j && p == q
  | .seq i es, .seq j fs => i == j && Expr.sameAll es fs
  | .choice i es, .choice j fs => i == j && Expr.sameAll es fs
  | .star i e, .star j f => i == j && e.same f
  | .plus i e, .plus j f => i == j && e.same f
  | .not i e, .not j f => i == j && e.same f
  | .opt i e, .opt j f => i == j && e.same f
  | .act i e b p, .act j f c q => i == j && e.same f && b == c && p == q
  | .asc i e t, .asc j f u => i == j && e.same f && decide (t = u)
  | _, _ => false
/-- Equality of lists of expressions. -/
def Expr.sameAll : List Expr → List Expr → Bool
  | [], [] => true
  | e :: es, f :: fs => e.same f && Expr.sameAll es fs
  | _, _ => false
end

theorem Expr.same_eq (e f : Expr) (h : e.same f = true) : e = f := by
  refine Expr.rec (motive_1 := fun e => ∀ f, e.same f = true → e = f) (motive_2 := fun es => ∀ fs, Expr.sameAll es fs = true → es = fs)
    ?_ ?_ ?_ ?_ ?_ ?_ ?_ ?_ ?_ ?_ ?_ ?_ ?_ ?_ ?_ ?_ ?_ ?_ e f h
  case refine_17 => intro fs h; cases fs <;> simp_all [Expr.sameAll]
  case refine_18 =>
    intro e es ih ihs fs h
    cases fs with
    | nil => simp [Expr.sameAll] at h
    | cons f fs =>
      simp only [Expr.sameAll, Bool.and_eq_true] at h
      rw [ih f h.1, ihs fs h.2]
  all_goals
    intros
    rename_i f h
    cases f <;> simp only [Expr.same, Bool.and_eq_true, beq_iff_eq, decide_eq_true_eq, Bool.false_eq_true] at h <;> grind

/-- Equality of rules. -/
def sameRules : List (String × Expr) → List (String × Expr) → Bool
  | [], [] => true
  | q :: qs, p :: ps => q.1 == p.1 && q.2.same p.2 && sameRules qs ps
  | _, _ => false

theorem sameRules_eq {qs ps : List (String × Expr)} (h : sameRules qs ps = true) : qs = ps := by
  induction qs generalizing ps with
  | nil => cases ps <;> simp_all [sameRules]
  | cons q qs ih =>
    cases ps with
    | nil => simp [sameRules] at h
    | cons p ps =>
      simp only [sameRules, Bool.and_eq_true, beq_iff_eq] at h
      rw [ih h.2, Prod.ext h.1.1 (Expr.same_eq _ _ h.1.2)]

namespace Corpus

/-- The rules and the types that the macro computes are those of `calcG`. -/
def calcShape : Bool :=
  match oak 100 calcGrammar with
  | .ok (.code _ _ A T _) => sameRules A.grammar.rules Calculator.calcG.rules && (List.range 112).all fun i => decide (T i = .unit) == Calculator.calcUnits.contains i
  | _ => false

theorem calc_shape : calcShape = true := by decide +kernel

end Corpus
end Oak
