import Verif.Proofs.Restyle
import Verif.Proofs.CalcsGrammar
import Verif.Proofs.CalcDecided
import Verif.Proofs.CalcParser
import Verif.Spec.Calculators
import Verif.Spec.Compose
import Verif.Corpus.CalcsShape
/-!
calc2 and calc3 are calc with other functions.
-/
set_option linter.constructorNameAsVariable false
set_option autoImplicit false

namespace Oak.Calculator
open Oak Spec

/-! ## The grammars -/

/-- The types of the three calculators: which expressions give values. -/
def UnitsAre (us : List Nat) (n : Nat) (T : Nat → Ty) : Prop := ∀ i, i < n → decide (T i = .unit) = us.contains i

theorem calc_units {ms us A T fs} (ho : oak 100 Corpus.calcGrammar = .ok (.code ms us A T fs)) : UnitsAre calcUnits 112 T := by
  have hs := Corpus.calc_shape
  unfold Corpus.calcShape at hs
  rw [ho] at hs
  simp only [Bool.and_eq_true, List.all_eq_true, List.mem_range, beq_iff_eq] at hs
  exact hs.2

theorem calc2_read {ms us A T fs} (ho : oak 100 Corpus.calc2Grammar = .ok (.code ms us A T fs)) : A.grammar = calc2G ∧ UnitsAre calc2Units 116 T := by
  have hs := Corpus.calc2_shape
  unfold Corpus.calc2Shape at hs
  rw [ho] at hs
  simp only [Bool.and_eq_true, List.all_eq_true, List.mem_range, beq_iff_eq] at hs
  refine ⟨?_, hs.2⟩
  have := sameRules_eq hs.1
  cases hA : A.grammar; rw [hA] at this; cases this; rfl

theorem calc3_read {ms us A T fs} (ho : oak 100 Corpus.calc3Grammar = .ok (.code ms us A T fs)) : A.grammar = calc3G ∧ UnitsAre calc3Units 101 T := by
  have hs := Corpus.calc3_shape
  unfold Corpus.calc3Shape at hs
  rw [ho] at hs
  simp only [Bool.and_eq_true, List.all_eq_true, List.mem_range, beq_iff_eq] at hs
  refine ⟨?_, hs.2⟩
  have := sameRules_eq hs.1
  cases hA : A.grammar; rw [hA] at this; cases this; rfl

theorem UnitsAre.level {us us' : List Nat} {n n' : Nat} {T T' : Nat → Ty} (h : UnitsAre us n T) (h' : UnitsAre us' n' T') {i j : Nat} (hi : i < n) (hj : j < n')
    (e : us.contains i = us'.contains j) : Level T T' i j := by
  have := (h i hi).trans (e.trans (h' j hj).symm)
  unfold Level
  simpa using this

/-- No value of an external rule. -/
abbrev NoVal : Val → Prop := fun _ => False

theorem act_by {K : Restyling} {R : String → String → Prop} {ρ : String → Path → Prop} {T T' : Nat → Ty} {i j : Nat} {e e' : Expr} {u b b' : Bool} {f f' : Path}
    (hk : K u b f b' f') (hl : Level T T' i j) (h : Restyled K R ρ T T' e e') (hl' : Level T T' e.id e'.id) (hu : decide (T e.id = .unit) = u) :
    Restyled K R ρ T T' (.act i e b f) (.act j e' b' f') := .act hl h hl' hu hk

/-- Finds the function that takes the place of another one. -/
macro "calc_style" : tactic => `(tactic| first
  | exact CalcStyle.number | exact CalcStyle.var | exact CalcStyle.letIn | exact CalcStyle.left | exact CalcStyle.right | exact CalcStyle.digits | exact CalcStyle.chars
  | exact CalcStyle.op .add | exact CalcStyle.op .sub | exact CalcStyle.op .mul | exact CalcStyle.op .div | exact CalcStyle.op .exp)

/-- The rules of calc and calc2. -/
theorem calc2_rules {T T' : Nat → Ty} (H : UnitsAre calcUnits 112 T) (H' : UnitsAre calc2Units 116 T') :
    ∀ r r', r = r' ∧ (calcG.find r).isSome = true → ∃ b b', calcG.find r = some b ∧ calc2G.find r' = some b' ∧
      Restyled CalcStyle (fun r r' => r = r' ∧ (calcG.find r).isSome = true) (fun _ _ => False) T T' b b' := by
  rintro r _ ⟨rfl, hr⟩
  obtain ⟨b, hb⟩ := Option.isSome_iff_exists.1 hr
  have hm : (r, b) ∈ calcG.rules := grammar_find_mem hb
  simp only [calcG, List.mem_cons, Prod.mk.injEq, List.not_mem_nil, or_false] at hm
  refine ⟨b, ?_⟩
  rcases hm with ⟨rfl, rfl⟩ | ⟨rfl, rfl⟩ | ⟨rfl, rfl⟩ | ⟨rfl, rfl⟩ | ⟨rfl, rfl⟩ | ⟨rfl, rfl⟩ | ⟨rfl, rfl⟩ | ⟨rfl, rfl⟩ | ⟨rfl, rfl⟩ | ⟨rfl, rfl⟩ | ⟨rfl, rfl⟩ |
    ⟨rfl, rfl⟩ | ⟨rfl, rfl⟩ | ⟨rfl, rfl⟩ | ⟨rfl, rfl⟩ | ⟨rfl, rfl⟩ | ⟨rfl, rfl⟩ | ⟨rfl, rfl⟩ | ⟨rfl, rfl⟩ | ⟨rfl, rfl⟩ | ⟨rfl, rfl⟩ | ⟨rfl, rfl⟩ | ⟨rfl, rfl⟩ |
    ⟨rfl, rfl⟩ | ⟨rfl, rfl⟩ | ⟨rfl, rfl⟩ | ⟨rfl, rfl⟩
  all_goals
    refine ⟨_, hb, rfl, ?_⟩
    repeat' first
      | exact H.level H' (by decide) (by decide) (by decide)
      | exact (H _ (by decide)).trans (by decide)
      | exact ⟨rfl, by decide⟩
      | refine act_by (by calc_style) ?_ ?_ ?_ ?_
      | constructor

end Oak.Calculator
