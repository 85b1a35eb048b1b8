import Verif.Proofs.CalcGrammar
import Verif.Proofs.RustGives
import Verif.Properties.Corpus
import Verif.Corpus.CalcShape
import Verif.Proofs.FileMap
/-!
Every expression of the grammar of the calculator has an outcome on every text.
-/
set_option linter.constructorNameAsVariable false
set_option autoImplicit false

namespace Oak.Calculator
open Oak Spec

/-- The model of the macro reads tests/grammars/calc.rs as `calcG`. -/
theorem calc_read {ms us A T fs} (ho : oak 100 Corpus.calcGrammar = .ok (.code ms us A T fs)) : A.grammar = calcG ∧ CalcTypes T := by
  have hs := Corpus.calc_shape
  unfold Corpus.calcShape at hs
  rw [ho] at hs
  simp only [Bool.and_eq_true, List.all_eq_true, List.mem_range, beq_iff_eq] at hs
  refine ⟨?_, calcTypes_of hs.2⟩
  have := sameRules_eq hs.1
  cases hA : A.grammar; rw [hA] at this; cases this; rfl

theorem calc_accepted : Oak.Accepted calcG := by
  obtain ⟨ms, us, A, T, fs, ho, _⟩ := verdict_code Corpus.calc_verdict
  obtain ⟨F, _, _, _, _, _, h⟩ := C47_faithful ho
  rw [(calc_read ho).1] at h
  exact h

theorem calc_resolved : calcG.resolved = true := by decide +kernel

mutual
/-- No call of an external rule. -/
def inner : Expr → Bool
  | .ext .. => false
  | .seq _ es | .choice _ es => innerAll es
  | .span _ e | .star _ e | .plus _ e | .opt _ e | .and _ e | .not _ e | .act _ e _ _ | .asc _ e _ | .range _ e => inner e
  | _ => true
/-- The same for lists. -/
def innerAll : List Expr → Bool
  | [] => true
  | e :: es => inner e && innerAll es
end

theorem innerAll_mem {es : List Expr} (h : innerAll es = true) : ∀ e ∈ es, inner e = true := by
  induction es with
  | nil => simp
  | cons e es ih => rw [innerAll, Bool.and_eq_true] at h; simpa [h.1] using ih h.2

theorem inner_sub {x e : Expr} (h : inner e = true) (hs : Sub x e) : inner x = true := by
  induction e using Expr.kidsInd with
  | h e ih =>
    rcases sub_kids.1 hs with rfl | ⟨d, hd, hs⟩
    · exact h
    · refine ih d hd ?_ hs
      cases e <;> simp only [Expr.kids, List.mem_singleton, List.not_mem_nil] at hd <;> rw [inner] at h
      case seq => exact innerAll_mem h d hd
      case choice => exact innerAll_mem h d hd
      all_goals subst hd; exact h

theorem calc_inner : calcG.rules.all (fun q => inner q.2) = true := by decide +kernel

theorem calc_noext {i p} : ¬ Occurs calcG (.ext i p) := by
  rintro ⟨r, e, he, hs⟩
  have := calc_inner
  simp only [List.all_eq_true] at this
  have := inner_sub (this _ (grammar_find_mem he)) hs
  simp [inner] at this

/-- Every expression of the grammar has an outcome everywhere. -/
theorem calc_decided {e : Expr} (he : Occurs calcG e) (s : List Char) : ∃ o L, Peg calcG noExt e s o L := by
  obtain ⟨h1, h2⟩ := accepted_ok calc_accepted
  have hres : ∀ r e, calcG.find r = some e → e.resolved calcG = true := by
    intro r e he
    have := calc_resolved
    simp only [Grammar.resolved, List.all_eq_true] at this
    exact this _ (grammar_find_mem he)
  have hbody : ∀ r e, calcG.find r = some e → TermOk calcG noExt e := fun r e he =>
    ⟨hres r e he, h1 r e he, fun i p hp => absurd ⟨r, e, he, hp⟩ calc_noext⟩
  obtain ⟨r, b, hb, hs⟩ := he
  refine decided noExt_forward (fun _ _ _ _ _ h => h.elim) h2 hbody _ s rfl e ((hbody r b hb).of (Typing.resolved_occurs (hres r b hb) hs) fun y hy => hy.trans hs)

theorem calc_det : ExtSpec.Det noExt := fun _ _ _ _ _ _ h => h.elim

theorem calc_fails_iff {T : Nat → Ty} {sp : SpanSpec} {e : Expr} (he : Occurs calcG e) {s : List Char} :
    Fails calcG noExt e s ↔ ∀ rest vs, ¬ Yields calcG noExt T sp e s rest vs := by
  constructor
  · intro h rest vs hg
    exact hg.not_fails calc_det h
  · intro h
    obtain ⟨o, L, hp⟩ := calc_decided he s
    cases o with
    | ok rest t => exact absurd ⟨t, L, hp, rfl⟩ (h rest _)
    | fail => exact ⟨L, hp⟩

end Oak.Calculator
