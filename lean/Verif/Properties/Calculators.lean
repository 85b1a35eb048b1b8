import Verif.Properties.Calculator
import Verif.Properties.Restyle
import Verif.Properties.Checked
import Verif.Proofs.Compose
import Verif.Proofs.CalcsValues
/-!
The three calculators of the test-suite (tests/grammars/calc.rs, calc2.rs, calc3.rs): C74.
-/
set_option linter.constructorNameAsVariable false
set_option autoImplicit false

namespace Oak
open Spec Calculator

/-- The functions that the macro generates for tests/grammars/calc2.rs. -/
def Calc2Code (fs : List (FnRef × Fn)) : Prop := ∃ ms us A T, oak 100 Corpus.calc2Grammar = .ok (.code ms us A T fs)

/-- The functions that the macro generates for tests/grammars/calc3.rs. -/
def Calc3Code (fs : List (FnRef × Fn)) : Prop := ∃ ms us A T, oak 100 Corpus.calc3Grammar = .ok (.code ms us A T fs)

/-- The functions generated for calc3.rs, compiled with those generated for calc2.rs, which they call. -/
abbrev CalledFrom (fs2 : List (FnRef × Fn)) := linkFns calc2Rules fs2 noFns

theorem calc1_deployed {fs} (h : CalcCode fs) : ∃ T, UnitsAre calcUnits 112 T ∧ ∀ ptr s, Deployed calcG T fs noFns noExt ptr s := by
  obtain ⟨ms, us, A, T, ho⟩ := h
  obtain ⟨ms', us', A', T', fs', ho', h1, _⟩ := verdict_code Corpus.calc_verdict
  rw [ho] at ho'; cases ho'
  simp only [Bool.and_eq_true] at h1
  obtain ⟨hG, _⟩ := calc_read ho
  exact ⟨T, calc_units ho, fun ptr s => hG ▸ (C47_checked_generated ho h1.1.1 h1.1.2 h1.2).deployed ptr s⟩

theorem calc2_deployed {fs} (h : Calc2Code fs) : ∃ T, UnitsAre calc2Units 116 T ∧ ∀ ptr s, Deployed calc2G T fs noFns noExt ptr s := by
  obtain ⟨ms, us, A, T, ho⟩ := h
  obtain ⟨ms', us', A', T', fs', ho', h1, _⟩ := verdict_code Corpus.calc2_verdict
  rw [ho] at ho'; cases ho'
  simp only [Bool.and_eq_true] at h1
  obtain ⟨hG, hT⟩ := calc2_read ho
  exact ⟨T, hT, fun ptr s => hG ▸ (C47_checked_generated ho h1.1.1 h1.1.2 h1.2).deployed ptr s⟩

theorem calc2Rules_find {path : Path} {r : String} (h : calc2Rules path = some r) : ∃ e, calc2G.find r = some e := by
  unfold calc2Rules at h
  split at h
  · split at h
    · rename_i q
      cases h
      rcases q with rfl | rfl | rfl <;> exact Option.isSome_iff_exists.1 (by decide +kernel)
    · cases h
  · cases h

theorem calc3_deployed {fs fs2} (h : Calc3Code fs) (h2 : Calc2Code fs2) : ∃ T T2, UnitsAre calc3Units 101 T ∧ UnitsAre calc2Units 116 T2 ∧
    ∀ ptr s, Deployed calc3G T fs (CalledFrom fs2) (linkSpec calc2Rules calc2G T2 s noExt) ptr s := by
  obtain ⟨ms, us, A, T, ho⟩ := h
  obtain ⟨ms', us', A', T', fs', ho', h1, _⟩ := verdict_code Corpus.calc3_verdict
  rw [ho] at ho'; cases ho'
  simp only [Bool.and_eq_true] at h1
  obtain ⟨hG, hT⟩ := calc3_read ho
  obtain ⟨T2, hT2, d2⟩ := calc2_deployed h2
  exact ⟨T, T2, hT, hT2, fun ptr s => ⟨hG ▸ C47_checked_generated ho h1.1.1 h1.1.2 h1.2, linkFns_ok (d2 ptr s) (noExt_ok ptr s) fun _ _ => calc2Rules_find,
    linkSpec_forward noExt_forward⟩⟩

theorem calc_returns {fs} (h : CalcCode fs) {r : String} (hr : (calcG.find r).isSome = true) (p : Bool) (ptr : Nat) (s : List Char) :
    ∃ res, Returns noFns fs p r ptr s res := by
  obtain ⟨T, _, d⟩ := calc1_deployed h
  obtain ⟨e, he⟩ := Option.isSome_iff_exists.1 hr
  obtain ⟨o, L, hp⟩ := calc_decided ⟨r, e, he, .refl⟩ s
  exact ⟨_, ((d ptr s).returns_iff he _ _).2 ⟨o, L, hp, rfl⟩⟩

/-- The names of the rules of calc3. -/
def InCalc3 (r : String) : Prop := (calc3G.find r).isSome = true

/-- The names of the rules of calc and calc2. -/
def InCalc (r : String) : Prop := (calcG.find r).isSome = true

theorem calc3_in_calc {r : String} (h : InCalc3 r) : InCalc r := by
  obtain ⟨b, hb⟩ := Option.isSome_iff_exists.1 h
  have hm := grammar_find_mem hb
  have : ∀ q ∈ calc3G.rules, (calcG.find q.1).isSome = true := by decide +kernel
  exact this _ hm

/-- C74: the recognizers of calc2 are those of calc. -/
theorem C74_recognizers_calc2 {fs fs2} (h : CalcCode fs) (h2 : Calc2Code fs2) {r : String} (hr : InCalc r) (ptr : Nat) (s : List Char) (res : PResult StrStream Val) :
    Returns noFns fs false r ptr s res ↔ Returns noFns fs2 false r ptr s res := by
  obtain ⟨T, H, d⟩ := calc1_deployed h
  obtain ⟨T2, H2, d2⟩ := calc2_deployed h2
  exact C74_recognizers (d ptr s) (d2 ptr s) (calc2_restyled H H2 _) ⟨rfl, hr⟩ (calc_returns h hr _ _ _) res

/-- C74: the recognizers of calc3, which call those of calc2, are those of calc. -/
theorem C74_recognizers_calc3 {fs fs2 fs3} (h : CalcCode fs) (h2 : Calc2Code fs2) (h3 : Calc3Code fs3) {r : String} (hr : InCalc3 r) (ptr : Nat) (s : List Char)
    (res : PResult StrStream Val) : Returns noFns fs false r ptr s res ↔ Returns (CalledFrom fs2) fs3 false r ptr s res := by
  obtain ⟨T, H, d⟩ := calc1_deployed h
  obtain ⟨T3, T2, H3, H2, d3⟩ := calc3_deployed h3 h2
  exact C74_recognizers (d ptr s) (d3 ptr s) (calc3_restyled H H2 H3 s) ⟨rfl, hr⟩ (calc_returns h (calc3_in_calc hr) _ _ _) res

/-- The functions `fs'`, with the functions `ext'` that they call, are a calculator: on every text `parse_program` returns an expression if and only if the text is a way to
write it, and then the text is a way to write no other expression, and a function of the user panics if and only if a number does not fit in 32 bits. -/
def IsCalculator (ext' : Nat → FnRef → PState StrStream Val → Res (PState StrStream Val)) (fs' : List (FnRef × Fn)) : Prop :=
  ∀ (ptr : Nat) (s : List Char),
    (∀ t, Written t s ↔ ∃ v, Returns ext' fs' true "program" ptr s (.success v) ∧ Calculator.Builds v t) ∧
    (∀ v, Returns ext' fs' true "program" ptr s (.success v) → ∃ t, Calculator.Builds v t ∧ Written t s ∧ (∀ t', Written t' s → t' = t) ∧ (PanicsIn v ↔ ¬ t.Small))

theorem is_calculator {fs} (h : CalcCode fs) {ext' : Nat → FnRef → PState StrStream Val → Res (PState StrStream Val)} {fs' : List (FnRef × Fn)}
    (hp : ∀ ptr s, ∃ res res', ResultStyle CalcStyle NoVal res res' ∧ (∀ x, Returns noFns fs true "program" ptr s x ↔ x = res) ∧
      ∀ x, Returns ext' fs' true "program" ptr s x ↔ x = res') : IsCalculator ext' fs' := by
  obtain ⟨fs0, h0, hl⟩ := C63_language
  obtain ⟨_, _, _, _, h0⟩ := h0
  obtain ⟨ms, us, A, T, ho⟩ := h
  rw [h0] at ho
  cases ho
  have hc : CalcCode fs := ⟨_, _, _, _, h0⟩
  intro ptr s
  obtain ⟨res, res', hs, h1, h2⟩ := hp ptr s
  constructor
  · intro t
    rw [hl ptr s t]
    constructor
    · rintro ⟨v, hv, hd⟩
      have := (h1 _).1 hv
      subst this
      cases res' with
      | success v' => exact ⟨v', (h2 _).2 rfl, builds_of hd hs⟩
      | part => exact hs.elim
      | failure => exact hs.elim
    · rintro ⟨v', hv', hb⟩
      have := (h2 _).1 hv'
      subst this
      cases res with
      | success v =>
        obtain ⟨t', hd, _, _⟩ := C63_unambiguous hc ((h1 _).2 rfl)
        rw [hb.det (builds_of hd hs)]
        exact ⟨v, (h1 _).2 rfl, hd⟩
      | part => exact hs.elim
      | failure => exact hs.elim
  · intro v' hv'
    have := (h2 _).1 hv'
    subst this
    cases res with
    | success v =>
      obtain ⟨t, hd, hw, hu⟩ := C63_unambiguous hc ((h1 _).2 rfl)
      exact ⟨t, builds_of hd hs, hw, hu, builds_panics (builds_of hd hs)⟩
    | part => exact hs.elim
    | failure => exact hs.elim

theorem C74_parsers_calc2 {fs fs2} (h : CalcCode fs) (h2 : Calc2Code fs2) {r : String} (hr : InCalc r) (ptr : Nat) (s : List Char) :
    ∃ res res', ResultStyle CalcStyle NoVal res res' ∧ (∀ x, Returns noFns fs true r ptr s x ↔ x = res) ∧ ∀ x, Returns noFns fs2 true r ptr s x ↔ x = res' := by
  obtain ⟨T, H, d⟩ := calc1_deployed h
  obtain ⟨T2, H2, d2⟩ := calc2_deployed h2
  exact C74_parsers (d ptr s) (d2 ptr s) (calc2_restyled H H2 _) ⟨rfl, hr⟩ (calc_returns h hr _ _ _)

theorem C74_parsers_calc3 {fs fs2 fs3} (h : CalcCode fs) (h2 : Calc2Code fs2) (h3 : Calc3Code fs3) {r : String} (hr : InCalc3 r) (ptr : Nat) (s : List Char) :
    ∃ res res', ResultStyle CalcStyle NoVal res res' ∧ (∀ x, Returns noFns fs true r ptr s x ↔ x = res) ∧ ∀ x, Returns (CalledFrom fs2) fs3 true r ptr s x ↔ x = res' := by
  obtain ⟨T, H, d⟩ := calc1_deployed h
  obtain ⟨T3, T2, H3, H2, d3⟩ := calc3_deployed h3 h2
  exact C74_parsers (d ptr s) (d3 ptr s) (calc3_restyled H H2 H3 s) ⟨rfl, hr⟩ (calc_returns h (calc3_in_calc hr) _ _ _)

/-- C74: the grammar calc2.rs, which builds the expressions with constructors, is accepted, and its parser is a calculator. -/
theorem C74_calc2 : ∃ fs2, Calc2Code fs2 ∧ IsCalculator noFns fs2 := by
  obtain ⟨ms, us, A, T, fs, ho, _⟩ := verdict_code Corpus.calc_verdict
  obtain ⟨ms2, us2, A2, T2, fs2, ho2, _⟩ := verdict_code Corpus.calc2_verdict
  have h : CalcCode fs := ⟨ms, us, A, T, ho⟩
  have h2 : Calc2Code fs2 := ⟨ms2, us2, A2, T2, ho2⟩
  exact ⟨fs2, h2, is_calculator h fun ptr s => C74_parsers_calc2 h h2 (by unfold InCalc; decide +kernel) ptr s⟩

/-- C74: the grammar calc3.rs, which calls rules of calc2.rs, is accepted, and its parser is a calculator. -/
theorem C74_calc3 : ∃ fs2 fs3, Calc2Code fs2 ∧ Calc3Code fs3 ∧ IsCalculator (CalledFrom fs2) fs3 := by
  obtain ⟨ms, us, A, T, fs, ho, _⟩ := verdict_code Corpus.calc_verdict
  obtain ⟨ms2, us2, A2, T2, fs2, ho2, _⟩ := verdict_code Corpus.calc2_verdict
  obtain ⟨ms3, us3, A3, T3, fs3, ho3, _⟩ := verdict_code Corpus.calc3_verdict
  have h : CalcCode fs := ⟨ms, us, A, T, ho⟩
  have h2 : Calc2Code fs2 := ⟨ms2, us2, A2, T2, ho2⟩
  have h3 : Calc3Code fs3 := ⟨ms3, us3, A3, T3, ho3⟩
  exact ⟨fs2, fs3, h2, h3, is_calculator h fun ptr s => C74_parsers_calc3 h h2 h3 (by unfold InCalc3; decide +kernel) ptr s⟩

/-! ## Examples -/

/-- The rules that calc3 has: all those of the calculator but the ones it calls in calc2, and digits. -/
example : InCalc3 "program" ∧ InCalc3 "expression" ∧ InCalc3 "keyword" ∧ ¬ InCalc3 "number" ∧ ¬ InCalc3 "identifier" ∧ ¬ InCalc3 "ident_char" ∧ InCalc "number" := by
  unfold InCalc3 InCalc; decide +kernel

/-- The text `12` is a way to write an expression: calc3 returns a value that is this expression. -/
example : ∃ fs2 fs3, Calc2Code fs2 ∧ Calc3Code fs3 ∧ ∃ v, Returns (CalledFrom fs2) fs3 true "program" 0 (Term.num 12).text (.success v) ∧ Calculator.Builds v (.num 12) := by
  obtain ⟨fs2, fs3, h2, h3, hc⟩ := C74_calc3
  exact ⟨fs2, fs3, h2, h3, ((hc 0 _).1 (.num 12)).1 (text_written trivial)⟩

/-- What calc2 builds for `1-2-x`. -/
example : Calculator.Builds (.app ["fold_left"] [.app ["fold_left"] [.app ["fold_right"] [.list [], .box (.app ["Number"] [.app ["to_number"] [.list [.chr '1']]])], .list []],
      .list [.tup [.path ["Sub"], .box (.app ["Number"] [.app ["to_number"] [.list [.chr '2']]])], .tup [.path ["Sub"], .box (.app ["Variable"] [nameVal ['x']])]]])
    (.bin .sub (.bin .sub (.num 1) (.num 2)) (.var ['x'])) :=
  .leftSnoc (op := .sub) (vs := [.tup [.path ["Sub"], .box (.app ["Number"] [.app ["to_number"] [.list [.chr '2']]])]])
    (.leftSnoc (op := .sub) (vs := []) (.leftNil (.leftNil (.rightNil (.number (ds := ['1']))))) (.number (ds := ['2']))) .var

end Oak
