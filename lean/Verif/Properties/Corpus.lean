import Verif.Properties.Checked
import Verif.Proofs.Separate
import Verif.Corpus.Small
import Verif.Corpus.Calc
import Verif.Corpus.Calc2
import Verif.Corpus.Calc3
import Verif.Corpus.Ntcc
/-!
The grammars of the test-suite of the repository (tests/grammars): C53.
-/
set_option linter.constructorNameAsVariable false
set_option autoImplicit false

namespace Oak
open Spec Syntax Typing

/-- The grammars of tests/grammars, whose tokens are in `Corpus/Grammars.lean`. -/
def Corpus.all : List (List Tok) :=
  [calcGrammar, calc2Grammar, calc3Grammar, combinatorsGrammar, issue94Grammar, jsonGrammar, ntccGrammar, recursive_typeGrammar, stream_spanGrammar, type_nameGrammar,
   typingGrammar, unreachable_ruleGrammar, useless_chainingGrammar, well_formednessGrammar]

theorem verdict_code {ts : List Tok} {a b : Bool} (h : Corpus.verdict ts = some (a, b)) : ∃ ms us A T fs, oak 100 ts = .ok (.code ms us A T fs) ∧
    (A.grammar.sized T && A.grammar.coherent T && A.grammar.scopable T) = a ∧ (A.consistent T 100 && A.grammar.refable T && A.separate T (fun _ => false) 100) = b := by
  unfold Corpus.verdict at h
  split at h
  · rename_i ms us A T fs ho
    cases h
    exact ⟨ms, us, A, T, fs, ho, rfl, rfl⟩
  · cases h

theorem corpus_verdicts : ∀ ts ∈ Corpus.all, ∃ b, Corpus.verdict ts = some (true, b) ∧ (ts ≠ Corpus.calc3Grammar → b = true) := by
  intro ts hts
  simp only [Corpus.all, List.mem_cons, List.not_mem_nil, or_false] at hts
  rcases hts with rfl | rfl | rfl | rfl | rfl | rfl | rfl | rfl | rfl | rfl | rfl | rfl | rfl | rfl
  · exact ⟨_, Corpus.calc_verdict, fun _ => rfl⟩
  · exact ⟨_, Corpus.calc2_verdict, fun _ => rfl⟩
  · exact ⟨_, Corpus.calc3_verdict, fun h => absurd rfl h⟩
  · exact ⟨_, Corpus.combinators_verdict, fun _ => rfl⟩
  · exact ⟨_, Corpus.issue94_verdict, fun _ => rfl⟩
  · exact ⟨_, Corpus.json_verdict, fun _ => rfl⟩
  · exact ⟨_, Corpus.ntcc_verdict, fun _ => rfl⟩
  · exact ⟨_, Corpus.recursive_type_verdict, fun _ => rfl⟩
  · exact ⟨_, Corpus.stream_span_verdict, fun _ => rfl⟩
  · exact ⟨_, Corpus.type_name_verdict, fun _ => rfl⟩
  · exact ⟨_, Corpus.typing_verdict, fun _ => rfl⟩
  · exact ⟨_, Corpus.unreachable_rule_verdict, fun _ => rfl⟩
  · exact ⟨_, Corpus.useless_chaining_verdict, fun _ => rfl⟩
  · exact ⟨_, Corpus.well_formedness_verdict, fun _ => rfl⟩

/-- C53: each grammar of the test-suite is accepted, and on every text (not only on those of the test-suite), every recognizer and parser generated for it returns, and returns
what the grammar as it is written says. -/
theorem C53_results : ∀ ts ∈ Corpus.all, ∃ ms us A T fs F, oak 100 ts = .ok (.code ms us A T fs) ∧ Blocks ts F ∧ F.rules ≠ [] ∧
    ∀ (ext : Nat → FnRef → PState StrStream Val → Res (PState StrStream Val)) (X : ExtSpec) (ptr : Nat) (input : List Char),
      ExtOk (StrStream.At ptr input) StrStream.rest ext A.grammar X → X.Forward → ExtSpec.Consuming X → ExtSpec.TotalOn X A.grammar → ∀ r ∈ F.rules.map (·.1), ∀ p,
        ∃ e, A.grammar.find r = some e ∧ (r, e.written.bare) ∈ F.rules ∧ (∃ res, Returns ext fs p r ptr input res) ∧
        ∀ res, Returns ext fs p r ptr input res ↔ ∃ o L, Peg A.grammar X e input o L ∧ res = expectedResult A.grammar T e p ptr input L o := by
  intro ts hts
  obtain ⟨b, hv, _⟩ := corpus_verdicts ts hts
  obtain ⟨ms, us, A, T, fs, ho, h1, _⟩ := verdict_code hv
  simp only [Bool.and_eq_true] at h1
  obtain ⟨F, hF, _, hne, _⟩ := C47_faithful ho
  refine ⟨ms, us, A, T, fs, F, ho, hF, hne, fun ext X ptr input hext hfwd hcon htot r hr p => ?_⟩
  exact C47_checked ho h1.1.1 h1.1.2 h1.2 hext hfwd hcon htot hF hr p

/-- C53: the code generated for each grammar of the test-suite but `calc3` is accepted by the checks of the Rust compiler: types, scopes, references, and moves whichever of
the types of the user are `Copy`.  (`calc3` writes `Box<Expression>` for a type called `PExpr` elsewhere: Oak does not know that this is the same type.) -/
theorem C53_compiles : ∀ ts ∈ Corpus.all, ts ≠ Corpus.calc3Grammar → ∃ ms us A T fs, oak 100 ts = .ok (.code ms us A T fs) ∧ A.WellTyped T fs ∧
    ∀ cp : String → Bool, ∀ f ∈ fs, ∃ (ty : Name → VTy) (t : RTy), FnTyped (A.sigs T) (fun x u => ty x = u) f.2 t ∧ f.2.owns (fun x => (ty x).copy cp) = true := by
  intro ts hts hne
  obtain ⟨b, hv, hb⟩ := corpus_verdicts ts hts
  obtain rfl := hb hne
  obtain ⟨ms, us, A, T, fs, ho, h1, h2⟩ := verdict_code hv
  simp only [Bool.and_eq_true] at h1 h2
  exact ⟨ms, us, A, T, fs, ho, C49_checked ho h2.1.1 h1.2 h2.1.2, fun cp => C51_checked ho h2.1.1 h1.2 h2.1.2 (separate_all h2.2 cp)⟩

end Oak
