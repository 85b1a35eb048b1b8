import Verif.Proofs.Checked
import Verif.Properties.Ownership
/-!
The same results for grammars with recursive rules, when the inferred types pass the check of `Spec/Checked.lean`: C47, C49, C51, C52.
-/
set_option linter.constructorNameAsVariable false
set_option autoImplicit false

namespace Oak
open Spec Syntax Typing

section
variable {n m : Nat} {ts : List Tok} {ms : List Msg} {us : List TMsg} {A : AGrammar} {T : Nat → Ty} {fs : List (FnRef × Fn)}

theorem macro_names (h : oak n ts = .ok (.code ms us A T fs)) : (A.grammar.rules.map (·.1)).Nodup := by
  obtain ⟨F, k, B, h1, h2, rfl, _, _⟩ := oak_code h
  have H : Prepared (extractStream B) k := prepared_stream (prepared h1 h2).1
  exact H.ready.names

/-- C47: the code generated for a grammar, recursive or not, is correct if the inferred types agree with the number of values
(`sized` and `coherent`, which can be computed). -/
theorem C47_checked_generated (h : oak n ts = .ok (.code ms us A T fs)) (hz : A.grammar.sized T = true) (hc : A.grammar.coherent T = true) (hs : A.grammar.scopable T = true) : Generated A.grammar T fs := by
  obtain ⟨F, k, B, h1, h2, rfl, h3, h4⟩ := oak_code h
  have H : Prepared (extractStream B) k := prepared_stream (prepared h1 h2).1
  exact ⟨h4, C30_scopes_partial h4 hz hs, hc, H.resolved⟩

/-- C47: from the tokens of a grammar, recursive or not, to the results of the parsers, if the inferred types agree with the number of values: on every text,
the function generated for a rule returns, and returns what the grammar as it is written says. -/
theorem C47_checked (h : oak n ts = .ok (.code ms us A T fs)) (hz : A.grammar.sized T = true) (hc : A.grammar.coherent T = true) (hs : A.grammar.scopable T = true)
    {ext : Nat → FnRef → PState StrStream Val → Res (PState StrStream Val)} {X : ExtSpec} {ptr : Nat} {input : List Char}
    (hext : ExtOk (StrStream.At ptr input) StrStream.rest ext A.grammar X) (hfwd : X.Forward) (hcon : ExtSpec.Consuming X) (htot : ExtSpec.TotalOn X A.grammar)
    {F : FGrammar} (hF : Blocks ts F) {r : String} (hrule : r ∈ F.rules.map (·.1)) (p : Bool) :
    ∃ e, A.grammar.find r = some e ∧ (r, e.written.bare) ∈ F.rules ∧ (∃ res, Returns ext fs p r ptr input res) ∧
    ∀ res, Returns ext fs p r ptr input res ↔ ∃ o L, Peg A.grammar X e input o L ∧ res = expectedResult A.grammar T e p ptr input L o :=
  generated_end_to_end h (C47_checked_generated h hz hc hs) hext hfwd hcon htot hF hrule p

/-- C52: for a grammar, recursive or not, whose types pass the check, the generated functions are well typed if and only if the two conditions on the closures hold. -/
theorem C52_checked (h : oak n ts = .ok (.code ms us A T fs)) (hc : A.consistent T m = true) :
    A.WellTyped T fs ↔ A.grammar.scopable T = true ∧ A.grammar.refable T = true := by
  have hnd := macro_names h
  obtain ⟨F, k, B, h1, h2, rfl, h3, h4⟩ := oak_code h
  refine ⟨fun hw => wellTyped_conditions hnd (consistent_sized hc).1 h4 hw, fun ⟨hs, hr⟩ => ?_⟩
  have hall := consistent_fnTyped hnd hc h4 hs (refable_refOk h4 hr)
  intro r b hb
  have hm := grammar_find_mem hb
  refine ⟨compileGrammar_both h4 _ hm false, compileGrammar_both h4 _ hm true, fun f hf => ?_, fun f hf => ?_⟩
  · obtain ⟨ty, ht⟩ := hall _ hf
    exact FnTyped.ok ht
  · obtain ⟨ty, t, ht1, ht2⟩ := hall _ hf
    obtain ⟨j, hj⟩ := ht1 r b rfl hb
    exact ⟨t, j, hj, FnTyped.ok ht2⟩

/-- C49: the functions generated for a grammar, recursive or not, whose types pass the check are well typed, provided that no closure uses a variable out of scope, assigns or
borrows one of its `&mut` parameters. -/
theorem C49_checked (h : oak n ts = .ok (.code ms us A T fs)) (hc : A.consistent T m = true) (hs : A.grammar.scopable T = true) (hr : A.grammar.refable T = true) :
    A.WellTyped T fs := (C52_checked h hc).2 ⟨hs, hr⟩

/-- C51: the functions generated for a grammar, recursive or not, whose types pass the check have a typing, and with this typing use no moved variable, provided that no choice
follows an expression whose values are not `Copy`. -/
theorem C51_checked (h : oak n ts = .ok (.code ms us A T fs)) (hc : A.consistent T m = true) (hs : A.grammar.scopable T = true) (hr : A.grammar.refable T = true)
    {cp : String → Bool} (hap : A.Apart T cp) :
    ∀ f ∈ fs, ∃ (ty : Name → VTy) (t : RTy), FnTyped (A.sigs T) (fun x u => ty x = u) f.2 t ∧ f.2.owns (fun x => (ty x).copy cp) = true := by
  have hnd := macro_names h
  obtain ⟨F, k, B, h1, h2, rfl, h3, h4⟩ := oak_code h
  intro f hf
  have ho := C51_moves (consistent_sized hc).1 h4 cp f hf fun _ => hap
  obtain ⟨ty, ht⟩ := consistent_fnTyped hnd hc h4 hs (refable_refOk h4 hr) f hf
  split at ht
  · obtain ⟨t, _, ht⟩ := ht
    exact ⟨ty, t, ht, ho ty t ht⟩
  · exact ⟨ty, .unit, ht, ho ty .unit ht⟩

end
end Oak
