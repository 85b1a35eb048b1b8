import Verif.Proofs.AnalysisTextsSay
import Verif.Properties.WellFormed
import Verif.Proofs.Module
/-!
# C72: the texts of the messages of the analysis phase
-/
set_option autoImplicit false
set_option linter.constructorNameAsVariable false

namespace Oak
open Spec

/-- C72: a parser without rules is told so, at its start, and nothing else is said. -/
theorem C72_no_rules {n m : Nat} {F : FGrammar} (hF : F.rules = []) :
    analysisTexts n m F = .ok [⟨true, .start, "At least one rule must be declared.".toList, []⟩] := by
  have : analysisPhase n m F = .ok (.nothing, [.noRule]) := by
    unfold analysisPhase Phase.andThen atLeastOneRule
    rw [if_pos (by simpa using hF)]
    rfl
  unfold analysisTexts
  rw [this]
  rfl

/-- C72: the messages of the analysis phase, in order: one for each rule that has the name of a rule before it, one for each function that has the name of a function
before it, the errors on the form of the rules, each with the expression or the cycle of rules it is about, and, when there is none, the warnings on the operators that
are useless and on the attributes that are not known. -/
theorem C72_messages {n m : Nat} {F : FGrammar} {es : List AEmitted} (h : analysisTexts n m F = .ok es) (hF : F.rules ≠ []) :
    ∃ G forms rest, AnalysedBy F.rules G ∧
      es = (repeatsOf Prod.fst F.rules).map (repeatMessage "rule" .rule) ++ ((repeatsOf RustFn.name (F.items.filterMap Item.fn?)).map (repeatMessage "rust function" .fn) ++
        (forms ++ rest)) ∧
      (∀ t ∈ forms, FormError F.rules G t) ∧
      (WellFormed G → forms = []) ∧ (F.Built → forms = [] → WellFormed G) ∧
      (forms ≠ [] → rest = []) ∧
      (forms = [] → ∃ chains, (∀ t ∈ chains, ChainWarning G t) ∧ rest = chains ++ attrWarnings F.attrs ∧
        ∀ this outer inner c x, Occurs G this → rootOp this = some (outer, c) →
          (Direct G c inner x ∧ Redundant outer inner) ∨ (Immediate c inner x ∧ RedundantHere outer inner) → ∃ t ∈ chains, ∃ e, Sub this e ∧ t.place = .expr e.id) := by
  unfold analysisTexts at h
  obtain ⟨⟨p, ms⟩, h1, h2⟩ := Res.bind_eq_ok h
  obtain ⟨G, st, tail, hA, hst, rfl, h3, h4⟩ := analysisPhase_messages h1 hF
  simp only at h2
  have hdup : (duplicates (·.1) F.rules).2 = (repeatsOf Prod.fst F.rules).map (·.2.2) := by
    rw [← duplicatesAt_repeats]; exact duplicates_names F.rules
  have hfn : (duplicates RustFn.name (splitFns F.items).1).2 = (repeatsOf RustFn.name (splitFns F.items).1).map (·.2.2) := by
    rw [← duplicatesAt_repeats]; exact duplicates_names _
  rw [hdup, hfn] at h2
  have h5 : duplicatesAt (·.1) [] 0 F.rules = repeatsOf Prod.fst F.rules := duplicatesAt_repeats _
  rw [h5, duplicatesAt_repeats] at h2
  have hfound : ∀ d ∈ st.diags.reverse, d.Found G := fun d hd => C21_found hst d (List.mem_reverse.1 hd)
  have key : ∀ xs, renderMsgs F.rules [] [] (unknownAt 0 F.attrs) tail = .ok xs → ∃ ts, ts.length = st.diags.reverse.length ∧ (∀ t ∈ ts, FormError F.rules G t) ∧
      es = (repeatsOf Prod.fst F.rules).map (repeatMessage "rule" .rule) ++ ((repeatsOf RustFn.name (F.items.filterMap Item.fn?)).map (repeatMessage "rust function" .fn) ++
        (ts ++ xs)) := by
    intro xs hx
    obtain ⟨ts, k1, k2, k3⟩ := renderMsgs_forms hA (unknownAt 0 F.attrs) tail hx st.diags.reverse hfound
    refine ⟨ts, k1, k2, ?_⟩
    rw [renderMsgs_rules _ _ _ _ (renderMsgs_fns _ _ _ k3)] at h2
    cases h2
    rw [(filterMap_fns _).1]
  have hwf : WellFormed G → st.wellFormed = true := by
    intro hw
    cases hs : st.wellFormed with
    | true => rfl
    | false => exact (rejected_ill ⟨n, m, st, hst, hs⟩ hw).elim
  cases hs : st.wellFormed with
  | false =>
    have := h3 hs
    subst this
    obtain ⟨ts, k1, k2, k3⟩ := key [] rfl
    have hne : ts ≠ [] := by
      intro h0
      subst h0
      have := (C21_rejected_iff hst).1 hs
      simp only [List.length_nil, List.length_reverse] at k1
      exact this (List.length_eq_zero_iff.1 k1.symm)
    refine ⟨G, ts, [], hA, k3, k2, fun hw => ?_, fun _ h0 => (hne h0).elim, fun _ => rfl, fun h0 => (hne h0).elim⟩
    rw [hwf hw] at hs; cases hs
  | true =>
    obtain ⟨ws, hc, rfl⟩ := h4 hs
    have hd : st.diags = [] := Classical.byContradiction fun hne => by
      have := (C21_rejected_iff hst).2 hne
      rw [hs] at this; cases this
    obtain ⟨ts, k1, k2, k3⟩ := key _ (renderMsgs_chains _ _ (renderMsgs_attrs _) ws)
    have hnil : ts = [] := by
      rw [hd] at k1
      exact List.length_eq_zero_iff.1 (by simpa using k1)
    subst hnil
    rw [attrs_spec] at k3
    refine ⟨G, [], _, hA, k3, by simp, fun _ => rfl, fun hb _ => ?_, fun h0 => (h0 rfl).elim, fun _ => ⟨ws.map Warning.render, fun t ht => ?_, rfl, ?_⟩⟩
    · obtain ⟨kept, h6, h7, _, rfl⟩ := hA
      have hcl : Clean kept := ⟨fun r hr => hb.shaped r (h6.subset hr), fun r hr => hb.filled r (h6.subset hr), h7⟩
      have hsh : (resolveGrammar ⟨kept⟩).shaped = true := by
        have := (resolve_clean (G := ⟨kept⟩) hcl).shaped
        simp only [Grammar.shaped, List.all_eq_true]
        exact this
      exact accepted_wellFormed hsh ⟨n, m, st, hst, hs⟩
    · obtain ⟨w, hw, rfl⟩ := List.mem_map.1 ht
      exact warning_render hA.nodup hc hw
    · intro this outer inner c x ho hr hd
      obtain ⟨w, hw, hsub⟩ := C23_reported hc ho hr hd
      exact ⟨_, List.mem_map_of_mem hw, w.this, hsub, rfl⟩

theorem leftText_inj {a b : List Char} (h : leftText a = leftText b) : a = b := by
  have gen : ∀ x y a b : List Char, x ++ a ++ y = x ++ b ++ y → a = b := fun x y a b h => List.append_cancel_left (List.append_cancel_right h)
  exact gen _ _ _ _ h

/-- C72: the cycle that is displayed by an error on left recursion is one: its rules are distinct, each one calls the next one in leftmost position and the last one calls
the first one; the error is at the first definition of the first rule of the cycle. -/
theorem C72_left_recursion {n m : Nat} {F : FGrammar} {es : List AEmitted} (h : analysisTexts n m F = .ok es) (hF : F.rules ≠ []) :
    ∃ G, AnalysedBy F.rules G ∧ ∀ t ∈ es, ∀ c, t.text = leftText c → ∃ r e cycle j, c = cycleLine (r :: cycle) ∧ LeftCycle G (r :: cycle) ∧ t.place = .rule j ∧
      F.rules[j]? = some (r, e) ∧ ∀ i x, i < j → F.rules[i]? = some x → x.1 ≠ r := by
  obtain ⟨G, forms, rest, hA, rfl, h1, _, _, h4, h5⟩ := C72_messages h hF
  refine ⟨G, hA, fun t ht c hc => ?_⟩
  have hL : ∀ c, (leftText c)[0]? = some 'L' := fun c => by
    unfold leftText
    rw [List.append_assoc, List.getElem?_append_left (by decide +kernel)]
    decide +kernel
  have h0 : t.text[0]? = some 'L' := by rw [hc]; exact hL c
  have hrep : ∀ what place d, (repeatMessage what place d).text[0]? = some 'd' := fun what place d => by
    unfold repeatMessage
    simp only [String.toList_append, List.append_assoc]
    rw [List.getElem?_append_left (by decide +kernel)]
    decide +kernel
  rcases List.mem_append.1 ht with ht | ht
  · obtain ⟨d, _, rfl⟩ := List.mem_map.1 ht
    rw [hrep] at h0; cases h0
  rcases List.mem_append.1 ht with ht | ht
  · obtain ⟨d, _, rfl⟩ := List.mem_map.1 ht
    rw [hrep] at h0; cases h0
  rcases List.mem_append.1 ht with ht | ht
  · cases h1 t ht with
    | @leftRecursion j r e c' hj hi hl =>
      have : c = cycleLine (r :: c') := (leftText_inj hc).symm
      exact ⟨r, e, c', j, this, hl, rfl, hj, hi⟩
    | neverSucceed => simp only at h0; exact absurd h0 (by decide +kernel)
    | alwaysSucceed => simp only at h0; exact absurd h0 (by decide +kernel)
    | loopRepeat => simp only at h0; exact absurd h0 (by decide +kernel)
    | unreachable => simp only at h0; exact absurd h0 (by decide +kernel)
  · by_cases hf : forms = []
    · obtain ⟨chains, h6, rfl, _⟩ := h5 hf
      rcases List.mem_append.1 ht with ht | ht
      · cases h6 t ht
        unfold chainText at h0
        simp only [String.toList_append, List.append_assoc] at h0
        rw [List.getElem?_append_left (by decide +kernel)] at h0
        exact absurd h0 (by decide +kernel)
      · unfold attrWarnings at ht
        obtain ⟨⟨a, j⟩, _, h7⟩ := List.mem_filterMap.1 ht
        simp only at h7
        split at h7 <;> cases h7
        simp only at h0; exact absurd h0 (by decide +kernel)
    · rw [h4 hf] at ht; cases ht

/-- C72: the messages are written: the analysis ends, whatever the parser that is read. -/
theorem C72_terminates {F : FGrammar} (hF : F.Built) : ∃ N es, ∀ n m, N ≤ n → N ≤ m → analysisTexts n m F = .ok es := by
  obtain ⟨N, ⟨p, ms⟩, h⟩ := C43_terminates hF
  by_cases hr : F.rules = []
  · exact ⟨0, _, fun n m _ _ => C72_no_rules hr⟩
  · have h0 := h N N (Nat.le_refl _) (Nat.le_refl _)
    suffices hk : ∃ es, renderMsgs F.rules (duplicatesAt (·.1) [] 0 F.rules) (duplicatesAt RustFn.name [] 0 (splitFns F.items).1) (unknownAt 0 F.attrs) ms = .ok es by
      obtain ⟨es, he⟩ := hk
      refine ⟨N, es, fun n m hn hm => ?_⟩
      unfold analysisTexts
      rw [h n m hn hm]
      exact he
    obtain ⟨G, st, tail, hA, hst, rfl, h3, h4⟩ := analysisPhase_messages h0 hr
    have hdup : (duplicates (·.1) F.rules).2 = (duplicatesAt (·.1) [] 0 F.rules).map (·.2.2) := duplicates_names F.rules
    rw [hdup, duplicates_names]
    have hfound : ∀ d ∈ st.diags.reverse, d.Found G := fun d hd => C21_found hst d (List.mem_reverse.1 hd)
    have ht : ∃ xs, renderMsgs F.rules [] [] (unknownAt 0 F.attrs) tail = .ok xs := by
      cases hs : st.wellFormed with
      | false => rw [h3 hs]; exact ⟨[], rfl⟩
      | true =>
        obtain ⟨ws, _, rfl⟩ := h4 hs
        exact ⟨_, renderMsgs_chains _ _ (renderMsgs_attrs _) ws⟩
    obtain ⟨xs, hx⟩ := ht
    obtain ⟨ts, _, _, k3⟩ := renderMsgs_forms hA (unknownAt 0 F.attrs) tail hx st.diags.reverse hfound
    exact ⟨_, renderMsgs_rules _ _ _ _ (renderMsgs_fns _ _ _ k3)⟩

/-! ### Cases that meet the hypotheses -/

namespace AnalysisTextsSample

/-- `a = b "x"`, `b = !"y" a`, `a = "z"`, with two functions `f` and an attribute that is not known. -/
def left : FGrammar where
  rules := [("a", .seq 2 [.ext 0 ["b"], .str 1 "x"]), ("b", .seq 6 [.not 4 (.str 3 "y"), .ext 5 ["a"]]), ("a", .str 7 "z")]
  items := [.fn ⟨"f", .ty "u32"⟩, .other "use std::str;", .fn ⟨"g", .ty "u32"⟩, .fn ⟨"f", .ty "u8"⟩]
  attrs := [["unknown"]]

theorem left_built : left.Built where
  shaped := by intro r hr; simp only [left, List.mem_cons, List.not_mem_nil, or_false] at hr; rcases hr with rfl | rfl | rfl <;> rfl
  filled := by intro r hr; simp only [left, List.mem_cons, List.not_mem_nil, or_false] at hr; rcases hr with rfl | rfl | rfl <;> rfl
  unresolved := by
    intro r hr i q hs
    simp only [left, List.mem_cons, List.not_mem_nil, or_false] at hr
    rcases hr with rfl | rfl | rfl
    · cases hs with
      | seq he h => simp only [List.mem_cons, List.not_mem_nil, or_false] at he; rcases he with rfl | rfl <;> cases h
    · cases hs with
      | seq he h =>
        simp only [List.mem_cons, List.not_mem_nil, or_false] at he
        rcases he with rfl | rfl
        · cases h with | not h => cases h
        · cases h
    · cases hs

/-- Its messages: the second `a`, the second `f`, and the cycle; nothing about the attribute. -/
theorem left_texts : analysisTexts 9 9 left = .ok [
    ⟨true, .rule 2, "duplicate definition of rule with name `a`".toList, [(.rule 0, "previous definition of `a` here".toList)]⟩,
    ⟨true, .fn 2, "duplicate definition of rust function with name `f`".toList, [(.fn 0, "previous definition of `f` here".toList)]⟩,
    ⟨true, .rule 0, leftText "a -> b -> a".toList, []⟩] := by decide +kernel

example : ∃ N es, ∀ n m, N ≤ n → N ≤ m → analysisTexts n m left = .ok es := C72_terminates left_built

example : ∃ G, AnalysedBy left.rules G ∧ LeftCycle G ["a", "b"] := by
  obtain ⟨G, hA, h⟩ := C72_left_recursion left_texts (by simp [left])
  obtain ⟨kept, h1, h2, h3, rfl⟩ := hA
  refine ⟨_, ⟨kept, h1, h2, h3, rfl⟩, ?_⟩
  obtain ⟨r, e, cycle, j, h4, h5, h6, h7, _⟩ := h ⟨true, .rule 0, leftText "a -> b -> a".toList, []⟩ (by simp) "a -> b -> a".toList rfl
  have hj : j = 0 := by simpa using h6.symm
  subst hj
  have hr : r = "a" := by simp [left] at h7; exact h7.1.symm
  subst hr
  have hfind : ∀ q b, (resolveGrammar ⟨kept⟩).find q = some b → q = "a" ∨ q = "b" := by
    intro q b hq
    obtain ⟨x, hx, hxe⟩ := List.mem_map.1 (grammar_find_mem hq)
    cases hxe
    have := h1.subset hx
    simp only [left, List.mem_cons, List.not_mem_nil, or_false] at this
    rcases this with rfl | rfl | rfl <;> simp
  match cycle, h4, h5 with
  | [], h4, _ => exact absurd h4 (by decide +kernel)
  | [y], h4, h5 =>
    obtain ⟨b, hb⟩ := h5.2.2.first
    rcases hfind y b hb with rfl | rfl
    · exact absurd h5.1 (by decide)
    · exact h5
  | y :: z :: l, _, h5 =>
    have hmem : ∀ (l : List String) (q : String), LeftChain (resolveGrammar ⟨kept⟩) "a" q l → ∀ x ∈ q :: l, x = "a" ∨ x = "b" := by
      intro l
      induction l with
      | nil => intro q h x hx; obtain ⟨b, hb⟩ := h.first; simp only [List.mem_singleton] at hx; subst hx; exact hfind _ b hb
      | cons y l ih =>
        intro q h x hx
        rcases List.mem_cons.1 hx with rfl | hx
        · obtain ⟨b, hb⟩ := h.first; exact hfind _ b hb
        · exact ih y h.2 x hx
    have h8 := hmem _ _ h5.2
    have hn := h5.1
    rcases h8 y (by simp) with rfl | rfl
    · simp at hn
    · rcases h8 z (by simp) with rfl | rfl <;> simp at hn

/-- `a = b? !(&"x") (.+)+`, `b = "y"+`: warnings on two chains and on an attribute. -/
def chains : FGrammar where
  rules := [("a", .seq 6 [.opt 1 (.ext 0 ["b"]), .not 4 (.and 3 (.str 2 "x")), .plus 8 (.plus 7 (.any 5))]), ("b", .plus 10 (.str 9 "y"))]
  items := []
  attrs := [["debug_typing"], ["unknown"]]

/-- `b?` is not reported: there is a rule in between. -/
theorem chains_texts : analysisTexts 9 9 chains = .ok [
    ⟨false, .expr 4, chainText "!(&e)" "!e", []⟩, ⟨false, .expr 8, chainText "(e+)+" "e+", []⟩,
    ⟨false, .attr 1, "unknown attribute: it will be ignored.".toList, []⟩] := by decide +kernel

/-- There are no errors: the warnings follow. -/
example : attrWarnings chains.attrs = [⟨false, .attr 1, "unknown attribute: it will be ignored.".toList, []⟩] := by decide +kernel

/-- A choice with a branch that always succeeds before the last one, a repetition of what reads nothing, an expression bound to fail. -/
def forms : FGrammar where
  rules := [("a", .seq 9 [.choice 3 [.opt 1 (.str 0 "x"), .str 2 "y"], .star 5 (.opt 4 (.any 6)), .not 8 (.opt 7 (.any 10))])]
  items := []
  attrs := []

theorem forms_texts : (do let es ← analysisTexts 9 9 forms; Res.ok (es.map fun t => (t.place, t.text.take 30, t.notes.map (·.1)))) = Res.ok [
    (.expr 3, "Unreachable branch in a choice".toList, [.expr 1]), (.expr 5, "Infinite loop detected. A repe".toList, []),
    (.expr 8, "Expression will never succeed.".toList, [])] := by decide +kernel

end AnalysisTextsSample

end Oak
