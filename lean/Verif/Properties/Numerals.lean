import Verif.Properties.Checked
import Verif.Properties.Corpus
import Verif.Proofs.Numerals
/-!
The grammars issue94.rs and stream_span.rs of the test-suite, on every text: C75.
-/
set_option linter.constructorNameAsVariable false
set_option autoImplicit false

namespace Oak
open Spec

/-- The functions that the macro generates for tests/grammars/issue94.rs. -/
def DigitsCode (fs : List (FnRef × Fn)) : Prop := ∃ ms us A T, oak 100 Corpus.issue94Grammar = .ok (.code ms us A T fs)

/-- The functions that the macro generates for tests/grammars/stream_span.rs. -/
def SpansCode (fs : List (FnRef × Fn)) : Prop := ∃ ms us A T, oak 100 Corpus.stream_spanGrammar = .ok (.code ms us A T fs)

theorem digits_deployed {fs} (h : DigitsCode fs) : ∃ T, (∀ i, i < 8 → (T i = .unit ↔ i ∈ Numerals.digitsUnits)) ∧ ∀ ptr s, Deployed Numerals.digitsG T fs noFns noExt ptr s := by
  obtain ⟨ms, us, A, T, ho⟩ := h
  obtain ⟨ms', us', A', T', fs', ho', h1, _⟩ := verdict_code Corpus.issue94_verdict
  rw [ho] at ho'; cases ho'
  simp only [Bool.and_eq_true] at h1
  obtain ⟨hG, hT⟩ := Corpus.shape_read Corpus.issue94_shape ho
  exact ⟨T, hT, fun ptr s => hG ▸ (C47_checked_generated ho h1.1.1 h1.1.2 h1.2).deployed ptr s⟩

theorem spans_deployed {fs} (h : SpansCode fs) : ∃ T, (∀ i, i < 27 → (T i = .unit ↔ i ∈ Numerals.spansUnits)) ∧ ∀ ptr s, Deployed Numerals.spansG T fs noFns noExt ptr s := by
  obtain ⟨ms, us, A, T, ho⟩ := h
  obtain ⟨ms', us', A', T', fs', ho', h1, _⟩ := verdict_code Corpus.stream_span_verdict
  rw [ho] at ho'; cases ho'
  simp only [Bool.and_eq_true] at h1
  obtain ⟨hG, hT⟩ := Corpus.shape_read Corpus.stream_span_shape ho
  exact ⟨T, hT, fun ptr s => hG ▸ (C47_checked_generated ho h1.1.1 h1.1.2 h1.2).deployed ptr s⟩

/-- The result of `parse_digits` (of `recognize_digits` unless `p`) on a text in three parts. -/
def digitsResult (p : Bool) (ptr : Nat) (m us e : List Char) : PResult StrStream Val :=
  let far := streamAt ptr (m ++ us ++ e) e
  let expected := ["_", "[\"0-9\"]"]
  let data := if p then Numerals.value m else .tup []
  if m = [] then .failure far expected
  else if us ++ e = [] then .success data
  else .part data far expected

/-- C75: the functions generated for issue94.rs return one result on each text: the digits of the longest prefix made of digits and underscores that ends with a digit,
without the underscores; an error is always reported after all the digits and underscores, where an underscore and a digit are expected. -/
theorem C75_digits {fs} (h : DigitsCode fs) (p : Bool) (ptr : Nat) {m us e : List Char} (hs : Numerals.Split m us e) (res : PResult StrStream Val) :
    Returns noFns fs p "digits" ptr (m ++ us ++ e) res ↔ res = digitsResult p ptr m us e := by
  obtain ⟨T, H, d⟩ := digits_deployed h
  have hb : Numerals.digitsG.find "digits" = some (.act 6 (.plus 5 Numerals.group) false ["id"]) := rfl
  rw [(d ptr _).returns_iff hb]
  have key : ∃ o L, Peg Numerals.digitsG noExt (.act 6 (.plus 5 Numerals.group) false ["id"]) (m ++ us ++ e) o L ∧
      expectedResult Numerals.digitsG T (.act 6 (.plus 5 Numerals.group) false ["id"]) p ptr (m ++ us ++ e) L o = digitsResult p ptr m us e := by
    obtain ⟨m', us', e', ts, L, heq, hs', hp, ha, hL, hx, h0⟩ := Numerals.groups_peg H (sp := strSpans (m ++ us ++ e)) _ (m ++ us ++ e) (Nat.le_refl _)
    obtain ⟨rfl, rfl, rfl⟩ := hs.unique hs' heq
    have hdesc : Numerals.digitDesc = "[\"0-9\"]" := by decide +kernel
    have hfar : farthest (m ++ us ++ e) L = e := by
      refine Numerals.farthest_eq ?_ hL ?_
      · cases hmu : m ++ us with
        | nil => exact .inl rfl
        | cons c r => right; simp only [List.cons_append, List.length_cons, List.length_append]; omega
      · right
        have : expectedAt e L ≠ [] := by rw [hx]; simp
        unfold expectedAt at this
        obtain ⟨x, hx⟩ := List.exists_mem_of_ne_nil _ this
        obtain ⟨y, hy, _⟩ := List.mem_map.1 hx
        rw [List.mem_filter] at hy
        exact ⟨y, hy.1, of_decide_eq_true hy.2⟩
    by_cases hm : m = []
    · obtain ⟨_, hf⟩ := h0 hm
      refine ⟨.fail, L, .act_fail (.plus_fail hf), ?_⟩
      simp only [expectedResult, hfar, hx, digitsResult, if_pos hm, hdesc]
    · have hts : ts ≠ [] := by
        rintro rfl
        obtain ⟨c, hc⟩ := Option.isSome_iff_exists.1 (List.getLast?_isSome.2 hm)
        have h1 : c ∈ m.filter Numerals.isDigit := List.mem_filter.2 ⟨List.mem_of_getLast? hc, hs.last c hc⟩
        have h2 : (m.filter Numerals.isDigit).map Val.chr = [] := by rw [← ha]; simp [astRep]
        rw [List.map_eq_nil_iff] at h2
        rw [h2] at h1; cases h1
      have hplus := Numerals.plus_of_star hp hts
      refine ⟨_, L, .act_ok hplus, ?_⟩
      have h6 : T 6 ≠ .unit := fun h => absurd ((H 6 (by decide)).1 h) (by decide)
      have h5 : T 5 ≠ .unit := fun h => absurd ((H 5 (by decide)).1 h) (by decide)
      have hv : isVariant ["id"] = false := by decide +kernel
      have hd : tupleVal (if p then ast Numerals.digitsG T (strSpans (m ++ us ++ e)) (.act 6 (.plus 5 Numerals.group) false ["id"]) (.act (.rep ts)) else []) =
          if p then Numerals.value m else .tup [] := by
        cases p
        · rfl
        · simp only [if_true, ast_act, if_neg h6, hv, Bool.false_and, Bool.false_eq_true, if_false, ast_plus, if_neg h5, ha, tupleVal, Numerals.value, called]
      simp only [expectedResult, hd, hfar, hx, hdesc, digitsResult, if_neg hm]
  obtain ⟨o, L, hp, hr⟩ := key
  constructor
  · rintro ⟨o', L', hp', rfl⟩
    obtain ⟨rfl, rfl⟩ := hp.det (fun _ _ _ _ _ _ h => h.elim) hp'
    exact hr
  · rintro rfl
    exact ⟨o, L, hp, hr.symm⟩

/-- C75: each text has three parts, and only in one way. -/
theorem C75_split (s : List Char) : ∃ m us e, s = m ++ us ++ e ∧ Numerals.Split m us e ∧
    ∀ m' us' e', s = m' ++ us' ++ e' → Numerals.Split m' us' e' → m' = m ∧ us' = us ∧ e' = e := by
  obtain ⟨m, us, e, _, _, heq, hs, _⟩ := Numerals.groups_peg (T := fun i => if i ∈ Numerals.digitsUnits then .unit else .rust "") (sp := strSpans s)
    (by intro i _; by_cases h : i ∈ Numerals.digitsUnits <;> simp [h]) _ s (Nat.le_refl _)
  exact ⟨m, us, e, heq, hs, fun m' us' e' heq' hs' => hs'.unique hs (heq' ▸ heq)⟩

/-- C75: the grammar issue94.rs is accepted. -/
theorem C75_digits_accepted : ∃ fs, DigitsCode fs := by
  obtain ⟨ms, us, A, T, fs, ho, _⟩ := verdict_code Corpus.issue94_verdict
  exact ⟨fs, ms, us, A, T, ho⟩

theorem spans_value {T : Nat → Ty} (H : ∀ i, i < 27 → (T i = .unit ↔ i ∈ Numerals.spansUnits)) (c d : Char) :
    ast Numerals.spansG T (strSpans ['a', c, d, 'b']) Numerals.exprBody
      (.act (.spanned ['a', c, d, 'b'] [] (.seq [.nt (.spanned ['a', c, d, 'b'] [c, d, 'b'] .leaf), .chr c, .spanned [d, 'b'] ['b'] (.chr d), .leaf]))) = [Numerals.spans c d] ∧
    ast Numerals.spansG T (strSpans ['a', c, d, 'b']) Numerals.expr2Body
      (.act (.spanned ['a', c, d, 'b'] [] (.seq [.nt (.spanned ['a', c, d, 'b'] [c, d, 'b'] .leaf), .chr c, .nt (.spanned [d, 'b'] ['b'] (.alt 0 (.chr d))), .leaf]))) =
        [Numerals.spans c d] := by
  have hn : ∀ i, i < 27 → i ∉ Numerals.spansUnits → T i ≠ .unit := fun i hi h h' => h ((H i hi).1 h')
  have hv : isVariant ["make_expr"] = false := by decide +kernel
  have h1 : ('a' : Char).utf8Size = 1 := by decide
  have h2 : ('b' : Char).utf8Size = 1 := by decide
  have b1 := c.utf8Size_le_four
  have b2 := d.utf8Size_le_four
  have e1 : (strSpans ['a', c, d, 'b']).span ['a', c, d, 'b'] [] = (0, 2 + c.utf8Size + d.utf8Size) := by
    simp only [strSpans, blen, h1, h2]; congr 1 <;> omega
  have e2 : (strSpans ['a', c, d, 'b']).span ['a', c, d, 'b'] [c, d, 'b'] = (0, 1) := by
    simp only [strSpans, blen, h1, h2]; congr 1 <;> omega
  have e3 : (strSpans ['a', c, d, 'b']).span [d, 'b'] ['b'] = (1 + c.utf8Size, 1 + c.utf8Size + d.utf8Size) := by
    simp only [strSpans, blen, h1, h2]; congr 1 <;> omega
  constructor
  · unfold Numerals.exprBody
    simp only [ast_act, ast_span, ast_seq, astSeq, ast_nt Numerals.span_a_find, ast_any, ast_leaf, e1, e2, e3,
      if_neg (hn 7 (by decide) (by decide)), if_neg (hn 6 (by decide) (by decide)), if_neg (hn 5 (by decide) (by decide)), if_neg (hn 0 (by decide) (by decide)),
      if_neg (hn 1 (by decide) (by decide)), if_neg (hn 3 (by decide) (by decide)), if_neg (hn 2 (by decide) (by decide)), if_neg (hn 20 (by decide) (by decide))]
    simp [Numerals.spans, called, hv]
  · unfold Numerals.expr2Body
    simp only [ast_act, ast_span, ast_seq, astSeq, ast_nt Numerals.span_a_find, ast_nt Numerals.inner_find, ast_any, ast_leaf, ast_alt_first, e1, e2, e3,
      if_neg (hn 14 (by decide) (by decide)), if_neg (hn 13 (by decide) (by decide)), if_neg (hn 12 (by decide) (by decide)), if_neg (hn 8 (by decide) (by decide)),
      if_neg (hn 9 (by decide) (by decide)), if_neg (hn 10 (by decide) (by decide)), if_neg (hn 18 (by decide) (by decide)), if_neg (hn 17 (by decide) (by decide)),
      if_neg (hn 15 (by decide) (by decide)), if_neg (hn 20 (by decide) (by decide))]
    simp [Numerals.spans, called, hv]

/-- C75: the parsers of stream_span.rs return a value exactly on the texts `a`, `c`, `d`, `b`: the characters and the spans that the rules say, in bytes. -/
theorem C75_spans {fs} (h : SpansCode fs) {r : String} (hr : r = "expr" ∨ r = "expr2") (ptr : Nat) (s : List Char) (v : Val) :
    Returns noFns fs true r ptr s (.success v) ↔ ∃ c d, s = ['a', c, d, 'b'] ∧ v = Numerals.spans c d := by
  obtain ⟨T, H, d⟩ := spans_deployed h
  rcases hr with rfl | rfl
  · rw [(d ptr s).returns_iff (show Numerals.spansG.find "expr" = some Numerals.exprBody from rfl)]
    constructor
    · rintro ⟨o, L, hp, hres⟩
      cases o with
      | fail => cases hres
      | ok s' t =>
        simp only [expectedResult] at hres
        split at hres
        · rename_i hs'; subst hs'
          obtain ⟨c, d, rfl, rfl, rfl⟩ := Numerals.expr_ok.1 hp
          refine ⟨c, d, rfl, ?_⟩
          rw [if_pos trivial, (spans_value H c d).1] at hres
          cases hres; rfl
        · cases hres
    · rintro ⟨c, d, rfl, rfl⟩
      refine ⟨_, [], Numerals.expr_ok.2 ⟨c, d, rfl, rfl, rfl⟩, ?_⟩
      simp only [expectedResult, if_true, (spans_value H c d).1, tupleVal]
  · rw [(d ptr s).returns_iff (show Numerals.spansG.find "expr2" = some Numerals.expr2Body from rfl)]
    constructor
    · rintro ⟨o, L, hp, hres⟩
      cases o with
      | fail => cases hres
      | ok s' t =>
        simp only [expectedResult] at hres
        split at hres
        · rename_i hs'; subst hs'
          obtain ⟨c, d, rfl, rfl, rfl⟩ := Numerals.expr2_ok.1 hp
          refine ⟨c, d, rfl, ?_⟩
          rw [if_pos trivial, (spans_value H c d).2] at hres
          cases hres; rfl
        · cases hres
    · rintro ⟨c, d, rfl, rfl⟩
      refine ⟨_, [], Numerals.expr2_ok.2 ⟨c, d, rfl, rfl, rfl⟩, ?_⟩
      simp only [expectedResult, if_true, (spans_value H c d).2, tupleVal]

/-- C75: the rule `expr3` of stream_span.rs gives the span of the texts `ac` and `bc`, and matches no other text. -/
theorem C75_span_of_choice {fs} (h : SpansCode fs) (ptr : Nat) (s : List Char) (v : Val) :
    Returns noFns fs true "expr3" ptr s (.success v) ↔ (s = ['a', 'c'] ∨ s = ['b', 'c']) ∧ v = .span 0 2 := by
  obtain ⟨T, H, d⟩ := spans_deployed h
  have hv : ∀ s : List Char, (s = ['a', 'c'] ∨ s = ['b', 'c']) → ∀ t L, Peg Numerals.spansG noExt Numerals.expr3Body s (.ok [] t) L →
      ast Numerals.spansG T (strSpans s) Numerals.expr3Body t = [.span 0 2] := by
    intro s hs t L hp
    have h26 : T 26 ≠ .unit := fun h => absurd ((H 26 (by decide)).1 h) (by decide)
    have h25 : T 25 = .unit := (H 25 (by decide)).2 (by decide)
    unfold Numerals.expr3Body at hp ⊢
    cases hp with | span_ok hp =>
    cases hp with | seq_cons _ _ =>
    rw [ast_span, if_neg h26, ast_seq, if_pos h25]
    rcases hs with rfl | rfl <;> simp [strSpans, blen, show ('a' : Char).utf8Size = 1 by decide, show ('b' : Char).utf8Size = 1 by decide, show ('c' : Char).utf8Size = 1 by decide]
  rw [(d ptr s).returns_iff (show Numerals.spansG.find "expr3" = some Numerals.expr3Body from rfl)]
  constructor
  · rintro ⟨o, L, hp, hres⟩
    cases o with
    | fail => cases hres
    | ok s' t =>
      simp only [expectedResult] at hres
      split at hres
      · rename_i hs'; subst hs'
        have hs := Numerals.expr3_ok.1 ⟨t, L, hp⟩
        refine ⟨hs, ?_⟩
        rw [if_pos trivial, hv s hs t L hp] at hres
        cases hres; rfl
      · cases hres
  · rintro ⟨hs, rfl⟩
    obtain ⟨t, L, hp⟩ := Numerals.expr3_ok.2 hs
    refine ⟨_, L, hp, ?_⟩
    simp only [expectedResult, if_true, hv s hs t L hp, tupleVal]

/-- C75: the grammar stream_span.rs is accepted. -/
theorem C75_spans_accepted : ∃ fs, SpansCode fs := by
  obtain ⟨ms, us, A, T, fs, ho, _⟩ := verdict_code Corpus.stream_span_verdict
  exact ⟨fs, ms, us, A, T, ho⟩

/-! ## Examples -/

/-- On `_1_2_x` the parser stops after `_1_2`, and the error is reported at `x`. -/
example {fs} (h : DigitsCode fs) : Returns noFns fs true "digits" 0 ['_', '1', '_', '2', '_', 'x']
    (.part (.app ["id"] [.list [.chr '1', .chr '2']]) (streamAt 0 ['_', '1', '_', '2', '_', 'x'] ['x']) ["_", "[\"0-9\"]"]) := by
  have hs : Numerals.Split ['_', '1', '_', '2'] ['_'] ['x'] := ⟨by decide, by simp; decide, by simp, by simp; decide⟩
  exact (C75_digits h true 0 hs _).2 (by simp [digitsResult, Numerals.value, Numerals.isDigit])

/-- On `__` it fails at the end. -/
example {fs} (h : DigitsCode fs) : Returns noFns fs true "digits" 0 ['_', '_'] (.failure (streamAt 0 ['_', '_'] []) ["_", "[\"0-9\"]"]) := by
  have hs : Numerals.Split [] ['_', '_'] [] := ⟨by simp, by simp, by simp, by simp⟩
  exact (C75_digits h true 0 hs _).2 (by simp [digitsResult])

/-- The spans of a text with a character of two bytes. -/
example {fs} (h : SpansCode fs) : Returns noFns fs true "expr2" 0 ['a', 'é', 'x', 'b']
    (.success (.app ["make_expr"] [.span 0 5, .span 0 1, .chr 'é', .span 3 4, .chr 'x'])) :=
  (C75_spans h (.inr rfl) 0 _ _).2 ⟨'é', 'x', rfl, by simp [Numerals.spans, show ('é' : Char).utf8Size = 2 by decide, show ('x' : Char).utf8Size = 1 by decide]⟩

end Oak
