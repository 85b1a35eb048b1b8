import Verif.Properties.Corpus
import Verif.Properties.CalcCalls
import Verif.Proofs.JsonPrint
/-!
The JSON grammar of the test-suite (tests/grammars/json.rs): C68.
-/
set_option linter.constructorNameAsVariable false
set_option autoImplicit false

namespace Oak
open Spec JsonText
open Calculator (isSpace isDigit decimal digits NotStart PanickingCall)

/-- The functions that the macro generates for tests/grammars/json.rs. -/
def JsonCode (fs : List (FnRef × Fn)) : Prop := ∃ ms us A T, oak 100 Corpus.jsonGrammar = .ok (.code ms us A T fs)

/-- The body of the rule `program`. -/
abbrev jsonProgram : Expr := .seq 3 [.nt 0 "spacing", .nt 1 "json_expr", .nt 2 "spacing"]

theorem json_deployed {fs} (h : JsonCode fs) (ptr : Nat) (s : List Char) : ∃ T, JsonTypes T ∧ Deployed jsonG T fs noFns noExt ptr s := by
  obtain ⟨ms, us, A, T, ho⟩ := h
  obtain ⟨hG, hT⟩ := json_read ho
  obtain ⟨ms', us', A', T', fs', ho', h1, _⟩ := verdict_code Corpus.json_verdict
  rw [ho] at ho'; cases ho'
  simp only [Bool.and_eq_true] at h1
  have := (C47_checked_generated ho h1.1.1 h1.1.2 h1.2).deployed ptr s
  rw [hG] at this
  exact ⟨T, hT, this⟩

/-- The results of the generated functions, in terms of the grammar. -/
theorem json_results {fs} (h : JsonCode fs) : ∃ T, JsonTypes T ∧ ∀ (ptr : Nat) (s : List Char) (p : Bool) (res : PResult StrStream Val),
    Returns noFns fs p "program" ptr s res ↔ ∃ o L, Peg jsonG noExt jsonProgram s o L ∧ res = expectedResult jsonG T jsonProgram p ptr s L o := by
  obtain ⟨ms, us, A, T, ho⟩ := h
  obtain ⟨hG, hT⟩ := json_read ho
  refine ⟨T, hT, fun ptr s p res => ?_⟩
  obtain ⟨ms', us', A', T', fs', ho', h1, _⟩ := verdict_code Corpus.json_verdict
  rw [ho] at ho'; cases ho'
  simp only [Bool.and_eq_true] at h1
  obtain ⟨F, hF, hr, _⟩ := C47_faithful ho
  have hf : A.grammar.find "program" = some jsonProgram := by rw [hG]; rfl
  have hmem : "program" ∈ F.rules.map (·.1) := by
    rw [← hr, hG]
    exact List.mem_map.2 ⟨_, List.mem_map.2 ⟨_, List.mem_cons_self, rfl⟩, rfl⟩
  obtain ⟨e, he, _, _, h2⟩ := C47_checked ho h1.1.1 h1.1.2 h1.2 (ext := noFns) (X := noExt) (ptr := ptr) (input := s) (noExt_ok ptr s) noExt_forward (fun _ _ _ _ _ h => h.elim)
    (fun i q hq => absurd (hG ▸ hq) json_noext) hF hmem p
  rw [hf] at he; cases he
  rw [h2, hG]

theorem json_success {T : Nat → Ty} (H : JsonTypes T) {ptr : Nat} {s : List Char} {v : Val} :
    (∃ o L, Peg jsonG noExt jsonProgram s o L ∧ PResult.success v = expectedResult jsonG T jsonProgram true ptr s L o) ↔ JRule T (strSpans s) "program" s [] [v] := by
  have hb : jsonG.find "program" = some jsonProgram := rfl
  rw [jrule_iff hb]
  constructor
  · rintro ⟨o, L, hp, h⟩
    cases o with
    | fail => cases h
    | ok s' t =>
      simp only [expectedResult, if_true] at h
      split at h
      · rename_i hs'; subst hs'
        cases h
        obtain ⟨w, _, _, _, _, hw, _⟩ := program_reads (sp := strSpans s) H ((jrule_iff hb).2 ⟨t, L, hp, rfl⟩)
        exact ⟨t, L, hp, by rw [hw]; rfl⟩
      · cases h
  · rintro ⟨t, L, hp, ht⟩
    exact ⟨_, L, hp, by simp only [expectedResult, if_true, ht, tupleVal]⟩

/-- C68: the JSON grammar is accepted, and on every text `parse_program` returns a success whose value is the data `d` if and only if the text is a way to write `d`. -/
theorem C68_language : ∃ fs, JsonCode fs ∧
    ∀ (ptr : Nat) (s : List Char) (d : Data), Written d s ↔ ∃ v, Returns noFns fs true "program" ptr s (.success v) ∧ Denotes v d := by
  obtain ⟨ms, us, A, T, fs, ho, _⟩ := verdict_code Corpus.json_verdict
  refine ⟨fs, ⟨ms, us, A, T, ho⟩, fun ptr s t => ?_⟩
  obtain ⟨T, H, hr⟩ := json_results ⟨ms, us, A, T, ho⟩
  simp only [hr, json_success H]
  exact (json_program H).symm

/-- C68: every value returned on a complete match is the value of a data, and it is the only data that the text is a way to write. -/
theorem C68_unambiguous {fs} (hc : JsonCode fs) {ptr : Nat} {s : List Char} {v : Val} (h : Returns noFns fs true "program" ptr s (.success v)) :
    ∃ d, Denotes v d ∧ Written d s ∧ ∀ d', Written d' s → d' = d := by
  obtain ⟨T, H, hr⟩ := json_results hc
  have h1 := (json_success H).1 ((hr _ _ _ _).1 h)
  obtain ⟨x, d, sps, s1, ls, e, hd, rfl, k1, k2, k3, k4⟩ := program_reads H h1
  cases e
  refine ⟨d, hd, ⟨sps, s1, ls, rfl, k1, k2, k3, k4⟩, fun d' hd' => ?_⟩
  obtain ⟨v', h1', hd'⟩ := (json_program (sp := strSpans (sps ++ s1)) H).2 hd'
  have hb : jsonG.find "program" = some jsonProgram := rfl
  have := (((jrule_iff hb).1 h1).unique Calculator.calc_det ((jrule_iff hb).1 h1')).2
  cases this
  exact hd'.det hd

/-- C68: `recognize_program` succeeds on the texts of the language, and returns no data. -/
theorem C68_recognizer {fs} (hc : JsonCode fs) {ptr : Nat} {s : List Char} {d : Val} :
    Returns noFns fs false "program" ptr s (.success d) ↔ d = .tup [] ∧ ∃ d, Written d s := by
  obtain ⟨T, H, hr⟩ := json_results hc
  rw [hr]
  have hb : jsonG.find "program" = some jsonProgram := rfl
  constructor
  · rintro ⟨o, L, hp, h⟩
    cases o with
    | fail => cases h
    | ok s' t =>
      simp only [expectedResult] at h
      split at h
      · rename_i hs'; subst hs'
        cases h
        refine ⟨rfl, ?_⟩
        obtain ⟨w, d, sps, s1, ls, hw, h1⟩ := program_reads (sp := strSpans s) H ((jrule_iff hb).2 ⟨t, L, hp, rfl⟩)
        obtain ⟨_, rfl, h1⟩ := h1
        exact ⟨d, sps, s1, ls, rfl, h1⟩
      · cases h
  · rintro ⟨rfl, t, ht⟩
    obtain ⟨v, ⟨b, hb', t', L, hp, ht'⟩, _⟩ := (json_program (sp := strSpans s) H).2 ht
    cases hb.symm.trans hb'
    exact ⟨_, L, hp, rfl⟩

/-- C68: a data can be written if and only if its strings have only the characters of the grammar, and its arrays are not empty; then `Data.text` is a way to write it, and
`parse_program` reads it back. -/
theorem C68_round_trip {fs} (hc : JsonCode fs) {ptr : Nat} {d : Data} : ((∃ s, Written d s) ↔ d.Writable) ∧
    (d.Writable → ∃ v, Returns noFns fs true "program" ptr d.text (.success v) ∧ Denotes v d ∧ ∀ d', Denotes v d' → d' = d) := by
  refine ⟨⟨fun ⟨s, hs⟩ => written_writable hs, fun h => ⟨_, text_written h⟩⟩, fun h => ?_⟩
  obtain ⟨T, H, hr⟩ := json_results hc
  obtain ⟨v, h1, hd⟩ := (json_program (sp := strSpans d.text) H).2 (text_written h)
  exact ⟨v, (hr _ _ _ _).2 ((json_success H).2 h1), hd, fun t' h' => h'.det hd⟩

/-- C68: one of the calls of the result of `parse_program` panics if and only if a number of the data does not fit in 32 bits. -/
theorem C68_panics {fs} (hc : JsonCode fs) {ptr : Nat} {s : List Char} {v : Val} (h : Returns noFns fs true "program" ptr s (.success v)) :
    (∃ w, PanickingCall w ∧ Shown w v) ↔ ∃ d, Written d s ∧ ∃ n ∈ d.numbers, 2 ^ 32 ≤ n := by
  obtain ⟨d, hd, hw, hu⟩ := C68_unambiguous hc h
  have := denotes_panics hd
  unfold HasPanic at this
  rw [this]
  exact ⟨fun h => ⟨d, hw, h⟩, fun ⟨d', h1, h2⟩ => hu d' h1 ▸ h2⟩

theorem json_actions : ∀ q ∈ jsonG.rules, ∀ x ∈ actionsOf q.2, x.1 = ["to_number"] → x.2 = .seq 64 [.plus 62 (.nt 61 "digit"), .nt 63 "spacing"] := by
  simp only [jsonG, List.forall_mem_cons, actionsOf, actionsAll, List.append_nil, List.nil_append, List.not_mem_nil, List.cons_append]
  simp

/-- C68: whether `parse_program` succeeds or fails, and also in the branches that it abandons, a call panics only if the text contains digits whose number does not fit in 32
bits. -/
theorem C68_no_panic {fs} (hc : JsonCode fs) {ptr : Nat} {s : List Char} {st' : PState StrStream Val} (h : Steps noFns fs true "program" (start ptr s) st') {v : Val}
    (hv : v ∈ st'.calls) (hp : PanickingCall v) : ∃ ds, ds <:+: s ∧ (∀ c ∈ ds, isDigit c = true) ∧ 2 ^ 32 ≤ decimal ds := by
  obtain ⟨T, H, d⟩ := json_deployed hc ptr s
  obtain ⟨ds, rfl, hds⟩ := hp
  rcases C17_after_match d noFns_quiet (r := "program") rfl (okSt_new ptr s) h hv with hv | ⟨i, e1, b, f, s1, s2, t, L, ⟨r, x, hx, hsub⟩, _, hs1, hpeg, he⟩
  · simp [start, PState.new] at hv
  · injection he with h1 h2
    subst h1
    have := json_actions _ (grammar_find_mem hx) _ (actions_sub hsub) rfl
    simp only at this
    subst this
    have hb : jsonG.find "number" = some (.act 65 (.seq 64 [.plus 62 (.nt 61 "digit"), .nt 63 "spacing"]) false ["to_number"]) := rfl
    have hy : JRule T (strSpans s) "number" s1 s2 [.app ["to_number"] [.list (ds.map .chr)]] := by
      rw [jrule_iff hb]
      refine ⟨_, L, .act_ok hpeg, ?_⟩
      have hf : isVariant ["to_number"] = false := by decide
      simp only [ast, Expr.id, H.v 65 (by decide) rfl, if_false, hf, Bool.false_and, h2]
      simp
    obtain ⟨ds', hr, he⟩ := (jnumber_iff H).1 hy
    have : ds = ds' := by
      simp only [List.cons.injEq, Val.app.injEq, Val.list.injEq, and_true, true_and] at he
      exact chars_eq he
    subst this
    obtain ⟨hval, m, rfl, _⟩ := hr
    refine ⟨ds, ?_, hval.2, hds⟩
    have : (PState.new (StrStream.new ptr s) : PState StrStream Val).cur.rest = s := by simp [PState.new]
    rw [this] at hs1
    exact (List.prefix_append _ _).isInfix.trans hs1.isInfix

/-! ## The number of calls -/

section
variable {T : Nat → Ty} {sp : SpanSpec}

/-- The rules that call no function of the user. -/
abbrev jsonSilent : List String := ["dquote", "spacing", "digit", "colon", "coma", "json_char", "lbracket", "rbracket", "lbrace", "rbrace"]

theorem json_silent : ∀ r ∈ jsonSilent, ∀ b, jsonG.find r = some b → silent jsonSilent b = true := by
  intro r hr b hb
  have : jsonSilent.all (fun r => match jsonG.find r with | some b => silent jsonSilent b | none => true) = true := by decide +kernel
  have := List.all_eq_true.1 this r hr
  rw [hb] at this
  exact this

theorem json_zero {e : Expr} (he : Occurs jsonG e) (hs : silent jsonSilent e = true) (s : List Char) : CallsMade jsonG T sp e s 0 := by
  obtain ⟨o, L, hp⟩ := json_decided he s
  exact made_silent json_silent hp hs

theorem number_occurs : jsonG.find "number" = some (.act 65 (.seq 64 [.plus 62 (.nt 61 "digit"), .nt 63 "spacing"]) false ["to_number"]) := rfl
theorem string_occurs : jsonG.find "json_string" = some (.act 46 (.seq 45 [.nt 40 "dquote", .star 42 (.nt 41 "json_char"), .nt 43 "dquote", .nt 44 "spacing"]) false ["to_string"]) := rfl
theorem pair_occurs : jsonG.find "json_pair" = some (.act 30 (.seq 29 [.nt 26 "json_string", .nt 27 "colon", .nt 28 "json_expr"]) false ["make_json_pair"]) := rfl

theorem rule_matches {r : String} {b : Expr} {s rest vs} (hb : jsonG.find r = some b) (h : JRule T sp r s rest vs) : Matches jsonG noExt b s rest :=
  ((jrule_iff hb).1 h).matches

/-- An action around a silent expression: one call if it matches, none otherwise. -/
theorem act_once {i f e s rest} (hi : T i ≠ .unit) (he : Occurs jsonG e) (hs : silent jsonSilent e = true) (hf : isVariant f = false) (h : Matches jsonG noExt (.act i e false f) s rest) :
    CallsMade jsonG T sp (.act i e false f) s 1 := by
  obtain ⟨t, L, h⟩ := h
  cases h with
  | act_ok h => exact made_act_ok (n := 0) hi ⟨_, _, h⟩ hf (json_zero he hs s)

theorem act_never {i f e s} (hi : T i ≠ .unit) (he : Occurs jsonG e) (hs : silent jsonSilent e = true) (h : Fails jsonG noExt (.act i e false f) s) :
    CallsMade jsonG T sp (.act i e false f) s 0 := by
  obtain ⟨L, h⟩ := h
  cases h with
  | act_fail h => exact made_act_fail hi ⟨_, h⟩ (json_zero he hs s)

theorem number_inner : Occurs jsonG (.seq 64 [.plus 62 (.nt 61 "digit"), .nt 63 "spacing"]) := ⟨_, _, number_occurs, .act .refl⟩
theorem string_inner : Occurs jsonG (.seq 45 [.nt 40 "dquote", .star 42 (.nt 41 "json_char"), .nt 43 "dquote", .nt 44 "spacing"]) := ⟨_, _, string_occurs, .act .refl⟩

theorem call_fails {i r b f s} (hb : jsonG.find r = some b) (h : Fails jsonG noExt (.act i (.nt (i - 1) r) false f) s) : Fails jsonG noExt b s := by
  obtain ⟨L, h⟩ := h
  cases h with
  | act_fail h =>
    cases h with
    | nt_fail hb' h => rw [hb] at hb'; cases hb'; exact ⟨_, h⟩

/-- The calls of the alternatives before the one that matches. -/
theorem string_calls (H : JsonTypes T) {i cs} {s rest : List Char} (hi : T i ≠ .unit) (h : JsonText.Takes (.str cs) s rest) : CallsMade jsonG T sp (.nt i "json_string") s 1 :=
  made_nt hi string_occurs (act_once (H.v 46 (by decide) rfl) string_inner (by decide +kernel) (by decide) (rule_matches (sp := sp) string_occurs ((jstring_iff H).2 ⟨cs, h, rfl⟩)))

theorem not_number (H : JsonTypes T) {s : List Char} {c m} (hs : s = c :: m) (hc : isDigit c = false) : Fails jsonG noExt (.nt 4 "number") s := by
  rw [json_fails_iff (T := T) (sp := ⟨fun _ => 0, fun _ _ => (0, 0)⟩) ⟨_, _, expr_occurs, .choice (e := .act 5 (.nt 4 "number") false ["make_json_number"]) (by simp) (.act .refl)⟩]
  intro rest vs h
  rw [jcall_val (H.v 4 (by decide) rfl)] at h
  obtain ⟨ds, h, _⟩ := (jnumber_iff H).1 h
  obtain ⟨d, m', h1, h2⟩ := takes_first h
  rw [hs] at h1; cases h1
  rw [hc] at h2; cases h2

theorem not_string (H : JsonTypes T) {s : List Char} {c m} (hs : s = c :: m) (hc : c ≠ '"') : Fails jsonG noExt (.nt 6 "json_string") s := by
  rw [json_fails_iff (T := T) (sp := ⟨fun _ => 0, fun _ _ => (0, 0)⟩) ⟨_, _, expr_occurs, .choice (e := .act 7 (.nt 6 "json_string") false ["make_json_string"]) (by simp) (.act .refl)⟩]
  intro rest vs h
  rw [jcall_val (H.v 6 (by decide) rfl)] at h
  obtain ⟨ds, h, _⟩ := (jstring_iff H).1 h
  obtain ⟨d, m', h1, h2⟩ := takes_first h
  rw [hs] at h1; cases h1
  exact hc h2

theorem not_array (H : JsonTypes T) {s : List Char} {c m} (hs : s = c :: m) (hc : c ≠ '[') : Fails jsonG noExt (.nt 31 "lbracket") s := by
  rw [json_fails_iff (T := T) (sp := ⟨fun _ => 0, fun _ _ => (0, 0)⟩) ⟨_, _, array_occurs, .seq (e := .nt 31 "lbracket") (by simp) .refl⟩]
  intro rest vs h
  obtain ⟨m', h⟩ := takes_sym ((lbracket_iff H).1 h).1
  rw [hs] at h; cases h
  exact hc rfl

theorem fails_act {i e f s} (h : Fails jsonG noExt e s) : Fails jsonG noExt (.act i e false f) s := by
  obtain ⟨L, h⟩ := h; exact ⟨_, .act_fail h⟩

theorem nt_body {i r b s} (hb : jsonG.find r = some b) (h : Fails jsonG noExt (.nt i r) s) : Fails jsonG noExt b s := by
  obtain ⟨L, h⟩ := h
  cases h with
  | nt_fail hb' h => rw [hb] at hb'; cases hb'; exact ⟨_, h⟩

/-- The calls of an element: those of the alternative that matches. -/
theorem elem_calls (H : JsonTypes T) {i n} {s rest : List Char} (hi : T i ≠ .unit)
    (h : (∃ ds, n = 2 ∧ JsonText.Takes (.num ds) s rest) ∨ (∃ cs, n = 2 ∧ JsonText.Takes (.str cs) s rest) ∨
      ((∃ m, s = '[' :: m) ∧ Matches jsonG noExt (.nt 8 "json_array") s rest ∧ CallsMade jsonG T sp (.nt 8 "json_array") s (n - 1) ∧ 1 ≤ n) ∨
      ((∃ m, s = '{' :: m) ∧ Matches jsonG noExt (.nt 10 "json_object") s rest ∧ CallsMade jsonG T sp (.nt 10 "json_object") s (n - 1) ∧ 1 ≤ n)) : CallsMade jsonG T sp (.nt i "json_expr") s n := by
  refine made_nt hi expr_occurs ?_
  have k1 : ∀ {c m}, s = c :: m → isDigit c = false → ∀ {es n}, CallsMade jsonG T sp (.choice 12 es) s n →
      CallsMade jsonG T sp (.choice 12 (.act 5 (.nt 4 "number") false ["make_json_number"] :: es)) s n := by
    intro c m hs hc es n h
    have hf := not_number H hs hc
    have := made_choice_next (H.v 12 (by decide) rfl) (fails_act (f := ["make_json_number"]) (i := 5) hf) (made_act_fail (H.v 5 (by decide) rfl) hf
      (made_nt (H.v 4 (by decide) rfl) number_occurs (act_never (H.v 65 (by decide) rfl) number_inner (by decide +kernel) (nt_body number_occurs hf)))) h
    rwa [Nat.zero_add] at this
  have k2 : ∀ {c m}, s = c :: m → c ≠ '"' → ∀ {es n}, CallsMade jsonG T sp (.choice 12 es) s n →
      CallsMade jsonG T sp (.choice 12 (.act 7 (.nt 6 "json_string") false ["make_json_string"] :: es)) s n := by
    intro c m hs hc es n h
    have hf := not_string H hs hc
    have := made_choice_next (H.v 12 (by decide) rfl) (fails_act (f := ["make_json_string"]) (i := 7) hf) (made_act_fail (H.v 7 (by decide) rfl) hf
      (made_nt (H.v 6 (by decide) rfl) string_occurs (act_never (H.v 46 (by decide) rfl) string_inner (by decide +kernel) (nt_body string_occurs hf)))) h
    rwa [Nat.zero_add] at this
  have k3 : ∀ {c m}, s = c :: m → c ≠ '[' → ∀ {es n}, CallsMade jsonG T sp (.choice 12 es) s n →
      CallsMade jsonG T sp (.choice 12 (.act 9 (.nt 8 "json_array") false ["make_json_array"] :: es)) s n := by
    intro c m hs hc es n h
    have hl := not_array H hs hc
    have hf : Fails jsonG noExt (.nt 8 "json_array") s := by
      obtain ⟨L, hl⟩ := hl
      exact ⟨_, .nt_fail array_occurs (.seq_fail hl)⟩
    have := made_choice_next (H.v 12 (by decide) rfl) (fails_act (f := ["make_json_array"]) (i := 9) hf) (made_act_fail (H.v 9 (by decide) rfl) hf
      (made_nt (H.v 8 (by decide) rfl) array_occurs (made_seq_fail (H.v 39 (by decide) rfl) hl (made_unit (H.u 31 rfl))))) h
    rwa [Nat.zero_add] at this
  have mat : ∀ {j a r f vs}, T j ≠ .unit → JRule T sp r s rest vs → Matches jsonG noExt (.nt j r) s rest ∧ Matches jsonG noExt (.act a (.nt j r) false f) s rest := by
    intro j a r f vs hj h
    obtain ⟨t, L, h⟩ := ((jcall_val hj).2 h).matches
    exact ⟨⟨t, L, h⟩, _, _, .act_ok h⟩
  rcases h with ⟨ds, rfl, h⟩ | ⟨cs, rfl, h⟩ | ⟨⟨m, e1⟩, m1, hn, h1⟩ | ⟨⟨m, e1⟩, m1, hn, h1⟩
  · have hy := (jnumber_iff (sp := sp) H).2 ⟨ds, h, rfl⟩
    obtain ⟨m1, m2⟩ := mat (a := 5) (f := ["make_json_number"]) (H.v 4 (by decide) rfl) hy
    exact made_choice_first (H.v 12 (by decide) rfl) m2 (made_act_ok (n := 1) (H.v 5 (by decide) rfl) m1 (by decide)
      (made_nt (H.v 4 (by decide) rfl) number_occurs (act_once (H.v 65 (by decide) rfl) number_inner (by decide +kernel) (by decide) (rule_matches number_occurs hy))))
  · have hy := (jstring_iff (sp := sp) H).2 ⟨cs, h, rfl⟩
    obtain ⟨m1, m2⟩ := mat (a := 7) (f := ["make_json_string"]) (H.v 6 (by decide) rfl) hy
    obtain ⟨c, m, e1, e2⟩ := takes_first h
    change c = '"' at e2
    subst e2
    exact k1 e1 (by decide) (made_choice_first (H.v 12 (by decide) rfl) m2 (made_act_ok (n := 1) (H.v 7 (by decide) rfl) m1 (by decide) (string_calls H (H.v 6 (by decide) rfl) h)))
  · have m2 : Matches jsonG noExt (.act 9 (.nt 8 "json_array") false ["make_json_array"]) s rest := by obtain ⟨_, _, h⟩ := m1; exact ⟨_, _, .act_ok h⟩
    have := made_act_ok (b := false) (f := ["make_json_array"]) (H.v 9 (by decide) rfl) m1 (by decide) hn
    rw [Nat.sub_add_cancel h1] at this
    exact k1 e1 (by decide) (k2 e1 (by decide) (made_choice_first (H.v 12 (by decide) rfl) m2 this))
  · have m2 : Matches jsonG noExt (.act 11 (.nt 10 "json_object") false ["make_json_object"]) s rest := by obtain ⟨_, _, h⟩ := m1; exact ⟨_, _, .act_ok h⟩
    have := made_act_ok (b := false) (f := ["make_json_object"]) (H.v 11 (by decide) rfl) m1 (by decide) hn
    rw [Nat.sub_add_cancel h1] at this
    exact k1 e1 (by decide) (k2 e1 (by decide) (k3 e1 (by decide) (made_choice_first (H.v 12 (by decide) rfl) m2 this)))

theorem seq_matches {i e es s s1 s2} (h1 : Matches jsonG noExt e s s1) (h2 : Matches jsonG noExt (.seq i es) s1 s2) : Matches jsonG noExt (.seq i (e :: es)) s s2 := by
  obtain ⟨_, _, h1⟩ := h1
  obtain ⟨t, _, h2⟩ := h2
  obtain ⟨ts, rfl⟩ : ∃ ts, t = .seq ts := by cases h2 <;> exact ⟨_, rfl⟩
  exact ⟨_, _, .seq_cons h1 h2⟩

theorem seq_end {i} {s : List Char} : Matches jsonG noExt (.seq i []) s s := ⟨_, _, .seq_nil⟩

theorem nt_matches {i r b s s1} (hb : jsonG.find r = some b) (h : Matches jsonG noExt b s s1) : Matches jsonG noExt (.nt i r) s s1 := by
  obtain ⟨_, _, h⟩ := h
  exact ⟨_, _, .nt_ok hb h⟩

theorem act_matches {i e f s s1} (h : Matches jsonG noExt e s s1) : Matches jsonG noExt (.act i e false f) s s1 := by
  obtain ⟨_, _, h⟩ := h
  exact ⟨_, _, .act_ok h⟩

theorem star_next {i e} {s s1 s2 : List Char} (h1 : Matches jsonG noExt e s s1) (h2 : Matches jsonG noExt (.star i e) s1 s2) : Matches jsonG noExt (.star i e) s s2 := by
  obtain ⟨_, _, h1⟩ := h1
  obtain ⟨t, _, h2⟩ := h2
  obtain ⟨ts, rfl⟩ : ∃ ts, t = .rep ts := by cases h2 <;> exact ⟨_, rfl⟩
  exact ⟨_, _, .star_more h1 h2⟩

theorem star_end {i e} {s : List Char} (h : Fails jsonG noExt e s) : Matches jsonG noExt (.star i e) s s := by
  obtain ⟨_, h⟩ := h
  exact ⟨_, _, .star_stop h⟩

theorem no_coma (H : JsonTypes T) {c : Char} {s rest : List Char} (h : JsonText.Takes (.sym c) s rest) (hc : c ≠ ',') : Fails jsonG noExt (.nt 33 "coma") s := by
  rw [json_fails_iff (T := T) (sp := ⟨fun _ => 0, fun _ _ => (0, 0)⟩) ⟨_, _, array_occurs, .seq (e := .star 35 itemE) (by simp) (.star (.seq (e := .nt 33 "coma") (by simp) .refl))⟩]
  intro rest' vs hy
  exact hc (takes_other h ((coma_iff H).1 hy).1)

theorem value_matches (H : JsonTypes T) {d ls} (h : Value d ls) {s rest : List Char} (hl : Lexed ls s rest) (i : Nat) : Matches jsonG noExt (.nt i "json_expr") s rest := by
  obtain ⟨x, hx, _⟩ := value_complete (T := T) (sp := ⟨fun _ => 0, fun _ _ => (0, 0)⟩) H h s rest hl
  exact nt_matches expr_occurs (rule_matches expr_occurs hx)

theorem items_nonempty {vs ls} (h : Items vs ls) : vs.isEmpty = false := by cases h <;> rfl
theorem members_nonempty {ms ls} (h : Members ms ls) : ms.isEmpty = false := by cases h <;> rfl

theorem pair_calls (H : JsonTypes T) {k s s1 s2 m} {n : Nat} (h1 : JsonText.Takes (.str k) s s1) (h2 : JsonText.Takes (.sym ':') s1 s2) (h3 : Matches jsonG noExt (.nt 28 "json_expr") s2 m)
    (h4 : CallsMade jsonG T sp (.nt 28 "json_expr") s2 n) (i : Nat) : Matches jsonG noExt (.nt i "json_pair") s m ∧ (T i ≠ .unit → CallsMade jsonG T sp (.nt i "json_pair") s (n + 2)) := by
  have m1 : Matches jsonG noExt (.nt 26 "json_string") s s1 := nt_matches string_occurs (rule_matches (T := T) (sp := sp) string_occurs ((jstring_iff H).2 ⟨k, h1, rfl⟩))
  have m2 : Matches jsonG noExt (.nt 27 "colon") s1 s2 := ((colon_iff (sp := sp) H).2 ⟨h2, rfl⟩).matches
  have ms := seq_matches (i := 29) m1 (seq_matches m2 (seq_matches h3 seq_end))
  refine ⟨nt_matches pair_occurs (act_matches ms), fun hi => made_nt hi pair_occurs ?_⟩
  have := made_act_ok (b := false) (f := ["make_json_pair"]) (H.v 30 (by decide) rfl) ms (by decide) (made_seq_cons (H.v 29 (by decide) rfl) m1 (string_calls H (H.v 26 (by decide) rfl) h1)
    (made_seq_cons (n := 0) (H.v 29 (by decide) rfl) m2 (made_unit (H.u 27 rfl)) (made_seq_cons (H.v 29 (by decide) rfl) h3 h4 made_seq_nil)))
  rw [show n + 2 = 1 + (0 + (n + 0)) + 1 by omega]
  exact this

/-- The calls of a data. -/
theorem value_calls (H : JsonTypes T) {d ls} (h : Value d ls) : ∀ (s rest : List Char), Lexed ls s rest → ∀ i, T i ≠ .unit → CallsMade jsonG T sp (.nt i "json_expr") s d.calls := by
  refine Value.rec (motive_1 := fun d ls _ => ∀ (s rest : List Char), Lexed ls s rest → ∀ i, T i ≠ .unit → CallsMade jsonG T sp (.nt i "json_expr") s d.calls)
    (motive_2 := fun vs ls _ => ∀ (s rest r' : List Char), Lexed ls s rest → JsonText.Takes (.sym ']') rest r' → ∃ m n1 n2, Matches jsonG noExt (.star 35 itemE) s m ∧
      CallsMade jsonG T sp (.star 35 itemE) s n1 ∧ Matches jsonG noExt (.nt 36 "json_expr") m rest ∧ CallsMade jsonG T sp (.nt 36 "json_expr") m n2 ∧ n1 + n2 = callsAll vs)
    (motive_3 := fun ms ls _ => ∀ (s rest r' : List Char), Lexed ls s rest → JsonText.Takes (.sym '}') rest r' → ∃ m n1 n2, (∀ i, Matches jsonG noExt (.nt i "json_pair") s m ∧
      (T i ≠ .unit → CallsMade jsonG T sp (.nt i "json_pair") s n1)) ∧ Matches jsonG noExt (.star 23 pairE) m rest ∧ CallsMade jsonG T sp (.star 23 pairE) m n2 ∧ n1 + n2 = callsPairs ms)
    ?_ ?_ ?_ ?_ ?_ ?_ ?_ ?_ ?_ h
  · intro ds s rest hl i hi
    obtain ⟨_, h1, h2⟩ := lexed_cons.1 hl
    rw [Data.calls]
    exact elem_calls H hi (.inl ⟨ds, rfl, h1⟩)
  · intro cs s rest hl i hi
    obtain ⟨_, h1, h2⟩ := lexed_cons.1 hl
    rw [Data.calls]
    exact elem_calls H hi (.inr (.inl ⟨cs, rfl, h1⟩))
  · intro vs ls _ ih s rest hl i hi
    rw [List.cons_append] at hl
    obtain ⟨s1, h1, h2⟩ := lexed_cons.1 hl
    obtain ⟨s3, h3, h4⟩ := lexed_append.1 h2
    obtain ⟨_, h5, h6⟩ := lexed_cons.1 h4
    cases h6
    obtain ⟨m, n1, n2, k1, k2, k3, k4, k5⟩ := ih _ _ _ h3 h5
    have hend : NotStart isSpace s3 := by
      obtain ⟨m', hm⟩ := takes_sym h5
      rw [hm]
      exact (by decide : isSpace ']' = false)
    have b1 : Matches jsonG noExt (.nt 31 "lbracket") s s1 := ((lbracket_iff (T := T) (sp := sp) H).2 ⟨h1, rfl⟩).matches
    have b2 : Matches jsonG noExt (.nt 37 "spacing") s3 s3 := ((jspacing_call (T := T) (sp := sp) H).2 ⟨(JsonText.spaces_none hend).2 rfl, rfl⟩).matches
    have b3 : Matches jsonG noExt (.nt 38 "rbracket") s3 rest := ((rbracket_iff (T := T) (sp := sp) H).2 ⟨h5, rfl⟩).matches
    have ms : Matches jsonG noExt (.nt 8 "json_array") s rest := nt_matches array_occurs (seq_matches b1 (seq_matches k1 (seq_matches k3 (seq_matches b2 (seq_matches b3 seq_end)))))
    have h39 := H.v 39 (by decide) rfl
    have cs := made_nt (i := 8) (H.v 8 (by decide) rfl) array_occurs (made_seq_cons (n := 0) h39 b1 (made_unit (H.u 31 rfl)) (made_seq_cons h39 k1 k2 (made_seq_cons h39 k3 k4
      (made_seq_cons (n := 0) h39 b2 (made_unit (H.u 37 rfl)) (made_seq_cons (n := 0) (m := 0) h39 b3 (made_unit (H.u 38 rfl)) made_seq_nil)))))
    rw [Data.calls]
    refine elem_calls H hi (.inr (.inr (.inl ⟨takes_sym h1, ms, ?_, by omega⟩)))
    rw [show callsAll vs + 1 - 1 = 0 + (n1 + (n2 + (0 + (0 + 0)))) by omega]
    exact cs
  · intro s rest hl i hi
    obtain ⟨s1, h1, h2⟩ := lexed_cons.1 hl
    obtain ⟨_, h3, h4⟩ := lexed_cons.1 h2
    cases h4
    have fs : Fails jsonG noExt (.nt 6 "json_string") s1 := by
      obtain ⟨m, hm⟩ := takes_sym h3
      exact not_string H hm (by decide)
    have fs' : Fails jsonG noExt (.nt 26 "json_string") s1 := by
      obtain ⟨L, fs⟩ := nt_body string_occurs fs
      exact ⟨L, .nt_fail string_occurs fs⟩
    have hend : NotStart isSpace s1 := takes_end h1
    have b1 : Matches jsonG noExt (.nt 13 "lbrace") s s1 := ((lbrace_iff (T := T) (sp := sp) H).2 ⟨h1, rfl⟩).matches
    have b2 : Matches jsonG noExt (.nt 16 "spacing") s1 s1 := ((jspacing_call (T := T) (sp := sp) H).2 ⟨(JsonText.spaces_none hend).2 rfl, rfl⟩).matches
    have b3 : Matches jsonG noExt (.nt 17 "rbrace") s1 rest := ((rbrace_iff (T := T) (sp := sp) H).2 ⟨h3, rfl⟩).matches
    have c0 : CallsMade jsonG T sp (.nt 26 "json_string") s1 0 :=
      made_nt (H.v 26 (by decide) rfl) string_occurs (act_never (H.v 46 (by decide) rfl) string_inner (by decide +kernel) (nt_body string_occurs fs))
    obtain ⟨L, fL⟩ := fs'
    have f1 : Peg jsonG noExt (.nt 19 "json_pair") s1 .fail L := .nt_fail pair_occurs (.act_fail (.seq_fail fL))
    have f2 : Peg jsonG noExt (.nt 14 "json_members") s1 .fail L := .nt_fail members_occurs (.act_fail (.seq_fail f1))
    have c1 : CallsMade jsonG T sp (.nt 19 "json_pair") s1 0 := made_nt (H.v 19 (by decide) rfl) pair_occurs (made_act_fail (H.v 30 (by decide) rfl) ⟨_, .seq_fail fL⟩
      (made_seq_fail (H.v 29 (by decide) rfl) ⟨_, fL⟩ c0))
    have c2 : CallsMade jsonG T sp (.nt 14 "json_members") s1 0 := made_nt (H.v 14 (by decide) rfl) members_occurs (made_act_fail (H.v 25 (by decide) rfl) ⟨_, .seq_fail f1⟩
      (made_seq_fail (H.v 24 (by decide) rfl) ⟨_, f1⟩ c1))
    have mo : Matches jsonG noExt (.opt 15 (.nt 14 "json_members")) s1 s1 := ⟨_, _, .opt_none f2⟩
    have ms : Matches jsonG noExt (.nt 10 "json_object") s rest := nt_matches object_occurs (seq_matches b1 (seq_matches mo (seq_matches b2 (seq_matches b3 seq_end))))
    have h18 := H.v 18 (by decide) rfl
    have cs := made_nt (i := 10) (H.v 10 (by decide) rfl) object_occurs (made_seq_cons (n := 0) h18 b1 (made_unit (H.u 13 rfl)) (made_seq_cons (n := 0) h18 mo (made_opt (H.v 15 (by decide) rfl) c2)
      (made_seq_cons (n := 0) h18 b2 (made_unit (H.u 16 rfl)) (made_seq_cons (n := 0) (m := 0) h18 b3 (made_unit (H.u 17 rfl)) made_seq_nil))))
    rw [Data.calls, callsPairs]
    exact elem_calls H hi (.inr (.inr (.inr ⟨takes_sym h1, ms, cs, by simp⟩)))
  · intro pms ls hms ih s rest hl i hi
    rw [List.cons_append] at hl
    obtain ⟨s1, h1, h2⟩ := lexed_cons.1 hl
    obtain ⟨s3, h3, h4⟩ := lexed_append.1 h2
    obtain ⟨_, h5, h6⟩ := lexed_cons.1 h4
    cases h6
    obtain ⟨m, n1, n2, k1, k2, k3, k4⟩ := ih _ _ _ h3 h5
    have hend : NotStart isSpace s3 := by
      obtain ⟨m', hm⟩ := takes_sym h5
      rw [hm]
      exact (by decide : isSpace '}' = false)
    have b1 : Matches jsonG noExt (.nt 13 "lbrace") s s1 := ((lbrace_iff (T := T) (sp := sp) H).2 ⟨h1, rfl⟩).matches
    have b2 : Matches jsonG noExt (.nt 16 "spacing") s3 s3 := ((jspacing_call (T := T) (sp := sp) H).2 ⟨(JsonText.spaces_none hend).2 rfl, rfl⟩).matches
    have b3 : Matches jsonG noExt (.nt 17 "rbrace") s3 rest := ((rbrace_iff (T := T) (sp := sp) H).2 ⟨h5, rfl⟩).matches
    have m24 := seq_matches (i := 24) (k1 19).1 (seq_matches k2 seq_end)
    have m14 : Matches jsonG noExt (.nt 14 "json_members") s1 s3 := nt_matches members_occurs (act_matches m24)
    have c14 : CallsMade jsonG T sp (.nt 14 "json_members") s1 (n1 + (n2 + 0) + 1) := made_nt (H.v 14 (by decide) rfl) members_occurs (made_act_ok (H.v 25 (by decide) rfl) m24 (by decide)
      (made_seq_cons (H.v 24 (by decide) rfl) (k1 19).1 ((k1 19).2 (H.v 19 (by decide) rfl)) (made_seq_cons (H.v 24 (by decide) rfl) k2 k3 made_seq_nil)))
    have mo : Matches jsonG noExt (.opt 15 (.nt 14 "json_members")) s1 s3 := by
      obtain ⟨_, _, m14⟩ := m14
      exact ⟨_, _, .opt_some m14⟩
    have ms : Matches jsonG noExt (.nt 10 "json_object") s rest := nt_matches object_occurs (seq_matches b1 (seq_matches mo (seq_matches b2 (seq_matches b3 seq_end))))
    have h18 := H.v 18 (by decide) rfl
    have cs := made_nt (i := 10) (H.v 10 (by decide) rfl) object_occurs (made_seq_cons (n := 0) h18 b1 (made_unit (H.u 13 rfl)) (made_seq_cons h18 mo (made_opt (H.v 15 (by decide) rfl) c14)
      (made_seq_cons (n := 0) h18 b2 (made_unit (H.u 16 rfl)) (made_seq_cons (n := 0) (m := 0) h18 b3 (made_unit (H.u 17 rfl)) made_seq_nil))))
    rw [Data.calls, members_nonempty hms]
    refine elem_calls H hi (.inr (.inr (.inr ⟨takes_sym h1, ms, ?_, by simp⟩)))
    simp only [Bool.false_eq_true, if_false]
    rw [show callsPairs pms + 2 - 1 = 0 + (n1 + (n2 + 0) + 1 + (0 + (0 + 0))) by omega]
    exact cs
  · intro v ls hv ih s rest r' hl hr
    have me := value_matches H hv hl
    obtain ⟨_, hc⟩ := no_coma H hr (by decide)
    have hf : Fails jsonG noExt itemE s := by
      obtain ⟨_, _, me⟩ := me 32
      exact ⟨_, .seq_later me (.seq_fail hc)⟩
    have h34 := H.v 34 (by decide) rfl
    have c1 := made_star_stop (H.v 35 (by decide) rfl) hf (made_seq_cons (m := 0) h34 (me 32) (ih s rest hl 32 (H.v 32 (by decide) rfl)) (made_seq_fail h34 ⟨_, hc⟩ (made_unit (H.u 33 rfl))))
    refine ⟨s, _, _, star_end hf, c1, me 36, ih s rest hl 36 (H.v 36 (by decide) rfl), ?_⟩
    rw [callsAll, callsAll]
    simp only [List.isEmpty_nil, if_true]
    omega
  · intro v l1 vs l2 hv hvs ih1 ih2 s rest r' hl hr
    obtain ⟨m, h1, h2⟩ := lexed_append.1 hl
    obtain ⟨m', h3, h4⟩ := lexed_cons.1 h2
    obtain ⟨q, n1, n2, k1, k2, k3, k4, k5⟩ := ih2 _ _ _ h4 hr
    have me := value_matches H hv h1 32
    have mc : Matches jsonG noExt (.nt 33 "coma") m m' := ((coma_iff (T := T) (sp := sp) H).2 ⟨h3, rfl⟩).matches
    have h34 := H.v 34 (by decide) rfl
    have mi : Matches jsonG noExt itemE s m' := seq_matches me (seq_matches mc seq_end)
    have c1 := made_star_more (H.v 35 (by decide) rfl) mi (made_seq_cons h34 me (ih1 s m h1 32 (H.v 32 (by decide) rfl)) (made_seq_cons (n := 0) (m := 0) h34 mc (made_unit (H.u 33 rfl)) made_seq_nil)) k2
    refine ⟨q, _, n2, star_next mi k1, c1, k3, k4, ?_⟩
    rw [callsAll, items_nonempty hvs]
    simp only [Bool.false_eq_true, if_false]
    omega
  · intro k v ls hv ih s rest r' hl hr
    obtain ⟨s1, h1, h2⟩ := lexed_cons.1 hl
    obtain ⟨s2, h3, h4⟩ := lexed_cons.1 h2
    obtain ⟨_, hc⟩ := no_coma H hr (by decide)
    have hc : Fails jsonG noExt (.nt 20 "coma") rest := by
      cases hc with
      | nt_fail hb hc => exact ⟨_, .nt_fail hb hc⟩
    obtain ⟨_, hc⟩ := hc
    refine ⟨rest, _, 0, pair_calls H h1 h3 (value_matches H hv h4 28) (ih _ _ h4 28 (H.v 28 (by decide) rfl)), star_end ⟨_, .seq_fail hc⟩,
      made_star_stop (H.v 23 (by decide) rfl) ⟨_, .seq_fail hc⟩ (made_seq_fail (H.v 22 (by decide) rfl) ⟨_, hc⟩ (made_unit (H.u 20 rfl))), ?_⟩
    rw [callsPairs, callsPair, callsPairs]
  · intro k v l1 pms l2 hv hms ih1 ih2 s rest r' hl hr
    obtain ⟨s1, h1, h2⟩ := lexed_cons.1 hl
    obtain ⟨s2, h3, h4⟩ := lexed_cons.1 h2
    obtain ⟨m, h5, h6⟩ := lexed_append.1 h4
    obtain ⟨m', h7, h8⟩ := lexed_cons.1 h6
    obtain ⟨q, n1, n2, k1, k2, k3, k4⟩ := ih2 _ _ _ h8 hr
    have mc : Matches jsonG noExt (.nt 20 "coma") m m' := ((coma_iff (T := T) (sp := sp) H).2 ⟨h7, rfl⟩).matches
    have mp : Matches jsonG noExt pairE m q := seq_matches mc (seq_matches (k1 21).1 seq_end)
    have h22 := H.v 22 (by decide) rfl
    have c1 := made_star_more (H.v 23 (by decide) rfl) mp (made_seq_cons (n := 0) h22 mc (made_unit (H.u 20 rfl)) (made_seq_cons (m := 0) h22 (k1 21).1 ((k1 21).2 (H.v 21 (by decide) rfl)) made_seq_nil)) k3
    refine ⟨m, _, _, pair_calls H h1 h3 (value_matches H hv h5 28) (ih1 _ _ h5 28 (H.v 28 (by decide) rfl)), star_next mp k2, c1, ?_⟩
    rw [callsPairs, callsPair]
    omega

end

/-- C68: on a text of the data `d`, `parse_program` calls the functions of the user `d.calls` times. -/
theorem C68_calls {fs} (hc : JsonCode fs) {ptr : Nat} {s : List Char} {d : Data} (hw : Written d s) {st' : PState StrStream Val} (h : Steps noFns fs true "program" (start ptr s) st') :
    st'.calls.length = d.calls := by
  obtain ⟨T, H, dep⟩ := json_deployed hc ptr s
  have hb : jsonG.find "program" = some jsonProgram := rfl
  obtain ⟨cs, h1, h2⟩ := C17_calls dep noFns_quiet hb (okSt_new ptr _) h
  have hr : (PState.new (StrStream.new ptr s) : PState StrStream Val).cur.rest = s := by simp [PState.new]
  rw [hr] at h2
  obtain ⟨sps, s1, ls, rfl, k1, k2, k3, k4⟩ := hw
  have m1 : Matches jsonG noExt (.nt 0 "spacing") (sps ++ s1) s1 := ((jspacing_call (T := T) (sp := strSpans (sps ++ s1)) H).2 ⟨⟨sps, rfl, k1, k2⟩, rfl⟩).matches
  have m2 : Matches jsonG noExt (.nt 2 "spacing") [] [] := ((jspacing_call (T := T) (sp := strSpans (sps ++ s1)) H).2 ⟨(JsonText.spaces_none (show NotStart isSpace [] from trivial)).2 rfl, rfl⟩).matches
  have h3 := H.v 3 (by decide) rfl
  obtain ⟨cs', hu, hlen⟩ := made_seq_cons (n := 0) h3 m1 (made_unit (H.u 0 rfl)) (made_seq_cons h3 (value_matches H k4 k3 1) (value_calls H k4 _ _ k3 1 (H.v 1 (by decide) rfl))
    (made_seq_cons (n := 0) (m := 0) h3 m2 (made_unit (H.u 2 rfl)) made_seq_nil))
  rw [h1, ← (h2 cs').1 hu]
  simp only [PState.new, List.nil_append, hlen]
  omega

theorem nested_calls (n : Nat) : (nested n).calls + 1 = 3 * 2 ^ n := by
  induction n with
  | zero => rfl
  | succ n ih =>
    simp only [nested, Data.calls, callsAll, List.isEmpty_nil, if_true]
    rw [Nat.pow_succ]
    omega

theorem nested_writable (n : Nat) : (nested n).Writable := by
  induction n with
  | zero => simp [nested, Data.Writable]
  | succ n ih => simp [nested, Data.Writable, JsonText.WritableAll, ih]

theorem nested_text (n : Nat) : (nested n).text = List.replicate n '[' ++ '1' :: List.replicate n ']' := by
  induction n with
  | zero => rw [nested, Data.text, digits, if_pos (by decide)]; decide
  | succ n ih =>
    simp only [nested, Data.text, textAll, List.isEmpty_nil, if_true, ih, List.append_nil, List.replicate_succ, List.cons_append, List.append_assoc]
    rw [← List.replicate_succ, List.replicate_succ']

/-- C68: the calls are exponential in the depth of the arrays: on the digit `1` in `n` arrays, a text of `2 * n + 1` characters, the functions of the user are called `3 * 2 ^ n - 1`
times. -/
theorem C68_exponential {fs} (hc : JsonCode fs) (ptr n : Nat) :
    ∃ st', Steps noFns fs true "program" (start ptr (List.replicate n '[' ++ '1' :: List.replicate n ']')) st' ∧ st'.calls.length + 1 = 3 * 2 ^ n := by
  obtain ⟨T, H, d⟩ := json_deployed hc ptr (nested n).text
  obtain ⟨st', h⟩ := C13_terminates_at d json_accepted (fun _ _ _ _ _ h => h.elim) (fun i p h => absurd h json_noext) (r := "program") rfl true (start ptr (nested n).text) (okSt_new ptr _)
  have := C68_calls hc (text_written (nested_writable n)) h
  rw [nested_text] at h
  exact ⟨st', h, by rw [this, nested_calls]⟩

/-- C68: the empty array is rejected, the empty object is accepted. -/
theorem C68_empty {fs} (hc : JsonCode fs) (ptr : Nat) : (∀ v, ¬ Returns noFns fs true "program" ptr "[]".toList (.success v)) ∧
    ∃ v, Returns noFns fs true "program" ptr "{}".toList (.success v) ∧ Denotes v (.obj []) := by
  constructor
  · intro v h
    obtain ⟨d, _, ⟨sps, s1, ls, h0, h1, h2, h3, h4⟩, _⟩ := C68_unambiguous hc h
    have e : "[]".toList = ['[', ']'] := by decide
    rw [e] at h0
    have hs : s1 = ['[', ']'] := by
      cases sps with
      | nil => exact h0.symm
      | cons c sps =>
        rw [List.cons_append, List.cons.injEq] at h0
        exact absurd (h1 c (by simp)) (by rw [← h0.1]; decide)
    subst hs
    -- nothing is written between the brackets
    have item : ∀ {vs ls rest}, Items vs ls → ¬ Lexed ls [']'] rest := by
      intro vs ls rest hi hl
      have val : ∀ {d ls rest}, Value d ls → ¬ Lexed ls [']'] rest := by
        intro d ls rest hv hl
        cases hv with
        | num =>
          obtain ⟨_, ht, _⟩ := lexed_cons.1 hl
          obtain ⟨c, m, e1, e2⟩ := takes_first ht
          cases e1
          change isDigit ']' = true at e2
          exact absurd e2 (by decide)
        | str =>
          obtain ⟨_, ht, _⟩ := lexed_cons.1 hl
          obtain ⟨c, m, e1, e2⟩ := takes_first ht
          cases e1
          change ']' = '"' at e2
          exact absurd e2 (by decide)
        | arr | empty | obj =>
          obtain ⟨_, ht, _⟩ := lexed_cons.1 hl
          obtain ⟨m, e1⟩ := takes_sym ht
          cases e1
      cases hi with
      | one hv => exact val hv hl
      | cons hv _ =>
        obtain ⟨_, hl, _⟩ := lexed_append.1 hl
        exact val hv hl
    cases h4 with
    | num =>
      obtain ⟨_, ht, _⟩ := lexed_cons.1 h3
      obtain ⟨c, m, e1, e2⟩ := takes_first ht
      cases e1
      change isDigit '[' = true at e2
      exact absurd e2 (by decide)
    | str =>
      obtain ⟨_, ht, _⟩ := lexed_cons.1 h3
      obtain ⟨c, m, e1, e2⟩ := takes_first ht
      cases e1
      change '[' = '"' at e2
      exact absurd e2 (by decide)
    | empty | obj =>
      obtain ⟨_, ht, _⟩ := lexed_cons.1 h3
      obtain ⟨m, e1⟩ := takes_sym ht
      cases e1
    | arr hi =>
      rw [List.cons_append] at h3
      obtain ⟨s2, ht, hl⟩ := lexed_cons.1 h3
      obtain ⟨_, hl, _⟩ := lexed_append.1 hl
      obtain ⟨_, m, e1, _, hsp⟩ := ht
      simp only [Token.chars, List.cons_append, List.nil_append, List.cons.injEq, true_and] at e1
      subst e1
      have := (JsonText.spaces_none (show NotStart isSpace [']'] from (by decide : isSpace ']' = false))).1 hsp
      subst this
      exact item hi hl
  · have e : "{}".toList = (Data.obj []).text := by simp [Data.text, textPairs]
    rw [e]
    obtain ⟨v, h1, h2, _⟩ := (C68_round_trip hc (ptr := ptr) (d := .obj [])).2 (by simp [Data.Writable, WritablePairs])
    exact ⟨v, h1, h2⟩

/-! ## Examples -/

/-- A data and its text. -/
example : (Data.obj [(['a'], .arr [.num 12, .str ['b', ' ', 'c']]), (['d'], .obj [])]).Writable ∧
    (Data.obj [(['a'], .arr [.num 12, .str ['b', ' ', 'c']]), (['d'], .obj [])]).text = "{\"a\":[12,\"b c\"],\"d\":{}}".toList := by
  have d1 : digits 12 = ['1', '2'] := by rw [digits, if_neg (by decide), digits, if_pos (by decide)]; decide
  constructor
  · simp [Data.Writable, JsonText.WritableAll, WritablePairs, WritablePair]; decide
  · simp [Data.text, textAll, textPairs, textPair, d1]

/-- Spaces between lexemes. -/
example : Written (.arr [.num 7]) " [ 7 ]".toList := by
  have e : " [ 7 ]".toList = [' ', '[', ' ', '7', ' ', ']'] := by decide
  rw [e]
  refine ⟨[' '], ['[', ' ', '7', ' ', ']'], _, rfl, by decide, (by decide : isSpace '[' = false), ?_, .arr (.one (.num (ds := ['7'])))⟩
  exact .cons (l := .sym '[') (sp := [' ']) (s := ['7', ' ', ']']) trivial (by decide) (by decide : isSpace '7' = false) (by decide : (false = false)) <|
    .cons (l := .num ['7']) (sp := [' ']) (s := [']']) ⟨by simp, by decide⟩ (by decide) (by decide : isSpace ']' = false) (by decide : isDigit ' ' = false) <|
    .cons (l := .sym ']') (sp := []) (s := []) trivial (by decide) trivial trivial .nil

/-- An empty array cannot be written, nor a string with a quotation mark. -/
example : ¬ (Data.arr []).Writable ∧ ¬ (Data.str ['"']).Writable := by
  refine ⟨by simp [Data.Writable], ?_⟩
  simp [Data.Writable]; decide

/-- A number that does not fit. -/
example : ∃ n ∈ (Data.arr [.num 1, .num 4294967296]).numbers, 2 ^ 32 ≤ n := ⟨4294967296, by simp [Data.numbers, numbersAll], by decide⟩

end Oak
