import Verif.Properties.Corpus
import Verif.Corpus.CalcShape
import Verif.Proofs.CalcSyntax
import Verif.Proofs.CalcPrint
/-!
The calculator of the tutorial and of the test-suite (tests/grammars/calc.rs): C63.
-/
set_option linter.constructorNameAsVariable false
set_option autoImplicit false

namespace Oak
open Spec Calculator

/-- The functions that the macro generates for tests/grammars/calc.rs. -/
def CalcCode (fs : List (FnRef × Fn)) : Prop := ∃ ms us A T, oak 100 Corpus.calcGrammar = .ok (.code ms us A T fs)

/-- The results of the generated functions, in terms of the grammar. -/
theorem calc_results {fs} (h : CalcCode fs) : ∃ T, CalcTypes T ∧ ∀ (ptr : Nat) (s : List Char) (p : Bool) (res : PResult StrStream Val),
    Returns noFns fs p "program" ptr s res ↔
      ∃ o L, Peg calcG noExt (.seq 2 [.nt 0 "spacing", .nt 1 "expression"]) s o L ∧ res = expectedResult calcG T (.seq 2 [.nt 0 "spacing", .nt 1 "expression"]) p ptr s L o := by
  obtain ⟨ms, us, A, T, ho⟩ := h
  obtain ⟨hG, hT⟩ := calc_read ho
  refine ⟨T, hT, fun ptr s p res => ?_⟩
  obtain ⟨ms', us', A', T', fs', ho', h1, _⟩ := verdict_code Corpus.calc_verdict
  rw [ho] at ho'; cases ho'
  simp only [Bool.and_eq_true] at h1
  obtain ⟨F, hF, hr, _⟩ := C47_faithful ho
  have hf : A.grammar.find "program" = some (.seq 2 [.nt 0 "spacing", .nt 1 "expression"]) := by rw [hG]; rfl
  have hmem : "program" ∈ F.rules.map (·.1) := by
    rw [← hr, hG]
    exact List.mem_map.2 ⟨_, List.mem_map.2 ⟨_, List.mem_cons_self, rfl⟩, rfl⟩
  obtain ⟨e, he, _, _, h2⟩ := C47_checked ho h1.1.1 h1.1.2 h1.2 (ext := noFns) (X := noExt) (ptr := ptr) (input := s) (noExt_ok ptr s) noExt_forward (fun _ _ _ _ _ h => h.elim)
    (fun i q hq => absurd (hG ▸ hq) calc_noext) hF hmem p
  rw [hf] at he; cases he
  rw [h2, hG]

theorem program_one {T : Nat → Ty} {sp : SpanSpec} (H : CalcTypes T) {s rest vs} (h : Yields calcG noExt T sp (.seq 2 [.nt 0 "spacing", .nt 1 "expression"]) s rest vs) :
    ∃ v, vs = [v] := by
  simp only [yields_seq, YieldsSeq, spacing_call H, call_val H.t1, H.t2, if_false] at h
  obtain ⟨_, ⟨s1, _, _, ⟨h1, rfl⟩, ⟨s2, w, _, h2, ⟨rfl, rfl⟩, rfl⟩, rfl⟩, rfl⟩ := h
  obtain ⟨v, rfl⟩ := expression_one H h2
  exact ⟨v, rfl⟩

theorem calc_success {T : Nat → Ty} (H : CalcTypes T) {ptr : Nat} {s : List Char} {v : Val} :
    (∃ o L, Peg calcG noExt (.seq 2 [.nt 0 "spacing", .nt 1 "expression"]) s o L ∧
      PResult.success v = expectedResult calcG T (.seq 2 [.nt 0 "spacing", .nt 1 "expression"]) true ptr s L o) ↔ Rule T (strSpans s) "program" s [] [v] := by
  have hb : calcG.find "program" = some (.seq 2 [.nt 0 "spacing", .nt 1 "expression"]) := rfl
  rw [rule_iff hb]
  constructor
  · rintro ⟨o, L, hp, h⟩
    cases o with
    | fail => cases h
    | ok s' t =>
      simp only [expectedResult, if_true] at h
      split at h
      · rename_i hs'; subst hs'
        cases h
        obtain ⟨w, hw⟩ := program_one H ⟨t, L, hp, rfl⟩
        exact ⟨t, L, hp, by rw [hw]; rfl⟩
      · cases h
  · rintro ⟨t, L, hp, ht⟩
    exact ⟨_, L, hp, by simp only [expectedResult, if_true, ht, tupleVal]⟩

/-- C63: the grammar of the calculator is accepted, and on every text `parse_program` returns a success whose value is the expression `t` if and only if the text is a way to
write `t`: `^` binds tighter than `*` and `/`, which bind tighter than `+` and `-`; `^` is grouped to the right, the other operators to the left; the body of a `let`
extends as far as possible; names are not keywords; spaces are allowed between lexemes. -/
theorem C63_language : ∃ fs, CalcCode fs ∧
    ∀ (ptr : Nat) (s : List Char) (t : Term), Written t s ↔ ∃ v, Returns noFns fs true "program" ptr s (.success v) ∧ Denotes v t := by
  obtain ⟨ms, us, A, T, fs, ho, _⟩ := verdict_code Corpus.calc_verdict
  refine ⟨fs, ⟨ms, us, A, T, ho⟩, fun ptr s t => ?_⟩
  obtain ⟨T, H, hr⟩ := calc_results ⟨ms, us, A, T, ho⟩
  simp only [hr, calc_success H]
  exact (calc_program H).symm

/-- C63: every value returned on a complete match is an expression, and it is the only expression that the text is a way to write. -/
theorem C63_unambiguous {fs} (hc : CalcCode fs) {ptr : Nat} {s : List Char} {v : Val} (h : Returns noFns fs true "program" ptr s (.success v)) :
    ∃ t, Denotes v t ∧ Written t s ∧ ∀ t', Written t' s → t' = t := by
  obtain ⟨T, H, hr⟩ := calc_results hc
  have h1 := (calc_success H).1 ((hr _ _ _ _).1 h)
  have hb : calcG.find "program" = some (.seq 2 [.nt 0 "spacing", .nt 1 "expression"]) := rfl
  have h2 := (rule_iff hb).1 h1
  simp only [yields_seq, YieldsSeq, spacing_call H, call_val H.t1, H.t2, if_false] at h2
  obtain ⟨_, ⟨s1, _, _, ⟨h3, rfl⟩, ⟨s2, w, _, h4, ⟨rfl, rfl⟩, rfl⟩, rfl⟩, h5⟩ := h2
  simp only [List.nil_append, List.append_nil] at h5
  subst h5
  obtain ⟨t, hd, _⟩ := (calc_parser H).reads h4
  refine ⟨t, hd, (calc_program H).1 ⟨v, h1, hd⟩, fun t' ht' => ?_⟩
  obtain ⟨v', h1', hd'⟩ := (calc_program (sp := strSpans s) H).2 ht'
  obtain ⟨b, hb, h1⟩ := h1
  obtain ⟨b', hb', h1'⟩ := h1'
  rw [hb] at hb'; cases hb'
  have := (h1.unique calc_det h1').2
  cases this
  exact hd'.det hd

/-- C63: one of the functions of the user called by `parse_program` on a text of the language panics if and only if a number does not fit in 32 bits. -/
theorem C63_panics {fs} (hc : CalcCode fs) {ptr : Nat} {s : List Char} {v : Val} (h : Returns noFns fs true "program" ptr s (.success v)) :
    Panics v ↔ ∃ t, Written t s ∧ ¬ t.Small := by
  obtain ⟨t, hd, hw, hu⟩ := C63_unambiguous hc h
  rw [denotes_panics hd]
  exact ⟨fun h => ⟨t, hw, h⟩, fun ⟨t', h1, h2⟩ => hu t' h1 ▸ h2⟩

/-- C63: `recognize_program` succeeds on the texts of the language, and returns no data. -/
theorem C63_recognizer {fs} (hc : CalcCode fs) {ptr : Nat} {s : List Char} {d : Val} :
    Returns noFns fs false "program" ptr s (.success d) ↔ d = .tup [] ∧ ∃ t, Written t s := by
  obtain ⟨T, H, hr⟩ := calc_results hc
  rw [hr]
  constructor
  · rintro ⟨o, L, hp, h⟩
    cases o with
    | fail => cases h
    | ok s' t =>
      simp only [expectedResult] at h
      split at h
      · rename_i hs'; subst hs'
        cases h
        refine ⟨rfl, ?_⟩
        obtain ⟨w, hw⟩ := program_one H ⟨t, L, hp, rfl⟩ (sp := strSpans s)
        obtain ⟨t', _, h', _⟩ := C63_unambiguous hc (ptr := ptr) ((hr ptr s true (.success w)).2 ⟨_, L, hp, by simp only [expectedResult, if_true, hw, tupleVal]⟩)
        exact ⟨t', h'⟩
      · cases h
  · rintro ⟨rfl, t, ht⟩
    obtain ⟨v, ⟨b, hb, t', L, hp, ht'⟩, _⟩ := (calc_program (sp := strSpans s) H).2 ht
    cases (show calcG.find "program" = some (.seq 2 [.nt 0 "spacing", .nt 1 "expression"]) from rfl).symm.trans hb
    exact ⟨_, L, hp, rfl⟩

/-- C63: an expression can be written if and only if its variables are names; then `Term.text` is a way to write it, and `parse_program` reads it back. -/
theorem C63_round_trip {fs} (hc : CalcCode fs) {ptr : Nat} {t : Term} : ((∃ s, Written t s) ↔ t.Named) ∧
    (t.Named → ∃ v, Returns noFns fs true "program" ptr t.text (.success v) ∧ Denotes v t ∧ ∀ t', Denotes v t' → t' = t) := by
  refine ⟨⟨fun ⟨s, hs⟩ => written_named hs, fun h => ⟨_, text_written h⟩⟩, fun h => ?_⟩
  obtain ⟨T, H, hr⟩ := calc_results hc
  obtain ⟨v, h1, hd⟩ := (calc_program (sp := strSpans t.text) H).2 (text_written h)
  exact ⟨v, (hr _ _ _ _).2 ((calc_success H).2 h1), hd, fun t' h' => h'.det hd⟩

/-! ## Examples -/

theorem reads_here {l : Lexeme} {m rest : List Char} (h1 : l.Valid) (h2 : NotStart l.glues m) (h3 : Spaces m rest) : Reads l (l.chars ++ m) rest := ⟨h1, m, rfl, h2, h3⟩

/-- `1-2^3^x - 4*5` is the difference of `1 - (2 ^ (3 ^ x))` and `4 * 5`. -/
example : Written (.bin .sub (.bin .sub (.num 1) (.bin .exp (.num 2) (.bin .exp (.num 3) (.var ['x'])))) (.bin .mul (.num 4) (.num 5))) "1-2^3^x - 4*5".toList := by
  have e : "1-2^3^x - 4*5".toList = ['1', '-', '2', '^', '3', '^', 'x', ' ', '-', ' ', '4', '*', '5'] := by decide
  rw [e]
  refine ⟨[], _, _, false, rfl, by simp, by simp [NotStart]; decide, ?_,
    .bin (op := .sub) (.inr rfl) (.bin (op := .sub) (.inr rfl) (.one (.one (.one (.num (ds := ['1'])))))
      (.one (.exp (.num (ds := ['2'])) (.exp (.num (ds := ['3'])) (.one (.var (x := ['x'])))))))
      (.bin (op := .mul) (.inl rfl) (.one (.one (.num (ds := ['4'])))) (.one (.num (ds := ['5']))))⟩
  have num : ∀ c m, isDigit c = true → NotStart isDigit m → NotStart isSpace m → Reads (.num [c]) (c :: m) m := fun c m h1 h2 h3 =>
    reads_here (l := .num [c]) ⟨by simp, by simpa using h1⟩ h2 (spaces_none h3)
  simp only [List.cons_append, List.nil_append, List.append_assoc, Op.sym, lex_cons]
  refine ⟨_, num '1' _ (by decide) (by simp [NotStart]; decide) (by simp [NotStart]; decide), _, reads_sym (spaces_none (by simp [NotStart]; decide)),
    _, num '2' _ (by decide) (by simp [NotStart]; decide) (by simp [NotStart]; decide), _, reads_sym (spaces_none (by simp [NotStart]; decide)),
    _, num '3' _ (by decide) (by simp [NotStart]; decide) (by simp [NotStart]; decide), _, reads_sym (spaces_none (by simp [NotStart]; decide)),
    _, reads_here (l := .name ['x']) (by simp [Lexeme.Valid, IsName, NotStart]; decide) (by simp [NotStart, Lexeme.glues]; decide) (spaces_one (by simp [NotStart]; decide)),
    _, reads_sym (spaces_one (by simp [NotStart]; decide)), _, num '4' _ (by decide) (by simp [NotStart]; decide) (by simp [NotStart]; decide),
    _, reads_sym (spaces_none (by simp [NotStart]; decide)), _, num '5' _ (by decide) trivial trivial, .nil⟩

/-- The text of an expression. -/
example : (Term.letIn ['x'] (.num 12) (.bin .add (.var ['x']) (.num 305))).Named ∧
    (Term.letIn ['x'] (.num 12) (.bin .add (.var ['x']) (.num 305))).text = "(let x=12 in (x+305))".toList := by
  have d1 : digits 12 = ['1', '2'] := by rw [digits, if_neg (by decide), digits, if_pos (by decide)]; decide
  have d2 : digits 305 = ['3', '0', '5'] := by rw [digits, if_neg (by decide), digits, if_neg (by decide), digits, if_pos (by decide)]; decide
  refine ⟨⟨?_, trivial, ?_, trivial⟩, by simp only [Term.text, d1, d2]; decide⟩ <;> (simp [Term.Named, IsName, NotStart]; decide)

/-- Keywords are not names. -/
example : ¬ (Term.var ['i', 'n']).Named := by simp [Term.Named, IsName]

end Oak
