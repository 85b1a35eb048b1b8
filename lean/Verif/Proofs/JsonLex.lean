import Verif.Proofs.CalcLex
import Verif.Corpus.JsonShape
/-!
The grammar of JSON texts: every expression has an outcome on every text; lexical rules.
-/
set_option linter.constructorNameAsVariable false
set_option autoImplicit false

namespace Oak.JsonText
open Oak Spec Calculator

variable {T : Nat → Ty} {sp : SpanSpec}

/-- The model of the macro reads tests/grammars/json.rs as `jsonG`. -/
theorem json_read {ms us A T fs} (ho : oak 100 Corpus.jsonGrammar = .ok (.code ms us A T fs)) : A.grammar = jsonG ∧ JsonTypes T := by
  have hs := Corpus.json_shape
  unfold Corpus.jsonShape at hs
  rw [ho] at hs
  simp only [Bool.and_eq_true, List.all_eq_true, List.mem_range, beq_iff_eq] at hs
  refine ⟨?_, jsonTypes_of hs.2⟩
  have := sameRules_eq hs.1
  cases hA : A.grammar; rw [hA] at this; cases this; rfl

theorem json_accepted : Oak.Accepted jsonG := by
  obtain ⟨ms, us, A, T, fs, ho, _⟩ := verdict_code Corpus.json_verdict
  obtain ⟨F, _, _, _, _, _, h⟩ := C47_faithful ho
  rw [(json_read ho).1] at h
  exact h

theorem json_resolved : jsonG.resolved = true := by decide +kernel

theorem json_inner : jsonG.rules.all (fun q => inner q.2) = true := by decide +kernel

theorem json_noext {i p} : ¬ Occurs jsonG (.ext i p) := by
  rintro ⟨r, e, he, hs⟩
  have := json_inner
  simp only [List.all_eq_true] at this
  have := inner_sub (this _ (grammar_find_mem he)) hs
  simp [inner] at this

/-- Every expression of the grammar has an outcome everywhere. -/
theorem json_decided {e : Expr} (he : Occurs jsonG e) (s : List Char) : ∃ o L, Peg jsonG noExt e s o L := by
  obtain ⟨h1, h2⟩ := accepted_ok json_accepted
  have hres : ∀ r e, jsonG.find r = some e → e.resolved jsonG = true := by
    intro r e he
    have := json_resolved
    simp only [Grammar.resolved, List.all_eq_true] at this
    exact this _ (grammar_find_mem he)
  have hbody : ∀ r e, jsonG.find r = some e → TermOk jsonG noExt e := fun r e he =>
    ⟨hres r e he, h1 r e he, fun i p hp => absurd ⟨r, e, he, hp⟩ json_noext⟩
  obtain ⟨r, b, hb, hs⟩ := he
  refine decided noExt_forward (fun _ _ _ _ _ h => h.elim) h2 hbody _ s rfl e ((hbody r b hb).of (Typing.resolved_occurs (hres r b hb) hs) fun y hy => hy.trans hs)

theorem json_fails_iff {T : Nat → Ty} {sp : SpanSpec} {e : Expr} (he : Occurs jsonG e) {s : List Char} :
    Fails jsonG noExt e s ↔ ∀ rest vs, ¬ Yields jsonG noExt T sp e s rest vs := by
  constructor
  · intro h rest vs hg
    exact hg.not_fails calc_det h
  · intro h
    obtain ⟨o, L, hp⟩ := json_decided he s
    cases o with
    | ok rest t => exact absurd ⟨t, L, hp, rfl⟩ (h rest _)
    | fail => exact ⟨L, hp⟩

/-! ## Lexemes -/

/-- One lexeme and the spaces after it. -/
def Takes (l : Token) (s rest : List Char) : Prop := l.Valid ∧ ∃ m, s = l.chars ++ m ∧ NotStart l.glues m ∧ Spaces m rest

theorem lexed_cons {l ls s rest} : Lexed (l :: ls) s rest ↔ ∃ s1, Takes l s s1 ∧ Lexed ls s1 rest := by
  constructor
  · intro h
    cases h with
    | cons h1 h2 h3 h4 h5 => exact ⟨_, ⟨h1, _, rfl, h4, _, rfl, h2, h3⟩, h5⟩
  · rintro ⟨s1, ⟨h1, m, rfl, h4, sps, rfl, h2, h3⟩, h5⟩
    exact .cons h1 h2 h3 h4 h5

theorem lexed_nil {s rest} : Lexed [] s rest ↔ rest = s := by
  constructor
  · intro h; cases h; rfl
  · rintro rfl; exact .nil

theorem lexed_append {as bs s rest} : Lexed (as ++ bs) s rest ↔ ∃ m, Lexed as s m ∧ Lexed bs m rest := by
  induction as generalizing s with
  | nil => simp [lexed_nil]
  | cons a as ih =>
    simp only [List.cons_append, lexed_cons, ih]
    constructor
    · rintro ⟨s1, h1, m, h2, h3⟩; exact ⟨m, ⟨s1, h1, h2⟩, h3⟩
    · rintro ⟨m, ⟨s1, h1, h2⟩, h3⟩; exact ⟨s1, h1, m, h2, h3⟩

theorem class_str {c : Char} : InClass [⟨'a', 'z'⟩, ⟨'A', 'Z'⟩, ⟨'0', '9'⟩, ⟨'_', '_'⟩, ⟨'(', '('⟩, ⟨')', ')'⟩, ⟨' ', ' '⟩, ⟨',', ','⟩, ⟨'.', '.'⟩, ⟨':', ':'⟩, ⟨'&', '&'⟩, ⟨'\'', '\''⟩, ⟨'/', '/'⟩,
    ⟨'@', '@'⟩, ⟨'?', '?'⟩, ⟨'*', '*'⟩, ⟨'=', '='⟩, ⟨';', ';'⟩, ⟨'-', '-'⟩] c ↔ isStrChar c = true := by
  have h : ∀ d : Char, d ≤ c ∧ c ≤ d ↔ c = d := fun d => ⟨fun ⟨h1, h2⟩ => Char.le_antisymm h2 h1, fun h => by subst h; exact ⟨Char.le_refl _, Char.le_refl _⟩⟩
  have e : "() ,.:&'/@?*=;-".toList = ['(', ')', ' ', ',', '.', ':', '&', '\'', '/', '@', '?', '*', '=', ';', '-'] := by decide
  rw [isStrChar, e]
  simp [InClass, isWord, isDigit, h, or_assoc]

/-! ## Repetitions of characters -/

/-- The expression reads one character of the class. -/
def TakesOne (T : Nat → Ty) (sp : SpanSpec) (e : Expr) (p : Char → Bool) (g : Char → List Val) : Prop :=
  ∀ s rest vs, Yields jsonG noExt T sp e s rest vs ↔ ∃ c, s = c :: rest ∧ p c = true ∧ vs = g c

theorem TakesOne.many {e : Expr} {p g} (h : TakesOne T sp e p g) {s rest ws} :
    YieldsMany jsonG noExt T sp e s rest ws ↔ ∃ cs, s = cs ++ rest ∧ (∀ c ∈ cs, p c = true) ∧ ws = cs.map fun c => tupleVal (g c) := by
  constructor
  · intro hm
    induction hm with
    | nil => exact ⟨[], rfl, by simp, rfl⟩
    | cons h1 _ ih =>
      obtain ⟨c, rfl, hc, rfl⟩ := (h _ _ _).1 h1
      obtain ⟨cs, rfl, h2, rfl⟩ := ih
      exact ⟨c :: cs, rfl, by simpa [hc] using h2, rfl⟩
  · rintro ⟨cs, rfl, h2, rfl⟩
    induction cs with
    | nil => exact .nil
    | cons c cs ih =>
      simp only [List.mem_cons, forall_eq_or_imp] at h2
      exact .cons ((h _ _ _).2 ⟨c, rfl, h2.1, rfl⟩) (ih h2.2)

theorem TakesOne.fails {e : Expr} {p g} (h : TakesOne T sp e p g) (he : Occurs jsonG e) {s} : Fails jsonG noExt e s ↔ NotStart p s := by
  rw [json_fails_iff (T := T) (sp := sp) he]
  cases s with
  | nil => simp [NotStart, h _ _ _]
  | cons c s =>
    simp only [NotStart, h _ _ _, List.cons.injEq]
    constructor
    · intro h1
      cases hc : p c with
      | false => rfl
      | true => exact absurd ⟨c, ⟨rfl, rfl⟩, hc, rfl⟩ (h1 s (g c))
    · rintro h1 rest vs ⟨d, ⟨rfl, rfl⟩, h2, _⟩
      rw [h1] at h2; cases h2

/-! ## The rules -/

/-- What a rule yields. -/
def JRule (T : Nat → Ty) (sp : SpanSpec) (r : String) (s rest : List Char) (vs : List Val) : Prop :=
  ∃ b, jsonG.find r = some b ∧ Yields jsonG noExt T sp b s rest vs

theorem jrule_iff {r b s rest vs} (h : jsonG.find r = some b) : JRule T sp r s rest vs ↔ Yields jsonG noExt T sp b s rest vs := by
  simp [JRule, h]

theorem jcall_iff {i r s rest vs} : Yields jsonG noExt T sp (.nt i r) s rest vs ↔ ∃ ws, JRule T sp r s rest ws ∧ vs = if T i = .unit then [] else ws := by
  cases h : jsonG.find r with
  | some b => simp only [jrule_iff h, yields_nt h]
  | none =>
    simp only [JRule, h]
    constructor
    · rintro ⟨t, L, hp, _⟩
      cases hp with
      | nt_ok h1 => rw [h] at h1; cases h1
    · rintro ⟨ws, ⟨b, hb, _⟩, _⟩; cases hb

theorem jcall_unit {i r s rest vs} (h : T i = .unit) : Yields jsonG noExt T sp (.nt i r) s rest vs ↔ (∃ ws, JRule T sp r s rest ws) ∧ vs = [] := by
  rw [jcall_iff]; simp [h]

theorem jcall_val {i r s rest vs} (h : T i ≠ .unit) : Yields jsonG noExt T sp (.nt i r) s rest vs ↔ JRule T sp r s rest vs := by
  rw [jcall_iff]; simp [h]

theorem jspacing_call (H : JsonTypes T) {i s rest vs} : Yields jsonG noExt T sp (.nt i "spacing") s rest vs ↔ Spaces s rest ∧ vs = [] := by
  have h1 : TakesOne T sp (.cls 48 [⟨' ', ' '⟩, ⟨'\n', '\n'⟩, ⟨'\r', '\r'⟩, ⟨'\t', '\t'⟩]) isSpace (fun _ => []) := by
    intro s rest vs
    simp [yields_cls, class_space, H.u 48 rfl]
  have hb : jsonG.find "spacing" = some (.asc 50 (.star 49 (.cls 48 [⟨' ', ' '⟩, ⟨'\n', '\n'⟩, ⟨'\r', '\r'⟩, ⟨'\t', '\t'⟩])) .invisible) := rfl
  have ho : Occurs jsonG (.cls 48 [⟨' ', ' '⟩, ⟨'\n', '\n'⟩, ⟨'\r', '\r'⟩, ⟨'\t', '\t'⟩]) := ⟨_, _, hb, .asc (.star .refl)⟩
  rw [jcall_iff]
  simp only [jrule_iff hb, yields_asc, yields_star, H.u 49 rfl, H.u 50 rfl, if_true, h1.many, h1.fails ho, Spaces]
  constructor
  · rintro ⟨_, ⟨_, ⟨ws, ⟨⟨cs, rfl, h2, rfl⟩, h3⟩, rfl⟩, rfl⟩, rfl⟩; exact ⟨⟨cs, rfl, h2, h3⟩, by simp⟩
  · rintro ⟨⟨cs, rfl, h2, h3⟩, rfl⟩; exact ⟨_, ⟨_, ⟨_, ⟨⟨cs, rfl, h2, rfl⟩, h3⟩, rfl⟩, rfl⟩, by simp⟩

theorem jdigit_one (H : JsonTypes T) : TakesOne T sp (.nt 61 "digit") isDigit (fun c => [.chr c]) := by
  intro s rest vs
  have hb : jsonG.find "digit" = some (.cls 51 [⟨'0', '9'⟩]) := rfl
  rw [jcall_val (H.v 61 (by decide) rfl)]
  simp only [jrule_iff hb, yields_cls, class_digit, H.v 51 (by decide) rfl, if_false]

theorem jchar_one (H : JsonTypes T) : TakesOne T sp (.nt 41 "json_char") isStrChar (fun c => [.chr c]) := by
  intro s rest vs
  have hb : jsonG.find "json_char" = some (.cls 69 [⟨'a', 'z'⟩, ⟨'A', 'Z'⟩, ⟨'0', '9'⟩, ⟨'_', '_'⟩, ⟨'(', '('⟩, ⟨')', ')'⟩, ⟨' ', ' '⟩, ⟨',', ','⟩, ⟨'.', '.'⟩, ⟨':', ':'⟩, ⟨'&', '&'⟩, ⟨'\'', '\''⟩, ⟨'/', '/'⟩,
    ⟨'@', '@'⟩, ⟨'?', '?'⟩, ⟨'*', '*'⟩, ⟨'=', '='⟩, ⟨';', ';'⟩, ⟨'-', '-'⟩]) := rfl
  rw [jcall_val (H.v 41 (by decide) rfl)]
  simp only [jrule_iff hb, yields_cls, class_str, H.v 69 (by decide) rfl, if_false]

theorem notStart_false (m : List Char) : NotStart (fun _ => false) m := by cases m <;> simp [NotStart]

theorem jsym_iff (H : JsonTypes T) {r : String} {i j k : Nat} {l : String} {c : Char} (hb : jsonG.find r = some (.seq i [.str j l, .nt k "spacing"])) (hu : T i = .unit)
    (hx : l.toList = [c]) {n s rest vs} : Yields jsonG noExt T sp (.nt n r) s rest vs ↔ Takes (.sym c) s rest ∧ vs = [] := by
  rw [jcall_iff]
  simp only [jrule_iff hb, yields_seq, YieldsSeq, yields_str, jspacing_call H, hu, if_true, Takes, hx, Token.chars, Token.glues, Token.Valid]
  constructor
  · rintro ⟨_, ⟨_, ⟨s1, v1, v2, ⟨rfl, rfl⟩, ⟨s2, v3, v4, ⟨h1, rfl⟩, ⟨rfl, rfl⟩, rfl⟩, rfl⟩, rfl⟩, rfl⟩
    exact ⟨⟨trivial, _, rfl, notStart_false _, h1⟩, by simp⟩
  · rintro ⟨⟨_, m, rfl, _, h1⟩, rfl⟩
    exact ⟨_, ⟨_, ⟨m, _, _, ⟨rfl, rfl⟩, ⟨rest, _, _, ⟨h1, rfl⟩, ⟨rfl, rfl⟩, rfl⟩, rfl⟩, rfl⟩, by simp⟩

theorem coma_iff (H : JsonTypes T) {n s rest vs} : Yields jsonG noExt T sp (.nt n "coma") s rest vs ↔ Takes (.sym ',') s rest ∧ vs = [] := jsym_iff H (i := 60) rfl (H.u 60 rfl) (by decide)
theorem colon_iff (H : JsonTypes T) {n s rest vs} : Yields jsonG noExt T sp (.nt n "colon") s rest vs ↔ Takes (.sym ':') s rest ∧ vs = [] := jsym_iff H (i := 54) rfl (H.u 54 rfl) (by decide)
theorem lbracket_iff (H : JsonTypes T) {n s rest vs} : Yields jsonG noExt T sp (.nt n "lbracket") s rest vs ↔ Takes (.sym '[') s rest ∧ vs = [] := jsym_iff H (i := 78) rfl (H.u 78 rfl) (by decide)
theorem rbracket_iff (H : JsonTypes T) {n s rest vs} : Yields jsonG noExt T sp (.nt n "rbracket") s rest vs ↔ Takes (.sym ']') s rest ∧ vs = [] := jsym_iff H (i := 81) rfl (H.u 81 rfl) (by decide)
theorem lbrace_iff (H : JsonTypes T) {n s rest vs} : Yields jsonG noExt T sp (.nt n "lbrace") s rest vs ↔ Takes (.sym '{') s rest ∧ vs = [] := jsym_iff H (i := 84) rfl (H.u 84 rfl) (by decide)
theorem rbrace_iff (H : JsonTypes T) {n s rest vs} : Yields jsonG noExt T sp (.nt n "rbrace") s rest vs ↔ Takes (.sym '}') s rest ∧ vs = [] := jsym_iff H (i := 87) rfl (H.u 87 rfl) (by decide)

theorem jnumber_iff (H : JsonTypes T) {s rest vs} : JRule T sp "number" s rest vs ↔ ∃ ds, Takes (.num ds) s rest ∧ vs = [.app ["to_number"] [.list (ds.map .chr)]] := by
  have hb : jsonG.find "number" = some (.act 65 (.seq 64 [.plus 62 (.nt 61 "digit"), .nt 63 "spacing"]) false ["to_number"]) := rfl
  have ho : Occurs jsonG (.nt 61 "digit") := ⟨_, _, hb, .act (.seq (e := .plus 62 (.nt 61 "digit")) (by simp) (.plus .refl))⟩
  have hf : isVariant ["to_number"] = false := by decide
  simp only [jrule_iff hb, yields_act hf, yields_seq, YieldsSeq, yields_plus, jspacing_call H, H.v 65 (by decide) rfl, H.v 64 (by decide) rfl, H.v 62 (by decide) rfl, if_false,
    (jdigit_one (sp := sp) H).fails ho, (jdigit_one H).many, Takes, Token.Valid, Token.chars, Token.glues]
  constructor
  · rintro ⟨_, ⟨_, ⟨s1, _, _, ⟨_, ⟨⟨cs, rfl, h1, rfl⟩, h2, h3⟩, rfl⟩, ⟨s2, _, _, ⟨h4, rfl⟩, ⟨rfl, rfl⟩, rfl⟩, rfl⟩, rfl⟩, rfl⟩
    refine ⟨cs, ⟨⟨by simpa using h2, h1⟩, _, rfl, h3, h4⟩, ?_⟩
    simp [tupleVal]
  · rintro ⟨cs, ⟨⟨h2, h1⟩, m, rfl, h3, h4⟩, rfl⟩
    refine ⟨_, ⟨_, ⟨m, _, _, ⟨_, ⟨⟨cs, rfl, h1, rfl⟩, by simpa using h2, h3⟩, rfl⟩, ⟨rest, _, _, ⟨h4, rfl⟩, ⟨rfl, rfl⟩, rfl⟩, rfl⟩, rfl⟩, ?_⟩
    simp [tupleVal]

theorem jstring_iff (H : JsonTypes T) {s rest vs} : JRule T sp "json_string" s rest vs ↔ ∃ cs, Takes (.str cs) s rest ∧ vs = [strVal cs] := by
  have hb : jsonG.find "json_string" = some (.act 46 (.seq 45 [.nt 40 "dquote", .star 42 (.nt 41 "json_char"), .nt 43 "dquote", .nt 44 "spacing"]) false ["to_string"]) := rfl
  have hq : jsonG.find "dquote" = some (.str 47 "\"") := rfl
  have ho : Occurs jsonG (.nt 41 "json_char") := ⟨_, _, hb, .act (.seq (e := .star 42 (.nt 41 "json_char")) (by simp) (.star .refl))⟩
  have hf : isVariant ["to_string"] = false := by decide
  have he : "\"".toList = ['"'] := by decide
  simp only [jrule_iff hb, yields_act hf, yields_seq, YieldsSeq, yields_star, jcall_unit (H.u 40 rfl), jcall_unit (H.u 43 rfl), jrule_iff hq, yields_str, he, jspacing_call H, H.v 46 (by decide) rfl,
    H.v 45 (by decide) rfl, H.v 42 (by decide) rfl, if_false, (jchar_one (sp := sp) H).fails ho, (jchar_one H).many, Takes, Token.Valid, Token.chars, Token.glues, strVal]
  constructor
  · rintro ⟨_, ⟨_, ⟨s1, _, _, ⟨⟨_, rfl, _⟩, rfl⟩, ⟨s2, _, _, ⟨_, ⟨⟨cs, rfl, h1, rfl⟩, h2⟩, rfl⟩, ⟨s3, _, _, ⟨⟨_, rfl, _⟩, rfl⟩, ⟨s4, _, _, ⟨h4, rfl⟩, ⟨rfl, rfl⟩, rfl⟩, rfl⟩, rfl⟩, rfl⟩, rfl⟩, rfl⟩
    exact ⟨cs, ⟨h1, s3, by simp, notStart_false _, h4⟩, by simp [tupleVal]⟩
  · rintro ⟨cs, ⟨h1, m, rfl, _, h4⟩, rfl⟩
    refine ⟨_, ⟨_, ⟨_, _, _, ⟨⟨_, by simp, rfl⟩, rfl⟩, ⟨_, _, _, ⟨_, ⟨⟨cs, rfl, h1, rfl⟩, ?_⟩, rfl⟩, ⟨_, _, _, ⟨⟨_, rfl, rfl⟩, rfl⟩, ⟨rest, _, _, ⟨h4, rfl⟩, ⟨rfl, rfl⟩, rfl⟩, rfl⟩, rfl⟩, rfl⟩, rfl⟩, ?_⟩
    · show isStrChar '"' = false
      decide
    · simp [tupleVal]

end Oak.JsonText
