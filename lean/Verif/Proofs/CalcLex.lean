import Verif.Proofs.CalcDecided
/-!
The lexical rules of the calculator.
-/
set_option linter.constructorNameAsVariable false
set_option autoImplicit false

namespace Oak.Calculator
open Oak Spec

variable {T : Nat → Ty} {sp : SpanSpec}

/-! ## Lexemes -/

/-- Spaces up to something else. -/
def Spaces (m rest : List Char) : Prop := ∃ sps, m = sps ++ rest ∧ (∀ c ∈ sps, isSpace c = true) ∧ NotStart isSpace rest

/-- One lexeme and the spaces after it. -/
def Reads (l : Lexeme) (s rest : List Char) : Prop := l.Valid ∧ ∃ m, s = l.chars ++ m ∧ NotStart l.glues m ∧ Spaces m rest

theorem lex_cons {l ls s rest} : Lex (l :: ls) s rest ↔ ∃ s1, Reads l s s1 ∧ Lex ls s1 rest := by
  constructor
  · intro h
    cases h with
    | cons h1 h2 h3 h4 h5 => exact ⟨_, ⟨h1, _, rfl, h4, _, rfl, h2, h3⟩, h5⟩
  · rintro ⟨s1, ⟨h1, m, rfl, h4, sps, rfl, h2, h3⟩, h5⟩
    exact .cons h1 h2 h3 h4 h5

theorem lex_nil {s rest} : Lex [] s rest ↔ rest = s := by
  constructor
  · intro h; cases h; rfl
  · rintro rfl; exact .nil

theorem lex_append {as bs s rest} : Lex (as ++ bs) s rest ↔ ∃ m, Lex as s m ∧ Lex bs m rest := by
  induction as generalizing s with
  | nil => simp [lex_nil]
  | cons a as ih =>
    simp only [List.cons_append, lex_cons, ih]
    constructor
    · rintro ⟨s1, h1, m, h2, h3⟩; exact ⟨m, ⟨s1, h1, h2⟩, h3⟩
    · rintro ⟨m, ⟨s1, h1, h2⟩, h3⟩; exact ⟨s1, h1, m, h2, h3⟩

theorem maximal {p : Char → Bool} {a b m n : List Char} (h : a ++ m = b ++ n) (ha : ∀ c ∈ a, p c = true) (hb : ∀ c ∈ b, p c = true) (hm : NotStart p m) (hn : NotStart p n) :
    a = b ∧ m = n := by
  induction a generalizing b with
  | nil =>
    cases b with
    | nil => exact ⟨rfl, h⟩
    | cons c b =>
      simp only [List.nil_append, List.cons_append] at h
      subst h
      exact absurd (hb c (by simp)) (by simp only [NotStart] at hm; simp [hm])
  | cons x a ih =>
    cases b with
    | nil =>
      simp only [List.nil_append, List.cons_append] at h
      subst h
      exact absurd (ha x (by simp)) (by simp only [NotStart] at hn; simp [hn])
    | cons c b =>
      simp only [List.cons_append, List.cons.injEq] at h
      obtain ⟨rfl, h⟩ := h
      obtain ⟨rfl, rfl⟩ := ih h (fun c hc => ha c (by simp [hc])) (fun c hc => hb c (by simp [hc]))
      exact ⟨rfl, rfl⟩

theorem spaces_total (m : List Char) : ∃ rest, Spaces m rest := by
  induction m with
  | nil => exact ⟨[], [], rfl, by simp, trivial⟩
  | cons c m ih =>
    cases hc : isSpace c with
    | false => exact ⟨c :: m, [], rfl, by simp, hc⟩
    | true =>
      obtain ⟨rest, sps, rfl, h1, h2⟩ := ih
      exact ⟨rest, c :: sps, rfl, by simpa [hc] using h1, h2⟩

/-! ## Classes -/

theorem class_space {c : Char} : InClass [⟨' ', ' '⟩, ⟨'\n', '\n'⟩, ⟨'\r', '\r'⟩, ⟨'\t', '\t'⟩] c ↔ isSpace c = true := by
  have h : ∀ d : Char, d ≤ c ∧ c ≤ d ↔ c = d := fun d => ⟨fun ⟨h1, h2⟩ => Char.le_antisymm h2 h1, fun h => by subst h; exact ⟨Char.le_refl _, Char.le_refl _⟩⟩
  simp [InClass, isSpace, h, or_assoc]

theorem class_digit {c : Char} : InClass [⟨'0', '9'⟩] c ↔ isDigit c = true := by
  simp [InClass, isDigit]

theorem class_word {c : Char} : InClass [⟨'a', 'z'⟩, ⟨'A', 'Z'⟩, ⟨'0', '9'⟩, ⟨'_', '_'⟩] c ↔ isWord c = true := by
  have h : ∀ d : Char, d ≤ c ∧ c ≤ d ↔ c = d := fun d => ⟨fun ⟨h1, h2⟩ => Char.le_antisymm h2 h1, fun h => by subst h; exact ⟨Char.le_refl _, Char.le_refl _⟩⟩
  simp [InClass, isWord, isDigit, h, or_assoc]

/-! ## Repetitions of characters -/

/-- The expression reads one character of the class. -/
def ReadsOne (T : Nat → Ty) (sp : SpanSpec) (e : Expr) (p : Char → Bool) (g : Char → List Val) : Prop :=
  ∀ s rest vs, Yields calcG noExt T sp e s rest vs ↔ ∃ c, s = c :: rest ∧ p c = true ∧ vs = g c

theorem ReadsOne.many {e : Expr} {p g} (h : ReadsOne T sp e p g) {s rest ws} :
    YieldsMany calcG noExt T sp e s rest ws ↔ ∃ cs, s = cs ++ rest ∧ (∀ c ∈ cs, p c = true) ∧ ws = cs.map fun c => tupleVal (g c) := by
  constructor
  · intro hm
    induction hm with
    | nil => exact ⟨[], rfl, by simp, rfl⟩
    | cons h1 _ ih =>
      obtain ⟨c, rfl, hc, rfl⟩ := (h _ _ _).1 h1
      obtain ⟨cs, rfl, h2, rfl⟩ := ih
      exact ⟨c :: cs, rfl, by simpa [hc] using h2, rfl⟩
  · rintro ⟨cs, rfl, h2, rfl⟩
    induction cs with
    | nil => exact .nil
    | cons c cs ih =>
      simp only [List.mem_cons, forall_eq_or_imp] at h2
      exact .cons ((h _ _ _).2 ⟨c, rfl, h2.1, rfl⟩) (ih h2.2)

theorem ReadsOne.fails {e : Expr} {p g} (h : ReadsOne T sp e p g) (he : Occurs calcG e) {s} : Fails calcG noExt e s ↔ NotStart p s := by
  rw [calc_fails_iff (T := T) (sp := sp) he]
  cases s with
  | nil => simp [NotStart, h _ _ _]
  | cons c s =>
    simp only [NotStart, h _ _ _, List.cons.injEq]
    constructor
    · intro h1
      cases hc : p c with
      | false => rfl
      | true => exact absurd ⟨c, ⟨rfl, rfl⟩, hc, rfl⟩ (h1 s (g c))
    · rintro h1 rest vs ⟨d, ⟨rfl, rfl⟩, h2, _⟩
      rw [h1] at h2; cases h2

/-! ## The rules -/

/-- What a rule yields. -/
def Rule (T : Nat → Ty) (sp : SpanSpec) (r : String) (s rest : List Char) (vs : List Val) : Prop :=
  ∃ b, calcG.find r = some b ∧ Yields calcG noExt T sp b s rest vs

theorem rule_iff {r b s rest vs} (h : calcG.find r = some b) : Rule T sp r s rest vs ↔ Yields calcG noExt T sp b s rest vs := by
  simp [Rule, h]

theorem call_iff {i r s rest vs} : Yields calcG noExt T sp (.nt i r) s rest vs ↔ ∃ ws, Rule T sp r s rest ws ∧ vs = if T i = .unit then [] else ws := by
  cases h : calcG.find r with
  | some b => simp only [rule_iff h, yields_nt h]
  | none =>
    simp only [Rule, h]
    constructor
    · rintro ⟨t, L, hp, _⟩
      cases hp with
      | nt_ok h1 => rw [h] at h1; cases h1
    · rintro ⟨ws, ⟨b, hb, _⟩, _⟩; cases hb

theorem call_unit {i r s rest vs} (h : T i = .unit) : Yields calcG noExt T sp (.nt i r) s rest vs ↔ (∃ ws, Rule T sp r s rest ws) ∧ vs = [] := by
  rw [call_iff]; simp [h]

theorem call_val {i r s rest vs} (h : T i ≠ .unit) : Yields calcG noExt T sp (.nt i r) s rest vs ↔ Rule T sp r s rest vs := by
  rw [call_iff]; simp [h]

theorem spacing_iff (H : CalcTypes T) {s rest vs} : Rule T sp "spacing" s rest vs ↔ Spaces s rest ∧ vs = [] := by
  have h1 : ReadsOne T sp (.cls 72 [⟨' ', ' '⟩, ⟨'\n', '\n'⟩, ⟨'\r', '\r'⟩, ⟨'\t', '\t'⟩]) isSpace (fun _ => []) := by
    intro s rest vs
    simp [yields_cls, class_space, H.t72]
  have hb : calcG.find "spacing" = some (.asc 74 (.star 73 (.cls 72 [⟨' ', ' '⟩, ⟨'\n', '\n'⟩, ⟨'\r', '\r'⟩, ⟨'\t', '\t'⟩])) .invisible) := rfl
  have ho : Occurs calcG (.cls 72 [⟨' ', ' '⟩, ⟨'\n', '\n'⟩, ⟨'\r', '\r'⟩, ⟨'\t', '\t'⟩]) := ⟨_, _, hb, .asc (.star .refl)⟩
  simp only [rule_iff hb, yields_asc, yields_star, H.t73, H.t74, if_true, h1.many, h1.fails ho, Spaces]
  constructor
  · rintro ⟨_, ⟨ws, ⟨⟨cs, rfl, h2, rfl⟩, h3⟩, rfl⟩, rfl⟩; exact ⟨⟨cs, rfl, h2, h3⟩, rfl⟩
  · rintro ⟨⟨cs, rfl, h2, h3⟩, rfl⟩; exact ⟨_, ⟨_, ⟨⟨cs, rfl, h2, rfl⟩, h3⟩, rfl⟩, rfl⟩

theorem spacing_call (H : CalcTypes T) {i s rest vs} : Yields calcG noExt T sp (.nt i "spacing") s rest vs ↔ Spaces s rest ∧ vs = [] := by
  rw [call_iff]
  simp only [spacing_iff H]
  constructor
  · rintro ⟨ws, ⟨h, rfl⟩, rfl⟩; exact ⟨h, by simp⟩
  · rintro ⟨h, rfl⟩; exact ⟨[], ⟨h, rfl⟩, by simp⟩

theorem digit_one (H : CalcTypes T) {i} : ReadsOne T sp (.nt i "digit") isDigit (fun c => if T i = .unit then [] else [.chr c]) := by
  intro s rest vs
  have hb : calcG.find "digit" = some (.cls 66 [⟨'0', '9'⟩]) := rfl
  rw [call_iff]
  simp only [rule_iff hb, yields_cls, class_digit, H.t66, if_false]
  constructor
  · rintro ⟨ws, ⟨c, h1, h2, rfl⟩, rfl⟩; exact ⟨c, h1, h2, rfl⟩
  · rintro ⟨c, h1, h2, rfl⟩; exact ⟨_, ⟨c, h1, h2, rfl⟩, rfl⟩

theorem word_one (H : CalcTypes T) {i} : ReadsOne T sp (.nt i "ident_char") isWord (fun c => if T i = .unit then [] else [.chr c]) := by
  intro s rest vs
  have hb : calcG.find "ident_char" = some (.cls 65 [⟨'a', 'z'⟩, ⟨'A', 'Z'⟩, ⟨'0', '9'⟩, ⟨'_', '_'⟩]) := rfl
  rw [call_iff]
  simp only [rule_iff hb, yields_cls, class_word, H.t65, if_false]
  constructor
  · rintro ⟨ws, ⟨c, h1, h2, rfl⟩, rfl⟩; exact ⟨c, h1, h2, rfl⟩
  · rintro ⟨c, h1, h2, rfl⟩; exact ⟨_, ⟨c, h1, h2, rfl⟩, rfl⟩

theorem tail_iff (H : CalcTypes T) {s rest vs} : Rule T sp "kw_tail" s rest vs ↔ (NotStart isWord s ∧ Spaces s rest) ∧ vs = [] := by
  have hb : calcG.find "kw_tail" = some (.seq 78 [.not 76 (.nt 75 "ident_char"), .nt 77 "spacing"]) := rfl
  have ho : Occurs calcG (.nt 75 "ident_char") := ⟨_, _, hb, .seq (e := .not 76 (.nt 75 "ident_char")) (by simp) (.not .refl)⟩
  simp only [rule_iff hb, yields_seq, YieldsSeq, yields_not, spacing_call H, H.t78, if_true, (word_one (sp := sp) H).fails ho]
  constructor
  · rintro ⟨_, ⟨s1, v1, v2, ⟨rfl, rfl, h1⟩, ⟨s2, v3, v4, ⟨h2, rfl⟩, ⟨rfl, rfl⟩, rfl⟩, rfl⟩, rfl⟩
    exact ⟨⟨h1, h2⟩, rfl⟩
  · rintro ⟨⟨h1, h2⟩, rfl⟩
    exact ⟨_, ⟨s, _, _, ⟨rfl, rfl, h1⟩, ⟨rest, _, _, ⟨h2, rfl⟩, ⟨rfl, rfl⟩, rfl⟩, rfl⟩, rfl⟩

theorem tail_call (H : CalcTypes T) {i s rest vs} : Yields calcG noExt T sp (.nt i "kw_tail") s rest vs ↔ (NotStart isWord s ∧ Spaces s rest) ∧ vs = [] := by
  rw [call_iff]
  simp only [tail_iff H]
  constructor
  · rintro ⟨ws, ⟨h, rfl⟩, rfl⟩; exact ⟨h, by simp⟩
  · rintro ⟨h, rfl⟩; exact ⟨[], ⟨h, rfl⟩, by simp⟩

theorem kw_iff (H : CalcTypes T) {r : String} {i j k : Nat} {l : String} {x : Lexeme} (hb : calcG.find r = some (.seq i [.str j l, .nt k "kw_tail"])) (hu : T i = .unit)
    (hx : x.chars = l.toList) (hv : x.Valid) (hg : x.glues = isWord) {s rest vs} : Rule T sp r s rest vs ↔ Reads x s rest ∧ vs = [] := by
  simp only [rule_iff hb, yields_seq, YieldsSeq, yields_str, tail_call H, hu, if_true, Reads, hx, hg]
  constructor
  · rintro ⟨_, ⟨s1, v1, v2, ⟨rfl, rfl⟩, ⟨s2, v3, v4, ⟨⟨h1, h2⟩, rfl⟩, ⟨rfl, rfl⟩, rfl⟩, rfl⟩, rfl⟩
    exact ⟨⟨hv, _, rfl, h1, h2⟩, rfl⟩
  · rintro ⟨⟨_, m, rfl, h1, h2⟩, rfl⟩
    exact ⟨_, ⟨m, _, _, ⟨rfl, rfl⟩, ⟨rest, _, _, ⟨⟨h1, h2⟩, rfl⟩, ⟨rfl, rfl⟩, rfl⟩, rfl⟩, rfl⟩

theorem sym_iff (H : CalcTypes T) {r : String} {i j k : Nat} {l : String} {c : Char} (hb : calcG.find r = some (.seq i [.str j l, .nt k "spacing"])) (hu : T i = .unit)
    (hx : l.toList = [c]) {s rest vs} : Rule T sp r s rest vs ↔ Reads (.sym c) s rest ∧ vs = [] := by
  have hn : ∀ m, NotStart (fun _ => false) m := fun m => by cases m <;> simp [NotStart]
  simp only [rule_iff hb, yields_seq, YieldsSeq, yields_str, spacing_call H, hu, if_true, Reads, hx, Lexeme.chars, Lexeme.glues, Lexeme.Valid]
  constructor
  · rintro ⟨_, ⟨s1, v1, v2, ⟨rfl, rfl⟩, ⟨s2, v3, v4, ⟨h1, rfl⟩, ⟨rfl, rfl⟩, rfl⟩, rfl⟩, rfl⟩
    exact ⟨⟨trivial, _, rfl, hn _, h1⟩, rfl⟩
  · rintro ⟨⟨_, m, rfl, _, h1⟩, rfl⟩
    exact ⟨_, ⟨m, _, _, ⟨rfl, rfl⟩, ⟨rest, _, _, ⟨h1, rfl⟩, ⟨rfl, rfl⟩, rfl⟩, rfl⟩, rfl⟩

theorem let_iff (H : CalcTypes T) {s rest vs} : Rule T sp "let_kw" s rest vs ↔ Reads .kwLet s rest ∧ vs = [] :=
  kw_iff H (x := .kwLet) (i := 84) (j := 82) (k := 83) (l := "let") rfl H.t84 (by decide) trivial rfl

theorem in_iff (H : CalcTypes T) {s rest vs} : Rule T sp "in_kw" s rest vs ↔ Reads .kwIn s rest ∧ vs = [] :=
  kw_iff H (x := .kwIn) (i := 87) (j := 85) (k := 86) (l := "in") rfl H.t87 (by decide) trivial rfl

theorem reads_word {l : Lexeme} (hl : l = .kwLet ∨ l = .kwIn) {x m : List Char} (hx : ∀ c ∈ x, isWord c = true) (hm : NotStart isWord m) :
    (∃ rest, Reads l (x ++ m) rest) ↔ x = l.chars := by
  have hv : l.Valid := by rcases hl with rfl | rfl <;> trivial
  have hg : l.glues = isWord := by rcases hl with rfl | rfl <;> rfl
  have hw : ∀ c ∈ l.chars, isWord c = true := by rcases hl with rfl | rfl <;> decide
  constructor
  · rintro ⟨rest, _, m', h1, h2, h3⟩
    rw [hg] at h2
    exact (maximal h1 hx hw hm h2).1
  · rintro rfl
    obtain ⟨rest, hr⟩ := spaces_total m
    exact ⟨rest, hv, m, rfl, by rw [hg]; exact hm, hr⟩

theorem keyword_fails (H : CalcTypes T) (sp : SpanSpec) {s} : Fails calcG noExt (.nt 58 "keyword") s ↔ (∀ rest, ¬ Reads .kwLet s rest) ∧ ∀ rest, ¬ Reads .kwIn s rest := by
  have hb : calcG.find "keyword" = some (.choice 81 [.nt 79 "let_kw", .nt 80 "in_kw"]) := rfl
  have hi : calcG.find "identifier" = some (.act 64 (.seq 63 [.not 57 (.nt 56 "digit"), .not 59 (.nt 58 "keyword"), .plus 61 (.nt 60 "ident_char"), .nt 62 "spacing"]) false ["to_string"]) := rfl
  have ho : Occurs calcG (.nt 58 "keyword") := ⟨_, _, hi, .act (.seq (e := .not 59 (.nt 58 "keyword")) (by simp) (.not .refl))⟩
  have ho1 : Occurs calcG (.nt 79 "let_kw") := ⟨_, _, hb, .choice (e := .nt 79 "let_kw") (by simp) .refl⟩
  rw [calc_fails_iff (T := T) (sp := sp) ho]
  simp only [call_unit H.t58, rule_iff hb, yields_choice, YieldsAlt, call_unit H.t79, call_unit H.t80, let_iff H, in_iff H, calc_fails_iff (T := T) (sp := sp) ho1]
  constructor
  · intro h
    refine ⟨fun rest hr => h rest [] ⟨⟨_, [], .inl ⟨⟨[], hr, rfl⟩, rfl⟩, rfl⟩, rfl⟩, fun rest hr => ?_⟩
    refine h rest [] ⟨⟨_, [], .inr ⟨?_, .inl ⟨⟨[], hr, rfl⟩, rfl⟩⟩, rfl⟩, rfl⟩
    rintro rest' vs ⟨⟨_, h1, _⟩, _⟩
    obtain ⟨_, m, rfl, _⟩ := hr
    obtain ⟨_, m', h2, _⟩ := h1
    simp [Lexeme.chars] at h2
  · rintro ⟨h1, h2⟩ rest vs ⟨⟨_, _, h3, _⟩, _⟩
    rcases h3 with ⟨⟨_, h3, _⟩, _⟩ | ⟨_, ⟨⟨_, h3, _⟩, _⟩ | ⟨_, h3⟩⟩
    · exact h1 _ h3
    · exact h2 _ h3
    · exact h3

theorem number_iff (H : CalcTypes T) {s rest vs} : Rule T sp "number" s rest vs ↔ ∃ ds, Reads (.num ds) s rest ∧ vs = [.app ["to_number"] [.list (ds.map .chr)]] := by
  have hb : calcG.find "number" = some (.act 71 (.seq 70 [.plus 68 (.nt 67 "digit"), .nt 69 "spacing"]) false ["to_number"]) := rfl
  have ho : Occurs calcG (.nt 67 "digit") := ⟨_, _, hb, .act (.seq (e := .plus 68 (.nt 67 "digit")) (by simp) (.plus .refl))⟩
  have hf : isVariant ["to_number"] = false := by decide
  simp only [rule_iff hb, yields_act hf, yields_seq, YieldsSeq, yields_plus, spacing_call H, H.t71, H.t70, H.t68, H.t67, if_false, (digit_one (sp := sp) H).fails ho, (digit_one H).many,
    Reads, Lexeme.Valid, Lexeme.chars, Lexeme.glues]
  constructor
  · rintro ⟨_, ⟨_, ⟨s1, _, _, ⟨_, ⟨⟨cs, rfl, h1, rfl⟩, h2, h3⟩, rfl⟩, ⟨s2, _, _, ⟨h4, rfl⟩, ⟨rfl, rfl⟩, rfl⟩, rfl⟩, rfl⟩, rfl⟩
    refine ⟨cs, ⟨⟨by simpa using h2, h1⟩, _, rfl, h3, h4⟩, ?_⟩
    simp [tupleVal]
  · rintro ⟨cs, ⟨⟨h2, h1⟩, m, rfl, h3, h4⟩, rfl⟩
    refine ⟨_, ⟨_, ⟨m, _, _, ⟨_, ⟨⟨cs, rfl, h1, rfl⟩, by simpa using h2, h3⟩, rfl⟩, ⟨rest, _, _, ⟨h4, rfl⟩, ⟨rfl, rfl⟩, rfl⟩, rfl⟩, rfl⟩, ?_⟩
    simp [tupleVal]

theorem notStart_append {p : Char → Bool} {x m : List Char} (h : x ≠ []) : NotStart p (x ++ m) ↔ NotStart p x := by
  cases x with
  | nil => exact absurd rfl h
  | cons c x => exact Iff.rfl

theorem identifier_iff (H : CalcTypes T) {s rest vs} : Rule T sp "identifier" s rest vs ↔ ∃ x, Reads (.name x) s rest ∧ vs = [nameVal x] := by
  have hb : calcG.find "identifier" = some (.act 64 (.seq 63 [.not 57 (.nt 56 "digit"), .not 59 (.nt 58 "keyword"), .plus 61 (.nt 60 "ident_char"), .nt 62 "spacing"]) false ["to_string"]) := rfl
  have ho1 : Occurs calcG (.nt 56 "digit") := ⟨_, _, hb, .act (.seq (e := .not 57 (.nt 56 "digit")) (by simp) (.not .refl))⟩
  have ho2 : Occurs calcG (.nt 60 "ident_char") := ⟨_, _, hb, .act (.seq (e := .plus 61 (.nt 60 "ident_char")) (by simp) (.plus .refl))⟩
  have hf : isVariant ["to_string"] = false := by decide
  simp only [rule_iff hb, yields_act hf, yields_seq, YieldsSeq, yields_plus, yields_not, spacing_call H, H.t64, H.t63, H.t61, H.t60, if_false, (digit_one (sp := sp) H).fails ho1,
    (word_one (sp := sp) H).fails ho2, keyword_fails H sp, (word_one H).many, Reads, Lexeme.Valid, Lexeme.chars, Lexeme.glues, IsName]
  constructor
  · rintro ⟨_, ⟨_, ⟨_, _, _, ⟨rfl, rfl, hd⟩, ⟨_, _, _, ⟨rfl, rfl, hk1, hk2⟩, ⟨s1, _, _, ⟨_, ⟨⟨cs, rfl, h1, rfl⟩, h2, h3⟩, rfl⟩, ⟨s2, _, _, ⟨h4, rfl⟩, ⟨rfl, rfl⟩, rfl⟩, rfl⟩, rfl⟩, rfl⟩, rfl⟩, rfl⟩
    have h2 : cs ≠ [] := by simpa using h2
    refine ⟨cs, ⟨⟨h2, h1, (notStart_append h2).1 hd, ?_, ?_⟩, _, rfl, h3, h4⟩, by simp [tupleVal, nameVal]⟩
    · intro h
      obtain ⟨rest', hr⟩ := (reads_word (.inl rfl) h1 h3).2 h
      exact hk1 _ hr
    · intro h
      obtain ⟨rest', hr⟩ := (reads_word (.inr rfl) h1 h3).2 h
      exact hk2 _ hr
  · rintro ⟨cs, ⟨⟨h2, h1, hd, hk1, hk2⟩, m, rfl, h3, h4⟩, rfl⟩
    refine ⟨_, ⟨_, ⟨_, _, _, ⟨rfl, rfl, (notStart_append h2).2 hd⟩, ⟨_, _, _, ⟨rfl, rfl, ?_, ?_⟩, ⟨m, _, _, ⟨_, ⟨⟨cs, rfl, h1, rfl⟩, by simpa using h2, h3⟩, rfl⟩,
      ⟨rest, _, _, ⟨h4, rfl⟩, ⟨rfl, rfl⟩, rfl⟩, rfl⟩, rfl⟩, rfl⟩, rfl⟩, ?_⟩
    · intro rest' hr; exact hk1 ((reads_word (.inl rfl) h1 h3).1 ⟨_, hr⟩)
    · intro rest' hr; exact hk2 ((reads_word (.inr rfl) h1 h3).1 ⟨_, hr⟩)
    · simp [tupleVal, nameVal]

end Oak.Calculator
