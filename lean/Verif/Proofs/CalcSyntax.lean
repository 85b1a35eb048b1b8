import Verif.Proofs.CalcParser
/-!
The rules of the calculator make a parser of the language.
-/
set_option linter.constructorNameAsVariable false
set_option autoImplicit false

namespace Oak.Calculator
open Oak Spec

variable {T : Nat → Ty} {sp : SpanSpec}

/-- A call of a lexical rule. -/
theorem call_reads {i r s rest vs} {l : Lexeme} (h : ∀ {s rest vs}, Rule T sp r s rest vs ↔ Reads l s rest ∧ vs = []) :
    Yields calcG noExt T sp (.nt i r) s rest vs ↔ Reads l s rest ∧ vs = [] := by
  rw [call_iff]
  simp only [h]
  constructor
  · rintro ⟨ws, ⟨h, rfl⟩, rfl⟩; exact ⟨h, by simp⟩
  · rintro ⟨h, rfl⟩; exact ⟨[], ⟨h, rfl⟩, by simp⟩

/-- Choices between two operators. -/
theorem ops_iff {r r1 r2 : String} {i a1 b1 a2 b2 : Nat} {o1 o2 : Op}
    (hb : calcG.find r = some (.choice i [.act a1 (.nt b1 r1) false [opName o1], .act a2 (.nt b2 r2) false [opName o2]]))
    (hi : T i ≠ .unit) (h1 : T a1 ≠ .unit) (h2 : T a2 ≠ .unit) (hne : o1.sym ≠ o2.sym)
    (hr1 : ∀ {s rest vs}, Rule T sp r1 s rest vs ↔ Reads (.sym o1.sym) s rest ∧ vs = []) (hr2 : ∀ {s rest vs}, Rule T sp r2 s rest vs ↔ Reads (.sym o2.sym) s rest ∧ vs = [])
    {s rest vs} : Rule T sp r s rest vs ↔ ∃ o, (o = o1 ∨ o = o2) ∧ Reads (.sym o.sym) s rest ∧ vs = [opVal o] := by
  have ho : Occurs calcG (.act a1 (.nt b1 r1) false [opName o1]) := ⟨_, _, hb, .choice (e := .act a1 (.nt b1 r1) false [opName o1]) (by simp) .refl⟩
  have hv : ∀ o, isVariant [opName o] = false := by intro o; cases o <;> decide
  simp only [rule_iff hb, yields_choice, YieldsAlt, calc_fails_iff (T := T) (sp := sp) ho, yields_act (hv _), call_reads hr1, call_reads hr2, hi, h1, h2, if_false]
  constructor
  · rintro ⟨_, ⟨_, ⟨h, rfl⟩, rfl⟩ | ⟨_, ⟨_, ⟨h, rfl⟩, rfl⟩ | ⟨_, h⟩⟩, rfl⟩
    · exact ⟨o1, .inl rfl, h, rfl⟩
    · exact ⟨o2, .inr rfl, h, rfl⟩
    · exact h.elim
  · rintro ⟨o, rfl | rfl, h, rfl⟩
    · exact ⟨_, .inl ⟨_, ⟨h, rfl⟩, rfl⟩, rfl⟩
    · refine ⟨_, .inr ⟨?_, .inl ⟨_, ⟨h, rfl⟩, rfl⟩⟩, rfl⟩
      rintro _ _ ⟨_, ⟨h', _⟩, _⟩
      exact h.noOp (o := o1) (by simpa [Lexeme.chars] using hne.symm) _ h'

theorem term_op_iff (H : CalcTypes T) {s rest vs} : Rule T sp "term_op" s rest vs ↔ ∃ o, isSum o ∧ Reads (.sym o.sym) s rest ∧ vs = [opVal o] :=
  ops_iff (r1 := "add_op") (r2 := "sub_op") (i := 48) (a1 := 45) (b1 := 44) (a2 := 47) (b2 := 46) (o1 := .add) (o2 := .sub) rfl H.t48 H.t45 H.t47 (by decide)
    (sym_iff H (i := 93) (j := 91) (k := 92) (l := "+") rfl H.t93 (by decide)) (sym_iff H (i := 96) (j := 94) (k := 95) (l := "-") rfl H.t96 (by decide))

theorem factor_op_iff (H : CalcTypes T) {s rest vs} : Rule T sp "factor_op" s rest vs ↔ ∃ o, isProd o ∧ Reads (.sym o.sym) s rest ∧ vs = [opVal o] :=
  ops_iff (r1 := "mul_op") (r2 := "div_op") (i := 53) (a1 := 50) (b1 := 49) (a2 := 52) (b2 := 51) (o1 := .mul) (o2 := .div) rfl H.t53 H.t50 H.t52 (by decide)
    (sym_iff H (i := 99) (j := 97) (k := 98) (l := "*") rfl H.t99 (by decide)) (sym_iff H (i := 102) (j := 100) (k := 101) (l := "/") rfl H.t102 (by decide))

theorem exponent_op_iff (H : CalcTypes T) {s rest vs} : Rule T sp "exponent_op" s rest vs ↔ Reads (.sym '^') s rest ∧ vs = [opVal .exp] := by
  have hb : calcG.find "exponent_op" = some (.act 55 (.nt 54 "exp_op") false ["exp_bin_op"]) := rfl
  have he : ∀ {s rest vs}, Rule T sp "exp_op" s rest vs ↔ Reads (.sym '^') s rest ∧ vs = [] := sym_iff H (i := 105) (j := 103) (k := 104) (l := "^") rfl H.t105 (by decide)
  simp only [rule_iff hb, yields_act (show isVariant ["exp_bin_op"] = false by decide), call_reads he, H.t55, if_false]
  constructor
  · rintro ⟨_, ⟨h, rfl⟩, rfl⟩; exact ⟨h, rfl⟩
  · rintro ⟨h, rfl⟩; exact ⟨_, ⟨h, rfl⟩, rfl⟩

/-- The reader of a rule. -/
def reader (T : Nat → Ty) (sp : SpanSpec) (r : String) : Reader := fun s rest v => Rule T sp r s rest [v]

/-- Operators grouped to the left. -/
theorem left_iff {r p q : String} {Q : Op → Prop} {i j a k l b c : Nat}
    (hb : calcG.find r = some (.act i (.seq j [.nt a p, .star k (.seq l [.nt b q, .nt c p])]) false ["fold_left"]))
    (hi : T i ≠ .unit) (hj : T j ≠ .unit) (ha : T a ≠ .unit) (hk : T k ≠ .unit) (hl : T l ≠ .unit) (hb' : T b ≠ .unit) (hc : T c ≠ .unit)
    (hq : ∀ {s rest vs}, Rule T sp q s rest vs ↔ ∃ o, Q o ∧ Reads (.sym o.sym) s rest ∧ vs = [opVal o]) (hp : ∀ {s rest vs}, Rule T sp p s rest vs → ∃ v, vs = [v])
    {s rest vs} : Rule T sp r s rest vs ↔
      ∃ h s1 is, reader T sp p s s1 h ∧ Ops Q (reader T sp p) s1 rest is ∧ OpsEnd Q (reader T sp p) rest ∧ vs = [leftVal h is] := by
  have ho : Occurs calcG (.seq l [.nt b q, .nt c p]) := ⟨_, _, hb, .act (.seq (e := .star k (.seq l [.nt b q, .nt c p])) (by simp) (.star .refl))⟩
  have hone : ∀ {s rest vs}, Yields calcG noExt T sp (.seq l [.nt b q, .nt c p]) s rest vs ↔
      ∃ o s1 v, Q o ∧ Reads (.sym o.sym) s s1 ∧ reader T sp p s1 rest v ∧ vs = [opVal o, v] := by
    intro s rest vs
    simp only [yields_seq, YieldsSeq, call_val hb', call_val hc, hq, hl, if_false]
    constructor
    · rintro ⟨_, ⟨s1, _, _, ⟨o, h1, h2, rfl⟩, ⟨s2, v1, _, h3, ⟨rfl, rfl⟩, rfl⟩, rfl⟩, rfl⟩
      obtain ⟨v, rfl⟩ := hp h3
      exact ⟨o, s1, v, h1, h2, h3, rfl⟩
    · rintro ⟨o, s1, v, h1, h2, h3, rfl⟩
      exact ⟨_, ⟨s1, _, _, ⟨o, h1, h2, rfl⟩, ⟨rest, [v], _, h3, ⟨rfl, rfl⟩, rfl⟩, rfl⟩, rfl⟩
  have hmany : ∀ {s rest ws}, YieldsMany calcG noExt T sp (.seq l [.nt b q, .nt c p]) s rest ws ↔
      ∃ is, Ops Q (reader T sp p) s rest is ∧ ws = is.map fun q => .tup [opVal q.1, q.2] := by
    intro s rest ws
    constructor
    · intro h
      induction h with
      | nil => exact ⟨[], .nil, rfl⟩
      | cons h1 _ ih =>
        obtain ⟨o, s1, v, h2, h3, h4, rfl⟩ := hone.1 h1
        obtain ⟨is, h5, rfl⟩ := ih
        exact ⟨(o, v) :: is, .cons h2 h3 h4 h5, rfl⟩
    · rintro ⟨is, h, rfl⟩
      induction h with
      | nil => exact .nil
      | cons h2 h3 h4 _ ih => exact .cons (hone.2 ⟨_, _, _, h2, h3, h4, rfl⟩) ih
  have hend : ∀ {s}, Fails calcG noExt (.seq l [.nt b q, .nt c p]) s ↔ OpsEnd Q (reader T sp p) s := by
    intro s
    rw [calc_fails_iff (T := T) (sp := sp) ho]
    constructor
    · intro h o s1 s2 v h1 h2 h3
      exact h _ _ (hone.2 ⟨o, s1, v, h1, h2, h3, rfl⟩)
    · intro h rest vs hg
      obtain ⟨o, s1, v, h1, h2, h3, _⟩ := hone.1 hg
      exact h _ _ _ _ h1 h2 h3
  simp only [rule_iff hb, yields_act (show isVariant ["fold_left"] = false by decide)]
  rw [show (∃ ws, Yields calcG noExt T sp (.seq j [.nt a p, .star k (.seq l [.nt b q, .nt c p])]) s rest ws ∧ vs = if T i = .unit then [] else [.app ["fold_left"] ws]) ↔
    ∃ ws, Yields calcG noExt T sp (.seq j [.nt a p, .star k (.seq l [.nt b q, .nt c p])]) s rest ws ∧ vs = [.app ["fold_left"] ws] by simp only [hi, if_false]]
  have hs : ∀ ws, Yields calcG noExt T sp (.seq j [.nt a p, .star k (.seq l [.nt b q, .nt c p])]) s rest ws ↔
      ∃ h s1 is, reader T sp p s s1 h ∧ Ops Q (reader T sp p) s1 rest is ∧ OpsEnd Q (reader T sp p) rest ∧ ws = [h, .list (is.map fun q => .tup [opVal q.1, q.2])] := by
    intro ws
    rw [yields_seq]
    simp only [YieldsSeq, call_val ha, yields_star, hmany, hend, hj, hk, if_false]
    constructor
    · rintro ⟨_, ⟨s1, v1, _, h1, ⟨s2, _, _, ⟨_, ⟨⟨is, h2, rfl⟩, h3⟩, rfl⟩, ⟨rfl, rfl⟩, rfl⟩, rfl⟩, rfl⟩
      obtain ⟨v, rfl⟩ := hp h1
      exact ⟨v, s1, is, h1, h2, h3, rfl⟩
    · rintro ⟨v, s1, is, h1, h2, h3, rfl⟩
      exact ⟨_, ⟨s1, [v], _, h1, ⟨rest, _, _, ⟨_, ⟨⟨is, h2, rfl⟩, h3⟩, rfl⟩, ⟨rfl, rfl⟩, rfl⟩, rfl⟩, rfl⟩
  simp only [hs]
  constructor
  · rintro ⟨_, ⟨v, s1, is, h1, h2, h3, rfl⟩, rfl⟩; exact ⟨v, s1, is, h1, h2, h3, rfl⟩
  · rintro ⟨v, s1, is, h1, h2, h3, rfl⟩; exact ⟨_, ⟨v, s1, is, h1, h2, h3, rfl⟩, rfl⟩

/-- Rules with an action give one value. -/
theorem act_one {r i e f} (hb : calcG.find r = some (.act i e false f)) (hv : isVariant f = false) (hi : T i ≠ .unit) {s rest vs} (h : Rule T sp r s rest vs) : ∃ v, vs = [v] := by
  rw [rule_iff hb, yields_act hv] at h
  obtain ⟨ws, _, rfl⟩ := h
  exact ⟨.app f ws, by simp only [hi, if_false]⟩

theorem expression_one (H : CalcTypes T) {s rest vs} (h : Rule T sp "expression" s rest vs) : ∃ v, vs = [v] :=
  act_one (i := 9) (f := ["fold_left"]) rfl (by decide) H.t9 h

theorem term_one (H : CalcTypes T) {s rest vs} (h : Rule T sp "term" s rest vs) : ∃ v, vs = [v] :=
  act_one (i := 16) (f := ["fold_left"]) rfl (by decide) H.t16 h

theorem exponent_one (H : CalcTypes T) {s rest vs} (h : Rule T sp "exponent" s rest vs) : ∃ v, vs = [v] :=
  act_one (i := 23) (f := ["fold_right"]) rfl (by decide) H.t23 h

theorem expression_iff (H : CalcTypes T) {s rest vs} : Rule T sp "expression" s rest vs ↔
    ∃ h s1 is, reader T sp "term" s s1 h ∧ Ops isSum (reader T sp "term") s1 rest is ∧ OpsEnd isSum (reader T sp "term") rest ∧ vs = [leftVal h is] :=
  left_iff (i := 9) (j := 8) (a := 3) (k := 7) (l := 6) (b := 4) (c := 5) rfl H.t9 H.t8 H.t3 H.t7 H.t6 H.t4 H.t5 (term_op_iff H) (term_one H)

theorem term_iff (H : CalcTypes T) {s rest vs} : Rule T sp "term" s rest vs ↔
    ∃ h s1 is, reader T sp "exponent" s s1 h ∧ Ops isProd (reader T sp "exponent") s1 rest is ∧ OpsEnd isProd (reader T sp "exponent") rest ∧ vs = [leftVal h is] :=
  left_iff (i := 16) (j := 15) (a := 10) (k := 14) (l := 13) (b := 11) (c := 12) rfl H.t16 H.t15 H.t10 H.t14 H.t13 H.t11 H.t12 (factor_op_iff H) (exponent_one H)

theorem binding_iff (H : CalcTypes T) {s rest vs} : Rule T sp "let_binding" s rest vs ↔
    ∃ x s1 s2 v, Reads (.name x) s s1 ∧ Reads (.sym '=') s1 s2 ∧ reader T sp "expression" s2 rest v ∧ vs = [nameVal x, v] := by
  have hb : calcG.find "let_binding" = some (.seq 43 [.nt 40 "identifier", .nt 41 "bind_op", .nt 42 "expression"]) := rfl
  have he : ∀ {s rest vs}, Rule T sp "bind_op" s rest vs ↔ Reads (.sym '=') s rest ∧ vs = [] := sym_iff H (i := 90) (j := 88) (k := 89) (l := "=") rfl H.t90 (by decide)
  simp only [rule_iff hb, yields_seq, YieldsSeq, call_val H.t40, call_val H.t42, call_reads he, identifier_iff H, H.t43, if_false]
  constructor
  · rintro ⟨_, ⟨s1, _, _, ⟨x, h1, rfl⟩, ⟨s2, _, _, ⟨h2, rfl⟩, ⟨s3, v1, _, h3, ⟨rfl, rfl⟩, rfl⟩, rfl⟩, rfl⟩, rfl⟩
    obtain ⟨v, rfl⟩ := expression_one H h3
    exact ⟨x, s1, s2, v, h1, h2, h3, rfl⟩
  · rintro ⟨x, s1, s2, v, h1, h2, h3, rfl⟩
    exact ⟨_, ⟨s1, _, _, ⟨x, h1, rfl⟩, ⟨s2, _, _, ⟨h2, rfl⟩, ⟨rest, [v], _, h3, ⟨rfl, rfl⟩, rfl⟩, rfl⟩, rfl⟩, rfl⟩

theorem let_expr_iff (H : CalcTypes T) {s rest vs} : Rule T sp "let_expr" s rest vs ↔
    ∃ x s1 s2 s3 s4 s5 v1 v2, Reads .kwLet s s1 ∧ Reads (.name x) s1 s2 ∧ Reads (.sym '=') s2 s3 ∧ reader T sp "expression" s3 s4 v1 ∧ Reads .kwIn s4 s5 ∧
      reader T sp "expression" s5 rest v2 ∧ vs = [nameVal x, v1, v2] := by
  have hb : calcG.find "let_expr" = some (.seq 39 [.nt 35 "let_kw", .nt 36 "let_binding", .nt 37 "in_kw", .nt 38 "expression"]) := rfl
  simp only [rule_iff hb, yields_seq, YieldsSeq, call_val H.t36, call_val H.t38, call_reads (let_iff H), call_reads (in_iff H), binding_iff H, H.t39, if_false]
  constructor
  · rintro ⟨_, ⟨s1, _, _, ⟨h1, rfl⟩, ⟨s4, _, _, ⟨x, s2, s3, v1, h2, h3, h4, rfl⟩, ⟨s5, _, _, ⟨h5, rfl⟩, ⟨s6, w, _, h6, ⟨rfl, rfl⟩, rfl⟩, rfl⟩, rfl⟩, rfl⟩, rfl⟩
    obtain ⟨v2, rfl⟩ := expression_one H h6
    exact ⟨x, s1, s2, s3, s4, s5, v1, v2, h1, h2, h3, h4, h5, h6, rfl⟩
  · rintro ⟨x, s1, s2, s3, s4, s5, v1, v2, h1, h2, h3, h4, h5, h6, rfl⟩
    exact ⟨_, ⟨s1, _, _, ⟨h1, rfl⟩, ⟨s4, _, _, ⟨x, s2, s3, v1, h2, h3, h4, rfl⟩, ⟨s5, _, _, ⟨h5, rfl⟩, ⟨rest, [v2], _, h6, ⟨rfl, rfl⟩, rfl⟩, rfl⟩, rfl⟩, rfl⟩, rfl⟩

theorem name_not_num {x ds s r r'} (h : Reads (.name x) s r) (h' : Reads (.num ds) s r') : False := by
  have h1 := h.head
  rw [h'.head] at h1
  obtain ⟨⟨_, _, hd, _⟩, _⟩ := h
  obtain ⟨⟨hne, hds⟩, _⟩ := h'
  cases ds with
  | nil => exact hne rfl
  | cons d ds =>
    cases x with
    | nil => simp [Lexeme.chars] at h1
    | cons c x =>
      simp only [Lexeme.chars, List.head?_cons, Option.some.injEq] at h1
      subst h1
      have := hds d (by simp)
      simp only [NotStart] at hd
      rw [hd] at this; cases this

theorem sym_not {c l s r r'} (hw : isWord c = false) (h : Reads (.sym c) s r) (hl : ∀ d, l.Valid → l.chars.head? = some d → isWord d = true) (h' : Reads l s r') : False := by
  have h1 := h'.head
  rw [h.head] at h1
  have := hl c h'.1 h1.symm
  rw [hw] at this; cases this

theorem digit_word {c : Char} (h : isDigit c = true) : isWord c = true := by simp [isWord, h]

theorem word_head {l : Lexeme} (hl : ∀ c, l ≠ .sym c) : ∀ d, l.Valid → l.chars.head? = some d → isWord d = true := by
  intro d hv hd
  cases l with
  | num ds => exact digit_word (hv.2 d (List.mem_of_mem_head? hd))
  | name x => exact hv.2.1 d (List.mem_of_mem_head? hd)
  | kwLet => cases hd; decide
  | kwIn => cases hd; decide
  | sym c => exact absurd rfl (hl c)

theorem kw_not_num {ds s r r'} (h : Reads .kwLet s r) (h' : Reads (.num ds) s r') : False := by
  have h1 := h'.head
  rw [h.head] at h1
  have := h'.1.2 'l' (List.mem_of_mem_head? h1.symm)
  simp [isDigit] at this

theorem kw_not_name {x s r r'} (h : Reads .kwLet s r) (h' : Reads (.name x) s r') : False := by
  obtain ⟨_, m, rfl, h1, _⟩ := h
  obtain ⟨hv, m', h2, h3, _⟩ := h'
  obtain ⟨h4, _⟩ := maximal (p := isWord) h2 (by decide) hv.2.1 h1 h3
  exact hv.2.2.2.1 h4.symm

theorem factor_iff (H : CalcTypes T) {s rest vs} : Rule T sp "factor" s rest vs ↔ (∃ ds, Reads (.num ds) s rest ∧ vs = [numVal ds]) ∨ (∃ x, Reads (.name x) s rest ∧ vs = [varVal x]) ∨
    (∃ x s1 s2 s3 s4 s5 v1 v2, Reads .kwLet s s1 ∧ Reads (.name x) s1 s2 ∧ Reads (.sym '=') s2 s3 ∧ reader T sp "expression" s3 s4 v1 ∧ Reads .kwIn s4 s5 ∧
      reader T sp "expression" s5 rest v2 ∧ vs = [letVal x v1 v2]) ∨
    (∃ s1 s2 v, Reads (.sym '(') s s1 ∧ reader T sp "expression" s1 s2 v ∧ Reads (.sym ')') s2 rest ∧ vs = [v]) := by
  have hb : calcG.find "factor" = some (.choice 34 [.act 25 (.nt 24 "number") false ["number_expr"], .act 27 (.nt 26 "identifier") false ["variable_expr"],
    .act 29 (.nt 28 "let_expr") false ["let_in_expr"], .seq 33 [.nt 30 "lparen", .nt 31 "expression", .nt 32 "rparen"]]) := rfl
  have o1 : Occurs calcG (.act 25 (.nt 24 "number") false ["number_expr"]) := ⟨_, _, hb, .choice (e := .act 25 (.nt 24 "number") false ["number_expr"]) (by simp) .refl⟩
  have o2 : Occurs calcG (.act 27 (.nt 26 "identifier") false ["variable_expr"]) := ⟨_, _, hb, .choice (e := .act 27 (.nt 26 "identifier") false ["variable_expr"]) (by simp) .refl⟩
  have o3 : Occurs calcG (.act 29 (.nt 28 "let_expr") false ["let_in_expr"]) := ⟨_, _, hb, .choice (e := .act 29 (.nt 28 "let_expr") false ["let_in_expr"]) (by simp) .refl⟩
  have e1 : ∀ {s rest vs}, Yields calcG noExt T sp (.act 25 (.nt 24 "number") false ["number_expr"]) s rest vs ↔ ∃ ds, Reads (.num ds) s rest ∧ vs = [numVal ds] := by
    intro s rest vs
    simp only [yields_act (show isVariant ["number_expr"] = false by decide), call_val H.t24, number_iff H, H.t25, if_false]
    constructor
    · rintro ⟨_, ⟨ds, h, rfl⟩, rfl⟩; exact ⟨ds, h, rfl⟩
    · rintro ⟨ds, h, rfl⟩; exact ⟨_, ⟨ds, h, rfl⟩, rfl⟩
  have e2 : ∀ {s rest vs}, Yields calcG noExt T sp (.act 27 (.nt 26 "identifier") false ["variable_expr"]) s rest vs ↔ ∃ x, Reads (.name x) s rest ∧ vs = [varVal x] := by
    intro s rest vs
    simp only [yields_act (show isVariant ["variable_expr"] = false by decide), call_val H.t26, identifier_iff H, H.t27, if_false]
    constructor
    · rintro ⟨_, ⟨ds, h, rfl⟩, rfl⟩; exact ⟨ds, h, rfl⟩
    · rintro ⟨ds, h, rfl⟩; exact ⟨_, ⟨ds, h, rfl⟩, rfl⟩
  have e3 : ∀ {s rest vs}, Yields calcG noExt T sp (.act 29 (.nt 28 "let_expr") false ["let_in_expr"]) s rest vs ↔
      ∃ x s1 s2 s3 s4 s5 v1 v2, Reads .kwLet s s1 ∧ Reads (.name x) s1 s2 ∧ Reads (.sym '=') s2 s3 ∧ reader T sp "expression" s3 s4 v1 ∧ Reads .kwIn s4 s5 ∧
      reader T sp "expression" s5 rest v2 ∧ vs = [letVal x v1 v2] := by
    intro s rest vs
    simp only [yields_act (show isVariant ["let_in_expr"] = false by decide), call_val H.t28, let_expr_iff H, H.t29, if_false]
    constructor
    · rintro ⟨_, ⟨x, s1, s2, s3, s4, s5, v1, v2, h1, h2, h3, h4, h5, h6, rfl⟩, rfl⟩; exact ⟨x, s1, s2, s3, s4, s5, v1, v2, h1, h2, h3, h4, h5, h6, rfl⟩
    · rintro ⟨x, s1, s2, s3, s4, s5, v1, v2, h1, h2, h3, h4, h5, h6, rfl⟩; exact ⟨_, ⟨x, s1, s2, s3, s4, s5, v1, v2, h1, h2, h3, h4, h5, h6, rfl⟩, rfl⟩
  have hlp : ∀ {s rest vs}, Rule T sp "lparen" s rest vs ↔ Reads (.sym '(') s rest ∧ vs = [] := sym_iff H (i := 108) (j := 106) (k := 107) (l := "(") rfl H.t108 (by decide)
  have hrp : ∀ {s rest vs}, Rule T sp "rparen" s rest vs ↔ Reads (.sym ')') s rest ∧ vs = [] := sym_iff H (i := 111) (j := 109) (k := 110) (l := ")") rfl H.t111 (by decide)
  have e4 : ∀ {s rest vs}, Yields calcG noExt T sp (.seq 33 [.nt 30 "lparen", .nt 31 "expression", .nt 32 "rparen"]) s rest vs ↔
      ∃ s1 s2 v, Reads (.sym '(') s s1 ∧ reader T sp "expression" s1 s2 v ∧ Reads (.sym ')') s2 rest ∧ vs = [v] := by
    intro s rest vs
    simp only [yields_seq, YieldsSeq, call_val H.t31, call_reads hlp, call_reads hrp, H.t33, if_false]
    constructor
    · rintro ⟨_, ⟨s1, _, _, ⟨h1, rfl⟩, ⟨s2, w, _, h2, ⟨s3, _, _, ⟨h3, rfl⟩, ⟨rfl, rfl⟩, rfl⟩, rfl⟩, rfl⟩, rfl⟩
      obtain ⟨v, rfl⟩ := expression_one H h2
      exact ⟨s1, s2, v, h1, h2, h3, rfl⟩
    · rintro ⟨s1, s2, v, h1, h2, h3, rfl⟩
      exact ⟨_, ⟨s1, _, _, ⟨h1, rfl⟩, ⟨s2, [v], _, h2, ⟨rest, _, _, ⟨h3, rfl⟩, ⟨rfl, rfl⟩, rfl⟩, rfl⟩, rfl⟩, rfl⟩
  simp only [rule_iff hb, yields_choice, YieldsAlt, calc_fails_iff (T := T) (sp := sp) o1, calc_fails_iff (T := T) (sp := sp) o2, calc_fails_iff (T := T) (sp := sp) o3, e1, e2, e3, e4,
    H.t34, if_false]
  constructor
  · rintro ⟨_, h | ⟨_, h | ⟨_, h | ⟨_, h | ⟨_, h⟩⟩⟩⟩, rfl⟩
    · exact .inl h
    · exact .inr (.inl h)
    · exact .inr (.inr (.inl h))
    · exact .inr (.inr (.inr h))
    · exact h.elim
  · rintro (h | h | h | h)
    · exact ⟨_, .inl h, rfl⟩
    · refine ⟨_, .inr ⟨?_, .inl h⟩, rfl⟩
      obtain ⟨x, h, _⟩ := h
      rintro _ _ ⟨ds, h', _⟩
      exact name_not_num h h'
    · refine ⟨_, .inr ⟨?_, .inr ⟨?_, .inl h⟩⟩, rfl⟩
      · obtain ⟨x, s1, s2, s3, s4, s5, v1, v2, h, _⟩ := h
        rintro _ _ ⟨ds, h', _⟩
        exact kw_not_num h h'
      · obtain ⟨x, s1, s2, s3, s4, s5, v1, v2, h, _⟩ := h
        rintro _ _ ⟨ds, h', _⟩
        exact kw_not_name h h'
    · refine ⟨_, .inr ⟨?_, .inr ⟨?_, .inr ⟨?_, .inl h⟩⟩⟩, rfl⟩
      · obtain ⟨s1, s2, v, h, _⟩ := h
        rintro _ _ ⟨ds, h', _⟩
        exact sym_not (by decide) h (word_head (by simp)) h'
      · obtain ⟨s1, s2, v, h, _⟩ := h
        rintro _ _ ⟨ds, h', _⟩
        exact sym_not (by decide) h (word_head (by simp)) h'
      · obtain ⟨s1, s2, v, h, _⟩ := h
        rintro _ _ ⟨x, s1, s2, s3, s4, s5, v1, v2, h', _⟩
        exact sym_not (by decide) h (word_head (by simp)) h'

theorem factor_one (H : CalcTypes T) {s rest vs} (h : Rule T sp "factor" s rest vs) : ∃ v, vs = [v] := by
  rcases (factor_iff H).1 h with ⟨ds, _, h⟩ | ⟨x, _, h⟩ | ⟨x, s1, s2, s3, s4, s5, v1, v2, _, _, _, _, _, _, h⟩ | ⟨s1, s2, v, _, _, _, h⟩
  all_goals exact ⟨_, h⟩

theorem exponent_iff (H : CalcTypes T) {s rest vs} : Rule T sp "exponent" s rest vs ↔
    ∃ is s1 l, Pows (reader T sp "factor") s s1 is ∧ PowsEnd (reader T sp "factor") s1 ∧ reader T sp "factor" s1 rest l ∧ vs = [rightVal is l] := by
  have hb : calcG.find "exponent" = some (.act 23 (.seq 22 [.star 20 (.seq 19 [.nt 17 "factor", .nt 18 "exponent_op"]), .nt 21 "factor"]) false ["fold_right"]) := rfl
  have ho : Occurs calcG (.seq 19 [.nt 17 "factor", .nt 18 "exponent_op"]) :=
    ⟨_, _, hb, .act (.seq (e := .star 20 (.seq 19 [.nt 17 "factor", .nt 18 "exponent_op"])) (by simp) (.star .refl))⟩
  have hone : ∀ {s rest vs}, Yields calcG noExt T sp (.seq 19 [.nt 17 "factor", .nt 18 "exponent_op"]) s rest vs ↔
      ∃ s1 v, reader T sp "factor" s s1 v ∧ Reads (.sym '^') s1 rest ∧ vs = [v, opVal .exp] := by
    intro s rest vs
    simp only [yields_seq, YieldsSeq, call_val H.t17, call_val H.t18, exponent_op_iff H, H.t19, if_false]
    constructor
    · rintro ⟨_, ⟨s1, w, _, h1, ⟨s2, _, _, ⟨h2, rfl⟩, ⟨rfl, rfl⟩, rfl⟩, rfl⟩, rfl⟩
      obtain ⟨v, rfl⟩ := factor_one H h1
      exact ⟨s1, v, h1, h2, rfl⟩
    · rintro ⟨s1, v, h1, h2, rfl⟩
      exact ⟨_, ⟨s1, [v], _, h1, ⟨rest, _, _, ⟨h2, rfl⟩, ⟨rfl, rfl⟩, rfl⟩, rfl⟩, rfl⟩
  have hmany : ∀ {s rest ws}, YieldsMany calcG noExt T sp (.seq 19 [.nt 17 "factor", .nt 18 "exponent_op"]) s rest ws ↔
      ∃ is, Pows (reader T sp "factor") s rest is ∧ ws = is.map fun v => .tup [v, opVal .exp] := by
    intro s rest ws
    constructor
    · intro h
      induction h with
      | nil => exact ⟨[], .nil, rfl⟩
      | cons h1 _ ih =>
        obtain ⟨s1, v, h3, h4, rfl⟩ := hone.1 h1
        obtain ⟨is, h5, rfl⟩ := ih
        exact ⟨v :: is, .cons h3 h4 h5, rfl⟩
    · rintro ⟨is, h, rfl⟩
      induction h with
      | nil => exact .nil
      | cons h3 h4 _ ih => exact .cons (hone.2 ⟨_, _, h3, h4, rfl⟩) ih
  have hend : ∀ {s}, Fails calcG noExt (.seq 19 [.nt 17 "factor", .nt 18 "exponent_op"]) s ↔ PowsEnd (reader T sp "factor") s := by
    intro s
    rw [calc_fails_iff (T := T) (sp := sp) ho]
    constructor
    · intro h s1 s2 v h2 h3
      exact h _ _ (hone.2 ⟨s1, v, h2, h3, rfl⟩)
    · intro h rest vs hg
      obtain ⟨s1, v, h2, h3, _⟩ := hone.1 hg
      exact h _ _ _ h2 h3
  simp only [rule_iff hb, yields_act (show isVariant ["fold_right"] = false by decide)]
  have hs : ∀ ws, Yields calcG noExt T sp (.seq 22 [.star 20 (.seq 19 [.nt 17 "factor", .nt 18 "exponent_op"]), .nt 21 "factor"]) s rest ws ↔
      ∃ is s1 l, Pows (reader T sp "factor") s s1 is ∧ PowsEnd (reader T sp "factor") s1 ∧ reader T sp "factor" s1 rest l ∧
        ws = [.list (is.map fun v => .tup [v, opVal .exp]), l] := by
    intro ws
    rw [yields_seq]
    simp only [YieldsSeq, call_val H.t21, yields_star, hmany, hend, H.t20, H.t22, if_false]
    constructor
    · rintro ⟨_, ⟨s1, _, _, ⟨_, ⟨⟨is, h2, rfl⟩, h3⟩, rfl⟩, ⟨s2, w, _, h4, ⟨rfl, rfl⟩, rfl⟩, rfl⟩, rfl⟩
      obtain ⟨l, rfl⟩ := factor_one H h4
      exact ⟨is, s1, l, h2, h3, h4, rfl⟩
    · rintro ⟨is, s1, l, h2, h3, h4, rfl⟩
      exact ⟨_, ⟨s1, _, _, ⟨_, ⟨⟨is, h2, rfl⟩, h3⟩, rfl⟩, ⟨rest, [l], _, h4, ⟨rfl, rfl⟩, rfl⟩, rfl⟩, rfl⟩
  simp only [hs, H.t23, if_false]
  constructor
  · rintro ⟨_, ⟨v, s1, is, h1, h2, h3, rfl⟩, rfl⟩; exact ⟨v, s1, is, h1, h2, h3, rfl⟩
  · rintro ⟨v, s1, is, h1, h2, h3, rfl⟩; exact ⟨_, ⟨v, s1, is, h1, h2, h3, rfl⟩, rfl⟩

/-- The rules of the calculator. -/
theorem calc_parser (H : CalcTypes T) : Parser (reader T sp "factor") (reader T sp "exponent") (reader T sp "term") (reader T sp "expression") where
  factor := by
    intro s rest v
    unfold reader
    rw [factor_iff H]
    constructor
    · rintro (⟨ds, h1, h⟩ | ⟨x, h1, h⟩ | ⟨x, s1, s2, s3, s4, s5, v1, v2, h1, h2, h3, h4, h5, h6, h⟩ | ⟨s1, s2, w, h1, h2, h3, h⟩) <;> cases h
      · exact .inl ⟨ds, h1, rfl⟩
      · exact .inr (.inl ⟨x, h1, rfl⟩)
      · exact .inr (.inr (.inl ⟨x, s1, s2, s3, s4, s5, v1, v2, h1, h2, h3, h4, h5, h6, rfl⟩))
      · exact .inr (.inr (.inr ⟨s1, s2, h1, h2, h3⟩))
    · rintro (⟨ds, h1, rfl⟩ | ⟨x, h1, rfl⟩ | ⟨x, s1, s2, s3, s4, s5, v1, v2, h1, h2, h3, h4, h5, h6, rfl⟩ | ⟨s1, s2, h1, h2, h3⟩)
      · exact .inl ⟨ds, h1, rfl⟩
      · exact .inr (.inl ⟨x, h1, rfl⟩)
      · exact .inr (.inr (.inl ⟨x, s1, s2, s3, s4, s5, v1, v2, h1, h2, h3, h4, h5, h6, rfl⟩))
      · exact .inr (.inr (.inr ⟨s1, s2, v, h1, h2, h3, rfl⟩))
  det := by
    rintro s r v r' v' ⟨b, hb, h⟩ ⟨b', hb', h'⟩
    rw [hb] at hb'; cases hb'
    exact (h.unique calc_det h').1
  power := by intro s rest v; unfold reader; rw [exponent_iff H]; simp only [List.cons.injEq, and_true]; rfl
  product := by intro s rest v; unfold reader; rw [term_iff H]; simp only [List.cons.injEq, and_true]; rfl
  sum := by intro s rest v; unfold reader; rw [expression_iff H]; simp only [List.cons.injEq, and_true]; rfl

/-- The language of the grammar. -/
theorem calc_program (H : CalcTypes T) {s t} : (∃ v, Rule T sp "program" s [] [v] ∧ Denotes v t) ↔ Written t s := by
  have hb : calcG.find "program" = some (.seq 2 [.nt 0 "spacing", .nt 1 "expression"]) := rfl
  have hp : ∀ v, Rule T sp "program" s [] [v] ↔ ∃ s1, Spaces s s1 ∧ reader T sp "expression" s1 [] v := by
    intro v
    simp only [rule_iff hb, yields_seq, YieldsSeq, spacing_call H, call_val H.t1, H.t2, if_false]
    constructor
    · rintro ⟨_, ⟨s1, _, _, ⟨h1, rfl⟩, ⟨s2, w, _, h2, ⟨rfl, rfl⟩, rfl⟩, rfl⟩, h⟩
      simp only [List.nil_append, List.append_nil] at h
      subst h
      exact ⟨s1, h1, h2⟩
    · rintro ⟨s1, h1, h2⟩
      exact ⟨_, ⟨s1, _, _, ⟨h1, rfl⟩, ⟨[], [v], _, h2, ⟨rfl, rfl⟩, rfl⟩, rfl⟩, rfl⟩
  simp only [hp]
  constructor
  · rintro ⟨v, ⟨s1, ⟨sps, rfl, h1, h2⟩, h3⟩, h4⟩
    obtain ⟨ls, o, h5, h6⟩ := (calc_parser H).language.1 ⟨v, h3, h4⟩
    exact ⟨sps, s1, ls, o, rfl, h1, h2, h5, h6⟩
  · rintro ⟨sps, s1, ls, o, rfl, h1, h2, h5, h6⟩
    obtain ⟨v, h3, h4⟩ := (calc_parser (sp := sp) H).language.2 ⟨ls, o, h5, h6⟩
    exact ⟨v, ⟨s1, ⟨sps, rfl, h1, h2⟩, h3⟩, h4⟩

end Oak.Calculator
