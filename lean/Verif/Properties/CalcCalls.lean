import Verif.Properties.Calculator
import Verif.Proofs.CallsMade
import Verif.Properties.Checked
import Verif.Properties.Depth
/-!
C63: the calls of the functions of the user made by the parser of the calculator, also in branches that are abandoned.
-/
set_option linter.constructorNameAsVariable false
set_option autoImplicit false

namespace Oak
open Spec Calculator

theorem calc_deployed {fs} (h : CalcCode fs) (ptr : Nat) (s : List Char) : ∃ T, CalcTypes T ∧ Deployed calcG T fs noFns noExt ptr s := by
  obtain ⟨ms, us, A, T, ho⟩ := h
  obtain ⟨hG, hT⟩ := calc_read ho
  obtain ⟨ms', us', A', T', fs', ho', h1, _⟩ := verdict_code Corpus.calc_verdict
  rw [ho] at ho'; cases ho'
  simp only [Bool.and_eq_true] at h1
  have := (C47_checked_generated ho h1.1.1 h1.1.2 h1.2).deployed ptr s
  rw [hG] at this
  exact ⟨T, hT, this⟩

theorem calc_actions : ∀ q ∈ calcG.rules, ∀ x ∈ actionsOf q.2, x.1 = ["to_number"] → x.2 = .seq 70 [.plus 68 (.nt 67 "digit"), .nt 69 "spacing"] := by
  simp only [calcG, List.forall_mem_cons, actionsOf, actionsAll, List.append_nil, List.nil_append, List.not_mem_nil, List.cons_append]
  simp

/-- C63: whether `parse_program` succeeds or fails, and also in the branches that it abandons, a call panics only if the text contains digits whose number does not fit in 32
bits. -/
theorem C63_no_panic {fs} (hc : CalcCode fs) {ptr : Nat} {s : List Char} {st' : PState StrStream Val} (h : Steps noFns fs true "program" (start ptr s) st') {v : Val}
    (hv : v ∈ st'.calls) (hp : PanickingCall v) : ∃ ds, ds <:+: s ∧ (∀ c ∈ ds, isDigit c = true) ∧ 2 ^ 32 ≤ decimal ds := by
  obtain ⟨T, H, d⟩ := calc_deployed hc ptr s
  obtain ⟨ds, rfl, hds⟩ := hp
  rcases C17_after_match d noFns_quiet (r := "program") rfl (okSt_new ptr s) h hv with hv | ⟨i, e1, b, f, s1, s2, t, L, ⟨r, x, hx, hsub⟩, _, hs1, hpeg, he⟩
  · simp [start, PState.new] at hv
  · injection he with h1 h2
    subst h1
    have := calc_actions _ (grammar_find_mem hx) _ (actions_sub hsub) rfl
    simp only at this
    subst this
    have hb : calcG.find "number" = some (.act 71 (.seq 70 [.plus 68 (.nt 67 "digit"), .nt 69 "spacing"]) false ["to_number"]) := rfl
    have hy : Rule T (strSpans s) "number" s1 s2 [.app ["to_number"] [.list (ds.map .chr)]] := by
      rw [rule_iff hb]
      refine ⟨_, L, .act_ok hpeg, ?_⟩
      have hf : isVariant ["to_number"] = false := by decide
      simp only [ast, Expr.id, H.t71, if_false, hf, Bool.false_and, h2]
      simp
    obtain ⟨ds', hr, he⟩ := (number_iff H).1 hy
    have : ds = ds' := by
      simp only [List.cons.injEq, Val.app.injEq, Val.list.injEq, and_true, true_and] at he
      exact (List.map_inj_right (fun a b h => by cases h; rfl)).1 he
    subst this
    obtain ⟨hval, m, rfl, _⟩ := hr
    refine ⟨ds, ?_, hval.2, hds⟩
    have : (PState.new (StrStream.new ptr s) : PState StrStream Val).cur.rest = s := by simp [PState.new]
    rw [this] at hs1
    exact (List.prefix_append _ _).isInfix.trans hs1.isInfix

theorem panics_shown {v : Val} (h : Panics v) : ∃ w, PanickingCall w ∧ Shown w v := by
  induction h with
  | number h => exact ⟨_, ⟨_, rfl, h⟩, .here⟩
  | app hm _ ih => obtain ⟨w, h1, h2⟩ := ih; exact ⟨w, h1, .app hm h2⟩
  | tup hm _ ih => obtain ⟨w, h1, h2⟩ := ih; exact ⟨w, h1, .tup hm h2⟩
  | list hm _ ih => obtain ⟨w, h1, h2⟩ := ih; exact ⟨w, h1, .list hm h2⟩

/-- C63: on a text of the language with a number that does not fit in 32 bits, a call panics. -/
theorem C63_panic {fs} (hc : CalcCode fs) {ptr : Nat} {s : List Char} {t : Term} (hw : Written t s) (ht : ¬ t.Small) {st' : PState StrStream Val}
    (h : Steps noFns fs true "program" (start ptr s) st') : ∃ v ∈ st'.calls, PanickingCall v := by
  obtain ⟨T, H, d⟩ := calc_deployed hc ptr s
  have hrest : (PState.new (StrStream.new ptr s) : PState StrStream Val).cur.rest = s := by simp [PState.new]
  obtain ⟨v, ⟨b, hb, t', L, hp, hast⟩, hd⟩ := (calc_program (sp := strSpans s) H).2 hw
  obtain ⟨o, L', hp', hr⟩ := d.steps_iff hb true (okSt_new ptr s) h
  rw [hrest] at hp'
  obtain ⟨rfl, rfl⟩ := hp.det calc_det hp'
  obtain ⟨_, _, ⟨w, hw, hval, _⟩, _⟩ := hr
  rw [if_pos rfl, hast] at hval
  obtain ⟨u, ⟨ds, rfl, hu⟩, hs⟩ := panics_shown ((denotes_panics hd).2 ht)
  rcases C17_shown d noFns_quiet hb (okSt_new ptr s) h (hw.trans (by rw [hval]; rfl)) hs with h1 | ⟨s', t1, L1, h1, x, hx, _⟩
  · exact ⟨_, h1, _, rfl, hu⟩
  · rw [noExt_exts h1 rfl] at hx; cases hx

/-! ## The number of calls -/

section
variable {T : Nat → Ty} {sp : SpanSpec}

theorem closing_reads {m : Nat} {l : Lexeme} {r : List Char} (h : Reads l (List.replicate m ')') r) : l.chars.head? = some ')' := by
  rw [← h.head]
  cases m with
  | zero =>
    have h1 := h.head
    have h2 := h.chars_ne
    cases hl : l.chars with
    | nil => exact absurd hl h2
    | cons c cs => rw [hl] at h1; cases h1
  | succ m => rfl

/-- No operator before a closing parenthesis. -/
theorem op_stops {r r1 r2 : String} {i a1 b1 a2 b2 k : Nat} {f1 f2 : Path} {Q : Calculator.Op → Prop} {s : List Char}
    (hb : calcG.find r = some (.choice i [.act a1 (.nt b1 r1) false f1, .act a2 (.nt b2 r2) false f2]))
    (hi : T i ≠ .unit) (h1 : T a1 ≠ .unit) (h2 : T a2 ≠ .unit) (h3 : T b1 = .unit) (h4 : T b2 = .unit) (hk : T k ≠ .unit) (ho : Occurs calcG (.nt k r))
    (hr : ∀ {s rest vs}, Rule T sp r s rest vs ↔ ∃ o, Q o ∧ Reads (.sym o.sym) s rest ∧ vs = [opVal o]) (hs : ∀ o rest, ¬ Reads (.sym (Op.sym o)) s rest) :
    Fails calcG noExt (.nt k r) s ∧ CallsMade calcG T sp (.nt k r) s 0 := by
  have hf : Fails calcG noExt (.nt k r) s := by
    rw [calc_fails_iff (T := T) (sp := sp) ho]
    intro rest vs h
    rw [call_val hk, hr] at h
    obtain ⟨o, _, h, _⟩ := h
    exact hs _ _ h
  refine ⟨hf, made_nt hk hb ?_⟩
  obtain ⟨L, hp⟩ := hf
  cases hp with
  | nt_fail hb' h5 =>
    rw [hb] at hb'; cases hb'
    have h6 := choice_fails_iff.1 ⟨_, h5⟩
    have e : ∀ {a b q f}, T a ≠ .unit → T b = .unit → Fails calcG noExt (.act a (.nt b q) false f) s → CallsMade calcG T sp (.act a (.nt b q) false f) s 0 := by
      rintro a b q f ha hb ⟨L, hp⟩
      cases hp with
      | act_fail hp => exact made_act_fail ha ⟨_, hp⟩ (made_unit (by simpa [Expr.id] using hb))
    exact made_choice_next hi (h6 _ (by simp)) (e h1 h3 (h6 _ (by simp))) (made_choice_next hi (h6 _ (by simp)) (e h2 h4 (h6 _ (by simp))) made_choice_nil)

theorem tail_stops {a j k b : Nat} {r q : String} {s : List Char} (hj : T j ≠ .unit) (hk : T k ≠ .unit) (h : Fails calcG noExt (.nt a r) s ∧ CallsMade calcG T sp (.nt a r) s 0) :
    Matches calcG noExt (.star j (.seq k [.nt a r, .nt b q])) s s ∧ CallsMade calcG T sp (.star j (.seq k [.nt a r, .nt b q])) s 0 := by
  obtain ⟨⟨L, hf⟩, h⟩ := h
  exact ⟨⟨_, _, .star_stop (.seq_fail hf)⟩, made_star_stop hj ⟨_, .seq_fail hf⟩ (made_seq_fail hk ⟨_, hf⟩ h)⟩

/-- The calls made for an expression that is a single factor before a closing parenthesis or the end. -/
theorem expression_made (H : CalcTypes T) {s : List Char} {m n : Nat} {v : Val} (hF : reader T sp "factor" s (List.replicate m ')') v)
    (hn : ∀ i, T i ≠ .unit → CallsMade calcG T sp (.nt i "factor") s n) : (∃ w, reader T sp "expression" s (List.replicate m ')') w) ∧
      ∀ i, T i ≠ .unit → CallsMade calcG T sp (.nt i "expression") s (2 * n + 3) := by
  have P := calc_parser (sp := sp) H
  have stops : ∀ o rest, ¬ Reads (.sym (Op.sym o)) (List.replicate m ')') rest := by
    intro o rest h
    have := closing_reads h
    cases o <;> simp [Lexeme.chars, Op.sym] at this
  have y1 : reader T sp "exponent" s (List.replicate m ')') (rightVal [] v) := P.power.2 ⟨[], s, v, .nil, fun s1 s2 w h => by
    rw [P.det h hF]; exact stops .exp s2, hF, rfl⟩
  have y2 : reader T sp "term" s (List.replicate m ')') (leftVal (rightVal [] v) []) := P.product.2 ⟨_, _, [], y1, .nil, fun o s1 _ _ _ h => absurd h (stops o s1), rfl⟩
  have y3 : reader T sp "expression" s (List.replicate m ')') (leftVal (leftVal (rightVal [] v) []) []) :=
    P.sum.2 ⟨_, _, [], y2, .nil, fun o s1 _ _ _ h => absurd h (stops o s1), rfl⟩
  have mat : ∀ {i r w}, T i ≠ .unit → reader T sp r s (List.replicate m ')') w → Matches calcG noExt (.nt i r) s (List.replicate m ')') := by
    intro i r w hi h
    exact ((call_val hi).2 h).matches
  refine ⟨⟨_, y3⟩, ?_⟩
  have b1 : calcG.find "expression" = some (.act 9 (.seq 8 [.nt 3 "term", .star 7 (.seq 6 [.nt 4 "term_op", .nt 5 "term"])]) false ["fold_left"]) := rfl
  have b2 : calcG.find "term" = some (.act 16 (.seq 15 [.nt 10 "exponent", .star 14 (.seq 13 [.nt 11 "factor_op", .nt 12 "exponent"])]) false ["fold_left"]) := rfl
  have b3 : calcG.find "exponent" = some (.act 23 (.seq 22 [.star 20 (.seq 19 [.nt 17 "factor", .nt 18 "exponent_op"]), .nt 21 "factor"]) false ["fold_right"]) := rfl
  -- the operators
  have t1 := tail_stops (b := 5) (q := "term") H.t7 H.t6 (op_stops (sp := sp) (k := 4) (r := "term_op") rfl H.t48 H.t45 H.t47 H.t44 H.t46 H.t4
    ⟨_, _, b1, .act (.seq (e := .star 7 (.seq 6 [.nt 4 "term_op", .nt 5 "term"])) (by simp) (.star (.seq (e := .nt 4 "term_op") (by simp) .refl)))⟩ (term_op_iff H) stops)
  have t2 := tail_stops (b := 12) (q := "exponent") H.t14 H.t13 (op_stops (sp := sp) (k := 11) (r := "factor_op") rfl H.t53 H.t50 H.t52 H.t49 H.t51 H.t11
    ⟨_, _, b2, .act (.seq (e := .star 14 (.seq 13 [.nt 11 "factor_op", .nt 12 "exponent"])) (by simp) (.star (.seq (e := .nt 11 "factor_op") (by simp) .refl)))⟩ (factor_op_iff H) stops)
  have o3 : Occurs calcG (.nt 18 "exponent_op") :=
    ⟨_, _, b3, .act (.seq (e := .star 20 (.seq 19 [.nt 17 "factor", .nt 18 "exponent_op"])) (by simp) (.star (.seq (e := .nt 18 "exponent_op") (by simp) .refl)))⟩
  have f3 : Fails calcG noExt (.nt 18 "exponent_op") (List.replicate m ')') := by
    rw [calc_fails_iff (T := T) (sp := sp) o3]
    intro rest vs h
    rw [call_val H.t18, exponent_op_iff H] at h
    exact stops .exp _ h.1
  have n3 : CallsMade calcG T sp (.nt 18 "exponent_op") (List.replicate m ')') 0 := by
    obtain ⟨L, hp⟩ := f3
    refine made_nt H.t18 (b := .act 55 (.nt 54 "exp_op") false ["exp_bin_op"]) rfl ?_
    cases hp with
    | nt_fail hb h1 =>
      cases (show calcG.find "exponent_op" = some (.act 55 (.nt 54 "exp_op") false ["exp_bin_op"]) from rfl).symm.trans hb
      cases h1 with
      | act_fail h1 => exact made_act_fail H.t55 ⟨_, h1⟩ (made_unit (by simpa [Expr.id] using H.t54))
  -- the factor is read once for the repetition, and once after it
  have p1 : CallsMade calcG T sp (.star 20 (.seq 19 [.nt 17 "factor", .nt 18 "exponent_op"])) s n ∧ Matches calcG noExt (.star 20 (.seq 19 [.nt 17 "factor", .nt 18 "exponent_op"])) s s := by
    obtain ⟨t, L, hm⟩ := mat H.t17 hF
    obtain ⟨L', hf⟩ := f3
    have h : Fails calcG noExt (.seq 19 [.nt 17 "factor", .nt 18 "exponent_op"]) s := ⟨_, .seq_later hm (.seq_fail hf)⟩
    refine ⟨made_star_stop H.t20 h ?_, ?_⟩
    · exact made_seq_cons (m := 0) H.t19 ⟨_, _, hm⟩ (hn _ H.t17) (made_seq_fail H.t19 ⟨_, hf⟩ n3)
    · obtain ⟨L, h⟩ := h
      exact ⟨_, _, .star_stop h⟩
  have c1 : ∀ i, T i ≠ .unit → CallsMade calcG T sp (.nt i "exponent") s (2 * n + 1) := by
    intro i hi
    refine made_nt hi b3 ?_
    have hs : Matches calcG noExt (.seq 22 [.star 20 (.seq 19 [.nt 17 "factor", .nt 18 "exponent_op"]), .nt 21 "factor"]) s (List.replicate m ')') := by
      obtain ⟨b, hb, t, L, hp, _⟩ := y1
      cases b3.symm.trans hb
      cases hp with
      | act_ok hp => exact ⟨_, _, hp⟩
    have := made_act_ok (b := false) (f := ["fold_right"]) H.t23 hs (by decide) (made_seq_cons H.t22 p1.2 p1.1 (made_seq_cons H.t22 (mat H.t21 hF) (hn _ H.t21) made_seq_nil))
    rw [show 2 * n + 1 = n + (n + 0) + 1 by omega]
    exact this
  have c2 : ∀ i, T i ≠ .unit → CallsMade calcG T sp (.nt i "term") s (2 * n + 2) := by
    intro i hi
    refine made_nt hi b2 ?_
    have hs : Matches calcG noExt (.seq 15 [.nt 10 "exponent", .star 14 (.seq 13 [.nt 11 "factor_op", .nt 12 "exponent"])]) s (List.replicate m ')') := by
      obtain ⟨b, hb, t, L, hp, _⟩ := y2
      cases b2.symm.trans hb
      cases hp with
      | act_ok hp => exact ⟨_, _, hp⟩
    exact made_act_ok (b := false) (f := ["fold_left"]) H.t16 hs (by decide) (made_seq_cons (m := 0) H.t15 (mat H.t10 y1) (c1 _ H.t10) (made_seq_cons (n := 0) (m := 0) H.t15 t2.1 t2.2 made_seq_nil))
  intro i hi
  refine made_nt hi b1 ?_
  have hs : Matches calcG noExt (.seq 8 [.nt 3 "term", .star 7 (.seq 6 [.nt 4 "term_op", .nt 5 "term"])]) s (List.replicate m ')') := by
    obtain ⟨b, hb, t, L, hp, _⟩ := y3
    cases b1.symm.trans hb
    cases hp with
    | act_ok hp => exact ⟨_, _, hp⟩
  exact made_act_ok (b := false) (f := ["fold_left"]) H.t9 hs (by decide) (made_seq_cons (m := 0) H.t8 (mat H.t3 y2) (c2 _ H.t3) (made_seq_cons (n := 0) (m := 0) H.t8 t1.1 t1.2 made_seq_nil))

/-- A digit between parentheses. -/
def parenText (n m : Nat) : List Char := List.replicate n '(' ++ '1' :: List.replicate m ')'

theorem factor_made (H : CalcTypes T) (n : Nat) : ∀ m, (∃ v, reader T sp "factor" (parenText n (n + m)) (List.replicate m ')') v) ∧
    ∀ i, T i ≠ .unit → CallsMade calcG T sp (.nt i "factor") (parenText n (n + m)) (5 * 2 ^ n - 3) := by
  have hb : calcG.find "factor" = some (.choice 34 [.act 25 (.nt 24 "number") false ["number_expr"], .act 27 (.nt 26 "identifier") false ["variable_expr"],
    .act 29 (.nt 28 "let_expr") false ["let_in_expr"], .seq 33 [.nt 30 "lparen", .nt 31 "expression", .nt 32 "rparen"]]) := rfl
  have hnum : calcG.find "number" = some (.act 71 (.seq 70 [.plus 68 (.nt 67 "digit"), .nt 69 "spacing"]) false ["to_number"]) := rfl
  have hid : calcG.find "identifier" = some (.act 64 (.seq 63 [.not 57 (.nt 56 "digit"), .not 59 (.nt 58 "keyword"), .plus 61 (.nt 60 "ident_char"), .nt 62 "spacing"]) false ["to_string"]) := rfl
  have hle : calcG.find "let_expr" = some (.seq 39 [.nt 35 "let_kw", .nt 36 "let_binding", .nt 37 "in_kw", .nt 38 "expression"]) := rfl
  have o1 : Occurs calcG (.nt 24 "number") := ⟨_, _, hb, .choice (e := .act 25 (.nt 24 "number") false ["number_expr"]) (by simp) (.act .refl)⟩
  have o2 : Occurs calcG (.nt 26 "identifier") := ⟨_, _, hb, .choice (e := .act 27 (.nt 26 "identifier") false ["variable_expr"]) (by simp) (.act .refl)⟩
  have o3 : Occurs calcG (.nt 35 "let_kw") := ⟨_, _, hle, .seq (e := .nt 35 "let_kw") (by simp) .refl⟩
  have od : Occurs calcG (.nt 67 "digit") := ⟨_, _, hnum, .act (.seq (e := .plus 68 (.nt 67 "digit")) (by simp) (.plus .refl))⟩
  have md : ∀ s, CallsMade calcG T sp (.nt 67 "digit") s 0 := fun s => made_nt H.t67 (b := .cls 66 [⟨'0', '9'⟩]) rfl made_cls
  have mw : ∀ s, CallsMade calcG T sp (.nt 60 "ident_char") s 0 := fun s => made_nt H.t60 (b := .cls 65 [⟨'a', 'z'⟩, ⟨'A', 'Z'⟩, ⟨'0', '9'⟩, ⟨'_', '_'⟩]) rfl made_cls
  have nsp : ∀ m, NotStart isSpace (List.replicate m ')') := by
    intro m; cases m with
    | zero => trivial
    | succ m => exact (by decide : isSpace ')' = false)
  have ndg : ∀ m, NotStart isDigit (List.replicate m ')') := by
    intro m; cases m with
    | zero => trivial
    | succ m => exact (by decide : isDigit ')' = false)
  induction n with
  | zero =>
    intro m
    have e : parenText 0 (0 + m) = '1' :: List.replicate m ')' := by simp [parenText]
    rw [e]
    have hr : Reads (.num ['1']) ('1' :: List.replicate m ')') (List.replicate m ')') := ⟨⟨by simp, by decide⟩, _, rfl, ndg m, spaces_none (nsp m)⟩
    refine ⟨⟨numVal ['1'], (calc_parser H).factor.2 (.inl ⟨_, hr, rfl⟩)⟩, fun i hi => made_nt hi hb ?_⟩
    have hm : Matches calcG noExt (.nt 24 "number") ('1' :: List.replicate m ')') (List.replicate m ')') :=
      ((call_val (sp := sp) H.t24).2 ((number_iff H).2 ⟨_, hr, rfl⟩)).matches
    have hone : Matches calcG noExt (.nt 67 "digit") ('1' :: List.replicate m ')') (List.replicate m ')') :=
      ((digit_one (sp := sp) H _ _ _).2 ⟨'1', rfl, by decide, rfl⟩).matches
    have hstop : Fails calcG noExt (.nt 67 "digit") (List.replicate m ')') := ((digit_one (sp := sp) H).fails od).2 (ndg m)
    have hseq : ∃ t L, Peg calcG noExt (.seq 70 [.plus 68 (.nt 67 "digit"), .nt 69 "spacing"]) ('1' :: List.replicate m ')') (.ok (List.replicate m ')') t) L := by
      obtain ⟨t, L, hp⟩ := hm
      cases hp with
      | nt_ok hb h1 =>
        cases hnum.symm.trans hb
        cases h1 with
        | act_ok h1 => exact ⟨_, _, h1⟩
    have hplus : Matches calcG noExt (.plus 68 (.nt 67 "digit")) ('1' :: List.replicate m ')') (List.replicate m ')') := by
      obtain ⟨t, L, h1⟩ := hone
      obtain ⟨L', h2⟩ := hstop
      exact ⟨_, _, .plus_ok h1 (.star_stop h2)⟩
    have hsp : CallsMade calcG T sp (.seq 70 [.nt 69 "spacing"]) (List.replicate m ')') 0 :=
      made_seq_cons (n := 0) (m := 0) H.t70 ((spacing_call (sp := sp) H).2 ⟨spaces_none (nsp m), rfl⟩).matches (made_unit H.t69) made_seq_nil
    have c : CallsMade calcG T sp (.seq 70 [.plus 68 (.nt 67 "digit"), .nt 69 "spacing"]) ('1' :: List.replicate m ')') 0 :=
      made_seq_cons (n := 0) (m := 0) H.t70 hplus (made_plus H.t68 (made_star_more (n := 0) (m := 0) H.t68 hone (md _) (made_star_stop H.t68 hstop (md _)))) hsp
    obtain ⟨t, L, hm'⟩ := hm
    exact made_choice_first H.t34 ⟨_, _, .act_ok hm'⟩ (made_act_ok H.t25 ⟨_, _, hm'⟩ (by decide) (made_nt H.t24 hnum (made_act_ok H.t71 hseq (by decide) c)))
  | succ n ih =>
    intro m
    have e : parenText (n + 1) (n + 1 + m) = '(' :: parenText n (n + (m + 1)) := by
      simp only [parenText, List.replicate_succ, List.cons_append]
      rw [show n + 1 + m = n + (m + 1) by omega]
    rw [e]
    have start : NotStart isSpace (parenText n (n + (m + 1))) := by
      cases n with
      | zero => simp [parenText, NotStart]; decide
      | succ n => simp [parenText, List.replicate_succ, NotStart]; decide
    obtain ⟨⟨v, hF⟩, hn⟩ := ih (m + 1)
    obtain ⟨⟨w, hE⟩, hc⟩ := expression_made H hF hn
    have r1 : Reads (.sym '(') ('(' :: parenText n (n + (m + 1))) (parenText n (n + (m + 1))) := reads_sym (spaces_none start)
    have r2 : Reads (.sym ')') (List.replicate (m + 1) ')') (List.replicate m ')') := reads_sym (spaces_none (nsp m))
    refine ⟨⟨w, (calc_parser H).factor.2 (.inr (.inr (.inr ⟨_, _, r1, hE, r2⟩)))⟩, fun i hi => made_nt hi hb ?_⟩
    -- the other alternatives
    have f1 : Fails calcG noExt (.nt 24 "number") ('(' :: parenText n (n + (m + 1))) := by
      rw [calc_fails_iff (T := T) (sp := sp) o1]
      intro rest vs h
      rw [call_val H.t24, number_iff H] at h
      obtain ⟨ds, h, _⟩ := h
      exact sym_not (by decide) r1 (word_head (by simp)) h
    have f2 : Fails calcG noExt (.nt 26 "identifier") ('(' :: parenText n (n + (m + 1))) := by
      rw [calc_fails_iff (T := T) (sp := sp) o2]
      intro rest vs h
      rw [call_val H.t26, identifier_iff H] at h
      obtain ⟨x, h, _⟩ := h
      exact sym_not (by decide) r1 (word_head (by simp)) h
    have f3 : Fails calcG noExt (.nt 35 "let_kw") ('(' :: parenText n (n + (m + 1))) := by
      rw [calc_fails_iff (T := T) (sp := sp) o3]
      intro rest vs h
      rw [call_unit H.t35] at h
      obtain ⟨⟨ws, h⟩, _⟩ := h
      exact sym_not (by decide) r1 (word_head (by simp)) ((let_iff H).1 h).1
    have fd : Fails calcG noExt (.nt 67 "digit") ('(' :: parenText n (n + (m + 1))) := ((digit_one (sp := sp) H).fails od).2 (by decide : isDigit '(' = false)
    have od' : Occurs calcG (.nt 60 "ident_char") := ⟨_, _, hid, .act (.seq (e := .plus 61 (.nt 60 "ident_char")) (by simp) (.plus .refl))⟩
    have fw : Fails calcG noExt (.nt 60 "ident_char") ('(' :: parenText n (n + (m + 1))) := ((word_one (sp := sp) H).fails od').2 (by decide : isWord '(' = false)
    have fail : ∀ {i r b f}, Fails calcG noExt (.nt i r) ('(' :: parenText n (n + (m + 1))) → calcG.find r = some b → Fails calcG noExt (.act i (.nt i r) false f) ('(' :: parenText n (n + (m + 1))) ∧
        Fails calcG noExt b ('(' :: parenText n (n + (m + 1))) := by
      rintro i r b f ⟨L, hp⟩ hb
      refine ⟨⟨_, .act_fail hp⟩, ?_⟩
      cases hp with
      | nt_fail hb' h => cases hb.symm.trans hb'; exact ⟨_, h⟩
    have inner : ∀ {i e f}, Fails calcG noExt (.act i e false f) ('(' :: parenText n (n + (m + 1))) → Fails calcG noExt e ('(' :: parenText n (n + (m + 1))) := by
      rintro i e f ⟨L, hp⟩
      cases hp with
      | act_fail h => exact ⟨_, h⟩
    have c1 : CallsMade calcG T sp (.act 25 (.nt 24 "number") false ["number_expr"]) ('(' :: parenText n (n + (m + 1))) 0 := by
      have h1 := inner (fail (f := []) f1 hnum).2
      obtain ⟨L, fd'⟩ := fd
      refine made_act_fail H.t25 f1 (made_nt H.t24 hnum (made_act_fail H.t71 h1 (made_seq_fail H.t70 ⟨_, .plus_fail fd'⟩ (made_plus H.t68 (made_star_stop H.t68 ⟨_, fd'⟩ (md _))))))
    have c2 : CallsMade calcG T sp (.act 27 (.nt 26 "identifier") false ["variable_expr"]) ('(' :: parenText n (n + (m + 1))) 0 := by
      have h1 := inner (fail (f := []) f2 hid).2
      obtain ⟨L, fw'⟩ := fw
      have n1 : Matches calcG noExt (.not 57 (.nt 56 "digit")) ('(' :: parenText n (n + (m + 1))) ('(' :: parenText n (n + (m + 1))) := by
        have := ((digit_one (sp := sp) H (i := 56)).fails ⟨_, _, hid, .act (.seq (e := .not 57 (.nt 56 "digit")) (by simp) (.not .refl))⟩ (s := '(' :: parenText n (n + (m + 1)))).2
          (by decide : isDigit '(' = false)
        obtain ⟨L, h⟩ := this
        exact ⟨_, _, .not_ok h⟩
      have n2 : Matches calcG noExt (.not 59 (.nt 58 "keyword")) ('(' :: parenText n (n + (m + 1))) ('(' :: parenText n (n + (m + 1))) := by
        obtain ⟨L, h⟩ := (keyword_fails H sp (s := '(' :: parenText n (n + (m + 1)))).2
          ⟨fun rest h => sym_not (by decide) r1 (word_head (by simp)) h, fun rest h => sym_not (by decide) r1 (word_head (by simp)) h⟩
        exact ⟨_, _, .not_ok h⟩
      refine made_act_fail H.t27 f2 (made_nt H.t26 hid (made_act_fail H.t64 h1 ?_))
      exact made_seq_cons (n := 0) (m := 0) H.t63 n1 (made_unit H.t57) (made_seq_cons (n := 0) (m := 0) H.t63 n2 (made_unit H.t59)
        (made_seq_fail H.t63 ⟨_, .plus_fail fw'⟩ (made_plus H.t61 (made_star_stop H.t61 ⟨_, fw'⟩ (mw _)))))
    have f3' : Fails calcG noExt (.nt 28 "let_expr") ('(' :: parenText n (n + (m + 1))) := by
      obtain ⟨L, h⟩ := f3
      exact ⟨_, .nt_fail hle (.seq_fail h)⟩
    have c3 : CallsMade calcG T sp (.act 29 (.nt 28 "let_expr") false ["let_in_expr"]) ('(' :: parenText n (n + (m + 1))) 0 :=
      made_act_fail H.t29 f3' (made_nt H.t28 hle (made_seq_fail H.t39 f3 (made_unit H.t35)))
    have act : ∀ {i e f}, Fails calcG noExt e ('(' :: parenText n (n + (m + 1))) → Fails calcG noExt (.act i e false f) ('(' :: parenText n (n + (m + 1))) := by
      rintro i e f ⟨L, h⟩; exact ⟨_, .act_fail h⟩
    have lp : Matches calcG noExt (.nt 30 "lparen") ('(' :: parenText n (n + (m + 1))) (parenText n (n + (m + 1))) :=
      ((call_unit (sp := sp) H.t30).2 ⟨⟨[], (sym_iff H (c := '(') (l := "(") rfl H.t108 (by decide)).2 ⟨r1, rfl⟩⟩, rfl⟩).matches
    have rp : Matches calcG noExt (.nt 32 "rparen") (List.replicate (m + 1) ')') (List.replicate m ')') :=
      ((call_unit (sp := sp) H.t32).2 ⟨⟨[], (sym_iff H (c := ')') (l := ")") rfl H.t111 (by decide)).2 ⟨r2, rfl⟩⟩, rfl⟩).matches
    have ex : Matches calcG noExt (.nt 31 "expression") (parenText n (n + (m + 1))) (List.replicate (m + 1) ')') := ((call_val H.t31).2 hE).matches
    have c4 : CallsMade calcG T sp (.seq 33 [.nt 30 "lparen", .nt 31 "expression", .nt 32 "rparen"]) ('(' :: parenText n (n + (m + 1))) (0 + (2 * (5 * 2 ^ n - 3) + 3 + (0 + 0))) :=
      made_seq_cons H.t33 lp (made_unit H.t30) (made_seq_cons H.t33 ex (hc _ H.t31) (made_seq_cons H.t33 rp (made_unit H.t32) made_seq_nil))
    have m4 : Matches calcG noExt (.seq 33 [.nt 30 "lparen", .nt 31 "expression", .nt 32 "rparen"]) ('(' :: parenText n (n + (m + 1))) (List.replicate m ')') := by
      obtain ⟨_, _, h1⟩ := lp
      obtain ⟨_, _, h2⟩ := ex
      obtain ⟨_, _, h3⟩ := rp
      exact ⟨_, _, .seq_cons h1 (.seq_cons h2 (.seq_cons h3 .seq_nil))⟩
    have := made_choice_next H.t34 (act f1) c1 (made_choice_next H.t34 (act f2) c2 (made_choice_next H.t34 (act f3') c3 (made_choice_first (es := []) H.t34 m4 c4)))
    have h2 : 1 ≤ 2 ^ n := Nat.one_le_two_pow
    rw [show 5 * 2 ^ (n + 1) - 3 = 0 + (0 + (0 + (0 + (2 * (5 * 2 ^ n - 3) + 3 + (0 + 0))))) by rw [Nat.pow_succ]; omega]
    exact this

end

/-- C63: the calls are exponential in the depth of the parentheses: on the digit `1` between `n` pairs of parentheses, a text of `2 * n + 1` characters, the functions of the user are
called `10 * 2 ^ n - 3` times. -/
theorem C63_exponential {fs} (hc : CalcCode fs) (ptr n : Nat) : ∃ st', Steps noFns fs true "program" (start ptr (parenText n n)) st' ∧ st'.calls.length + 3 = 10 * 2 ^ n := by
  obtain ⟨T, H, d⟩ := calc_deployed hc ptr (parenText n n)
  have hb : calcG.find "program" = some (.seq 2 [.nt 0 "spacing", .nt 1 "expression"]) := rfl
  obtain ⟨st', h⟩ := C13_terminates_at d calc_accepted (fun _ _ _ _ _ h => h.elim) (fun i p h => absurd h calc_noext) (r := "program") rfl true (start ptr (parenText n n)) (okSt_new ptr _)
  refine ⟨st', h, ?_⟩
  obtain ⟨cs, h1, h2⟩ := C17_calls d noFns_quiet hb (okSt_new ptr _) h
  have hr : (PState.new (StrStream.new ptr (parenText n n)) : PState StrStream Val).cur.rest = parenText n n := by simp [PState.new]
  rw [hr] at h2
  obtain ⟨⟨v, hF⟩, hn⟩ := factor_made (sp := strSpans (parenText n n)) H n 0
  obtain ⟨⟨w, hE⟩, he⟩ := expression_made H hF hn
  have start : NotStart isSpace (parenText n n) := by
    cases n with
    | zero => simp [parenText, NotStart]; decide
    | succ n => simp [parenText, List.replicate_succ, NotStart]; decide
  have hm := ((spacing_call (T := T) (sp := strSpans (parenText n n)) (i := 0) H).2 ⟨spaces_none start, rfl⟩).matches
  obtain ⟨cs', hu, hlen⟩ := made_seq_cons (n := 0) H.t2 hm (made_unit H.t0) (made_seq_cons (m := 0) H.t2 ((call_val H.t1).2 hE).matches (he _ H.t1) made_seq_nil)
  rw [h1, ← (h2 cs').1 hu]
  have h3 : 1 ≤ 2 ^ n := Nat.one_le_two_pow
  simp only [PState.new, List.nil_append, hlen]
  omega

/-! ## Examples -/

/-- The text of the theorem for two pairs of parentheses. -/
example : parenText 2 2 = "((1))".toList := by decide

/-- A call that panics, and one that does not. -/
example : PanickingCall (.app ["to_number"] [.list ("4294967296".toList.map .chr)]) ∧ ¬ PanickingCall (.app ["to_number"] [.list ("4294967295".toList.map .chr)]) := by
  refine ⟨⟨_, rfl, by decide⟩, ?_⟩
  rintro ⟨ds, h, h1⟩
  simp only [Val.app.injEq, List.cons.injEq, Val.list.injEq, and_true, true_and] at h
  rw [← (List.map_inj_right (fun a b h => by cases h; rfl)).1 h] at h1
  revert h1
  decide

end Oak
