import Verif.Properties.Parsing
/-!
Properties of the operators, as observed by calling the functions generated for rules made of them.
-/
set_option linter.constructorNameAsVariable false
set_option autoImplicit false

namespace Oak
open Spec

variable {G : Grammar} {T : Nat → Ty} {fs : List (FnRef × Fn)} {ext : Nat → FnRef → PState StrStream Val → Res (PState StrStream Val)}
  {X : ExtSpec} {ptr : Nat} {input : List Char} {r r1 r2 : String} {e e1 e2 : Expr} {es : List Expr} {i j : Nat} {p : Bool}
  {st : PState StrStream Val} {s' : List Char}

/-! ### C14: ordered choice -/

/-- C14: a choice takes the first branch that matches; the branches before it were tried from the same position. -/
theorem C14_first_match (d : Deployed G T fs ext X ptr input) (he : G.find r = some (.choice i es)) (hst : OkSt (StrStream.At ptr input) st) :
    StepsTo ext fs p r ptr input st s' ↔ FirstMatch G X es st.cur.rest s' := by
  rw [C08_position d he p st hst, choice_matches_iff]

/-- C14: a choice fails iff all its branches fail at the current position. -/
theorem C14_all_fail (d : Deployed G T fs ext X ptr input) (he : G.find r = some (.choice i es)) (hst : OkSt (StrStream.At ptr input) st) :
    StepsFail ext fs p r st ↔ ∀ b ∈ es, Fails G X b st.cur.rest := by
  rw [C08_failure d he p st hst, choice_fails_iff]

/-- C14: a choice followed by something else commits to its first matching branch: the rest of the sequence is tried only
after that branch. -/
theorem C14_commit {fs' : List Expr} (d : Deployed G T fs ext X ptr input) (he : G.find r = some (.seq i (.choice j es :: fs')))
    (hst : OkSt (StrStream.At ptr input) st) :
    StepsTo ext fs p r ptr input st s' ↔ ∃ s1, FirstMatch G X es st.cur.rest s1 ∧ Follow G X fs' s1 s' := by
  rw [C08_position d he p st hst, seq_matches_iff]
  constructor
  · intro h
    cases h with
    | cons h1 h2 => exact ⟨_, choice_matches_iff.1 h1, h2⟩
  · rintro ⟨s1, h1, h2⟩
    exact .cons (choice_matches_iff.2 h1) h2

/-- C14: when what follows the choice fails after the first matching branch, the whole fails: no other branch is tried. -/
theorem C14_no_retry (d : Deployed G T fs ext X ptr input) (he : G.find r = some (.seq i [.choice j es, e]))
    (hst : OkSt (StrStream.At ptr input) st) {s1 : List Char} (h1 : FirstMatch G X es st.cur.rest s1) (h2 : Fails G X e s1) :
    StepsFail ext fs p r st ∧ ∀ s', ¬ StepsTo ext fs p r ptr input st s' := by
  have hm : Matches G X (.choice j es) st.cur.rest s1 := choice_matches_iff.2 h1
  have hf : Fails G X (.seq i [.choice j es, e]) st.cur.rest :=
    seq_fails_iff.2 ⟨[.choice j es], e, [], s1, rfl, .cons hm .nil, h2⟩
  refine ⟨(C08_failure d he p st hst).2 hf, fun s' h => ?_⟩
  exact Matches.not_fails d.ext.det ((C08_position d he p st hst s').1 h) hf

/-- C14: the nesting of choices does not matter: two rules that differ only in it return the same results. -/
theorem C14_nesting (d : Deployed G T fs ext X ptr input) {as bs cs : List Expr}
    (h1 : G.find r1 = some (.choice i (as ++ .choice j bs :: cs))) (h2 : G.find r2 = some (.choice i (as ++ (bs ++ cs))))
    (x : PResult StrStream Unit) :
    (∃ res, Returns ext fs p r1 ptr input res ∧ res.shape = x) ↔ (∃ res, Returns ext fs p r2 ptr input res ∧ res.shape = x) := by
  have shape : ∀ {e1 e2 : Expr} {o1 o2 : Out} {L : Log}, o1.stop = o2.stop →
      (expectedResult G T e1 p ptr input L o1).shape = (expectedResult G T e2 p ptr input L o2).shape := by
    intro e1 e2 o1 o2 L h
    cases o1 <;> cases o2 <;> simp only [Out.stop, Option.some.injEq, reduceCtorEq] at h
    · rfl
    · subst h
      simp only [expectedResult]
      split <;> rfl
  constructor
  · rintro ⟨res, h, rfl⟩
    obtain ⟨o, L, hp, rfl⟩ := (d.returns_iff h1 _ _).1 h
    obtain ⟨o', hp', ho⟩ := outcome_choice_nest.1 ⟨o, hp, rfl⟩
    exact ⟨_, (d.returns_iff h2 _ _).2 ⟨o', L, hp', rfl⟩, shape ho⟩
  · rintro ⟨res, h, rfl⟩
    obtain ⟨o, L, hp, rfl⟩ := (d.returns_iff h2 _ _).1 h
    obtain ⟨o', hp', ho⟩ := outcome_choice_nest.2 ⟨o, hp, rfl⟩
    exact ⟨_, (d.returns_iff h1 _ _).2 ⟨o', L, hp', rfl⟩, shape ho⟩

/-- `("ab" / "a") "c"` on `abx`: the branch `"ab"` matches, then `"c"` fails and `"a"` is not tried. -/
example : StepsFail noFns Sample.opsFs false "commit" (start 0 "abx".toList) := by
  refine (C14_no_retry (Sample.ops_generated.deployed 0 _) rfl (okSt_new 0 _) (s1 := ['x']) ?_ ?_).1
  · exact ⟨[], _, _, rfl, by simp, _, _, .str_ok (lit := "ab") (r := ['x'])⟩
  · exact ⟨_, .str_fail (by decide)⟩

/-- On `ac` the first branch fails, the second one is taken. -/
example : ∃ s1, FirstMatch Sample.ops noExt [.str 0 "ab", .str 1 "a"] "ac".toList s1 ∧ Follow Sample.ops noExt [.str 3 "c"] s1 [] :=
  (C14_commit (p := false) (st := start 0 "ac".toList) (Sample.ops_generated.deployed 0 "ac".toList) (r := "commit") rfl (okSt_new 0 _)).1
    ⟨_, ⟨20, rfl⟩, rfl, ⟨rfl, rfl, "ac".toList, [], rfl, rfl⟩, rfl⟩

/-- `"a" / ("b" / "c") / "d"` and `"a" / "b" / "c" / "d"` on `cd`. -/
example : ∃ res, Returns noFns Sample.opsFs false "flat" 0 "cd".toList res ∧ res.shape = .part () ⟨0, ['c', 'd'], 0⟩ ["a", "b"] :=
  (C14_nesting (r1 := "nested") (as := [.str 0 "a"]) (bs := [.str 1 "b", .str 2 "c"]) (cs := [.str 4 "d"])
    (Sample.ops_generated.deployed 0 _) rfl rfl _).1 ⟨_, ⟨20, rfl⟩, rfl⟩

/-! ### C15: repetitions -/

/-- C15: `e*` reads successive matches of `e` until `e` fails, and stops after the last match. -/
theorem C15_star (d : Deployed G T fs ext X ptr input) (he : G.find r = some (.star i e)) (hst : OkSt (StrStream.At ptr input) st) :
    StepsTo ext fs p r ptr input st s' ↔ (∃ k, Chain G X e k st.cur.rest s') ∧ Fails G X e s' := by
  rw [C08_position d he p st hst, star_matches_iff]

/-- C15: `e*` never fails. -/
theorem C15_star_never_fails (d : Deployed G T fs ext X ptr input) (he : G.find r = some (.star i e)) (hst : OkSt (StrStream.At ptr input) st) :
    ¬ StepsFail ext fs p r st := by
  rw [C08_failure d he p st hst]; exact star_not_fails

/-- C15: `e+` is the same with at least one match. -/
theorem C15_plus (d : Deployed G T fs ext X ptr input) (he : G.find r = some (.plus i e)) (hst : OkSt (StrStream.At ptr input) st) :
    StepsTo ext fs p r ptr input st s' ↔ (∃ k, Chain G X e (k + 1) st.cur.rest s') ∧ Fails G X e s' := by
  rw [C08_position d he p st hst, plus_matches_iff]

/-- C15: `e+` fails iff `e` fails. -/
theorem C15_plus_fails (d : Deployed G T fs ext X ptr input) (he : G.find r = some (.plus i e)) (hst : OkSt (StrStream.At ptr input) st) :
    StepsFail ext fs p r st ↔ Fails G X e st.cur.rest := by
  rw [C08_failure d he p st hst, plus_fails_iff]

/-- C15: a repetition never gives back what it read: what follows `e*` is tried only where `e` fails. -/
theorem C15_possessive (d : Deployed G T fs ext X ptr input) (he : G.find r = some (.seq i (.star j e :: es)))
    (hst : OkSt (StrStream.At ptr input) st) :
    StepsTo ext fs p r ptr input st s' ↔ ∃ k s1, Chain G X e k st.cur.rest s1 ∧ Fails G X e s1 ∧ Follow G X es s1 s' := by
  rw [C08_position d he p st hst, seq_matches_iff]
  constructor
  · intro h
    cases h with
    | cons h1 h2 =>
      obtain ⟨⟨k, hc⟩, hf⟩ := star_matches_iff.1 h1
      exact ⟨k, _, hc, hf, h2⟩
  · rintro ⟨k, s1, hc, hf, h2⟩
    exact .cons (star_matches_iff.2 ⟨⟨k, hc⟩, hf⟩) h2

/-- C15: the data of `e*` (`e+`) is a list with one value per match. -/
theorem C15_data (d : Deployed G T fs ext X ptr input) (he : G.find r = some (.star i e) ∨ G.find r = some (.plus i e)) (hT : T i ≠ .unit)
    (hst : OkSt (StrStream.At ptr input) st) {st' : PState StrStream Val} (h : Steps ext fs true r st st') (hf : st'.failed = false) :
    ∃ vs, st'.data = some (.list vs) ∧ Chain G X e vs.length st.cur.rest st'.cur.rest := by
  have key : ∀ {t s s' L}, Peg G X (.star i e) s (.ok s' t) L → ∃ ts, t = .rep ts ∧ Chain G X e ts.length s s' := by
    intro t s s' L h
    generalize hx : Expr.star i e = x at h
    generalize ho : Out.ok s' t = o at h
    induction h generalizing t with
    | star_stop h => cases hx; cases ho; exact ⟨[], rfl, .zero⟩
    | star_more h1 h2 _ ih =>
      cases hx; cases ho
      obtain ⟨ts', h1', hc⟩ := ih rfl rfl
      cases h1'
      exact ⟨_, rfl, .succ ⟨_, _, h1⟩ hc⟩
    | _ => cases hx
  have len : ∀ ts, (astRep G T (strSpans input) e ts).length = ts.length := by
    intro ts
    induction ts with
    | nil => rfl
    | cons t ts ih => simp [astRep, ih]
  rcases he with he | he
  · rcases C11_data d he st st' hst h with ⟨hf', _⟩ | ⟨_, t, L, hp, hd⟩
    · rw [hf] at hf'; cases hf'
    · obtain ⟨ts, rfl, hc⟩ := key hp
      simp only [ast, Expr.id, hT, if_false] at hd
      exact ⟨_, hd, by rw [len]; exact hc⟩
  · rcases C11_data d he st st' hst h with ⟨hf', _⟩ | ⟨_, t, L, hp, hd⟩
    · rw [hf] at hf'; cases hf'
    · cases hp with
      | plus_ok h1 h2 =>
        obtain ⟨ts, h3, hc⟩ := key h2
        cases h3
        simp only [ast, Expr.id, hT, if_false] at hd
        exact ⟨_, hd, by rw [len]; exact .succ ⟨_, _, h1⟩ hc⟩

/-- `"ab"*` on `ababac` reads two times `ab`. -/
example : (∃ k, Chain Sample.ops noExt (.str 0 "ab") k "ababac".toList "ac".toList) ∧ Fails Sample.ops noExt (.str 0 "ab") "ac".toList :=
  (C15_star (p := false) (st := start 0 "ababac".toList) (Sample.ops_generated.deployed 0 "ababac".toList) (r := "star") rfl (okSt_new 0 _)).1
    ⟨_, ⟨20, rfl⟩, rfl, ⟨rfl, rfl, "abab".toList, "ac".toList, rfl, rfl⟩, rfl⟩

/-- `"a"* "a"` never matches: on `aaa` it fails. -/
example : StepsFail noFns Sample.opsFs false "possessive" (start 0 "aaa".toList) := ⟨_, ⟨20, rfl⟩, rfl⟩

/-- `["0-9"]+` on `12x`, as data. -/
example : ∃ vs, some (Val.list [.chr '1', .chr '2']) = some (.list vs) ∧
    Chain Sample.digits noExt (.cls 0 [⟨'0', '9'⟩]) vs.length "12x".toList "x".toList :=
  C15_data (st := start 0 "12x".toList) (Sample.digits_generated.deployed 0 "12x".toList) (r := "digits") (i := 1) (.inr rfl) (by decide)
    (okSt_new 0 _) ⟨20, rfl⟩ rfl

/-! ### C16: predicates -/

/-- C16: `&e` succeeds iff `e` does, and consumes nothing. -/
theorem C16_and (d : Deployed G T fs ext X ptr input) (he : G.find r = some (.and i e)) (hst : OkSt (StrStream.At ptr input) st) :
    (StepsTo ext fs p r ptr input st s' ↔ s' = st.cur.rest ∧ ∃ s1, Matches G X e st.cur.rest s1) ∧
    (StepsFail ext fs p r st ↔ Fails G X e st.cur.rest) := by
  rw [C08_position d he p st hst, C08_failure d he p st hst, and_matches_iff, and_fails_iff]
  exact ⟨Iff.rfl, Iff.rfl⟩

/-- C16: `!e` succeeds iff `e` fails, and consumes nothing. -/
theorem C16_not (d : Deployed G T fs ext X ptr input) (he : G.find r = some (.not i e)) (hst : OkSt (StrStream.At ptr input) st) :
    (StepsTo ext fs p r ptr input st s' ↔ s' = st.cur.rest ∧ Fails G X e st.cur.rest) ∧
    (StepsFail ext fs p r st ↔ ∃ s1, Matches G X e st.cur.rest s1) := by
  rw [C08_position d he p st hst, C08_failure d he p st hst, not_matches_iff, not_fails_iff]
  exact ⟨Iff.rfl, Iff.rfl⟩

/-- C16: a predicate within a sequence consumes nothing: what follows it is tried at the same position. -/
theorem C16_inside_sequence (d : Deployed G T fs ext X ptr input)
    (he : G.find r = some (.seq i (.not j e :: es)) ∨ G.find r = some (.seq i (.and j e :: es)))
    (hst : OkSt (StrStream.At ptr input) st) (h : StepsTo ext fs p r ptr input st s') : Follow G X es st.cur.rest s' := by
  rcases he with he | he <;> rw [C08_position d he p st hst, seq_matches_iff] at h
  · cases h with | cons h1 h2 => rw [(not_matches_iff.1 h1).1] at h2; exact h2
  · cases h with | cons h1 h2 => rw [(and_matches_iff.1 h1).1] at h2; exact h2

/-- C16: a predicate contributes nothing to the AST: removing it from a sequence leaves the values unchanged. -/
theorem C16_no_data {sp : SpanSpec} {s : List Char} {t : Tree} {L : Log} {ts : List Tree}
    (h : Peg G X (.not j e) s (.ok s' t) L ∨ Peg G X (.and j e) s (.ok s' t) L) :
    astSeq G T sp (.not j e :: es) (t :: ts) = astSeq G T sp es ts ∧ astSeq G T sp (.and j e :: es) (t :: ts) = astSeq G T sp es ts := by
  obtain rfl := predicate_tree h
  simp [astSeq, ast]

/-- `!"a"` succeeds on `b` and stays there; `&"a"` succeeds on `a` and stays there. -/
example : Fails Sample.ops noExt (.str 0 "a") "b".toList ∧ ∃ s1, Matches Sample.ops noExt (.str 0 "a") "a".toList s1 :=
  ⟨((C16_not (p := false) (st := start 0 "b".toList) (Sample.ops_generated.deployed 0 "b".toList) (r := "not") rfl (okSt_new 0 _)).1.1
      ⟨_, ⟨20, rfl⟩, rfl, .new _ _, rfl⟩).2,
   ((C16_and (p := true) (st := start 0 "a".toList) (Sample.ops_generated.deployed 0 "a".toList) (r := "and") rfl (okSt_new 0 _)).1.1
      ⟨_, ⟨20, rfl⟩, rfl, .new _ _, rfl⟩).2⟩

/-! ### C37: a failing expression gives back what it consumed -/

/-- C37: when the optional part of a sequence fails, what follows is tried where the optional part started. -/
theorem C37_optional (d : Deployed G T fs ext X ptr input) (he : G.find r = some (.seq i (.opt j e :: es)))
    (hst : OkSt (StrStream.At ptr input) st) (hf : Fails G X e st.cur.rest) :
    StepsTo ext fs p r ptr input st s' ↔ Follow G X es st.cur.rest s' := by
  rw [C08_position d he p st hst, seq_matches_iff]
  constructor
  · intro h
    cases h with
    | cons h1 h2 =>
      rcases opt_matches_iff.1 h1 with h | ⟨_, rfl⟩
      · exact absurd hf (h.not_fails d.ext.det)
      · exact h2
  · intro h
    exact .cons (opt_matches_iff.2 (.inr ⟨hf, rfl⟩)) h

/-- C37: when the first branches of a choice fail, the others are tried where the choice started. -/
theorem C37_choice (d : Deployed G T fs ext X ptr input) {bs : List Expr} (he : G.find r = some (.choice i (es ++ bs)))
    (hst : OkSt (StrStream.At ptr input) st) (hf : ∀ e ∈ es, Fails G X e st.cur.rest) :
    (StepsTo ext fs p r ptr input st s' ↔ FirstMatch G X bs st.cur.rest s') ∧
    (StepsFail ext fs p r st ↔ ∀ b ∈ bs, Fails G X b st.cur.rest) := by
  rw [C14_first_match d he hst, C14_all_fail d he hst]
  refine ⟨⟨?_, ?_⟩, ⟨fun h b hb => h b (by simp [hb]), fun h b hb => ?_⟩⟩
  · exact firstMatch_skip d.ext.det hf
  · rintro ⟨l, x, a, rfl, h1, h2⟩
    refine ⟨es ++ l, x, a, by simp, ?_, h2⟩
    intro b hb
    rcases List.mem_append.1 hb with hb | hb
    · exact hf b hb
    · exact h1 b hb
  · rcases List.mem_append.1 hb with hb | hb
    · exact hf b hb
    · exact h b hb

/-- C37: when an iteration of `e*` fails, what follows is tried where that iteration started. -/
theorem C37_iteration (d : Deployed G T fs ext X ptr input) (he : G.find r = some (.seq i (.star j e :: es)))
    (hst : OkSt (StrStream.At ptr input) st) {k : Nat} {s1 : List Char} (hc : Chain G X e k st.cur.rest s1) (hf : Fails G X e s1) :
    StepsTo ext fs p r ptr input st s' ↔ Follow G X es s1 s' := by
  rw [C08_position d he p st hst, seq_matches_iff]
  have hm : Matches G X (.star j e) st.cur.rest s1 := star_matches_iff.2 ⟨⟨k, hc⟩, hf⟩
  constructor
  · intro h
    cases h with
    | cons h1 h2 => rw [hm.unique d.ext.det h1]; exact h2
  · intro h
    exact .cons hm h

/-- `("a" "b")? "a" "c"` on `ac`: `"a"` was consumed by the optional part, and is given back. -/
example : Follow Sample.ops noExt [.str 4 "a", .str 5 "c"] "ac".toList [] :=
  (C37_optional (p := true) (st := start 0 "ac".toList) (Sample.ops_generated.deployed 0 "ac".toList) (r := "opt") rfl (okSt_new 0 _)
    ⟨_, .seq_later (.str_ok (lit := "a") (r := ['c'])) (.seq_fail (.str_fail (by decide)))⟩).1
    ⟨_, ⟨20, rfl⟩, rfl, ⟨rfl, rfl, "ac".toList, [], rfl, rfl⟩, rfl⟩

end Oak
