import Verif.Properties.Samples
import Verif.Proofs.PegOps
/-!
Properties of generated recognizers and parsers: results, determinism, agreement, data.
-/
set_option linter.constructorNameAsVariable false
set_option autoImplicit false

namespace Oak
open Spec

variable {G : Grammar} {T : Nat → Ty} {fs : List (FnRef × Fn)} {ext : Nat → FnRef → PState StrStream Val → Res (PState StrStream Val)}
  {X : ExtSpec} {ptr : Nat} {input : List Char} {r : String} {e : Expr}

/-! ### Tools -/

theorem Deployed.returns_iff (d : Deployed G T fs ext X ptr input) (he : G.find r = some e) (p : Bool) (res : PResult StrStream Val) :
    Returns ext fs p r ptr input res ↔ ∃ o L, Peg G X e input o L ∧ res = expectedResult G T e p ptr input L o := by
  constructor
  · rintro ⟨n, hn⟩
    rcases d.parse_sound n p r e he with h | ⟨o, L, hp, h⟩
    · rw [h] at hn; cases hn
    · rw [h] at hn; cases hn; exact ⟨o, L, hp, rfl⟩
  · rintro ⟨o, L, hp, rfl⟩
    obtain ⟨n, h⟩ := d.parse_complete p r e he o L hp
    exact ⟨n, h n (Nat.le_refl n)⟩

theorem Deployed.steps_iff (d : Deployed G T fs ext X ptr input) (he : G.find r = some e) (p : Bool) {st st' : PState StrStream Val}
    (hst : OkSt (StrStream.At ptr input) st) (h : Steps ext fs p r st st') :
    ∃ o L, Peg G X e st.cur.rest o L ∧
      FnRes (StrStream.At ptr input) StrStream.rest (RuleVal G T (strSpans input) e p) st L st' o := by
  obtain ⟨n, hn⟩ := h
  rcases d.run_sound n p r e he st hst with h | ⟨o, L, st1, h, hp, hr⟩
  · rw [h] at hn; cases hn
  · rw [h] at hn; cases hn; exact ⟨o, L, hp, hr⟩

theorem Deployed.steps_of (d : Deployed G T fs ext X ptr input) (he : G.find r = some e) (p : Bool) {st : PState StrStream Val}
    (hst : OkSt (StrStream.At ptr input) st) {o : Out} {L : Log} (h : Peg G X e st.cur.rest o L) :
    ∃ st', Steps ext fs p r st st' ∧
      FnRes (StrStream.At ptr input) StrStream.rest (RuleVal G T (strSpans input) e p) st L st' o := by
  obtain ⟨n0, hn⟩ := d.run_complete he h
  obtain ⟨st', h1, h2⟩ := hn n0 (Nat.le_refl _) p st hst rfl
  exact ⟨st', ⟨n0, h1⟩, h2⟩

/-! ### C08 -/

/-- C08: a recognizer succeeds exactly on the inputs that the rule matches entirely. -/
theorem C08_success_iff (d : Deployed G T fs ext X ptr input) (he : G.find r = some e) :
    (∃ v, Returns ext fs false r ptr input (.success v)) ↔ ∃ t L, Peg G X e input (.ok [] t) L := by
  constructor
  · rintro ⟨v, h⟩
    obtain ⟨o, L, hp, hr⟩ := (d.returns_iff he _ _).1 h
    cases o with
    | fail => simp [expectedResult] at hr
    | ok s t =>
      simp only [expectedResult] at hr
      split at hr
      · rename_i hs; subst hs; exact ⟨t, L, hp⟩
      · cases hr
  · rintro ⟨t, L, hp⟩
    exact ⟨_, (d.returns_iff he _ _).2 ⟨_, _, hp, by simp [expectedResult]; rfl⟩⟩

/-- C08: a recognizer reports a partial match exactly when the rule matches a strict prefix of the input. -/
theorem C08_partial_iff (d : Deployed G T fs ext X ptr input) (he : G.find r = some e) :
    (∃ v far exp, Returns ext fs false r ptr input (.part v far exp)) ↔ ∃ s' t L, s' ≠ [] ∧ Peg G X e input (.ok s' t) L := by
  constructor
  · rintro ⟨v, far, exp, h⟩
    obtain ⟨o, L, hp, hr⟩ := (d.returns_iff he _ _).1 h
    cases o with
    | fail => simp [expectedResult] at hr
    | ok s t =>
      simp only [expectedResult] at hr
      split at hr
      · cases hr
      · rename_i hs; exact ⟨s, t, L, hs, hp⟩
  · rintro ⟨s, t, L, hs, hp⟩
    exact ⟨_, _, _, (d.returns_iff he _ _).2 ⟨_, _, hp, by simp [expectedResult, hs]; exact ⟨rfl, rfl, rfl⟩⟩⟩

/-- C08: a recognizer reports a failure exactly when the rule does not match. -/
theorem C08_failure_iff (d : Deployed G T fs ext X ptr input) (he : G.find r = some e) :
    (∃ far exp, Returns ext fs false r ptr input (.failure far exp)) ↔ ∃ L, Peg G X e input .fail L := by
  constructor
  · rintro ⟨far, exp, h⟩
    obtain ⟨o, L, hp, hr⟩ := (d.returns_iff he _ _).1 h
    cases o with
    | fail => exact ⟨L, hp⟩
    | ok s t =>
      simp only [expectedResult] at hr
      split at hr <;> cases hr
  · rintro ⟨L, hp⟩
    exact ⟨_, _, (d.returns_iff he _ _).2 ⟨_, _, hp, rfl⟩⟩

/-- C08: from any state that has not failed, a generated function succeeds and stops at `s'` exactly when the match of the rule
ends there. -/
theorem C08_position (d : Deployed G T fs ext X ptr input) (he : G.find r = some e) (p : Bool) (st : PState StrStream Val)
    (hst : OkSt (StrStream.At ptr input) st) (s' : List Char) :
    StepsTo ext fs p r ptr input st s' ↔ Matches G X e st.cur.rest s' := by
  constructor
  · rintro ⟨st', hs, hf, _, hc⟩
    obtain ⟨o, L, hp, hr⟩ := d.steps_iff he _ hst hs
    cases o with
    | fail => rw [hr.1] at hf; cases hf
    | ok s t =>
      obtain ⟨h1, h2, _, h4⟩ := hr
      rw [← hc, h2]
      exact ⟨t, L, hp⟩
  · rintro ⟨t, L, hp⟩
    obtain ⟨st', hs, hr⟩ := d.steps_of he p hst hp
    exact ⟨st', hs, hr.1, hr.2.2.2.cur, hr.2.1⟩

/-- C08: from any state that has not failed, a generated function fails exactly when the rule does not match. -/
theorem C08_failure (d : Deployed G T fs ext X ptr input) (he : G.find r = some e) (p : Bool) (st : PState StrStream Val)
    (hst : OkSt (StrStream.At ptr input) st) :
    StepsFail ext fs p r st ↔ Fails G X e st.cur.rest := by
  constructor
  · rintro ⟨st', hs, hf⟩
    obtain ⟨o, L, hp, hr⟩ := d.steps_iff he _ hst hs
    cases o with
    | fail => exact ⟨L, hp⟩
    | ok s t => rw [hr.1] at hf; cases hf
  · rintro ⟨L, hp⟩
    obtain ⟨st', hs, hr⟩ := d.steps_of he p hst hp
    exact ⟨st', hs, hr.1⟩

/-- The rule `sum` matches `1+23` entirely. -/
example : ∃ t L, Peg Sample.sum noExt (Sample.sum.rules[0].2) "1+23".toList (.ok [] t) L :=
  (C08_success_iff (Sample.sum_generated.deployed 0 _) (r := "sum") rfl).1 ⟨_, 20, rfl⟩

/-! ### C09 -/

/-- C09: the semantics of a grammar relates an expression and an input to at most one outcome. -/
theorem C09_semantics_deterministic (hX : X.Det) {s : List Char} {o o' : Out} {L L' : Log} (h : Peg G X e s o L) (h' : Peg G X e s o' L') :
    o = o' ∧ L = L' := h.det hX h'

/-- C09: a generated function returns at most one result on an input. -/
theorem C09_result_unique (d : Deployed G T fs ext X ptr input) (he : G.find r = some e) (p : Bool) {a b : PResult StrStream Val}
    (ha : Returns ext fs p r ptr input a) (hb : Returns ext fs p r ptr input b) : a = b := by
  obtain ⟨o, L, hp, rfl⟩ := (d.returns_iff he _ _).1 ha
  obtain ⟨o', L', hp', rfl⟩ := (d.returns_iff he _ _).1 hb
  obtain ⟨rfl, rfl⟩ := hp.det d.ext.det hp'
  rfl

/-- C09: once a generated function returned, more time does not change the result. -/
theorem C09_result_stable (d : Deployed G T fs ext X ptr input) (he : G.find r = some e) (p : Bool) {a : PResult StrStream Val}
    (ha : Returns ext fs p r ptr input a) :
    ∃ n0, ∀ n, n0 ≤ n → Program.parse StrStream.ops ext ⟨fs⟩ n ⟨p, [r]⟩ (StrStream.new ptr input) = .ok a := by
  obtain ⟨o, L, hp, rfl⟩ := (d.returns_iff he _ _).1 ha
  exact d.parse_complete p r e he o L hp

/-- The result of `parse_sum` on `1+23` is this one and no other. -/
example (res : PResult StrStream Val) (h : Returns noFns Sample.sumFs true "sum" 0 "1+23".toList res) :
    res = .success (.app ["add"] [.app ["to_num"] [.list [.chr '1']], .list [.app ["to_num"] [.list [.chr '2', .chr '3']]]]) :=
  C09_result_unique (Sample.sum_generated.deployed 0 _) rfl true h ⟨20, rfl⟩

/-! ### C10 -/

/-- A result without its data. -/
def PResult.shape {S D : Type} : PResult S D → PResult S Unit
  | .success _ => .success ()
  | .part _ far exp => .part () far exp
  | .failure far exp => .failure far exp

/-- C10: the parser and the recognizer of a rule return the same kind of result, with the same farthest position and the same
expected items. -/
theorem C10_agree (d : Deployed G T fs ext X ptr input) (he : G.find r = some e) (x : PResult StrStream Unit) :
    (∃ res, Returns ext fs true r ptr input res ∧ res.shape = x) ↔ (∃ res, Returns ext fs false r ptr input res ∧ res.shape = x) := by
  have key : ∀ p q o L, (expectedResult G T e p ptr input L o).shape = (expectedResult G T e q ptr input L o).shape := by
    intro p q o L
    cases o with
    | fail => rfl
    | ok s t => by_cases h : s = [] <;> simp [expectedResult, h, PResult.shape]
  constructor
  · rintro ⟨res, h, rfl⟩
    obtain ⟨o, L, hp, rfl⟩ := (d.returns_iff he _ _).1 h
    exact ⟨_, (d.returns_iff he _ _).2 ⟨o, L, hp, rfl⟩, key _ _ _ _⟩
  · rintro ⟨res, h, rfl⟩
    obtain ⟨o, L, hp, rfl⟩ := (d.returns_iff he _ _).1 h
    exact ⟨_, (d.returns_iff he _ _).2 ⟨o, L, hp, rfl⟩, key _ _ _ _⟩

/-- C10: from any state that has not failed, the parser returns iff the recognizer does; both fail or both succeed, record the
same errors, and stop at the same position when they succeed. -/
theorem C10_agree_state (d : Deployed G T fs ext X ptr input) (he : G.find r = some e) (st : PState StrStream Val)
    (hst : OkSt (StrStream.At ptr input) st) :
    ((∃ a, Steps ext fs true r st a) ↔ (∃ b, Steps ext fs false r st b)) ∧
    ∀ a b, Steps ext fs true r st a → Steps ext fs false r st b →
      a.failed = b.failed ∧ a.far = b.far ∧ a.exp = b.exp ∧ (a.failed = false → a.cur = b.cur) := by
  constructor
  · constructor
    · rintro ⟨a, ha⟩
      obtain ⟨o, L, hp, _⟩ := d.steps_iff he _ hst ha
      obtain ⟨b, hb, _⟩ := d.steps_of he false hst hp
      exact ⟨b, hb⟩
    · rintro ⟨a, ha⟩
      obtain ⟨o, L, hp, _⟩ := d.steps_iff he _ hst ha
      obtain ⟨b, hb, _⟩ := d.steps_of he true hst hp
      exact ⟨b, hb⟩
  · intro a b ha hb
    obtain ⟨o, L, hp, hra⟩ := d.steps_iff he _ hst ha
    obtain ⟨o', L', hp', hrb⟩ := d.steps_iff he _ hst hb
    obtain ⟨rfl, rfl⟩ := hp.det d.ext.det hp'
    have key : ∀ {a b : PState StrStream Val}, After (StrStream.At ptr input) StrStream.rest st a L →
        After (StrStream.At ptr input) StrStream.rest st b L → a.far = b.far ∧ a.exp = b.exp := by
      intro a b h1 h2
      have := h1.track.trans h2.track.symm
      simp only [Prod.mk.injEq] at this
      exact ⟨h1.far.inj h2.far this.1, this.2⟩
    cases o with
    | fail =>
      obtain ⟨h1, _, h3⟩ := hra
      obtain ⟨k1, _, k3⟩ := hrb
      obtain ⟨e1, e2⟩ := key h3 k3
      exact ⟨by rw [h1, k1], e1, e2, by rw [h1]; intro h; cases h⟩
    | ok s t =>
      obtain ⟨h1, h2, _, h3⟩ := hra
      obtain ⟨k1, k2, _, k3⟩ := hrb
      obtain ⟨e1, e2⟩ := key h3 k3
      exact ⟨by rw [h1, k1], e1, e2, fun _ => h3.cur.inj k3.cur (by rw [h2, k2])⟩

/-- On `1+` both functions of `sum` report a partial match stopped at offset 2, expecting a digit. -/
example : (∃ res, Returns noFns Sample.sumFs true "sum" 0 "1+".toList res ∧
      res.shape = .part () ⟨0, "1+".toList, 2⟩ ["[\"0-9\"]"]) ∧
    ∃ res, Returns noFns Sample.sumFs false "sum" 0 "1+".toList res ∧ res.shape = .part () ⟨0, "1+".toList, 2⟩ ["[\"0-9\"]"] :=
  have h : ∃ res, Returns noFns Sample.sumFs true "sum" 0 "1+".toList res ∧
      res.shape = .part () ⟨0, "1+".toList, 2⟩ ["[\"0-9\"]"] := ⟨_, ⟨20, rfl⟩, rfl⟩
  ⟨h, (C10_agree (Sample.sum_generated.deployed 0 _) rfl _).1 h⟩

/-! ### C11 -/

/-- C11: when the parser of a rule succeeds on the whole input, its data is the AST of the match. -/
theorem C11_success_data (d : Deployed G T fs ext X ptr input) (he : G.find r = some e) (v : Val) :
    Returns ext fs true r ptr input (.success v) ↔
      ∃ t L, Peg G X e input (.ok [] t) L ∧ v = tupleVal (ast G T (strSpans input) e t) := by
  constructor
  · intro h
    obtain ⟨o, L, hp, hr⟩ := (d.returns_iff he _ _).1 h
    cases o with
    | fail => simp [expectedResult] at hr
    | ok s t =>
      simp only [expectedResult] at hr
      split at hr
      · rename_i hs; subst hs; cases hr; exact ⟨t, L, hp, rfl⟩
      · cases hr
  · rintro ⟨t, L, hp, rfl⟩
    exact (d.returns_iff he _ _).2 ⟨_, _, hp, by simp [expectedResult]⟩

/-- C11: from any state that has not failed, the data of a successful parser is the AST of the match. -/
theorem C11_data (d : Deployed G T fs ext X ptr input) (he : G.find r = some e) (st st' : PState StrStream Val)
    (hst : OkSt (StrStream.At ptr input) st) (h : Steps ext fs true r st st') :
    (st'.failed = true ∧ st'.data = none ∧ ∃ L, Peg G X e st.cur.rest .fail L) ∨
    (st'.failed = false ∧ ∃ t L, Peg G X e st.cur.rest (.ok st'.cur.rest t) L ∧
      st'.data = some (tupleVal (ast G T (strSpans input) e t))) := by
  obtain ⟨o, L, hp, hr⟩ := d.steps_iff he _ hst h
  cases o with
  | fail => exact .inl ⟨hr.1, hr.2.1, L, hp⟩
  | ok s t =>
    obtain ⟨h1, h2, ⟨v, hv, hq, _⟩, _⟩ := hr
    rw [h2]
    exact .inr ⟨h1, t, L, hp, by rw [hv, hq]; rfl⟩

/-- C11: a recognizer gives no data but `()`. -/
theorem C11_recognizer_data (d : Deployed G T fs ext X ptr input) (he : G.find r = some e) (st st' : PState StrStream Val)
    (hst : OkSt (StrStream.At ptr input) st) (h : Steps ext fs false r st st') (hf : st'.failed = false) :
    st'.data = some (.tup []) := by
  obtain ⟨o, L, hp, hr⟩ := d.steps_iff he _ hst h
  cases o with
  | fail => rw [hr.1] at hf; cases hf
  | ok s t =>
    obtain ⟨h1, h2, ⟨v, hv, hq, _⟩, _⟩ := hr
    rw [hv, hq]; rfl

/-- The AST of `1+23`. -/
example : ∃ t L, Peg Sample.sum noExt (Sample.sum.rules[0].2) "1+23".toList (.ok [] t) L ∧
    Val.app ["add"] [.app ["to_num"] [.list [.chr '1']], .list [.app ["to_num"] [.list [.chr '2', .chr '3']]]] =
      tupleVal (ast Sample.sum Sample.sumT (strSpans "1+23".toList) (Sample.sum.rules[0].2) t) :=
  (C11_success_data (Sample.sum_generated.deployed 0 _) (r := "sum") rfl _).1 ⟨20, rfl⟩

/-! ### C12 -/

/-- C12: a generated function never panics, whatever state that has not failed it is called on (and its code is never
ill-formed). -/
theorem C12_no_panic (d : Deployed G T fs ext X ptr input) (he : G.find r = some e) (p : Bool) (st : PState StrStream Val)
    (hst : OkSt (StrStream.At ptr input) st) (n : Nat) :
    Program.run StrStream.ops ext ⟨fs⟩ n ⟨p, [r]⟩ st ≠ .panic ∧ Program.run StrStream.ops ext ⟨fs⟩ n ⟨p, [r]⟩ st ≠ .stuck := by
  rcases d.run_sound n p r e he st hst with h | ⟨o, L, st', h, _⟩ <;> rw [h] <;> exact ⟨nofun, nofun⟩

/-- C12: nor does the conversion into a result. -/
theorem C12_no_panic_result (d : Deployed G T fs ext X ptr input) (he : G.find r = some e) (p : Bool) (n : Nat) :
    Program.parse StrStream.ops ext ⟨fs⟩ n ⟨p, [r]⟩ (StrStream.new ptr input) ≠ .panic ∧
    Program.parse StrStream.ops ext ⟨fs⟩ n ⟨p, [r]⟩ (StrStream.new ptr input) ≠ .stuck := by
  rcases d.parse_sound n p r e he with h | ⟨o, L, _, h⟩ <;> rw [h] <;> exact ⟨nofun, nofun⟩

/-- A state with some history: 3 characters were read, an error was recorded. -/
example (n : Nat) : Program.run StrStream.ops noFns ⟨Sample.sumFs⟩ n ⟨true, ["sum"]⟩
      ⟨⟨0, "été 1+2".toList, 2⟩, ["x"], false, ⟨0, "été 1+2".toList, 5⟩, none, []⟩ ≠ .panic :=
  (C12_no_panic (Sample.sum_generated.deployed 0 "été 1+2".toList) (r := "sum") rfl true _
    ⟨⟨rfl, rfl, ['é'], "té 1+2".toList, rfl, rfl⟩, ⟨rfl, rfl, ['é', 't', 'é'], " 1+2".toList, rfl, rfl⟩, rfl, rfl⟩ n).1

/-! ### C04 -/

/-- C04: `into_result` on the state returned by a generated function does not panic and classifies it. -/
theorem C04_classification (d : Deployed G T fs ext X ptr input) (he : G.find r = some e) (p : Bool) (st st' : PState StrStream Val)
    (hst : OkSt (StrStream.At ptr input) st) (h : Steps ext fs p r st st') :
    ∃ res, st'.intoResult StrStream.ops = .ok res ∧
      (∀ v, res = .success v ↔ st'.data = some v ∧ st'.cur.rest = []) ∧
      (∀ v far exp, res = .part v far exp ↔ st'.data = some v ∧ st'.cur.rest ≠ [] ∧ far = st'.far ∧ exp = st'.exp) ∧
      (∀ far exp, res = .failure far exp ↔ st'.data = none ∧ far = st'.far ∧ exp = st'.exp) := by
  obtain ⟨o, L, hp, hr⟩ := d.steps_iff he _ hst h
  cases o with
  | fail =>
    obtain ⟨h1, h2, _⟩ := hr
    refine ⟨.failure st'.far st'.exp, by simp [PState.intoResult, h1, h2], ?_, ?_, ?_⟩ <;> intros <;> simp only [h2, PResult.failure.injEq, reduceCtorEq, false_and, true_and, iff_self] <;>
      constructor <;> rintro ⟨rfl, rfl⟩ <;> exact ⟨rfl, rfl⟩
  | ok s t =>
    obtain ⟨h1, h2, ⟨v, hv, _⟩, h3⟩ := hr
    have hn : StrStream.ops.hasNext st'.cur = !st'.cur.rest.isEmpty := StrStream.hasNext_eq h3.cur
    by_cases hs : st'.cur.rest = []
    · refine ⟨.success v, by simp [PState.intoResult, hv, hn, hs], ?_, ?_, ?_⟩ <;> intros <;> simp [hv, hs]
    · refine ⟨.part v st'.far st'.exp, ?_, ?_, ?_, ?_⟩
      · have : st'.cur.rest.isEmpty = false := by simpa using hs
        simp [PState.intoResult, hv, hn, this]
      · intros; simp [hs]
      · intros
        simp only [hv, PResult.part.injEq, Option.some.injEq, ne_eq, hs, not_false_eq_true, true_and]
        constructor <;> rintro ⟨rfl, rfl, rfl⟩ <;> exact ⟨rfl, rfl, rfl⟩
      · intros; simp [hv]

/-- C04: on the state returned by a generated function, `is_successful` is true exactly if `into_result` is a success or a partial match, `unwrap_data` then returns its
data, and otherwise `is_failed` is true and `unwrap_data` panics. -/
theorem C04_unwrap (d : Deployed G T fs ext X ptr input) (he : G.find r = some e) (p : Bool) (st st' : PState StrStream Val)
    (hst : OkSt (StrStream.At ptr input) st) (h : Steps ext fs p r st st') :
    (∃ v, st'.isSuccessful = true ∧ st'.isFailed = false ∧ st'.unwrapData = .ok v ∧
      (st'.intoResult StrStream.ops = .ok (.success v) ∨ ∃ far exp, st'.intoResult StrStream.ops = .ok (.part v far exp))) ∨
    (st'.isSuccessful = false ∧ st'.isFailed = true ∧ st'.unwrapData = .panic ∧ ∃ far exp, st'.intoResult StrStream.ops = .ok (.failure far exp)) := by
  obtain ⟨o, L, hp, hr⟩ := d.steps_iff he _ hst h
  cases o with
  | fail =>
    obtain ⟨h1, h2, _⟩ := hr
    exact .inr ⟨by simp [PState.isSuccessful, PState.isFailed, h1], by simp [PState.isFailed, h1], by simp [PState.unwrapData, h2], _, _,
      by simp only [PState.intoResult, h1, h2]; rfl⟩
  | ok s t =>
    obtain ⟨h1, h2, ⟨v, hv, _⟩, h3⟩ := hr
    refine .inl ⟨v, by simp [PState.isSuccessful, PState.isFailed, h1], by simp [PState.isFailed, h1], by simp [PState.unwrapData, hv], ?_⟩
    cases hn : StrStream.ops.hasNext st'.cur with
    | false => exact .inl (by simp [PState.intoResult, hv, hn])
    | true => exact .inr ⟨_, _, by simp only [PState.intoResult, hv, hn, if_true]; rfl⟩

/-- C04: what `success` and `failure` build is classified likewise, on any stream. -/
theorem C04_success_failure {σ D E : Type} (ops : StreamOps σ) (st : PState σ D) (v : E) :
    (st.success v).intoResult ops = .ok (if ops.hasNext st.cur then .part v st.far st.exp else .success v) ∧
    (st.failure (E := E)).intoResult ops = .ok (.failure st.far st.exp) := by
  constructor
  · by_cases h : ops.hasNext st.cur = true <;> simp [PState.success, PState.intoResult, h]
  · rfl

example : ∃ st', Steps noFns Sample.sumFs true "sum" (start 0 "1+".toList) st' ∧ st'.data.isSome ∧ st'.cur.rest = ['+'] :=
  ⟨_, ⟨20, rfl⟩, rfl, rfl⟩

example : ∃ st', Steps noFns Sample.sumFs true "sum" (start 0 "+".toList) st' ∧ st'.unwrapData = .panic := ⟨_, ⟨20, rfl⟩, rfl⟩

end Oak
