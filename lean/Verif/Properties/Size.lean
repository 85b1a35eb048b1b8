import Verif.Proofs.Size
import Verif.Properties.Codegen
import Verif.Model.Typing
/-! # The size of the generated code: C55 -/
set_option autoImplicit false
set_option linter.constructorNameAsVariable false

namespace Oak

variable {T : Nat → Ty}

/-- C55: the recognizer of an expression is at most quadratic in the size of the expression. -/
theorem C55_recognizer {e : Expr} {f : Fn} (h : compileRecognizer T e = .ok f) : f.weight ≤ 8 * (e.weight * e.weight) := by
  unfold compileRecognizer at h
  obtain ⟨⟨body, c⟩, h1, h⟩ := except_bind_eq_ok h
  cases h
  have v := compile_fits e false _ _ _ _ h1 (thrifty_false e _)
  have l := copies_le (T := T) e false true (thrifty_false e _)
  have v : body.weight + c.cw ≤ 0 + copiesOf T false true e * 1 + bound e.weight := v
  have hp := weight_pos e
  have : e.weight * 1 ≤ e.weight * e.weight := Nat.mul_le_mul_left _ hp
  show c.cw + body.weight ≤ _
  simp only [bound] at v
  omega

example : ∃ f, compileRecognizer (fun _ => .atom) (.seq 1 [.str 0 "a", .act 3 (.choice 2 [.any 5, .str 6 "b"]) false ["f"], .str 4 "b"]) = .ok f ∧ f.weight = 25 ∧
    Expr.weight (.seq 1 [.str 0 "a", .act 3 (.choice 2 [.any 5, .str 6 "b"]) false ["f"], .str 4 "b"]) = 7 :=
  ⟨_, rfl, by decide +kernel, by decide +kernel⟩

/-- C55: so is the parser, if no semantic action that gives a value writes several times the code that follows it. -/
theorem C55_parser {r : String} {e : Expr} {f : Fn} (h : compileParser T r e = .ok f) (ht : thrifty T true true e = true) : f.weight ≤ 8 * (e.weight * e.weight) := by
  have hp := weight_pos e
  have hq : e.weight * 1 ≤ e.weight * e.weight := Nat.mul_le_mul_left _ hp
  unfold compileParser at h
  split at h
  · cases h
    show 0 + (1 + 1) ≤ _
    omega
  · obtain ⟨⟨body, c⟩, h1, h⟩ := except_bind_eq_ok h
    obtain ⟨c1, h2, h⟩ := except_bind_eq_ok h
    cases h
    have v := compile_fits e true _ _ _ _ h1 ht
    have l := copies_le (T := T) e true true ht
    have v : body.weight + c.cw ≤ 0 + copiesOf T true true e * 1 + bound e.weight := v
    have hc : c1.cw = c.cw := closeScope_cw h2
    show c1.cw + body.weight ≤ _
    simp only [bound] at v
    omega

/-- C55: the functions generated for a grammar are at most quadratic in the size of their rules. -/
theorem C55_grammar {rules : List (String × Expr)} {fs : List (FnRef × Fn)} (h : compileGrammar T rules = .ok fs)
    (ht : ∀ ru ∈ rules, T ru.2.id = .unit ∨ thrifty T true true ru.2 = true) :
    ∀ x ∈ fs, ∃ ru ∈ rules, x.1.path = [ru.1] ∧ x.2.weight ≤ 8 * (ru.2.weight * ru.2.weight) := by
  induction rules generalizing fs with
  | nil => simp only [compileGrammar] at h; cases h; intro x hx; cases hx
  | cons x rules ih =>
    obtain ⟨r', e⟩ := x
    simp only [compileGrammar] at h
    obtain ⟨rc, h1, h⟩ := except_bind_eq_ok h
    obtain ⟨pa, h2, h⟩ := except_bind_eq_ok h
    obtain ⟨rest, h3, h⟩ := except_bind_eq_ok h
    cases h
    intro x hx
    cases hx with
    | head => exact ⟨(r', e), by simp, rfl, C55_recognizer h1⟩
    | tail _ hm =>
      cases hm with
      | head =>
        refine ⟨(r', e), by simp, rfl, ?_⟩
        rcases ht (r', e) (by simp) with hu | ht
        · rw [compileParser, if_pos hu] at h2
          cases h2
          have hq : e.weight * 1 ≤ e.weight * e.weight := Nat.mul_le_mul_left _ (weight_pos e)
          have hp := weight_pos e
          show 0 + (1 + 1) ≤ 8 * (e.weight * e.weight)
          omega
        · exact C55_parser h2 ht
      | tail _ hm =>
        obtain ⟨ru, hru, h⟩ := ih h3 (fun ru hru => ht ru (by simp [hru])) x hm
        exact ⟨ru, by simp [hru], h⟩

example : ∃ fs, compileGrammar Sample.sumT Sample.sum.rules = .ok fs ∧ (∀ ru ∈ Sample.sum.rules, Sample.sumT ru.2.id = .unit ∨ thrifty Sample.sumT true true ru.2 = true) :=
  ⟨_, rfl, by decide +kernel⟩

/-- An expression without semantic action. -/
theorem thrifty_actionless (e : Expr) : e.actionless = true → ∀ p z, thrifty T p z e = true := by
  induction e using Expr.ind with
  | seq i es ih =>
    intro h p z
    simp only [Expr.actionless, actionlessAll_iff] at h
    simp only [thrifty]
    induction es with
    | nil => rfl
    | cons e es ih' =>
      simp only [thriftySeq, Bool.and_eq_true]
      exact ⟨ih e (by simp) (h e (by simp)) _ _, ih' (fun e he => ih e (by simp [he])) fun e he => h e (by simp [he])⟩
  | choice i es ih =>
    intro h p z
    simp only [Expr.actionless, actionlessAll_iff] at h
    simp only [thrifty]
    induction es with
    | nil => rfl
    | cons e es ih' =>
      simp only [thriftyAlts, Bool.and_eq_true]
      exact ⟨ih e (by simp) (h e (by simp)) _ _, ih' (fun e he => ih e (by simp [he])) fun e he => h e (by simp [he])⟩
  | act i e b f ih => intro h; simp [Expr.actionless] at h
  | asc i e t ih => intro h p z; simp only [Expr.actionless] at h; simpa only [thrifty] using ih h _ _
  | span i e ih => intro h p z; simp only [Expr.actionless] at h; simpa only [thrifty] using ih h _ _
  | range i e ih => intro h p z; simp only [Expr.actionless] at h; simpa only [thrifty] using ih h _ _
  | star i e ih => intro h p z; simp only [Expr.actionless] at h; simp only [thrifty]; split; exact ih h _ _; rfl
  | plus i e ih => intro h p z; simp only [Expr.actionless] at h; simp only [thrifty]; split; exact ih h _ _; rfl
  | opt i e ih => intro h p z; simp only [Expr.actionless] at h; simp only [thrifty]; split; exact ih h _ _; rfl
  | _ => intros; simp [thrifty]

/-- C55: in particular, every parser of a rule without semantic action is at most quadratic. -/
theorem C55_no_action {r : String} {e : Expr} {f : Fn} (ha : e.actionless = true) (h : compileParser T r e = .ok f) : f.weight ≤ 8 * (e.weight * e.weight) :=
  C55_parser h (thrifty_actionless e ha _ _)

/-- C55: so is the parser of a rule whose branches are sequences without action, each with an action on the whole of it: the usual form of rules. -/
theorem C55_actions_last {r : String} {i : Nat} {es : List Expr} {f : Fn} (ha : ∀ e ∈ es, ∃ j b g h, e = .act j b g h ∧ b.actionless = true)
    (h : compileParser T r (.choice i es) = .ok f) : f.weight ≤ 8 * ((Expr.choice i es).weight * (Expr.choice i es).weight) := by
  refine C55_parser h ?_
  simp only [thrifty]
  generalize (true && decide (T i ≠ .unit)) = p
  clear h
  induction es with
  | nil => rfl
  | cons e es ih =>
    obtain ⟨j, b, g, h, rfl, hb⟩ := ha e (by simp)
    simp only [thriftyAlts, thrifty, Bool.and_eq_true]
    refine ⟨?_, ih fun e he => ha e (by simp [he])⟩
    split
    · simp [thrifty_actionless b hb]
    · rfl

/-! ### Exponential code -/

/-- `k` items `("a" / "b") > f`, numbered from `n`. -/
def twoWays (n : Nat) : Nat → List Expr
  | 0 => []
  | k + 1 => .act (4 * n + 3) (.choice (4 * n + 2) [.str (4 * n) "a", .str (4 * n + 1) "b"]) false ["f"] :: twoWays (n + 1) k

/-- The indices of the values of the items. -/
def twoWaysIds (n : Nat) : Nat → List Nat
  | 0 => []
  | k + 1 => (4 * n + 3) :: twoWaysIds (n + 1) k

/-- The types: the type of `f` for the actions, no value for the literals and choices, a tuple for the rule. -/
def twoWaysT (k : Nat) : Nat → Ty := fun i => if i = 4 * k then .tuple (twoWaysIds 0 k) else if i % 4 = 3 then .rust "T" else .unit

theorem twoWays_weight (n k : Nat) : weightAll (twoWays n k) = 4 * k := by
  induction k generalizing n with
  | zero => rfl
  | succ k ih => simp only [twoWays, weightAll, Expr.weight, ih]; omega

theorem twoWaysIds_length (n k : Nat) : (twoWaysIds n k).length = k := by
  induction k generalizing n with
  | zero => rfl
  | succ k ih => simp only [twoWaysIds, List.length_cons, ih]

theorem twoWays_item (K n : Nat) (S : Ex) (c : Ctx) (v : Name) (h : c.fv.getLast? = some v) : ∃ code c',
    compile (twoWaysT K) true (.act (4 * n + 3) (.choice (4 * n + 2) [.str (4 * n) "a", .str (4 * n + 1) "b"]) false ["f"]) S .failure c = .ok (code, c') ∧
    2 * S.weight ≤ code.weight ∧ c'.fv = c.fv.dropLast := by
  have t1 : twoWaysT K (4 * n + 3) = .rust "T" := by unfold twoWaysT; rw [if_neg (by omega), if_pos (by omega)]
  have t2 : twoWaysT K (4 * n + 2) = .unit := by unfold twoWaysT; rw [if_neg (by omega), if_neg (by omega)]
  simp only [compile, compileBranches, t1, t2, Expr.id, Ctx.nextFreeVar, h, Ctx.openScope, Ctx.freshVars, Ctx.saveScope, Ctx.successAsClosure, Ty.card, Ctx.popMut,
    Ctx.restoreScope, Ctx.pushMut, Ctx.nextMark, Ctx.nextBranchFailed, Ctx.closeScope, Ctx.incr]
  simp only [Nat.lt_irrefl, gt_iff_lt, if_false]
  refine ⟨_, _, rfl, ?_, rfl⟩
  simp only [Ex.weight, choiceCode]
  omega

theorem twoWays_seq (K : Nat) (S : Ex) : ∀ (k n : Nat) (c : Ctx), k ≤ c.fv.length → ∃ code c',
    compileSeq (twoWaysT K) true (twoWays n k) S .failure c = .ok (code, c') ∧ 2 ^ k * S.weight ≤ code.weight ∧ c'.fv.length = c.fv.length - k := by
  intro k
  induction k with
  | zero => intro n c _; exact ⟨S, c, by simp [twoWays, compileSeq], by simp, by simp⟩
  | succ k ih =>
    intro n c hk
    obtain ⟨code, c1, h1, h2, h3⟩ := ih (n + 1) c (by omega)
    obtain ⟨v, hv⟩ : ∃ v, c1.fv.getLast? = some v := by
      have : c1.fv ≠ [] := by intro h0; rw [h0] at h3; simp at h3; omega
      exact ⟨_, List.getLast?_eq_some_getLast this⟩
    obtain ⟨code', c2, g1, g2, g3⟩ := twoWays_item K n code c1 v hv
    refine ⟨code', c2.incr, ?_, ?_, ?_⟩
    · simp only [twoWays, compileSeq, h1]
      show (do let (code, c) ← compile _ _ _ _ _ _; _) = _
      rw [g1]; rfl
    · rw [Nat.pow_succ, Nat.mul_right_comm]; omega
    · show c2.fv.length = _
      rw [g3, List.length_dropLast]; omega

/-- C55: the condition is needed: the parser of `r = (("a" / "b") > f) ... (("a" / "b") > f)`, with `k` items, has a size of at least `2 ^ k`. -/
theorem C55_exponential (k : Nat) (hk : 0 < k) : Expr.weight (.seq (4 * k) (twoWays 0 k)) = 4 * k + 1 ∧
    ∃ f, compileParser (twoWaysT k) "r" (.seq (4 * k) (twoWays 0 k)) = .ok f ∧ 2 ^ k ≤ f.weight := by
  refine ⟨by rw [Expr.weight, twoWays_weight]; omega, ?_⟩
  have t0 : twoWaysT k (4 * k) = .tuple (twoWaysIds 0 k) := by unfold twoWaysT; rw [if_pos rfl]
  unfold compileParser
  have hid : Expr.id (.seq (4 * k) (twoWays 0 k)) = 4 * k := rfl
  rw [hid, t0, if_neg (by intro h; cases h)]
  have hl : ((Ctx.new.openScope (Ty.card (.tuple (twoWaysIds 0 k)))).2).fv.length = k := by
    simp [Ctx.openScope, Ctx.freshVars, Ty.card, twoWaysIds_length]
  obtain ⟨code, c', h1, h2, h3⟩ := twoWays_seq k (.success (.tup ((Ctx.new.openScope (Ty.card (.tuple (twoWaysIds 0 k)))).2).fv)) k 0
    (Ctx.new.openScope (Ty.card (.tuple (twoWaysIds 0 k)))).2 (by omega)
  rw [hl, Nat.sub_self, List.length_eq_zero_iff] at h3
  have h1' : compile (twoWaysT k) true (.seq (4 * k) (twoWays 0 k)) (.success (.tup ((Ctx.new.openScope (Ty.card (.tuple (twoWaysIds 0 k)))).2).fv)) .failure
      (Ctx.new.openScope (Ty.card (.tuple (twoWaysIds 0 k)))).2 = .ok (code, c') := by
    simp only [compile, t0]; exact h1
  refine ⟨⟨(c'.restoreScope (Ctx.new.openScope (Ty.card (.tuple (twoWaysIds 0 k)))).1).closures, code⟩, ?_, ?_⟩
  · refine (congrArg (fun x => x >>= fun y => y.2.closeScope (Ctx.new.openScope (Ty.card (.tuple (twoWaysIds 0 k)))).1 >>= fun c => (.ok (Fn.mk c.closures y.1) : Except String Fn)) h1').trans ?_
    show (c'.closeScope _ >>= _) = _
    rw [Ctx.closeScope, if_pos h3]; rfl
  · simp only [Ex.weight, Nat.mul_one] at h2
    show 2 ^ k ≤ _ + code.weight
    omega

/-- The types are those that Oak infers. -/
example : ∃ T f, typeInference ⟨⟨[("r", .seq 12 (twoWays 0 3))]⟩, [("f", ⟨"f", .ty "T"⟩)], [], "StrStream", .debug⟩ 13 15 2 = .ok (.value T, []) ∧
    (∀ i < 13, T i = twoWaysT 3 i) ∧ compileParser T "r" (.seq 12 (twoWays 0 3)) = .ok f ∧ f.weight = 127 := ⟨_, _, rfl, by decide +kernel, rfl, by decide +kernel⟩

end Oak
