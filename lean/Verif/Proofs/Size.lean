import Verif.Spec.Size
import Verif.Proofs.NamesCompile
/-! The size of the generated code. -/
set_option autoImplicit false
set_option linter.constructorNameAsVariable false

namespace Oak

/-- The size of the closures of a context. -/
def Ctx.cw (c : Ctx) : Nat := closuresWeight c.closures

/-- The bound. -/
def bound (n : Nat) : Nat := 7 * (n * n)

theorem bound_add (a b : Nat) : bound a + bound b ≤ bound (a + b) := by
  unfold bound
  have : (a + b) * (a + b) = a * a + 2 * (a * b) + b * b := by
    rw [Nat.add_mul, Nat.mul_add, Nat.mul_add, Nat.mul_comm b a]; omega
  omega

theorem bound_succ (n : Nat) : bound (1 + n) = bound n + 14 * n + 7 := by
  unfold bound
  have : (1 + n) * (1 + n) = n * n + 2 * n + 1 := by
    rw [Nat.add_mul, Nat.mul_add, Nat.mul_add]; omega
  omega

theorem weight_pos (e : Expr) : 1 ≤ e.weight := by
  cases e <;> simp only [Expr.weight] <;> omega

theorem closuresWeight_append (as bs : List Closure) : closuresWeight (as ++ bs) = closuresWeight as + closuresWeight bs := by
  induction as with
  | nil => simp [closuresWeight]
  | cons a as ih => simp only [List.cons_append, closuresWeight, ih]; omega

variable {T : Nat → Ty}

/-! ### Conditions -/

theorem thrifty_false (e : Expr) : ∀ z, thrifty T false z e = true := by
  induction e using Expr.ind with
  | seq i es ih =>
    intro z
    simp only [thrifty, Bool.false_and]
    induction es with
    | nil => rfl
    | cons e es ih' => simp only [thriftySeq, Bool.and_eq_true]; exact ⟨ih e (by simp) _, ih' fun e he => ih e (by simp [he])⟩
  | choice i es ih =>
    intro z
    simp only [thrifty, Bool.false_and]
    induction es with
    | nil => rfl
    | cons e es ih' => simp only [thriftyAlts, Bool.and_eq_true]; exact ⟨ih e (by simp) _, ih' fun e he => ih e (by simp [he])⟩
  | asc i e t ih => intro z; simpa [thrifty] using ih z
  | span i e ih => intro z; simpa [thrifty] using ih z
  | range i e ih => intro z; simpa [thrifty] using ih z
  | _ => intros; simp [thrifty]

theorem copies_one (e : Expr) : ∀ p, thrifty T p false e = true → copiesOf T p false e = 1 := by
  induction e using Expr.ind with
  | seq i es ih =>
    intro p h
    simp only [thrifty, copiesOf] at h ⊢
    generalize (p && decide (T i ≠ .unit)) = p at h ⊢
    induction es with
    | nil => rfl
    | cons e es ih' =>
      simp only [thriftySeq, copiesSeq, Bool.and_eq_true, Bool.false_and] at h ⊢
      rw [ih e (by simp) p h.1, ih' (fun e he => ih e (by simp [he])) h.2]
  | act i e b f ih =>
    intro p h
    simp only [thrifty, copiesOf] at h ⊢
    split at h
    · rename_i hp; rw [if_pos hp]; rw [Bool.and_eq_true, Bool.false_or, beq_iff_eq] at h; exact h.1
    · rename_i hp; rw [if_neg hp]; exact ih false (thrifty_false e _)
  | asc i e t ih => intro p h; simp only [thrifty, copiesOf] at h ⊢; exact ih _ h
  | span i e ih => intro p h; simp only [thrifty, copiesOf] at h ⊢; exact ih _ h
  | range i e ih => intro p h; simp only [thrifty, copiesOf] at h ⊢; exact ih _ h
  | _ => intros; simp [copiesOf]

theorem copies_le (e : Expr) : ∀ p z, thrifty T p z e = true → copiesOf T p z e ≤ e.weight := by
  induction e using Expr.ind with
  | seq i es ih =>
    intro p z h
    simp only [thrifty, copiesOf, Expr.weight] at h ⊢
    generalize (p && decide (T i ≠ .unit)) = p at h ⊢
    induction es with
    | nil => simp [copiesSeq, weightAll]
    | cons e es ih' =>
      simp only [thriftySeq, copiesSeq, Bool.and_eq_true, weightAll] at h ⊢
      have ih' := ih' (fun e he => ih e (by simp [he])) h.2
      cases es with
      | nil =>
        have := ih e (by simp) p _ h.1
        simp only [copiesSeq, weightAll, Nat.mul_one]
        omega
      | cons x es =>
        have h1 : (z && List.isEmpty (x :: es)) = false := by simp
        rw [h1] at h ⊢
        rw [copies_one e p h.1, Nat.one_mul]
        omega
  | choice i es ih =>
    intro p z h
    simp only [thrifty, copiesOf, Expr.weight] at h ⊢
    generalize (p && decide (T i ≠ .unit)) = p at h ⊢
    have key : copiesAlts T p es ≤ weightAll es := by
      induction es with
      | nil => simp [copiesAlts, weightAll]
      | cons e es ih' =>
        simp only [thriftyAlts, copiesAlts, Bool.and_eq_true, weightAll] at h ⊢
        have := ih e (by simp) p _ h.1
        have := ih' (fun e he => ih e (by simp [he])) h.2
        omega
    split <;> omega
  | act i e b f ih =>
    intro p z h
    simp only [thrifty, copiesOf, Expr.weight] at h ⊢
    split at h
    · rename_i hp; rw [if_pos hp]; have := ih true true (Bool.and_eq_true _ _ ▸ h).2; omega
    · rename_i hp; rw [if_neg hp]; have := ih false z (thrifty_false e _); omega
  | asc i e t ih => intro p z h; simp only [thrifty, copiesOf, Expr.weight] at h ⊢; have := ih _ _ h; omega
  | span i e ih => intro p z h; simp only [thrifty, copiesOf, Expr.weight] at h ⊢; have := ih _ _ h; omega
  | range i e ih => intro p z h; simp only [thrifty, copiesOf, Expr.weight] at h ⊢; have := ih _ _ h; omega
  | _ => intros; simp only [copiesOf, Expr.weight]; omega

/-! ### The code -/

/-- The code of the expression is bounded. -/
def Fits (T : Nat → Ty) (p : Bool) (e : Expr) : Prop := ∀ S c code c', compile T p e S .failure c = .ok (code, c') → thrifty T p (c.ncomb == 0) e = true →
  code.weight + c'.cw ≤ c.cw + copiesOf T p (c.ncomb == 0) e * S.weight + bound e.weight

theorem nextFreeVar_cw {c c' : Ctx} {v : Name} (h : c.nextFreeVar = .ok (v, c')) : c'.cw = c.cw ∧ c'.ncomb = c.ncomb := by
  unfold Ctx.nextFreeVar at h
  split at h
  · cases h; exact ⟨rfl, rfl⟩
  · cases h

theorem nextFreeVars_cw : ∀ {n : Nat} {c c' : Ctx} {vs : List Name}, c.nextFreeVars n = .ok (vs, c') → c'.cw = c.cw ∧ c'.ncomb = c.ncomb := by
  intro n
  induction n with
  | zero => intro c c' vs h; cases h; exact ⟨rfl, rfl⟩
  | succ n ih =>
    intro c c' vs h
    rw [Ctx.nextFreeVars] at h
    obtain ⟨⟨v, c1⟩, h1, h⟩ := except_bind_eq_ok h
    obtain ⟨⟨us, c2⟩, h2, h⟩ := except_bind_eq_ok h
    cases h
    have a := nextFreeVar_cw h1
    have b := ih h2
    exact ⟨b.1.trans a.1, b.2.trans a.2⟩

theorem nextFreeVarSkip_cw {n : Nat} {c c' : Ctx} {v : Name} (h : c.nextFreeVarSkip n = .ok (v, c')) : c'.cw = c.cw ∧ c'.ncomb = c.ncomb := by
  unfold Ctx.nextFreeVarSkip at h
  split at h
  · split at h
    · cases h; exact ⟨rfl, rfl⟩
    · cases h
  · cases h

theorem closeScope_cw {c c' : Ctx} {s : Ctx.Scope} (h : c.closeScope s = .ok c') : c'.cw = c.cw := by
  unfold Ctx.closeScope at h
  split at h
  · cases h; rfl
  · cases h

theorem popMut_cw {c c' : Ctx} (h : c.popMut = .ok c') : c'.cw = c.cw ∧ c'.ncomb = c.ncomb := by
  unfold Ctx.popMut at h
  split at h
  · cases h
  · cases h; exact ⟨rfl, rfl⟩

theorem condition_weight {ivs : List Interval} {cond : CharCond} (h : compileCondition ivs = .ok cond) : cond.weight + 1 ≤ 2 * ivs.length := by
  have one : ∀ iv, (compileInterval iv).weight = 1 := by intro iv; unfold compileInterval; split <;> rfl
  have key : ∀ (ivs : List Interval) (a : CharCond), (ivs.foldl (fun accu i => .or accu (compileInterval i)) a).weight = a.weight + 2 * ivs.length := by
    intro ivs
    induction ivs with
    | nil => intro a; rfl
    | cons iv ivs ih => intro a; rw [List.foldl_cons, ih]; simp only [CharCond.weight, one, List.length_cons]; omega
  cases ivs with
  | nil => cases h
  | cons iv ivs =>
    cases h
    rw [key, one]; simp only [List.length_cons]; omega

theorem call_fits (p : Bool) (i : Nat) (path : Path) {S : Ex} {c c' : Ctx} {code : Ex} (h : compileCall T p i path S .failure c = .ok (code, c')) :
    code.weight + c'.cw ≤ c.cw + S.weight + 5 := by
  unfold compileCall at h
  split at h
  · obtain ⟨⟨vs, c1⟩, h1, h⟩ := except_bind_eq_ok h
    cases h
    have := (nextFreeVars_cw h1).1
    simp only [Ex.weight]; omega
  · cases h
    simp only [Ex.weight]; omega

theorem seq_fits {p : Bool} : ∀ {es : List Expr}, (∀ e ∈ es, ∀ p, Fits T p e) → ∀ {S : Ex} {c c' : Ctx} {code : Ex},
    compileSeq T p es S .failure c = .ok (code, c') → thriftySeq T p (c.ncomb == 0) es = true →
    code.weight + c'.cw ≤ c.cw + copiesSeq T p (c.ncomb == 0) es * S.weight + bound (weightAll es) ∧ (c'.ncomb == 0) = (c.ncomb == 0 && es.isEmpty) := by
  intro es
  induction es with
  | nil =>
    intro _ S c c' code h _
    simp only [compileSeq] at h
    cases h
    simp only [copiesSeq, weightAll, Nat.one_mul, List.isEmpty_nil, Bool.and_true, and_true]; omega
  | cons e es ih =>
    intro hf S c c' code h ht
    simp only [compileSeq] at h
    obtain ⟨⟨S1, c1⟩, h1, h⟩ := except_bind_eq_ok h
    obtain ⟨⟨code', c2⟩, h2, h⟩ := except_bind_eq_ok h
    obtain ⟨rfl, rfl⟩ : code' = code ∧ c2.incr = c' := by cases h; exact ⟨rfl, rfl⟩
    simp only [thriftySeq, Bool.and_eq_true] at ht
    obtain ⟨i1, i2⟩ := ih (fun e he => hf e (by simp [he])) h1 ht.2
    have i3 := hf e (by simp) p S1 c1 code' c2 h2 (by rw [i2]; exact ht.1)
    rw [i2] at i3
    refine ⟨?_, by simp [Ctx.incr]⟩
    have hb := bound_add e.weight (weightAll es)
    simp only [copiesSeq, weightAll]
    show code'.weight + c2.cw ≤ _
    cases es with
    | nil =>
      simp only [compileSeq] at h1
      cases h1
      simp only [copiesSeq, Nat.mul_one, weightAll] at i3 ⊢
      simp only [weightAll] at hb
      omega
    | cons x es =>
      have hz : (c.ncomb == 0 && (x :: es).isEmpty) = false := by simp
      rw [hz] at ht i3 ⊢
      rw [copies_one e p ht.1] at i3 ⊢
      rw [Nat.one_mul] at i3 ⊢
      omega

/-- The size of a list of branches. -/
def exsWeight : List Ex → Nat
  | [] => 0
  | k :: ks => k.weight + exsWeight ks

theorem choiceCode_weight (m b : Name) (l : List Ex) : (choiceCode m b l).weight = exsWeight l + 4 * l.length + 1 := by
  induction l with
  | nil => rfl
  | cons k l ih => simp only [choiceCode, Ex.weight, exsWeight, ih, List.length_cons]; omega

theorem alts_fits {p : Bool} {b : Name} {scope : Ctx.Scope} (hs : scope.ncomb = 0) : ∀ {es : List Expr}, (∀ e ∈ es, ∀ p, Fits T p e) →
    ∀ {S : Ex} {c c' : Ctx} {brs : List Ex}, compileBranches T p es b S .failure scope c = .ok (brs, c') → thriftyAlts T p es = true →
    exsWeight brs + c'.cw ≤ c.cw + copiesAlts T p es * S.weight + weightAll es + bound (weightAll es) ∧ brs.length ≤ weightAll es := by
  intro es
  induction es with
  | nil => intro _ S c c' code h _; simp only [compileBranches] at h; cases h
  | cons e es ih =>
    intro hf S c c' brs h ht
    simp only [compileBranches] at h
    simp only [thriftyAlts, Bool.and_eq_true] at ht
    have hw := weight_pos e
    have hcl := copies_le e p true ht.1
    have hb := bound_add e.weight (weightAll es)
    simp only [copiesAlts, weightAll, Nat.add_mul]
    split at h
    · rename_i hem
      have : es = [] := by simpa using hem
      subst this
      obtain ⟨c1, h1, h⟩ := except_bind_eq_ok h
      obtain ⟨⟨code, c2⟩, h2, h⟩ := except_bind_eq_ok h
      cases h
      obtain ⟨a1, a2⟩ := popMut_cw h1
      have hn : (c1.ncomb == 0) = true := by rw [a2]; simpa [Ctx.restoreScope] using hs
      have i := hf e (by simp) p S c1 code c2 h2 (by rw [hn]; exact ht.1)
      rw [hn] at i
      have a1 : c1.cw = c.cw := a1
      simp only [exsWeight, copiesAlts, weightAll, List.length_cons, List.length_nil] at hb ⊢
      show _ ∧ _
      refine ⟨?_, by omega⟩
      show code.weight + 0 + c2.cw ≤ _
      omega
    · obtain ⟨⟨code, c1⟩, h1, h⟩ := except_bind_eq_ok h
      obtain ⟨⟨codes, c2⟩, h2, h⟩ := except_bind_eq_ok h
      cases h
      have hn : ((c.restoreScope scope).ncomb == 0) = true := by simpa [Ctx.restoreScope] using hs
      have i := hf e (by simp) p _ _ code c1 h1 (by rw [hn]; exact ht.1)
      rw [hn] at i
      obtain ⟨j1, j2⟩ := ih (fun e he => hf e (by simp [he])) h2 ht.2
      have a1 : (c.restoreScope scope).cw = c.cw := rfl
      have j1 : exsWeight codes + c2.cw ≤ c1.cw + copiesAlts T p es * S.weight + weightAll es + bound (weightAll es) := j1
      simp only [Ex.weight, Nat.mul_add, Nat.mul_one] at i
      simp only [exsWeight, List.length_cons]
      refine ⟨?_, by omega⟩
      omega

theorem valueConstructor_fits {e : Expr} (he : Fits T true e) {vec : Bool} {c c' : Ctx} {body : Ex} {r : Name}
    (h : valueConstructor (compile T true e) (T e.id).card vec c = .ok (body, r, c')) (ht : thrifty T true true e = true) :
    body.weight + c'.cw ≤ c.cw + 2 * e.weight + bound e.weight := by
  unfold valueConstructor at h
  obtain ⟨⟨v, c1⟩, h1, h⟩ := except_bind_eq_ok h
  dsimp only at h
  obtain ⟨⟨code, c2⟩, h2, h⟩ := except_bind_eq_ok h
  dsimp only at h
  obtain ⟨c3, h3, h⟩ := except_bind_eq_ok h
  obtain ⟨rfl, rfl, rfl⟩ : code = body ∧ v = r ∧ c3 = c' := by cases h; exact ⟨rfl, rfl, rfl⟩
  have a1 := (nextFreeVar_cw h1).1
  have a3 := closeScope_cw h3
  have i := he _ _ code c2 h2 ht
  have a2 : ((c1.openScope (T e.id).card).2.pushMut v).cw = c1.cw := rfl
  have a4 : c2.incr.cw = c2.cw := rfl
  have hc := copies_le e true true ht
  simp only [Ex.weight] at i
  have i' : code.weight + c2.cw ≤ c1.cw + copiesOf T true true e * 2 + bound e.weight := i
  omega

theorem repeat_weight (plus : Bool) (body S : Ex) (c : Ctx) :
    (repeatCode plus body S .failure c).1.weight ≤ body.weight + S.weight + 6 ∧ (repeatCode plus body S .failure c).2.cw = c.cw := by
  unfold repeatCode
  cases plus <;> refine ⟨?_, rfl⟩ <;> simp only [if_true, Bool.false_eq_true, if_false, Ex.weight] <;> omega

theorem optional_weight (body S : Ex) (c : Ctx) : (optionalCode body S c).1.weight = body.weight + S.weight + 3 ∧ (optionalCode body S c).2.cw = c.cw :=
  ⟨by simp only [optionalCode, Ex.weight]; omega, rfl⟩

theorem compile_fits (e : Expr) : ∀ p, Fits T p e := by
  induction e using Expr.ind with
  | str i l =>
    intro p S c code c' h ht
    simp only [compile] at h
    cases h
    simp only [copiesOf, Ex.weight, Expr.weight, bound]; omega
  | any i =>
    intro p S c code c' h ht
    simp only [compile] at h
    split at h
    · obtain ⟨⟨v, c1⟩, h1, h⟩ := except_bind_eq_ok h
      cases h
      have := (nextFreeVar_cw h1).1
      simp only [copiesOf, Ex.weight, Expr.weight, bound]; omega
    · cases h
      simp only [copiesOf, Ex.weight, Expr.weight, bound]; omega
  | cls i ivs =>
    intro p S c code c' h ht
    simp only [compile] at h
    have key : ∀ (v : Name) (c1 : Ctx), c1.cw = c.cw →
        (do
          let cond ← compileCondition ivs
          .ok (.stmt (.letMark c1.nextMark.1) (.matchClass v cond S (.stmt (.restore c1.nextMark.1) (.stmt (.error (classDesc ivs)) .failure))), c1.nextMark.2)) =
          (.ok (code, c') : Except String (Ex × Ctx)) →
          code.weight + c'.cw ≤ c.cw + copiesOf T p (c.ncomb == 0) (.cls i ivs) * S.weight + bound (Expr.weight (.cls i ivs)) := by
      intro v c1 hc h
      obtain ⟨cond, hcond, h⟩ := except_bind_eq_ok h
      cases h
      have := condition_weight hcond
      have e1 : c1.nextMark.2.cw = c1.cw := rfl
      simp only [copiesOf, Ex.weight, Expr.weight, bound_succ]; omega
    split at h
    · obtain ⟨⟨v, c1⟩, h1, h⟩ := except_bind_eq_ok h
      exact key v c1 (nextFreeVar_cw h1).1 h
    · exact key .x c rfl h
  | nt i r =>
    intro p S c code c' h ht
    simp only [compile] at h
    have := call_fits p i [r] h
    simp only [copiesOf, Expr.weight, bound]; omega
  | ext i q =>
    intro p S c code c' h ht
    simp only [compile] at h
    have := call_fits p i q h
    simp only [copiesOf, Expr.weight, bound]; omega
  | seq i es ih =>
    intro p S c code c' h ht
    simp only [compile] at h
    simp only [thrifty] at ht
    have := (seq_fits ih h ht).1
    simp only [copiesOf, Expr.weight, bound_succ]; omega
  | choice i es ih =>
    intro p S c code c' h ht
    simp only [compile] at h
    simp only [thrifty] at ht
    obtain ⟨⟨brs, c4⟩, h4, h⟩ := except_bind_eq_ok h
    dsimp only at h4 h
    have hn : (c.successAsClosure S).2.ncomb = 0 := by
      unfold Ctx.successAsClosure
      split
      · rfl
      · show c.ncomb = 0; omega
    obtain ⟨j1, j2⟩ := alts_fits (by exact hn) ih h4 ht
    have hcw : (c.successAsClosure S).2.cw + copiesAlts T (p && decide (T i ≠ .unit)) es * (c.successAsClosure S).1.weight ≤
        c.cw + copiesOf T p (c.ncomb == 0) (.choice i es) * S.weight + 2 + weightAll es := by
      have hcl : copiesOf T p true (.choice i es) ≤ (Expr.choice i es).weight := copies_le (.choice i es) p true (by simpa only [thrifty] using ht)
      simp only [copiesOf, if_true, Expr.weight] at hcl
      unfold Ctx.successAsClosure
      split
      · rename_i hc
        have : (c.ncomb == 0) = false := by simp; omega
        simp only [this, copiesOf, Bool.false_eq_true, if_false, Ctx.cw, closuresWeight_append, closuresWeight, Ex.weight]
        omega
      · rename_i hc
        have : (c.ncomb == 0) = true := by simp; omega
        simp only [this, copiesOf, if_true]
        omega
    have j1 : exsWeight brs + c4.cw ≤ (c.successAsClosure S).2.cw + copiesAlts T (p && decide (T i ≠ .unit)) es * (c.successAsClosure S).1.weight +
      weightAll es + bound (weightAll es) := j1
    cases brs with
    | nil => cases h
    | cons first rest =>
      have hcode : code = .stmt (.letMark (c.successAsClosure S).2.nextMark.1) (.stmt (.letTrue (c.successAsClosure S).2.nextMark.2.nextBranchFailed.1)
        (.bind first (choiceCode (c.successAsClosure S).2.nextMark.1 (c.successAsClosure S).2.nextMark.2.nextBranchFailed.1 rest))) ∧ c' = c4 := by
        cases h; exact ⟨rfl, rfl⟩
      rw [hcode.1, hcode.2]
      simp only [Ex.weight, choiceCode_weight, Expr.weight, bound_succ]
      simp only [exsWeight, List.length_cons] at j1 j2
      omega
  | star i e ih =>
    intro p S c code c' h ht
    simp only [compile] at h
    simp only [thrifty] at ht
    simp only [copiesOf, Expr.weight, bound_succ, Nat.one_mul]
    split at h
    · rename_i hp
      rw [if_pos hp] at ht
      obtain ⟨⟨body, r, c1⟩, h1, h⟩ := except_bind_eq_ok h
      have v := valueConstructor_fits (ih true) h1 ht
      obtain ⟨w1, w2⟩ := repeat_weight false body S c1
      cases h
      simp only [Ex.weight]
      omega
    · obtain ⟨⟨body, c1⟩, h1, h⟩ := except_bind_eq_ok h
      have v := ih false _ _ _ _ h1 (thrifty_false e _)
      have := copies_le e false (c.ncomb == 0) (thrifty_false (T := T) e _)
      obtain ⟨w1, w2⟩ := repeat_weight false body S c1.incr
      have w3 : c1.incr.cw = c1.cw := rfl
      have v : body.weight + c1.cw ≤ c.cw + copiesOf T false (c.ncomb == 0) e * 1 + bound e.weight := v
      obtain ⟨rfl, rfl⟩ : (repeatCode false body S .failure c1.incr).1 = code ∧ (repeatCode false body S .failure c1.incr).2 = c' := by cases h; exact ⟨rfl, rfl⟩
      omega
  | plus i e ih =>
    intro p S c code c' h ht
    simp only [compile] at h
    simp only [thrifty] at ht
    simp only [copiesOf, Expr.weight, bound_succ, Nat.one_mul]
    split at h
    · rename_i hp
      rw [if_pos hp] at ht
      obtain ⟨⟨body, r, c1⟩, h1, h⟩ := except_bind_eq_ok h
      have v := valueConstructor_fits (ih true) h1 ht
      obtain ⟨w1, w2⟩ := repeat_weight true body S c1
      cases h
      simp only [Ex.weight]
      omega
    · obtain ⟨⟨body, c1⟩, h1, h⟩ := except_bind_eq_ok h
      have v := ih false _ _ _ _ h1 (thrifty_false e _)
      have := copies_le e false (c.ncomb == 0) (thrifty_false (T := T) e _)
      obtain ⟨w1, w2⟩ := repeat_weight true body S c1.incr
      have w3 : c1.incr.cw = c1.cw := rfl
      have v : body.weight + c1.cw ≤ c.cw + copiesOf T false (c.ncomb == 0) e * 1 + bound e.weight := v
      obtain ⟨rfl, rfl⟩ : (repeatCode true body S .failure c1.incr).1 = code ∧ (repeatCode true body S .failure c1.incr).2 = c' := by cases h; exact ⟨rfl, rfl⟩
      omega
  | opt i e ih =>
    intro p S c code c' h ht
    simp only [compile] at h
    simp only [thrifty] at ht
    simp only [copiesOf, Expr.weight, bound_succ, Nat.one_mul]
    split at h
    · rename_i hp
      rw [if_pos hp] at ht
      obtain ⟨⟨body, r, c1⟩, h1, h⟩ := except_bind_eq_ok h
      have v := valueConstructor_fits (ih true) h1 ht
      obtain ⟨w1, w2⟩ := optional_weight body S c1
      cases h
      simp only [Ex.weight]
      omega
    · obtain ⟨⟨body, c1⟩, h1, h⟩ := except_bind_eq_ok h
      have v := ih false _ _ _ _ h1 (thrifty_false e _)
      have := copies_le e false (c.ncomb == 0) (thrifty_false (T := T) e _)
      obtain ⟨w1, w2⟩ := optional_weight body S c1.incr
      have w3 : c1.incr.cw = c1.cw := rfl
      have v : body.weight + c1.cw ≤ c.cw + copiesOf T false (c.ncomb == 0) e * 1 + bound e.weight := v
      obtain ⟨rfl, rfl⟩ : (optionalCode body S c1.incr).1 = code ∧ (optionalCode body S c1.incr).2 = c' := by cases h; exact ⟨rfl, rfl⟩
      omega
  | not i e ih =>
    intro p S c code c' h ht
    simp only [compile] at h
    simp only [copiesOf, Expr.weight, bound_succ, Nat.one_mul]
    split at h
    · cases h
    · obtain ⟨⟨body, c1⟩, h1, h⟩ := except_bind_eq_ok h
      have v := ih false _ _ _ _ h1 (thrifty_false e _)
      have := copies_le e false (c.ncomb == 0) (thrifty_false (T := T) e _)
      have v : body.weight + c1.cw ≤ c.cw + copiesOf T false (c.ncomb == 0) e * 1 + bound e.weight := v
      cases h
      have w3 : c1.incr.cw = c1.cw := rfl
      simp only [Ex.weight]
      omega
  | and i e ih =>
    intro p S c code c' h ht
    simp only [compile] at h
    simp only [copiesOf, Expr.weight, bound_succ, Nat.one_mul]
    split at h
    · cases h
    · obtain ⟨⟨body, c1⟩, h1, h⟩ := except_bind_eq_ok h
      have v := ih false _ _ _ _ h1 (thrifty_false e _)
      have := copies_le e false (c.ncomb == 0) (thrifty_false (T := T) e _)
      have v : body.weight + c1.cw ≤ c.cw + copiesOf T false (c.ncomb == 0) e * 1 + bound e.weight := v
      cases h
      have w3 : c1.incr.cw = c1.cw := rfl
      simp only [Ex.weight]
      omega
  | act i e b f ih =>
    intro p S c code c' h ht
    simp only [compile] at h
    simp only [thrifty] at ht
    simp only [copiesOf, Expr.weight, bound_succ]
    split at h
    · rename_i hp
      rw [if_pos hp] at ht ⊢
      rw [Bool.and_eq_true] at ht
      obtain ⟨⟨r, c1⟩, h1, h⟩ := except_bind_eq_ok h
      dsimp only at h
      obtain ⟨⟨code', c2⟩, h2, h⟩ := except_bind_eq_ok h
      obtain ⟨c3, h3, h⟩ := except_bind_eq_ok h
      obtain ⟨rfl, rfl⟩ : code' = code ∧ c3 = c' := by cases h; exact ⟨rfl, rfl⟩
      have v : code'.weight + c2.cw ≤ c1.cw + copiesOf T true true e * (1 + S.weight) + bound e.weight := ih true _ _ _ _ h2 ht.2
      have := copies_le e true true ht.2
      have a1 := (nextFreeVar_cw h1).1
      have a3 : c3.cw = c2.cw := closeScope_cw h3
      rw [Nat.mul_add] at v
      omega
    · rename_i hp
      rw [if_neg hp]
      have := ih false _ _ _ _ h (thrifty_false e _)
      omega
  | asc i e t ih =>
    intro p S c code c' h ht
    simp only [compile] at h
    simp only [thrifty] at ht
    simp only [copiesOf, Expr.weight, bound_succ]
    have := ih _ _ _ _ _ h ht
    omega
  | span i e ih =>
    intro p S c code c' h ht
    simp only [compile] at h
    simp only [thrifty] at ht
    simp only [copiesOf, Expr.weight, bound_succ]
    split at h
    · rename_i hp
      rw [hp] at ht ⊢
      obtain ⟨⟨r, c1⟩, h1, h⟩ := except_bind_eq_ok h
      dsimp only at h
      obtain ⟨⟨code', c2⟩, h2, h⟩ := except_bind_eq_ok h
      obtain ⟨a1, a2⟩ := nextFreeVarSkip_cw h1
      have hn : ((c1.pushMark c.nextMark.1).ncomb == 0) = (c.ncomb == 0) := by show (c1.ncomb == 0) = _; rw [a2]; rfl
      have v := ih true _ _ _ _ h2 (by rw [hn]; exact ht)
      rw [hn] at v
      have v : code'.weight + c2.cw ≤ c1.cw + copiesOf T true (c.ncomb == 0) e * (1 + S.weight) + bound e.weight := v
      have := copies_le e true _ ht
      have a1 : c1.cw = c.cw := a1
      have a3 : c2.incr.popMark.cw = c2.cw := rfl
      cases h
      rw [Nat.mul_add] at v
      simp only [Ex.weight]
      omega
    · rename_i hp
      rw [Bool.not_eq_true] at hp
      rw [hp]
      have := ih false _ _ _ _ h (thrifty_false e _)
      omega
  | range i e ih =>
    intro p S c code c' h ht
    simp only [compile] at h
    simp only [thrifty] at ht
    simp only [copiesOf, Expr.weight, bound_succ]
    split at h
    · rename_i hp
      rw [hp] at ht ⊢
      obtain ⟨⟨r, c1⟩, h1, h⟩ := except_bind_eq_ok h
      dsimp only at h
      obtain ⟨⟨code', c2⟩, h2, h⟩ := except_bind_eq_ok h
      obtain ⟨a1, a2⟩ := nextFreeVarSkip_cw h1
      have hn : ((c1.pushMark c.nextMark.1).ncomb == 0) = (c.ncomb == 0) := by show (c1.ncomb == 0) = _; rw [a2]; rfl
      have v := ih true _ _ _ _ h2 (by rw [hn]; exact ht)
      rw [hn] at v
      have v : code'.weight + c2.cw ≤ c1.cw + copiesOf T true (c.ncomb == 0) e * (1 + S.weight) + bound e.weight := v
      have := copies_le e true _ ht
      have a1 : c1.cw = c.cw := a1
      have a3 : c2.incr.popMark.cw = c2.cw := rfl
      cases h
      rw [Nat.mul_add] at v
      simp only [Ex.weight]
      omega
    · rename_i hp
      rw [Bool.not_eq_true] at hp
      rw [hp]
      have := ih false _ _ _ _ h (thrifty_false e _)
      omega

end Oak
