import Verif.Proofs.CompileCorrect
import Verif.Spec.Sized
import Verif.Spec.Resolved
/-! The code generator does not panic on sized grammars. -/
set_option autoImplicit false
set_option linter.constructorNameAsVariable false

namespace Oak

/-- A step of the code generator succeeds and takes `n` variables. -/
def Takes (n : Nat) (comp : Ex → Ex → Ctx → Except String (Ex × Ctx)) : Prop :=
  ∀ S F c, n ≤ c.fv.length → ∃ code c', comp S F c = .ok (code, c') ∧ c'.fv.length + n = c.fv.length

theorem sizedAll_iff {T : Nat → Ty} {p : Bool} {es : List Expr} : sizedAll T p es = true ↔ ∀ e ∈ es, sized T p e = true := by
  induction es with
  | nil => simp [sizedAll]
  | cons e es ih => simp [sizedAll, ih]

theorem shapedAll_iff {es : List Expr} : shapedAll es = true ↔ ∀ e ∈ es, e.shaped = true := by
  induction es with
  | nil => simp [shapedAll]
  | cons e es ih => simp [shapedAll, ih]

theorem sized_false (T : Nat → Ty) (e : Expr) : sized T false e = true := by
  induction e using Expr.ind with
  | seq i es ih => simp only [sized, Bool.false_and]; exact sizedAll_iff.2 ih
  | choice i es ih =>
    simp only [sized, Bool.false_and, Bool.and_eq_true]
    refine ⟨sizedAll_iff.2 ih, sameArity_iff.2 fun e _ => ?_⟩
    cases es <;> simp [arityHead, arity_false]
  | asc i e t ih => simp only [sized, Bool.false_and, ih]
  | _ => simp [sized]

theorem nextFreeVar_ok {c : Ctx} (h : 1 ≤ c.fv.length) : ∃ v c', c.nextFreeVar = .ok (v, c') ∧ c'.fv.length + 1 = c.fv.length := by
  have hne : c.fv ≠ [] := by intro h0; rw [h0] at h; simp at h
  refine ⟨c.fv.getLast hne, { c with fv := c.fv.dropLast }, ?_, ?_⟩
  · unfold Ctx.nextFreeVar
    rw [List.getLast?_eq_some_getLast hne]
  · simp; omega

theorem nextFreeVars_ok {n : Nat} {c : Ctx} (h : n ≤ c.fv.length) : ∃ vs c', c.nextFreeVars n = .ok (vs, c') ∧ c'.fv.length + n = c.fv.length := by
  induction n generalizing c with
  | zero => exact ⟨_, _, rfl, rfl⟩
  | succ n ih =>
    obtain ⟨v, c1, h1, l1⟩ := nextFreeVar_ok (c := c) (by omega)
    obtain ⟨vs, c2, h2, l2⟩ := ih (c := c1) (by omega)
    exact ⟨_, c2, by simp only [Ctx.nextFreeVars, h1, h2, bind, Except.bind]; rfl, by omega⟩

theorem nextFreeVarSkip_ok {n : Nat} {c : Ctx} (h : n + 1 ≤ c.fv.length) :
    ∃ v c', c.nextFreeVarSkip n = .ok (v, c') ∧ c'.fv.length + 1 = c.fv.length := by
  have hl : c.fv.length - 1 - n < c.fv.length := by omega
  refine ⟨c.fv[c.fv.length - 1 - n], { c with fv := c.fv.eraseIdx (c.fv.length - 1 - n) }, ?_, ?_⟩
  · unfold Ctx.nextFreeVarSkip
    rw [if_pos h, List.getElem?_eq_getElem hl]
  · simp only [List.length_eraseIdx, hl, if_true]; omega

theorem compileCondition_ok {ivs : List Interval} (h : ivs.isEmpty = false) : ∃ cond, compileCondition ivs = .ok cond := by
  cases ivs with
  | nil => cases h
  | cons iv ivs => exact ⟨_, rfl⟩

theorem compileCall_takes (T : Nat → Ty) (p : Bool) (i : Nat) (path : Path) :
    Takes (if p && T i ≠ .unit then (T i).card else 0) (compileCall T p i path) := by
  intro S F c h
  by_cases hp : (p && decide (T i ≠ .unit)) = true
  · rw [if_pos hp] at h ⊢
    obtain ⟨vs, c', h1, l1⟩ := nextFreeVars_ok h
    exact ⟨_, c', by simp only [compileCall]; rw [if_pos hp, h1]; rfl, l1⟩
  · rw [if_neg hp]
    exact ⟨_, c, by simp only [compileCall]; rw [if_neg hp], rfl⟩

theorem seq_takes (T : Nat → Ty) (p : Bool) (es : List Expr) (ih : ∀ e ∈ es, Takes (arity T p e) (compile T p e)) :
    Takes (aritySeq T p es) (compileSeq T p es) := by
  induction es with
  | nil => exact fun S F c _ => ⟨S, c, by simp [compileSeq], by simp [aritySeq]⟩
  | cons e es ihe =>
    intro S F c h
    rw [aritySeq] at h ⊢
    obtain ⟨S1, c1, h1, l1⟩ := ihe (fun e he => ih e (by simp [he])) S F c (by omega)
    obtain ⟨code, c2, h2, l2⟩ := ih e (by simp) S1 F c1 (by omega)
    exact ⟨code, c2.incr, by simp only [compileSeq, h1, h2, bind, Except.bind], by simp only [Ctx.incr]; omega⟩

theorem branches_take (T : Nat → Ty) (p : Bool) (n : Nat) (es : List Expr) (hne : es ≠ []) (ih : ∀ e ∈ es, Takes n (compile T p e))
    (b : Name) (S F : Ex) (scope : Ctx.Scope) (hs : n ≤ scope.fv.length) (hm : scope.muts ≠ []) (c : Ctx) :
    ∃ codes c', compileBranches T p es b S F scope c = .ok (codes, c') ∧ codes ≠ [] ∧ c'.fv.length + n = scope.fv.length := by
  induction es generalizing c with
  | nil => exact absurd rfl hne
  | cons e es ihe =>
    cases es with
    | nil =>
      obtain ⟨code, c', h1, l1⟩ := ih e (by simp) S F { c.restoreScope scope with muts := scope.muts.dropLast } hs
      refine ⟨[code], c', ?_, by simp, l1⟩
      have hp : (c.restoreScope scope).popMut = .ok { c.restoreScope scope with muts := scope.muts.dropLast } := by
        unfold Ctx.popMut
        rw [if_neg (by exact hm)]
        rfl
      simp only [compileBranches, List.isEmpty_nil, if_true, hp, h1, bind, Except.bind]
    | cons e' es =>
      obtain ⟨code, c1, h1, l1⟩ := ih e (by simp) (.stmt (.setFalse b) S) F (c.restoreScope scope) hs
      obtain ⟨codes, c2, h2, n2, l2⟩ := ihe (by simp) (fun e he => ih e (by simp [List.mem_cons.1 he])) c1.incr
      refine ⟨code :: codes, c2, ?_, by simp, l2⟩
      rw [compileBranches]
      simp only [List.isEmpty_cons, Bool.false_eq_true, if_false, h1, h2, bind, Except.bind]

theorem valueConstructor_takes {comp : Ex → Ex → Ctx → Except String (Ex × Ctx)} {n : Nat} (hc : Takes n comp) (vec : Bool) (c : Ctx)
    (h : 1 ≤ c.fv.length) : ∃ body r c', valueConstructor comp n vec c = .ok (body, r, c') ∧ c'.fv.length + 1 = c.fv.length := by
  obtain ⟨r, c1, h1, l1⟩ := nextFreeVar_ok h
  have hl : ((c1.openScope n).2.pushMut r).fv.length = n := by
    show (freshNames c1 n).length = n
    simp [freshNames]
  obtain ⟨body, c2, h2, l2⟩ := hc (Ex.stmt (if vec then .push r (VEx.tup ((c1.openScope n).2.pushMut r).fv) else .setSome r (VEx.tup ((c1.openScope n).2.pushMut r).fv)) .st) .failure ((c1.openScope n).2.pushMut r) (by omega)
  have hf : c2.incr.fv = [] := List.eq_nil_of_length_eq_zero (by simp only [Ctx.incr]; omega)
  refine ⟨body, r, c2.incr.restoreScope (c1.openScope n).1, ?_, ?_⟩
  · simp only [valueConstructor, h1, bind, Except.bind]
    simp only [h2]
    unfold Ctx.closeScope
    simp only [hf, if_true]
  · exact l1

theorem repeatCode_fv (plus : Bool) (body S F : Ex) (c : Ctx) : (repeatCode plus body S F c).2.fv = c.fv := by
  cases plus <;> rfl

/-- Sized expressions compile, and take as many variables as their arity. -/
theorem compile_takes (T : Nat → Ty) (e : Expr) : ∀ p, e.shaped = true → sized T p e = true → Takes (arity T p e) (compile T p e) := by
  induction e using Expr.ind with
  | str i l => exact fun p _ _ S F c _ => ⟨_, c, by rw [compile], by simp [arity]⟩
  | any i =>
    intro p _ _ S F c h
    rw [arity] at h ⊢
    by_cases hp : (p && decide (T i ≠ .unit)) = true
    · rw [if_pos hp] at h ⊢
      obtain ⟨v, c', h1, l1⟩ := nextFreeVar_ok h
      exact ⟨_, c', by rw [compile, if_pos hp, h1]; rfl, l1⟩
    · rw [if_neg hp]
      exact ⟨_, c, by rw [compile, if_neg hp], rfl⟩
  | cls i ivs =>
    intro p hs _ S F c h
    rw [arity] at h ⊢
    simp only [Expr.shaped, Bool.not_eq_true'] at hs
    obtain ⟨cond, hcond⟩ := compileCondition_ok hs
    by_cases hp : (p && decide (T i ≠ .unit)) = true
    · rw [if_pos hp] at h ⊢
      obtain ⟨v, c', h1, l1⟩ := nextFreeVar_ok h
      exact ⟨_, c'.nextMark.2, by rw [compile, if_pos hp, h1, hcond]; rfl, l1⟩
    · rw [if_neg hp]
      exact ⟨_, c.nextMark.2, by rw [compile, if_neg hp, hcond]; rfl, rfl⟩
  | nt i r =>
    intro p _ _ S F c h
    rw [arity] at h ⊢
    obtain ⟨code, c', h1, l1⟩ := compileCall_takes T p i [r] S F c h
    exact ⟨code, c', by rw [compile, h1], l1⟩
  | ext i r =>
    intro p _ _ S F c h
    rw [arity] at h ⊢
    obtain ⟨code, c', h1, l1⟩ := compileCall_takes T p i r S F c h
    exact ⟨code, c', by rw [compile, h1], l1⟩
  | seq i es ih =>
    intro p hs hz S F c h
    rw [arity] at h ⊢
    rw [Expr.shaped, shapedAll_iff] at hs
    rw [sized, sizedAll_iff] at hz
    obtain ⟨code, c', h1, l1⟩ := seq_takes T _ es (fun e he => ih e he _ (hs e he) (hz e he)) S F c h
    exact ⟨code, c', by rw [compile, h1], l1⟩
  | choice i es ih =>
    intro p hs hz S F c h
    rw [arity] at h ⊢
    simp only [Expr.shaped, Bool.and_eq_true, shapedAll_iff, Bool.not_eq_true'] at hs
    simp only [sized, Bool.and_eq_true, sizedAll_iff, sameArity_iff] at hz
    have hfv : ((c.successAsClosure S).2.nextMark.2.nextBranchFailed.2.pushMut (c.successAsClosure S).2.nextMark.2.nextBranchFailed.1).fv = c.fv := by
      show (c.successAsClosure S).2.fv = c.fv
      unfold Ctx.successAsClosure
      split <;> rfl
    obtain ⟨codes, c', h1, n1, l1⟩ := branches_take T (p && decide (T i ≠ .unit)) (arityHead T (p && decide (T i ≠ .unit)) es) es
      (by intro h0; rw [h0] at hs; simp at hs)
      (fun e he => by
        have := ih e he _ (hs.2 e he) (hz.1 e he)
        rwa [hz.2 e he] at this)
      (c.successAsClosure S).2.nextMark.2.nextBranchFailed.1 (c.successAsClosure S).1 F
      ((c.successAsClosure S).2.nextMark.2.nextBranchFailed.2.pushMut (c.successAsClosure S).2.nextMark.2.nextBranchFailed.1).saveScope
      (by simp only [Ctx.saveScope, hfv]; exact h)
      (by simp [Ctx.saveScope, Ctx.pushMut])
      ((c.successAsClosure S).2.nextMark.2.nextBranchFailed.2.pushMut (c.successAsClosure S).2.nextMark.2.nextBranchFailed.1)
    simp only [Ctx.saveScope, hfv] at l1
    cases codes with
    | nil => exact absurd rfl n1
    | cons a rest =>
      have : ∃ code, compile T p (.choice i es) S F c = .ok (code, c') := ⟨_, by
        rw [compile]
        simp only [h1, bind, Except.bind]
        rfl⟩
      exact ⟨this.choose, c', this.choose_spec, l1⟩
  | star i e ih =>
    intro p hs hz S F c h
    rw [arity] at h ⊢
    rw [Expr.shaped] at hs
    by_cases hp : (p && decide (T i ≠ .unit)) = true
    · rw [if_pos hp] at h ⊢
      simp only [sized, hp, Bool.not_true, Bool.false_or, Bool.and_eq_true, beq_iff_eq] at hz
      have ht := ih true hs hz.1
      rw [hz.2] at ht
      obtain ⟨body, r, c1, h1, l1⟩ := valueConstructor_takes ht true c h
      exact ⟨_, (repeatCode false body S F c1).2, by rw [compile, if_pos hp, h1]; rfl, by rw [repeatCode_fv]; exact l1⟩
    · rw [if_neg hp]
      obtain ⟨body, c1, h1, l1⟩ := ih false hs (sized_false T e) .st .failure c (by rw [arity_false]; omega)
      rw [arity_false] at l1
      exact ⟨_, (repeatCode false body S F c1.incr).2, by rw [compile, if_neg hp, h1]; rfl, by rw [repeatCode_fv]; exact l1⟩
  | plus i e ih =>
    intro p hs hz S F c h
    rw [arity] at h ⊢
    rw [Expr.shaped] at hs
    by_cases hp : (p && decide (T i ≠ .unit)) = true
    · rw [if_pos hp] at h ⊢
      simp only [sized, hp, Bool.not_true, Bool.false_or, Bool.and_eq_true, beq_iff_eq] at hz
      have ht := ih true hs hz.1
      rw [hz.2] at ht
      obtain ⟨body, r, c1, h1, l1⟩ := valueConstructor_takes ht true c h
      exact ⟨_, (repeatCode true body S F c1).2, by rw [compile, if_pos hp, h1]; rfl, by rw [repeatCode_fv]; exact l1⟩
    · rw [if_neg hp]
      obtain ⟨body, c1, h1, l1⟩ := ih false hs (sized_false T e) .st .failure c (by rw [arity_false]; omega)
      rw [arity_false] at l1
      exact ⟨_, (repeatCode true body S F c1.incr).2, by rw [compile, if_neg hp, h1]; rfl, by rw [repeatCode_fv]; exact l1⟩
  | opt i e ih =>
    intro p hs hz S F c h
    rw [arity] at h ⊢
    rw [Expr.shaped] at hs
    by_cases hp : (p && decide (T i ≠ .unit)) = true
    · rw [if_pos hp] at h ⊢
      simp only [sized, hp, Bool.not_true, Bool.false_or, Bool.and_eq_true, beq_iff_eq] at hz
      have ht := ih true hs hz.1
      rw [hz.2] at ht
      obtain ⟨body, r, c1, h1, l1⟩ := valueConstructor_takes ht false c h
      exact ⟨_, (optionalCode body S c1).2, by rw [compile, if_pos hp, h1]; rfl, l1⟩
    · rw [if_neg hp]
      obtain ⟨body, c1, h1, l1⟩ := ih false hs (sized_false T e) .st .failure c (by rw [arity_false]; omega)
      rw [arity_false] at l1
      exact ⟨_, (optionalCode body S c1.incr).2, by rw [compile, if_neg hp, h1]; rfl, l1⟩
  | not i e ih =>
    intro p hs hz S F c h
    rw [arity] at h ⊢
    rw [Expr.shaped] at hs
    have hp : ¬ (p && decide (T i ≠ .unit)) = true := by
      intro hp
      simp only [sized, hp, Bool.not_true, Bool.false_eq_true] at hz
    obtain ⟨body, c1, h1, l1⟩ := ih false hs (sized_false T e) .st .failure c.nextMark.2 (by rw [arity_false]; omega)
    rw [arity_false] at l1
    exact ⟨_, c1.incr, by rw [compile, if_neg hp]; simp only [h1, bind, Except.bind]; rfl, l1⟩
  | and i e ih =>
    intro p hs hz S F c h
    rw [arity] at h ⊢
    rw [Expr.shaped] at hs
    have hp : ¬ (p && decide (T i ≠ .unit)) = true := by
      intro hp
      simp only [sized, hp, Bool.not_true, Bool.false_eq_true] at hz
    obtain ⟨body, c1, h1, l1⟩ := ih false hs (sized_false T e) .st .failure c.nextMark.2 (by rw [arity_false]; omega)
    rw [arity_false] at l1
    exact ⟨_, c1.incr, by rw [compile, if_neg hp]; simp only [h1, bind, Except.bind]; rfl, l1⟩
  | act i e boxed f ih =>
    intro p hs hz S F c h
    rw [arity] at h ⊢
    rw [Expr.shaped] at hs
    by_cases hp : (p && decide (T i ≠ .unit)) = true
    · rw [if_pos hp] at h ⊢
      simp only [sized, hp, Bool.not_true, Bool.false_or, Bool.and_eq_true, beq_iff_eq] at hz
      obtain ⟨r, c1, h1, l1⟩ := nextFreeVar_ok h
      have hl : (c1.openScope (T e.id).card).2.fv.length = (T e.id).card := by
        show (freshNames c1 _).length = _
        simp [freshNames]
      obtain ⟨code, c2, h2, l2⟩ := ih true hs hz.1 (.stmt (.letVal r (actionCall boxed f (T e.id = .unit) (c1.openScope (T e.id).card).2.fv)) S) F
        (c1.openScope (T e.id).card).2 (by omega)
      have hf : c2.incr.fv = [] := List.eq_nil_of_length_eq_zero (by simp only [Ctx.incr]; omega)
      refine ⟨code, c2.incr.restoreScope (c1.openScope (T e.id).card).1, ?_, l1⟩
      rw [compile, if_pos hp]
      simp only [h1, bind, Except.bind]
      simp only [h2]
      unfold Ctx.closeScope
      simp only [hf, if_true]
    · rw [if_neg hp]
      obtain ⟨code, c1, h1, l1⟩ := ih false hs (sized_false T e) S F c (by rw [arity_false]; omega)
      rw [arity_false] at l1
      exact ⟨code, c1, by rw [compile, if_neg hp, h1], l1⟩
  | asc i e t ih =>
    intro p hs hz S F c h
    rw [arity] at h ⊢
    rw [Expr.shaped] at hs
    rw [sized] at hz
    obtain ⟨code, c1, h1, l1⟩ := ih _ hs hz S F c h
    exact ⟨code, c1, by rw [compile, h1], l1⟩
  | span i e ih =>
    intro p hs hz S F c h
    rw [arity] at h ⊢
    rw [Expr.shaped] at hs
    by_cases hp : (p && decide (T i ≠ .unit)) = true
    · rw [if_pos hp] at h ⊢
      simp only [sized, hp, Bool.not_true, Bool.false_or, Bool.and_eq_true, beq_iff_eq] at hz
      obtain ⟨r, c1, h1, l1⟩ := nextFreeVarSkip_ok (n := (T e.id).card) (c := c.nextMark.2) (by rw [← hz.2]; exact h)
      have l1' : c1.fv.length + 1 = c.fv.length := l1
      obtain ⟨code, c2, h2, l2⟩ := ih true hs hz.1 (.stmt (.letVal r (.span c.nextMark.1)) S) F (c1.pushMark c.nextMark.1)
        (by simp only [Ctx.pushMark]; omega)
      simp only [Ctx.pushMark] at l2
      exact ⟨_, c2.incr.popMark, by rw [compile, if_pos hp]; simp only [h1, bind, Except.bind]; simp only [h2]; rfl, by
        simp only [Ctx.popMark, Ctx.incr]; omega⟩
    · rw [if_neg hp]
      obtain ⟨code, c1, h1, l1⟩ := ih false hs (sized_false T e) S F c (by rw [arity_false]; omega)
      rw [arity_false] at l1
      exact ⟨code, c1, by rw [compile, if_neg hp, h1], l1⟩
  | range i e ih =>
    intro p hs hz S F c h
    rw [arity] at h ⊢
    rw [Expr.shaped] at hs
    by_cases hp : (p && decide (T i ≠ .unit)) = true
    · rw [if_pos hp] at h ⊢
      simp only [sized, hp, Bool.not_true, Bool.false_or, Bool.and_eq_true, beq_iff_eq] at hz
      obtain ⟨r, c1, h1, l1⟩ := nextFreeVarSkip_ok (n := (T e.id).card) (c := c.nextMark.2) (by rw [← hz.2]; exact h)
      have l1' : c1.fv.length + 1 = c.fv.length := l1
      obtain ⟨code, c2, h2, l2⟩ := ih true hs hz.1 (.stmt (.letVal r (.range c.nextMark.1)) S) F (c1.pushMark c.nextMark.1)
        (by simp only [Ctx.pushMark]; omega)
      simp only [Ctx.pushMark] at l2
      exact ⟨_, c2.incr.popMark, by rw [compile, if_pos hp]; simp only [h1, bind, Except.bind]; simp only [h2]; rfl, by
        simp only [Ctx.popMark, Ctx.incr]; omega⟩
    · rw [if_neg hp]
      obtain ⟨code, c1, h1, l1⟩ := ih false hs (sized_false T e) S F c (by rw [arity_false]; omega)
      rw [arity_false] at l1
      exact ⟨code, c1, by rw [compile, if_neg hp, h1], l1⟩

theorem compileRecognizer_ok (T : Nat → Ty) (e : Expr) (h : e.shaped = true) : ∃ f, compileRecognizer T e = .ok f := by
  obtain ⟨code, c, h1, _⟩ := compile_takes T e false h (sized_false T e) (.success (.tup [])) .failure Ctx.new (by rw [arity_false]; exact Nat.zero_le _)
  exact ⟨_, by simp only [compileRecognizer, h1, bind, Except.bind]; rfl⟩

theorem compileParser_ok (T : Nat → Ty) (r : String) (e : Expr) (h : e.shaped = true)
    (hz : T e.id = .unit ∨ (sized T true e = true ∧ arity T true e = (T e.id).card)) : ∃ f, compileParser T r e = .ok f := by
  by_cases hu : T e.id = .unit
  · exact ⟨_, by rw [compileParser, if_pos hu]⟩
  · obtain hz | ⟨hz, ha⟩ := hz
    · exact absurd hz hu
    · have hl : (Ctx.new.openScope (T e.id).card).2.fv.length = (T e.id).card := by
        show (freshNames Ctx.new _).length = _
        simp [freshNames]
      obtain ⟨code, c, h1, l1⟩ := compile_takes T e true h hz (.success (.tup (Ctx.new.openScope (T e.id).card).2.fv)) .failure
        (Ctx.new.openScope (T e.id).card).2 (by omega)
      have hf : c.fv = [] := List.eq_nil_of_length_eq_zero (by omega)
      refine ⟨⟨(c.restoreScope (Ctx.new.openScope (T e.id).card).1).closures, code⟩, ?_⟩
      rw [compileParser, if_neg hu]
      simp only [h1, bind, Except.bind]
      unfold Ctx.closeScope
      simp only [hf, if_true]

theorem compileGrammar_ok (T : Nat → Ty) (rules : List (String × Expr)) (h : ∀ r ∈ rules, r.2.shaped = true)
    (hz : ∀ r ∈ rules, T r.2.id = .unit ∨ (sized T true r.2 = true ∧ arity T true r.2 = (T r.2.id).card)) :
    ∃ fs, compileGrammar T rules = .ok fs := by
  induction rules with
  | nil => exact ⟨[], rfl⟩
  | cons r rs ih =>
    obtain ⟨r, e⟩ := r
    obtain ⟨f, h1⟩ := compileRecognizer_ok T e (h (r, e) (by simp))
    obtain ⟨g, h2⟩ := compileParser_ok T r e (h (r, e) (by simp)) (hz (r, e) (by simp))
    obtain ⟨fs, h3⟩ := ih (fun r hr => h r (by simp [hr])) (fun r hr => hz r (by simp [hr]))
    exact ⟨_, by simp only [compileGrammar, h1, h2, h3, bind, Except.bind]; rfl⟩

end Oak
