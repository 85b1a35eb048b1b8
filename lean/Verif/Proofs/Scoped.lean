import Verif.Proofs.CodegenOk
import Verif.Spec.Scoped
import Verif.Spec.Scope
/-! The generated code is well scoped. -/
set_option autoImplicit false
set_option linter.constructorNameAsVariable false

namespace Oak

/-! ### Variables taken by a compilation -/

/-- The effect of a compilation on the variables of the context. -/
structure Moves (c c' : Ctx) (n : Nat) : Prop where
  fv : ∃ P, c.fv = c'.fv ++ P ∧ P.length = n
  muts : c'.muts = c.muts
  marks : c'.marks = c.marks

theorem Moves.refl (c : Ctx) : Moves c c 0 := ⟨⟨[], by simp⟩, rfl, rfl⟩
theorem Moves.trans {c c1 c2 : Ctx} {m n : Nat} (a : Moves c c1 m) (b : Moves c1 c2 n) : Moves c c2 (n + m) := by
  obtain ⟨P, h1, l1⟩ := a.fv
  obtain ⟨Q, h2, l2⟩ := b.fv
  exact ⟨⟨Q ++ P, by rw [h1, h2, List.append_assoc], by simp [l1, l2]⟩, b.muts.trans a.muts, b.marks.trans a.marks⟩
theorem Moves.sub {c c' : Ctx} {n : Nat} (a : Moves c c' n) {x : Name} (h : x ∈ c'.fv) : x ∈ c.fv := by
  obtain ⟨P, h1, _⟩ := a.fv
  rw [h1]; simp [h]

theorem nextFreeVar_eq {c c1 : Ctx} {v : Name} (h : c.nextFreeVar = .ok (v, c1)) : c.fv = c1.fv ++ [v] ∧ c1 = { c with fv := c1.fv } := by
  unfold Ctx.nextFreeVar at h
  split at h
  · rename_i w hw
    cases h
    obtain ⟨ys, hys⟩ := List.getLast?_eq_some_iff.1 hw
    exact ⟨by simp [hys], rfl⟩
  · cases h

theorem nextFreeVars_eq {n : Nat} {c c1 : Ctx} {vs : List Name} (h : c.nextFreeVars n = .ok (vs, c1)) :
    c.fv = c1.fv ++ vs ∧ c1 = { c with fv := c1.fv } ∧ vs.length = n := by
  induction n generalizing c vs with
  | zero => cases h; exact ⟨by simp, rfl, rfl⟩
  | succ n ih =>
    simp only [Ctx.nextFreeVars] at h
    obtain ⟨⟨v, c2⟩, h1, h⟩ := except_bind_eq_ok h
    obtain ⟨⟨ws, c3⟩, h2, h⟩ := except_bind_eq_ok h
    cases h
    obtain ⟨e1, e2⟩ := nextFreeVar_eq h1
    obtain ⟨e3, e4, e5⟩ := ih h2
    refine ⟨by rw [e1, e3]; simp, ?_, by simp [e5]⟩
    rw [e4, e2]

theorem successAsClosure_ctx (c : Ctx) (S : Ex) : (c.successAsClosure S).2.fv = c.fv ∧ (c.successAsClosure S).2.muts = c.muts ∧
    (c.successAsClosure S).2.marks = c.marks ∧ (c.successAsClosure S).2.ncomb = 0 := by
  unfold Ctx.successAsClosure
  split
  · exact ⟨rfl, rfl, rfl, rfl⟩
  · rename_i h; exact ⟨rfl, rfl, rfl, Nat.eq_zero_of_not_pos h⟩

theorem popMut_eq {c c' : Ctx} (h : c.popMut = .ok c') : c' = { c with muts := c.muts.dropLast } := by
  unfold Ctx.popMut at h
  split at h
  · cases h
  · cases h; rfl

theorem call_moves {T : Nat → Ty} {p : Bool} {i : Nat} {path : Path} {S F code : Ex} {c c' : Ctx}
    (h : compileCall T p i path S F c = .ok (code, c')) : Moves c c' (if p && T i ≠ .unit then (T i).card else 0) := by
  unfold compileCall at h
  by_cases hp : (p && decide (T i ≠ .unit)) = true
  · rw [if_pos hp] at h ⊢
    obtain ⟨⟨vs, c1⟩, h1, h⟩ := except_bind_eq_ok h
    cases h
    obtain ⟨e1, e2, e3⟩ := nextFreeVars_eq h1
    exact ⟨⟨vs, e1, e3⟩, by rw [e2], by rw [e2]⟩
  · rw [if_neg hp] at h ⊢
    cases h
    exact .refl c

theorem branches_moves {T : Nat → Ty} {p : Bool} {n : Nat} {es : List Expr}
    (ih : ∀ e ∈ es, ∀ S F c code c', compile T p e S F c = .ok (code, c') → Moves c c' n) {b : Name} {S F : Ex} {scope : Ctx.Scope}
    {c c' : Ctx} {codes : List Ex} (h : compileBranches T p es b S F scope c = .ok (codes, c')) :
    Moves { c with fv := scope.fv, muts := scope.muts.dropLast } c' n := by
  induction es generalizing c codes with
  | nil => simp [compileBranches] at h
  | cons e es ihe =>
    rw [compileBranches] at h
    split at h
    · obtain ⟨c1, h1, h⟩ := except_bind_eq_ok h
      obtain ⟨⟨code, c2⟩, h2, h⟩ := except_bind_eq_ok h
      cases h
      have := popMut_eq h1
      subst this
      have hm := ih e (by simp) _ _ _ _ _ h2
      exact ⟨hm.fv, hm.muts, hm.marks⟩
    · obtain ⟨⟨code, c1⟩, h1, h⟩ := except_bind_eq_ok h
      obtain ⟨⟨codes', c2⟩, h2, h⟩ := except_bind_eq_ok h
      cases h
      have hm := ih e (by simp) _ _ _ _ _ h1
      have hr := ihe (fun e he => ih e (by simp [he])) h2
      exact ⟨hr.fv, hr.muts, hr.marks.trans hm.marks⟩

theorem valueConstructor_moves {comp : Ex → Ex → Ctx → Except String (Ex × Ctx)} {n card : Nat}
    (hc : ∀ S F c code c', comp S F c = .ok (code, c') → Moves c c' n) {vec : Bool} {c c' : Ctx} {body : Ex} {r : Name}
    (h : valueConstructor comp card vec c = .ok (body, r, c')) : c.fv = c'.fv ++ [r] ∧ c'.muts = c.muts ∧ c'.marks = c.marks := by
  unfold valueConstructor at h
  obtain ⟨⟨r1, c1⟩, h1, h⟩ := except_bind_eq_ok h
  obtain ⟨⟨body1, c2⟩, h2, h⟩ := except_bind_eq_ok h
  obtain ⟨c3, h3, h⟩ := except_bind_eq_ok h
  cases h
  obtain ⟨e1, e2⟩ := nextFreeVar_eq h1
  obtain ⟨e3, e4⟩ := closeScope_eq h3
  have hm := hc _ _ _ _ _ h2
  subst e4
  refine ⟨e1, ?_, ?_⟩
  · show c1.muts = c.muts
    rw [e2]
  · show c2.marks = c.marks
    rw [hm.marks]
    show c1.marks = c.marks
    rw [e2]

theorem seq_moves {T : Nat → Ty} {p : Bool} {es : List Expr}
    (ih : ∀ e ∈ es, ∀ S F c code c', compile T p e S F c = .ok (code, c') → Moves c c' (arity T p e)) {S F code : Ex} {c c' : Ctx}
    (h : compileSeq T p es S F c = .ok (code, c')) : Moves c c' (aritySeq T p es) := by
  induction es generalizing code c' with
  | nil => simp only [compileSeq] at h; cases h; exact .refl c
  | cons e es ihe =>
    rw [compileSeq] at h
    obtain ⟨⟨S1, c1⟩, h1, h⟩ := except_bind_eq_ok h
    obtain ⟨⟨code2, c2⟩, h2, h⟩ := except_bind_eq_ok h
    cases h
    have a := ihe (fun e he => ih e (by simp [he])) h1
    have b := ih e (by simp) _ _ _ _ _ h2
    rw [aritySeq]
    have := a.trans b
    exact ⟨this.fv, this.muts, this.marks⟩

theorem spanned_moves {c c1 c' : Ctx} {m r : Name} {n k : Nat} (h1 : c.nextMark.2.nextFreeVarSkip k = .ok (r, c1)) (hm : Moves (c1.pushMark m) c' n)
    (hn : n = k) : Moves c c'.incr.popMark (n + 1) := by
  obtain ⟨A, B, e1, e2, e3⟩ := nextFreeVarSkip_eq h1
  have e1' : c.fv = A ++ r :: B := e1
  obtain ⟨⟨P, f1, f2⟩, f3, f4⟩ := hm
  have f1' : A ++ B = c'.fv ++ P := by rw [← f1, e3]; rfl
  have hl := congrArg List.length f1'
  simp only [List.length_append] at hl
  obtain ⟨g1, g2⟩ := List.append_inj f1' (by omega)
  refine ⟨⟨r :: B, ?_, by simp; omega⟩, ?_, ?_⟩
  · show c.fv = c'.fv ++ r :: B
    rw [e1', g1]
  · show c'.muts = c.muts
    rw [f3, e3]; rfl
  · show c'.marks.dropLast = c.marks
    rw [f4, e3]
    simp [Ctx.pushMark, Ctx.nextMark]

/-- The compilation of a sized expression takes as many variables as its arity, the last ones. -/
theorem compile_moves (T : Nat → Ty) (e : Expr) : ∀ p, sized T p e = true → ∀ S F c code c', compile T p e S F c = .ok (code, c') →
    Moves c c' (arity T p e) := by
  induction e using Expr.ind with
  | str i l => intro p _ S F c code c' h; rw [compile] at h; cases h; exact .refl c
  | any i =>
    intro p _ S F c code c' h
    rw [compile] at h
    rw [arity]
    split at h
    · rename_i hp
      obtain ⟨⟨v, c1⟩, h1, h⟩ := except_bind_eq_ok h
      cases h
      obtain ⟨e1, e2⟩ := nextFreeVar_eq h1
      rw [if_pos hp]
      exact ⟨⟨[v], e1, rfl⟩, by rw [e2], by rw [e2]⟩
    · rename_i hp
      cases h
      rw [if_neg hp]
      exact .refl c
  | cls i ivs =>
    intro p _ S F c code c' h
    rw [compile] at h
    rw [arity]
    split at h
    · rename_i hp
      obtain ⟨⟨v, c1⟩, h1, h⟩ := except_bind_eq_ok h
      obtain ⟨cond, h2, h⟩ := except_bind_eq_ok h
      cases h
      obtain ⟨e1, e2⟩ := nextFreeVar_eq h1
      rw [if_pos hp]
      exact ⟨⟨[v], e1, rfl⟩, by rw [e2], by rw [e2]⟩
    · rename_i hp
      obtain ⟨⟨v, c1⟩, h1, h⟩ := except_bind_eq_ok h
      cases h1
      obtain ⟨cond, h2, h⟩ := except_bind_eq_ok h
      cases h
      rw [if_neg hp]
      exact ⟨⟨[], by simp, rfl⟩, rfl, rfl⟩
  | nt i r => intro p _ S F c code c' h; rw [compile] at h; rw [arity]; exact call_moves h
  | ext i r => intro p _ S F c code c' h; rw [compile] at h; rw [arity]; exact call_moves h
  | seq i es ih =>
    intro p hz S F c code c' h
    rw [compile] at h
    rw [sized, sizedAll_iff] at hz
    rw [arity]
    exact seq_moves (fun e he => ih e he _ (hz e he)) h
  | choice i es ih =>
    intro p hz S F c code c' h
    rw [compile] at h
    simp only [sized, Bool.and_eq_true, sizedAll_iff, sameArity_iff] at hz
    rw [arity]
    obtain ⟨⟨brs, c1⟩, h1, h⟩ := except_bind_eq_ok h
    have hm := branches_moves (n := arityHead T (p && decide (T i ≠ .unit)) es) (fun e he S F c code c' hc => by
      have := ih e he _ (hz.1 e he) S F c code c' hc
      rwa [hz.2 e he] at this) h1
    obtain ⟨g1, g2, g3, g4⟩ := successAsClosure_ctx c S
    cases brs with
    | cons b brs =>
      cases h
      obtain ⟨⟨P, f1, f2⟩, f3, f4⟩ := hm
      refine ⟨⟨P, ?_, f2⟩, ?_, ?_⟩
      · rw [← f1]; exact g1.symm
      · rw [f3]
        show ((c.successAsClosure S).2.muts ++ [_]).dropLast = _
        rw [List.dropLast_concat, g2]
      · rw [f4]; exact g3
    | nil => cases h
  | star i e ih =>
    intro p hz S F c code c' h
    rw [compile] at h
    rw [arity]
    split at h
    · rename_i hp
      obtain ⟨⟨body, r, c1⟩, h1, h⟩ := except_bind_eq_ok h
      cases h
      simp only [sized, hp, Bool.not_true, Bool.false_or, Bool.and_eq_true] at hz
      obtain ⟨e1, e2, e3⟩ := valueConstructor_moves (ih true hz.1) h1
      rw [if_pos hp]
      exact ⟨⟨[r], e1, rfl⟩, e2, e3⟩
    · rename_i hp
      obtain ⟨⟨body, c1⟩, h1, h⟩ := except_bind_eq_ok h
      cases h
      have := ih false (sized_false T e) _ _ _ _ _ h1
      rw [arity_false] at this
      rw [if_neg hp]
      exact ⟨this.fv, this.muts, this.marks⟩
  | plus i e ih =>
    intro p hz S F c code c' h
    rw [compile] at h
    rw [arity]
    split at h
    · rename_i hp
      obtain ⟨⟨body, r, c1⟩, h1, h⟩ := except_bind_eq_ok h
      cases h
      simp only [sized, hp, Bool.not_true, Bool.false_or, Bool.and_eq_true] at hz
      obtain ⟨e1, e2, e3⟩ := valueConstructor_moves (ih true hz.1) h1
      rw [if_pos hp]
      exact ⟨⟨[r], e1, rfl⟩, e2, e3⟩
    · rename_i hp
      obtain ⟨⟨body, c1⟩, h1, h⟩ := except_bind_eq_ok h
      cases h
      have := ih false (sized_false T e) _ _ _ _ _ h1
      rw [arity_false] at this
      rw [if_neg hp]
      exact ⟨this.fv, this.muts, this.marks⟩
  | opt i e ih =>
    intro p hz S F c code c' h
    rw [compile] at h
    rw [arity]
    split at h
    · rename_i hp
      obtain ⟨⟨body, r, c1⟩, h1, h⟩ := except_bind_eq_ok h
      cases h
      simp only [sized, hp, Bool.not_true, Bool.false_or, Bool.and_eq_true] at hz
      obtain ⟨e1, e2, e3⟩ := valueConstructor_moves (ih true hz.1) h1
      rw [if_pos hp]
      exact ⟨⟨[r], e1, rfl⟩, e2, e3⟩
    · rename_i hp
      obtain ⟨⟨body, c1⟩, h1, h⟩ := except_bind_eq_ok h
      cases h
      have := ih false (sized_false T e) _ _ _ _ _ h1
      rw [arity_false] at this
      rw [if_neg hp]
      exact ⟨this.fv, this.muts, this.marks⟩
  | not i e ih =>
    intro p hz S F c code c' h
    rw [compile] at h
    rw [arity]
    split at h
    · cases h
    · obtain ⟨⟨body, c1⟩, h1, h⟩ := except_bind_eq_ok h
      cases h
      have := ih false (sized_false T e) _ _ _ _ _ h1
      rw [arity_false] at this
      exact ⟨this.fv, this.muts, this.marks⟩
  | and i e ih =>
    intro p hz S F c code c' h
    rw [compile] at h
    rw [arity]
    split at h
    · cases h
    · obtain ⟨⟨body, c1⟩, h1, h⟩ := except_bind_eq_ok h
      cases h
      have := ih false (sized_false T e) _ _ _ _ _ h1
      rw [arity_false] at this
      exact ⟨this.fv, this.muts, this.marks⟩
  | act i e boxed f ih =>
    intro p hz S F c code c' h
    rw [compile] at h
    rw [arity]
    split at h
    · rename_i hp
      obtain ⟨⟨r, c1⟩, h1, h⟩ := except_bind_eq_ok h
      obtain ⟨⟨code1, c2⟩, h2, h⟩ := except_bind_eq_ok h
      obtain ⟨c3, h3, h⟩ := except_bind_eq_ok h
      cases h
      simp only [sized, hp, Bool.not_true, Bool.false_or, Bool.and_eq_true] at hz
      have hm := ih true hz.1 _ _ _ _ _ h2
      obtain ⟨e1, e2⟩ := nextFreeVar_eq h1
      obtain ⟨e3, e4⟩ := closeScope_eq h3
      subst e4
      rw [if_pos hp]
      refine ⟨⟨[r], e1, rfl⟩, ?_, ?_⟩
      · show c1.muts = c.muts
        rw [e2]
      · show c2.marks = c.marks
        rw [hm.marks]
        show c1.marks = c.marks
        rw [e2]
    · rename_i hp
      have := ih false (sized_false T e) _ _ _ _ _ h
      rw [arity_false] at this
      rw [if_neg hp]
      exact this
  | asc i e t ih =>
    intro p hz S F c code c' h
    rw [compile] at h
    rw [arity]
    rw [sized] at hz
    exact ih _ hz _ _ _ _ _ h
  | span i e ih =>
    intro p hz S F c code c' h
    rw [compile] at h
    rw [arity]
    split at h
    · rename_i hp
      obtain ⟨⟨r, c1⟩, h1, h⟩ := except_bind_eq_ok h
      obtain ⟨⟨code1, c2⟩, h2, h⟩ := except_bind_eq_ok h
      cases h
      simp only [sized, hp, Bool.not_true, Bool.false_or, Bool.and_eq_true, beq_iff_eq] at hz
      rw [if_pos hp]
      exact spanned_moves h1 (ih true hz.1 _ _ _ _ _ h2) hz.2
    · rename_i hp
      have := ih false (sized_false T e) _ _ _ _ _ h
      rw [arity_false] at this
      rw [if_neg hp]
      exact this
  | range i e ih =>
    intro p hz S F c code c' h
    rw [compile] at h
    rw [arity]
    split at h
    · rename_i hp
      obtain ⟨⟨r, c1⟩, h1, h⟩ := except_bind_eq_ok h
      obtain ⟨⟨code1, c2⟩, h2, h⟩ := except_bind_eq_ok h
      cases h
      simp only [sized, hp, Bool.not_true, Bool.false_or, Bool.and_eq_true, beq_iff_eq] at hz
      rw [if_pos hp]
      exact spanned_moves h1 (ih true hz.1 _ _ _ _ _ h2) hz.2
    · rename_i hp
      have := ih false (sized_false T e) _ _ _ _ _ h
      rw [arity_false] at this
      rw [if_neg hp]
      exact this

end Oak
