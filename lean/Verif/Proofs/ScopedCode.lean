import Verif.Proofs.Scoped
/-! The generated code is well scoped: the main induction. -/
set_option autoImplicit false
set_option linter.constructorNameAsVariable false

namespace Oak

/-- Code that uses only the variables of the context and `O.1`, and assigns only the `&mut` variables of the context and `O.2`. -/
structure Uses (c : Ctx) (O : List Name × List Name) (k : Ex) : Prop where
  fv : ∀ x ∈ k.fv, x ∈ c.muts ∨ x ∈ c.fv ∨ x ∈ c.marks ∨ x ∈ O.1
  asg : ∀ x ∈ k.asg, x ∈ c.muts ∨ x ∈ O.2

/-- The new closures are closed. -/
def Grows (c c' : Ctx) : Prop := ∀ cl ∈ c'.closures, cl ∈ c.closures ∨ cl.closed = true

theorem Grows.refl (c : Ctx) : Grows c c := fun _ h => .inl h
theorem Grows.trans {c c1 c2 : Ctx} (a : Grows c c1) (b : Grows c1 c2) : Grows c c2 := fun cl h => by
  rcases b cl h with h | h
  · exact a cl h
  · exact .inr h

/-- Code without variables. -/
structure Pure (F : Ex) : Prop where
  fv : F.fv = []
  asg : F.asg = []

/-- What is proved of every expression. -/
def Scopes (T : Nat → Ty) (e : Expr) : Prop :=
  ∀ p u S F c code c' O, compile T p e S F c = .ok (code, c') → sized T p e = true → scopable T p u e = true → Uses c O S → Pure F →
    (captures T p (decide (0 < c.ncomb)) e = true → O = ([], [])) → (u = false → c'.fv = [] ∧ c.muts = [] ∧ O = ([], [])) → Uses c' O code ∧ Grows c c'

theorem call_scopes {T : Nat → Ty} {p : Bool} {i : Nat} {path : Path} {S F code : Ex} {c c' : Ctx} {O : List Name × List Name}
    (h : compileCall T p i path S F c = .ok (code, c')) (hS : Uses c O S) (hF : Pure F) : Uses c' O code ∧ Grows c c' := by
  obtain ⟨s1, s2⟩ := hS
  obtain ⟨f1, f2⟩ := hF
  unfold compileCall at h
  split at h
  · obtain ⟨⟨vs, c1⟩, h1, h⟩ := except_bind_eq_ok h
    cases h
    obtain ⟨e1, e2, e3⟩ := nextFreeVars_eq h1
    have em : c'.muts = c.muts := by rw [e2]
    have ek : c'.marks = c.marks := by rw [e2]
    have ec : c'.closures = c.closures := by rw [e2]
    refine ⟨⟨?_, ?_⟩, fun cl h => .inl (ec ▸ h)⟩
    · intro x hx
      simp only [Ex.fv, Stmt.fv, Stmt.binds, Cond.fv, f1] at hx
      grind
    · intro x hx
      simp only [Ex.asg, Stmt.asg, Stmt.binds, f2] at hx
      grind
  · cases h
    refine ⟨⟨?_, ?_⟩, .refl _⟩
    · intro x hx
      simp only [Ex.fv, Stmt.fv, Stmt.binds, Cond.fv, f1] at hx
      grind
    · intro x hx
      simp only [Ex.asg, Stmt.asg, Stmt.binds, f2] at hx
      grind

theorem scopable_false (T : Nat → Ty) (e : Expr) : ∀ u, scopable T false u e = true := by
  induction e using Expr.ind with
  | seq i es ih =>
    intro u
    simp only [scopable, Bool.false_and]
    induction es generalizing u with
    | nil => rfl
    | cons e es ihe =>
      simp only [scopableSeq, Bool.and_eq_true]
      exact ⟨ih e (by simp) u, ihe (fun e he => ih e (by simp [he])) _⟩
  | choice i es ih =>
    intro u
    simp only [scopable, Bool.false_and]
    induction es generalizing u with
    | nil => rfl
    | cons e es ihe =>
      simp only [scopableBranches, Bool.and_eq_true]
      exact ⟨ih e (by simp) _, ihe (fun e he => ih e (by simp [he])) _⟩
  | star i e ih => intro u; simp [scopable, ih]
  | plus i e ih => intro u; simp [scopable, ih]
  | opt i e ih => intro u; simp [scopable, ih]
  | act i e b f ih => intro u; simp [scopable, ih]
  | asc i e t ih => intro u; simp [scopable, ih]
  | span i e ih => intro u; simp [scopable, ih]
  | range i e ih => intro u; simp [scopable, ih]
  | _ => intro u; rfl

theorem recognizer_scopes {T : Nat → Ty} {e : Expr} (ih : Scopes T e) {body : Ex} {c c' : Ctx} (h : compile T false e .st .failure c = .ok (body, c')) :
    Uses c' ([], []) body ∧ Grows c c' :=
  ih false true .st .failure c body c' ([], []) h (sized_false T e) (scopable_false T e _) ⟨by simp [Ex.fv], by simp [Ex.asg]⟩ ⟨rfl, rfl⟩ (fun _ => rfl) (by simp)

theorem valueConstructor_scopes {T : Nat → Ty} {e : Expr} (ih : Scopes T e) {card : Nat} {vec : Bool} {c c' : Ctx} {body : Ex} {r : Name}
    (h : valueConstructor (compile T true e) card vec c = .ok (body, r, c')) (hz : sized T true e = true) (hs : scopable T true true e = true) :
    (∀ x ∈ body.fv, x = r ∨ x ∈ c'.marks) ∧ (∀ x ∈ body.asg, x = r) ∧ Grows c c' := by
  unfold valueConstructor at h
  obtain ⟨⟨r1, c1⟩, h1, h⟩ := except_bind_eq_ok h
  obtain ⟨⟨body1, c2⟩, h2, h⟩ := except_bind_eq_ok h
  obtain ⟨c3, h3, h⟩ := except_bind_eq_ok h
  cases h
  obtain ⟨e1, e2⟩ := nextFreeVar_eq h1
  obtain ⟨e3, e4⟩ := closeScope_eq h3
  have hm := compile_moves T e true hz _ _ _ _ _ h2
  obtain ⟨g1, g2⟩ := ih true true _ _ _ _ _ ([], []) h2 hz hs ⟨by
      intro x hx
      have hx' : x ∈ r :: ((c1.openScope card).2.pushMut r).fv := by
        cases vec <;> (simp only [Ex.fv, Stmt.fv, VEx.fv, List.filter_nil, List.append_nil, if_true, Bool.false_eq_true, if_false] at hx; exact hx)
      rcases List.mem_cons.1 hx' with rfl | hx'
      · exact .inl (by simp [Ctx.pushMut])
      · exact .inr (.inl hx'), by
      intro x hx
      cases vec <;> simp [Ex.asg, Stmt.asg, Stmt.binds] at hx <;> simp [Ctx.pushMut, hx]⟩ ⟨rfl, rfl⟩ (fun _ => rfl) (by simp)
  have hmu : c2.muts = [r] := hm.muts
  have hf : c2.fv = [] := e3
  subst e4
  refine ⟨?_, ?_, ?_⟩
  · intro x hx
    rcases g1.fv x hx with h | h | h | h
    · rw [hmu] at h; exact .inl (by simpa using h)
    · rw [hf] at h; cases h
    · exact .inr h
    · cases h
  · intro x hx
    rcases g1.asg x hx with h | h
    · rw [hmu] at h; simpa using h
    · cases h
  · intro cl hcl
    rcases g2 cl hcl with h | h
    · left
      have : cl ∈ c1.closures := h
      rw [e2] at this
      exact this
    · exact .inr h

theorem repeatCode_uses {plus : Bool} {body S F : Ex} {c c0 : Ctx} {O : List Name × List Name} {B : List Name} (hS : Uses c0 O S) (hF : Pure F)
    (hb : ∀ x ∈ body.fv, x ∈ B ∨ x ∈ c.marks) (ha : ∀ x ∈ body.asg, x ∈ B) (hfv : ∀ x ∈ c0.fv, x ∈ c.fv ∨ x ∈ B)
    (hm : c.muts = c0.muts) (hk : c.marks = c0.marks) :
    (∀ x ∈ (repeatCode plus body S F c).1.fv, x ∈ c.muts ∨ x ∈ c.fv ∨ x ∈ c.marks ∨ x ∈ O.1 ∨ x ∈ B) ∧
    (∀ x ∈ (repeatCode plus body S F c).1.asg, x ∈ c.muts ∨ x ∈ O.2 ∨ x ∈ B) := by
  obtain ⟨s1, s2⟩ := hS
  obtain ⟨f1, f2⟩ := hF
  cases plus
  · constructor
    · intro x hx
      simp only [repeatCode, Bool.false_eq_true, if_false, Ex.fv, Stmt.fv, Stmt.binds, Cond.fv, f1] at hx
      grind
    · intro x hx
      simp only [repeatCode, Bool.false_eq_true, if_false, Ex.asg, Stmt.asg, Stmt.binds, f2] at hx
      grind
  · constructor
    · intro x hx
      simp only [repeatCode, if_true, Ex.fv, Stmt.fv, Stmt.binds, Cond.fv, f1] at hx
      grind
    · intro x hx
      simp only [repeatCode, if_true, Ex.asg, Stmt.asg, Stmt.binds, f2] at hx
      grind

theorem optionalCode_uses {body S : Ex} {c c0 : Ctx} {O : List Name × List Name} {B : List Name} (hS : Uses c0 O S)
    (hb : ∀ x ∈ body.fv, x ∈ B ∨ x ∈ c.marks) (ha : ∀ x ∈ body.asg, x ∈ B) (hfv : ∀ x ∈ c0.fv, x ∈ c.fv ∨ x ∈ B)
    (hm : c.muts = c0.muts) (hk : c.marks = c0.marks) :
    (∀ x ∈ (optionalCode body S c).1.fv, x ∈ c.muts ∨ x ∈ c.fv ∨ x ∈ c.marks ∨ x ∈ O.1 ∨ x ∈ B) ∧
    (∀ x ∈ (optionalCode body S c).1.asg, x ∈ c.muts ∨ x ∈ O.2 ∨ x ∈ B) := by
  obtain ⟨s1, s2⟩ := hS
  constructor
  · intro x hx
    simp only [optionalCode, Ex.fv, Stmt.fv, Stmt.binds] at hx
    grind
  · intro x hx
    simp only [optionalCode, Ex.asg, Stmt.asg, Stmt.binds] at hx
    grind

theorem successAsClosure_scopes {c : Ctx} {S : Ex} {O : List Name × List Name} (hS : Uses c O S) (hO : 0 < c.ncomb → O = ([], [])) :
    Uses (c.successAsClosure S).2 O (c.successAsClosure S).1 ∧ Grows c (c.successAsClosure S).2 := by
  unfold Ctx.successAsClosure
  by_cases hn : c.ncomb > 0
  · simp only [hn, if_true]
    have hO := hO hn
    subst hO
    refine ⟨⟨?_, ?_⟩, ?_⟩
    · intro x hx
      simp only [Ex.fv, List.mem_append] at hx
      rcases hx with (h | h) | h
      · exact .inl h
      · exact .inr (.inl h)
      · exact .inr (.inr (.inl h))
    · intro x hx
      exact .inl hx
    · intro cl hcl
      rcases List.mem_append.1 hcl with h | h
      · exact .inl h
      · right
        rw [List.mem_singleton] at h
        subst h
        simp only [Closure.closed, Bool.and_eq_true, List.all_eq_true, decide_eq_true_eq, List.mem_append]
        constructor
        · intro x hx
          rcases hS.fv x hx with h | h | h | h
          · exact .inl (.inl h)
          · exact .inl (.inr h)
          · exact .inr h
          · cases h
        · intro x hx
          rcases hS.asg x hx with h | h
          · exact h
          · cases h
  · simp only [hn, if_false]
    exact ⟨hS, .refl _⟩

theorem seq_scopes {T : Nat → Ty} {es : List Expr} (ih : ∀ e ∈ es, Scopes T e) {p u : Bool} {S F code : Ex} {c c' : Ctx} {O : List Name × List Name}
    (h : compileSeq T p es S F c = .ok (code, c')) (hz : ∀ e ∈ es, sized T p e = true) (hs : scopableSeq T p u es = true) (hS : Uses c O S) (hF : Pure F)
    (hc : capturesSeq T p (decide (0 < c.ncomb)) es = true → O = ([], [])) (hu : u = false → c'.fv = [] ∧ c.muts = [] ∧ O = ([], [])) :
    (Uses c' O code ∧ Grows c c') ∧ (es ≠ [] → 0 < c'.ncomb) ∧ (es = [] → c' = c) := by
  induction es generalizing code c' u with
  | nil => simp only [compileSeq] at h; cases h; exact ⟨⟨hS, .refl _⟩, by simp, fun _ => rfl⟩
  | cons e es ihe =>
    rw [compileSeq] at h
    obtain ⟨⟨S1, c1⟩, h1, h⟩ := except_bind_eq_ok h
    obtain ⟨⟨code2, c2⟩, h2, h⟩ := except_bind_eq_ok h
    cases h
    simp only [scopableSeq, Bool.and_eq_true] at hs
    simp only [capturesSeq, Bool.or_eq_true] at hc
    have m1 := seq_moves (fun e he => compile_moves T e p (hz e (by simp [he]))) h1
    have m2 := compile_moves T e p (hz e (by simp)) _ _ _ _ _ h2
    obtain ⟨⟨g1, g2⟩, g3, g4⟩ := ihe (fun e he => ih e (by simp [he])) h1 (fun e he => hz e (by simp [he])) hs.2 (fun h => hc (.inr h)) (by
      intro hu'
      simp only [Bool.or_eq_false_iff, decide_eq_false_iff_not, Nat.not_lt, Nat.le_zero_eq] at hu'
      obtain ⟨a1, a2, a3⟩ := hu hu'.1
      obtain ⟨P, b1, b2⟩ := m2.fv
      have a1' : c2.fv = [] := a1
      rw [hu'.2] at b2
      rw [List.eq_nil_of_length_eq_zero b2, a1'] at b1
      exact ⟨b1, a2, a3⟩)
    obtain ⟨k1, k2⟩ := ih e (by simp) p u S1 F c1 _ c2 O h2 (hz e (by simp)) hs.1 g1 hF (by
      intro hcap
      apply hc
      left
      cases es with
      | nil => rw [g4 rfl] at hcap; simpa using hcap
      | cons e' es =>
        have : decide (0 < c1.ncomb) = true := by simpa using g3 (by simp)
        rw [this] at hcap
        simpa using hcap) (by
      intro hu'
      obtain ⟨a1, a2, a3⟩ := hu hu'
      exact ⟨a1, by rw [m1.muts]; exact a2, a3⟩)
    exact ⟨⟨⟨k1.fv, k1.asg⟩, g2.trans k2⟩, fun _ => Nat.succ_pos _, by simp⟩

theorem choiceCode_mem {m b x : Name} {l : List Ex} (h : x ∈ (choiceCode m b l).fv) : x = m ∨ x = b ∨ ∃ e ∈ l, x ∈ e.fv := by
  induction l with
  | nil => simp [choiceCode, Ex.fv] at h
  | cons e l ih =>
    simp only [choiceCode, Ex.fv, Stmt.fv, Cond.fv, Stmt.binds] at h
    grind

theorem choiceCode_asg {m b x : Name} {l : List Ex} (h : x ∈ (choiceCode m b l).asg) : ∃ e ∈ l, x ∈ e.asg := by
  induction l with
  | nil => simp [choiceCode, Ex.asg] at h
  | cons e l ih =>
    simp only [choiceCode, Ex.asg, Stmt.asg, Stmt.binds] at h
    grind

/-- The branches of a choice: the flag `b` is the last `&mut` variable of the scope. -/
theorem branches_scopes {T : Nat → Ty} {es : List Expr} (ih : ∀ e ∈ es, Scopes T e) {p u : Bool} {n : Nat} {S F : Ex} {c c' : Ctx} {O : List Name × List Name} {M : List Name}
    {codes : List Ex} {b : Name} {scope : Ctx.Scope}
    (h : compileBranches T p es b S F scope c = .ok (codes, c')) (hz : ∀ e ∈ es, sized T p e = true) (ha : ∀ e ∈ es, arity T p e = n)
    (hs : scopableBranches T p u es = true)
    (hM : scope.muts = M ++ [b]) (h0 : scope.ncomb = 0)
    (hS : Uses { c with fv := scope.fv, muts := M } O S) (hF : Pure F)
    (hc : capturesAny T p es = true → O = ([], [])) (hu : u = false → c'.fv = [] ∧ M = [] ∧ O = ([], [])) :
    (∀ code ∈ codes, (∀ x ∈ code.fv, x = b ∨ x ∈ M ∨ x ∈ c'.fv ∨ x ∈ c'.marks ∨ x ∈ O.1) ∧ (∀ x ∈ code.asg, x = b ∨ x ∈ M ∨ x ∈ O.2)) ∧ Grows c c' := by
  induction es generalizing c codes with
  | nil => simp [compileBranches] at h
  | cons e es ihe =>
    have hmv := branches_moves (fun e he => by
      have := compile_moves T e p (hz e he)
      rwa [ha e he] at this) h
    rw [compileBranches] at h
    simp only [scopableBranches, Bool.and_eq_true] at hs
    simp only [capturesAny, Bool.or_eq_true] at hc
    split at h
    · rename_i hes
      obtain ⟨c1, h1, h⟩ := except_bind_eq_ok h
      obtain ⟨⟨code, c2⟩, h2, h⟩ := except_bind_eq_ok h
      cases h
      have := popMut_eq h1
      subst this
      have m := compile_moves T e p (hz e (by simp)) _ _ _ _ _ h2
      have hmu : (c.restoreScope scope).muts.dropLast = M := by
        show scope.muts.dropLast = M
        rw [hM, List.dropLast_concat]
      obtain ⟨k1, k2⟩ := ih e (by simp) p u S F _ _ _ O h2 (hz e (by simp)) (by simpa [hes] using hs.1) (by
          refine ⟨?_, ?_⟩
          · intro x hx
            simp only [hmu]
            exact hS.fv x hx
          · intro x hx
            simp only [hmu]
            exact hS.asg x hx) hF (by
          intro hcap
          refine hc (.inl ?_)
          have : (decide (0 < ({ (c.restoreScope scope) with muts := (c.restoreScope scope).muts.dropLast } : Ctx).ncomb)) = false := by
            simp [Ctx.restoreScope, h0]
          rw [this] at hcap
          exact hcap) (by
          intro hu'
          obtain ⟨a1, a2, a3⟩ := hu hu'
          exact ⟨a1, by simp only [hmu]; exact a2, a3⟩)
      have em : c'.muts = M := by rw [m.muts]; exact hmu
      refine ⟨?_, fun cl hcl => k2 cl hcl⟩
      intro code' hcode
      rw [List.mem_singleton] at hcode
      subst hcode
      refine ⟨fun x hx => ?_, fun x hx => ?_⟩
      · have := k1.fv x hx
        rw [em] at this
        grind
      · have := k1.asg x hx
        rw [em] at this
        grind
    · rename_i hes
      obtain ⟨⟨code, c1⟩, h1, h⟩ := except_bind_eq_ok h
      obtain ⟨⟨codes', c2⟩, h2, h⟩ := except_bind_eq_ok h
      cases h
      have m := compile_moves T e p (hz e (by simp)) _ _ _ _ _ h1
      obtain ⟨k1, k2⟩ := ih e (by simp) p true _ F _ _ _ O h1 (hz e (by simp)) (by
          have : es.isEmpty = false := by simpa using hes
          simpa [this] using hs.1) (by
          refine ⟨?_, ?_⟩
          · intro x hx
            simp only [Ex.fv, Stmt.fv, Stmt.binds] at hx
            have := hS.fv x
            simp only [Ctx.restoreScope, hM]
            grind
          · intro x hx
            simp only [Ex.asg, Stmt.asg, Stmt.binds] at hx
            have := hS.asg x
            simp only [Ctx.restoreScope, hM]
            grind) hF (by
          intro hcap
          refine hc (.inl ?_)
          have : (decide (0 < (c.restoreScope scope).ncomb)) = false := by simp [Ctx.restoreScope, h0]
          rw [this] at hcap
          exact hcap) (by simp)
      have em : c1.muts = M ++ [b] := by rw [m.muts]; exact hM
      have emk : c1.marks = c.marks := m.marks
      obtain ⟨r1, r2⟩ := ihe (fun e he => ih e (by simp [he])) h2 (fun e he => hz e (by simp [he])) (fun e he => ha e (by simp [he])) hs.2 (by
          refine ⟨?_, ?_⟩
          · intro x hx
            simp only [Ctx.incr, emk]
            exact hS.fv x hx
          · exact hS.asg) (fun h => hc (.inr h)) 
      have efv : c1.fv = c'.fv := by
        obtain ⟨P, a1, a2⟩ := m.fv
        obtain ⟨Q, b1, b2⟩ := hmv.fv
        rw [ha e (by simp)] at a2
        have a1' : scope.fv = c1.fv ++ P := a1
        have b1' : scope.fv = c'.fv ++ Q := b1
        have hl := congrArg List.length (a1'.symm.trans b1')
        simp only [List.length_append] at hl
        exact (List.append_inj (a1'.symm.trans b1') (by omega)).1
      have emk2 : c'.marks = c.marks := hmv.marks
      refine ⟨?_, fun cl hcl => ?_⟩
      · intro code' hcode
        rcases List.mem_cons.1 hcode with rfl | hcode
        · refine ⟨fun x hx => ?_, fun x hx => ?_⟩
          · have := k1.fv x hx
            rw [em, efv, emk, ← emk2] at this
            grind
          · have := k1.asg x hx
            rw [em] at this
            grind
        · exact r1 code' hcode
      · rcases r2 cl hcl with h | h
        · exact k2 cl h
        · exact .inr h

end Oak
