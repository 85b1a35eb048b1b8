import Verif.Proofs.ActionCall
import Verif.Proofs.ScopedCode
import Verif.Spec.Resolved
/-! The generated code is well scoped: all expressions, rules and grammars. -/
set_option autoImplicit false
set_option linter.constructorNameAsVariable false

namespace Oak

theorem Uses.congr {c c' : Ctx} {O : List Name × List Name} {k : Ex} (h : Uses c O k) (h1 : c'.muts = c.muts) (h2 : c'.fv = c.fv) (h3 : c'.marks = c.marks) :
    Uses c' O k := ⟨by rw [h1, h2, h3]; exact h.fv, by rw [h1]; exact h.asg⟩

theorem rep_scopes {T : Nat → Ty} {e : Expr} (ih : Scopes T e) (plus : Bool) {S F : Ex} {c : Ctx} {O : List Name × List Name} (hS : Uses c O S) (hF : Pure F) :
    (∀ {body r c1}, valueConstructor (compile T true e) (T e.id).card true c = .ok (body, r, c1) → sized T true e = true →
      scopable T true true e = true →
      Uses (repeatCode plus body S F c1).2 O (.stmt (.letVec r) (repeatCode plus body S F c1).1) ∧ Grows c (repeatCode plus body S F c1).2) ∧
    (∀ {body c1}, compile T false e .st .failure c = .ok (body, c1) →
      Uses (repeatCode plus body S F c1.incr).2 O (repeatCode plus body S F c1.incr).1 ∧ Grows c (repeatCode plus body S F c1.incr).2) := by
  constructor
  · intro body r c1 h1 hz hs
    obtain ⟨e1, e2, e3⟩ := valueConstructor_moves (compile_moves T e true hz) h1
    obtain ⟨a1, a2, a3⟩ := valueConstructor_scopes ih h1 hz hs
    obtain ⟨b1, b2⟩ := repeatCode_uses (plus := plus) (B := [r]) hS hF (by simpa using a1) (by simpa using a2) (by
      intro x hx; rw [e1] at hx; simpa using hx) e2 e3
    have g : (repeatCode plus body S F c1).2.muts = c1.muts ∧ (repeatCode plus body S F c1).2.fv = c1.fv ∧
      (repeatCode plus body S F c1).2.marks = c1.marks ∧ (repeatCode plus body S F c1).2.closures = c1.closures := by
      cases plus <;> exact ⟨rfl, rfl, rfl, rfl⟩
    refine ⟨Uses.congr (c := c1) ⟨?_, ?_⟩ g.1 g.2.1 g.2.2.1, fun cl hcl => a3 cl (g.2.2.2 ▸ hcl)⟩
    · intro x hx
      have := b1 x
      simp only [Ex.fv, Stmt.fv, Stmt.binds] at hx
      grind
    · intro x hx
      have := b2 x
      simp only [Ex.asg, Stmt.asg, Stmt.binds] at hx
      grind
  · intro body c1 h1
    have m := compile_moves T e false (sized_false T e) _ _ _ _ _ h1
    rw [arity_false] at m
    have mf : c.fv = c1.fv := by
      obtain ⟨P, p1, p2⟩ := m.fv
      rw [p1, List.eq_nil_of_length_eq_zero p2, List.append_nil]
    obtain ⟨a1, a2⟩ := recognizer_scopes ih h1
    obtain ⟨b1, b2⟩ := repeatCode_uses (plus := plus) (c := c1.incr) (B := c1.muts ++ c1.fv) hS hF (by
        intro x hx
        have := a1.fv x hx
        simp only [Ctx.incr]
        grind) (by
        intro x hx
        have := a1.asg x hx
        grind) (by
        intro x hx
        left
        show x ∈ c1.fv
        rw [← mf]; exact hx) m.muts m.marks
    have g : (repeatCode plus body S F c1.incr).2.muts = c1.muts ∧ (repeatCode plus body S F c1.incr).2.fv = c1.fv ∧
      (repeatCode plus body S F c1.incr).2.marks = c1.marks ∧ (repeatCode plus body S F c1.incr).2.closures = c1.closures := by
      cases plus <;> exact ⟨rfl, rfl, rfl, rfl⟩
    refine ⟨⟨?_, ?_⟩, fun cl hcl => a2 cl (g.2.2.2 ▸ hcl)⟩
    · intro x hx
      have := b1 x hx
      simp only [Ctx.incr] at this
      rw [g.1, g.2.1, g.2.2.1]
      grind
    · intro x hx
      have := b2 x hx
      simp only [Ctx.incr] at this
      rw [g.1]
      -- assignments of the body are to `&mut` variables
      have h2 : x ∈ c1.muts ∨ x ∈ O.2 := by
        rcases this with h | h | h
        · exact .inl h
        · exact .inr h
        ·
          have hb : x ∈ body.asg ∨ x ∈ S.asg ∨ x ∈ F.asg := by
            cases plus
            · simp only [repeatCode, Bool.false_eq_true, if_false, Ex.asg, Stmt.asg, Stmt.binds] at hx
              grind
            · simp only [repeatCode, if_true, Ex.asg, Stmt.asg, Stmt.binds] at hx
              grind
          rcases hb with hb | hb | hb
          · have := a1.asg x hb
            exact .inl (by simpa using this)
          · have := hS.asg x hb
            rw [m.muts]; exact this
          · rw [hF.asg] at hb; cases hb
      exact h2

theorem opt_scopes {T : Nat → Ty} {e : Expr} (ih : Scopes T e) {S : Ex} {c : Ctx} {O : List Name × List Name} (hS : Uses c O S) :
    (∀ {body r c1}, valueConstructor (compile T true e) (T e.id).card false c = .ok (body, r, c1) → sized T true e = true →
      scopable T true true e = true →
      Uses (optionalCode body S c1).2 O (.stmt (.letNone r) (optionalCode body S c1).1) ∧ Grows c (optionalCode body S c1).2) ∧
    (∀ {body c1}, compile T false e .st .failure c = .ok (body, c1) →
      Uses (optionalCode body S c1.incr).2 O (optionalCode body S c1.incr).1 ∧ Grows c (optionalCode body S c1.incr).2) := by
  constructor
  · intro body r c1 h1 hz hs
    obtain ⟨e1, e2, e3⟩ := valueConstructor_moves (compile_moves T e true hz) h1
    obtain ⟨a1, a2, a3⟩ := valueConstructor_scopes ih h1 hz hs
    obtain ⟨b1, b2⟩ := optionalCode_uses (B := [r]) hS (by simpa using a1) (by simpa using a2) (by
      intro x hx; rw [e1] at hx; simpa using hx) e2 e3
    refine ⟨⟨?_, ?_⟩, a3⟩
    · intro x hx
      show x ∈ c1.muts ∨ x ∈ c1.fv ∨ x ∈ c1.marks ∨ x ∈ O.1
      have := b1 x
      simp only [Ex.fv, Stmt.fv, Stmt.binds] at hx
      grind
    · intro x hx
      show x ∈ c1.muts ∨ x ∈ O.2
      have := b2 x
      simp only [Ex.asg, Stmt.asg, Stmt.binds] at hx
      grind
  · intro body c1 h1
    have m := compile_moves T e false (sized_false T e) _ _ _ _ _ h1
    rw [arity_false] at m
    have mf : c.fv = c1.fv := by
      obtain ⟨P, p1, p2⟩ := m.fv
      rw [p1, List.eq_nil_of_length_eq_zero p2, List.append_nil]
    obtain ⟨a1, a2⟩ := recognizer_scopes ih h1
    refine ⟨⟨?_, ?_⟩, a2⟩
    · intro x hx
      show x ∈ c1.muts ∨ x ∈ c1.fv ∨ x ∈ c1.marks ∨ x ∈ O.1
      have k1 := a1.fv x
      have k2 := hS.fv x
      rw [mf, ← m.muts, ← m.marks] at k2
      simp only [optionalCode, Ex.fv, Stmt.fv, Stmt.binds] at hx
      grind
    · intro x hx
      show x ∈ c1.muts ∨ x ∈ O.2
      have k1 := a1.asg x
      have k2 := hS.asg x
      rw [← m.muts] at k2
      simp only [optionalCode, Ex.asg, Stmt.asg, Stmt.binds] at hx
      grind

theorem pred_scopes {T : Nat → Ty} {e : Expr} (ih : Scopes T e) (neg : Bool) {S F : Ex} {c : Ctx} {O : List Name × List Name} (hS : Uses c O S) (hF : Pure F)
    {body : Ex} {c1 : Ctx} (h : compile T false e .st .failure c.nextMark.2 = .ok (body, c1)) :
    Uses c1.incr O (.stmt (.letMark c.nextMark.1) (.bind body (.stmt .letIsSuccess (.stmt (.restore c.nextMark.1)
      (if neg then .ite (.var .isSuccess) F S else .ite (.var .isSuccess) S F))))) ∧ Grows c c1.incr := by
  have m := compile_moves T e false (sized_false T e) _ _ _ _ _ h
  rw [arity_false] at m
  have mf : c.fv = c1.fv := by
    obtain ⟨P, p1, p2⟩ := m.fv
    have p1' : c.fv = c1.fv ++ P := p1
    rw [p1', List.eq_nil_of_length_eq_zero p2, List.append_nil]
  have mm : c1.muts = c.muts := m.muts
  have mk : c1.marks = c.marks := m.marks
  obtain ⟨a1, a2⟩ := recognizer_scopes ih h
  refine ⟨⟨?_, ?_⟩, a2⟩
  · intro x hx
    show x ∈ c1.muts ∨ x ∈ c1.fv ∨ x ∈ c1.marks ∨ x ∈ O.1
    have k1 := a1.fv x
    have k2 := hS.fv x
    rw [mf, ← mm, ← mk] at k2
    cases neg <;> simp only [Ex.fv, Stmt.fv, Stmt.binds, Cond.fv, hF.fv, Bool.false_eq_true, if_true, if_false] at hx <;> grind
  · intro x hx
    show x ∈ c1.muts ∨ x ∈ O.2
    have k1 := a1.asg x
    have k2 := hS.asg x
    rw [← mm] at k2
    cases neg <;> simp only [Ex.asg, Stmt.asg, Stmt.binds, hF.asg, Bool.false_eq_true, if_true, if_false] at hx <;> grind

theorem spanned_scopes {T : Nat → Ty} {e : Expr} (ih : Scopes T e) {u : Bool} {v : Name → VEx} (hv : ∀ m, (v m).fv = [m]) {S F code : Ex} {c c1 c2 : Ctx}
    {O : List Name × List Name} {r : Name}
    (hS : Uses c O S) (hF : Pure F) (h1 : c.nextMark.2.nextFreeVarSkip (T e.id).card = .ok (r, c1))
    (h2 : compile T true e (.stmt (.letVal r (v c.nextMark.1)) S) F (c1.pushMark c.nextMark.1) = .ok (code, c2))
    (hz : sized T true e = true) (hs : scopable T true u e = true)
    (hc : captures T true (decide (0 < c.ncomb)) e = true → O = ([], [])) (hu : u = false → c2.fv = [] ∧ c.muts = [] ∧ O = ([], [])) :
    Uses c2.incr.popMark O (.stmt (.letMark c.nextMark.1) code) ∧ Grows c c2.incr.popMark := by
  obtain ⟨A, B, e1, e2, e3⟩ := nextFreeVarSkip_eq h1
  have e1' : c.fv = A ++ r :: B := e1
  have hmu : c1.muts = c.muts := by rw [e3]; rfl
  have hmk : c1.marks = c.marks := by rw [e3]; rfl
  have hnc : c1.ncomb = c.ncomb := by rw [e3]; rfl
  have hfv : c1.fv = A ++ B := by rw [e3]
  have hcl : c1.closures = c.closures := by rw [e3]; rfl
  have m := compile_moves T e true hz _ _ _ _ _ h2
  obtain ⟨k1, k2⟩ := ih true u _ F _ _ _ O h2 hz hs (by
    refine ⟨?_, ?_⟩
    · intro x hx
      have := hS.fv x
      rw [e1'] at this
      simp only [Ex.fv, Stmt.fv, Stmt.binds, hv] at hx
      simp only [Ctx.pushMark, hmu, hmk, hfv]
      grind
    · intro x hx
      have := hS.asg x
      simp only [Ex.asg, Stmt.asg, Stmt.binds] at hx
      simp only [Ctx.pushMark, hmu]
      grind) hF (by
    intro hcap
    apply hc
    have : (c1.pushMark c.nextMark.1).ncomb = c.ncomb := hnc
    rw [this] at hcap; exact hcap) (by
    intro hu'
    obtain ⟨a1, a2, a3⟩ := hu hu'
    exact ⟨a1, by simp only [Ctx.pushMark, hmu]; exact a2, a3⟩)
  have fm : c2.muts = c.muts := by rw [m.muts]; exact hmu
  have fk : c2.marks = c.marks ++ [c.nextMark.1] := by rw [m.marks]; simp only [Ctx.pushMark, hmk]
  refine ⟨⟨?_, ?_⟩, ?_⟩
  · intro x hx
    show x ∈ c2.muts ∨ x ∈ c2.fv ∨ x ∈ c2.marks.dropLast ∨ x ∈ O.1
    have := k1.fv x
    rw [fk] at this
    rw [fk, List.dropLast_concat]
    simp only [Ex.fv, Stmt.fv, Stmt.binds] at hx
    grind
  · intro x hx
    show x ∈ c2.muts ∨ x ∈ O.2
    have := k1.asg x
    simp only [Ex.asg, Stmt.asg, Stmt.binds] at hx
    grind
  · intro cl hc'
    rcases k2 cl hc' with h | h
    · left; rw [← hcl]; exact h
    · exact .inr h

theorem actionCall_fv (b : Bool) (f : Path) (u : Bool) (vs : List Name) : ∀ x ∈ (actionCall b f u vs).fv, x ∈ vs := by
  intro x hx
  rw [actionCall_eq] at hx
  split at hx <;> split at hx <;> simp [VEx.fv] at hx <;> exact hx

/-- The code of every expression is well scoped. -/
theorem scopes_all (T : Nat → Ty) (e : Expr) : Scopes T e := by
  induction e using Expr.ind with
  | str i l =>
    intro p u S F c code c' O h _ _ hS hF _ _
    rw [compile] at h
    cases h
    refine ⟨⟨?_, ?_⟩, .refl _⟩
    · intro x hx
      simp only [Ex.fv, Stmt.fv, Stmt.binds, hF.fv] at hx
      exact hS.fv x (by grind)
    · intro x hx
      simp only [Ex.asg, Stmt.asg, Stmt.binds, hF.asg] at hx
      exact hS.asg x (by grind)
  | any i =>
    intro p u S F c code c' O h _ _ hS hF _ _
    rw [compile] at h
    split at h
    · obtain ⟨⟨v, c1⟩, h1, h⟩ := except_bind_eq_ok h
      cases h
      obtain ⟨e1, e2⟩ := nextFreeVar_eq h1
      have em : c'.muts = c.muts := by rw [e2]
      have ek : c'.marks = c.marks := by rw [e2]
      have ec : c'.closures = c.closures := by rw [e2]
      refine ⟨⟨?_, ?_⟩, fun cl h => .inl (ec ▸ h)⟩
      · intro x hx
        simp only [Ex.fv, Stmt.fv, Stmt.binds, hF.fv] at hx
        have := hS.fv x
        grind
      · intro x hx
        simp only [Ex.asg, Stmt.asg, Stmt.binds, hF.asg] at hx
        have := hS.asg x
        grind
    · cases h
      refine ⟨⟨?_, ?_⟩, .refl _⟩
      · intro x hx
        simp only [Ex.fv, Stmt.fv, Stmt.binds, hF.fv] at hx
        exact hS.fv x (by grind)
      · intro x hx
        simp only [Ex.asg, Stmt.asg, Stmt.binds, hF.asg] at hx
        exact hS.asg x (by grind)
  | cls i ivs =>
    intro p u S F c code c' O h _ _ hS hF _ _
    rw [compile] at h
    have key : ∀ (v : Name) (c1 : Ctx) (cond : CharCond), (∀ x ∈ c.fv, x = v ∨ x ∈ c1.fv) → c1.muts = c.muts → c1.marks = c.marks → c1.closures = c.closures →
        Uses c1.nextMark.2 O (.stmt (.letMark c1.nextMark.1) (.matchClass v cond S (.stmt (.restore c1.nextMark.1) (.stmt (.error (classDesc ivs)) F)))) ∧
        Grows c c1.nextMark.2 := by
      intro v c1 cond hv hm hk hcl
      refine ⟨⟨?_, ?_⟩, fun cl h => .inl (hcl ▸ h)⟩
      · intro x hx
        show x ∈ c1.muts ∨ x ∈ c1.fv ∨ x ∈ c1.marks ∨ x ∈ O.1
        simp only [Ex.fv, Stmt.fv, Stmt.binds, hF.fv] at hx
        have := hS.fv x
        have := hv x
        rw [hm, hk]
        grind
      · intro x hx
        show x ∈ c1.muts ∨ x ∈ O.2
        simp only [Ex.asg, Stmt.asg, Stmt.binds, hF.asg] at hx
        have := hS.asg x
        rw [hm]
        grind
    split at h
    · obtain ⟨⟨v, c1⟩, h1, h⟩ := except_bind_eq_ok h
      obtain ⟨cond, h2, h⟩ := except_bind_eq_ok h
      cases h
      obtain ⟨e1, e2⟩ := nextFreeVar_eq h1
      exact key v c1 cond (by intro x hx; rw [e1] at hx; grind) (by rw [e2]) (by rw [e2]) (by rw [e2])
    · obtain ⟨⟨v, c1⟩, h1, h⟩ := except_bind_eq_ok h
      cases h1
      obtain ⟨cond, h2, h⟩ := except_bind_eq_ok h
      cases h
      exact key .x c cond (fun x hx => .inr hx) rfl rfl rfl
  | nt i r => intro p u S F c code c' O h _ _ hS hF _ _; rw [compile] at h; exact call_scopes h hS hF
  | ext i r => intro p u S F c code c' O h _ _ hS hF _ _; rw [compile] at h; exact call_scopes h hS hF
  | seq i es ih =>
    intro p u S F c code c' O h hz hs hS hF hc hu
    rw [compile] at h
    rw [sized, sizedAll_iff] at hz
    exact (seq_scopes ih h hz hs hS hF hc hu).1
  | choice i es ih =>
    intro p u S F c code c' O h hz hs hS hF hc hu
    rw [compile] at h
    simp only [sized, Bool.and_eq_true, sizedAll_iff, sameArity_iff] at hz
    rw [scopable] at hs
    simp only [captures, Bool.or_eq_true, decide_eq_true_eq] at hc
    obtain ⟨⟨brs, c1⟩, h1, h⟩ := except_bind_eq_ok h
    obtain ⟨g1, g2, g3, g4⟩ := successAsClosure_ctx c S
    obtain ⟨u1, u2⟩ := successAsClosure_scopes hS (fun h => hc (.inl h))
    cases brs with
    | nil => cases h
    | cons b brs =>
      cases h
      have hmv := branches_moves (n := arityHead T (p && decide (T i ≠ .unit)) es) (fun e he => by
        have := compile_moves T e _ (hz.1 e he)
        rwa [hz.2 e he] at this) h1
      have fm : c'.muts = c.muts := by
        rw [hmv.muts]
        show ((c.successAsClosure S).2.muts ++ [_]).dropLast = _
        rw [List.dropLast_concat, g2]
      have fk : c'.marks = c.marks := by rw [hmv.marks]; exact g3
      obtain ⟨r1, r2⟩ := branches_scopes ih (M := c.muts) h1 hz.1 hz.2 hs (by
          show (c.successAsClosure S).2.muts ++ [_] = _
          rw [g2]) g4 (by
          refine Uses.congr u1 ?_ ?_ ?_
          · exact g2.symm
          · rfl
          · rfl) hF (fun h => hc (.inr h)) hu
      refine ⟨⟨?_, ?_⟩, ?_⟩
      · intro x hx
        have hb := (r1 b (by simp)).1 x
        have hrest : x ∈ (choiceCode (c.successAsClosure S).2.nextMark.1 (c.successAsClosure S).2.nextMark.2.nextBranchFailed.1 brs).fv →
            x = (c.successAsClosure S).2.nextMark.1 ∨ x = (c.successAsClosure S).2.nextMark.2.nextBranchFailed.1 ∨
            x ∈ c'.muts ∨ x ∈ c'.fv ∨ x ∈ c'.marks ∨ x ∈ O.1 := by
          intro h
          rcases choiceCode_mem h with h | h | ⟨e, he, h⟩
          · exact .inl h
          · exact .inr (.inl h)
          · have := (r1 e (by simp [he])).1 x h
            rw [fm]
            exact .inr this
        have hb' : x ∈ b.fv → x = (c.successAsClosure S).2.nextMark.2.nextBranchFailed.1 ∨ x ∈ c'.muts ∨ x ∈ c'.fv ∨ x ∈ c'.marks ∨ x ∈ O.1 := by
          rw [fm]; exact hb
        have hx' : (x ∈ b.fv ∨ x ∈ (choiceCode (c.successAsClosure S).2.nextMark.1 (c.successAsClosure S).2.nextMark.2.nextBranchFailed.1 brs).fv) ∧
            x ≠ (c.successAsClosure S).2.nextMark.2.nextBranchFailed.1 ∧ x ≠ (c.successAsClosure S).2.nextMark.1 := by
          simp only [Ex.fv, Stmt.fv, Stmt.binds, List.nil_append, List.mem_filter, List.mem_append, List.mem_singleton, decide_eq_true_eq] at hx
          exact ⟨hx.1.1, hx.1.2, hx.2⟩
        obtain ⟨hx1, hx2, hx3⟩ := hx'
        rcases hx1 with h | h
        · rcases hb' h with h | h
          · exact absurd h hx2
          · exact h
        · rcases hrest h with h | h | h
          · exact absurd h hx3
          · exact absurd h hx2
          · exact h
      · intro x hx
        have hx' : (x ∈ b.asg ∨ x ∈ (choiceCode (c.successAsClosure S).2.nextMark.1 (c.successAsClosure S).2.nextMark.2.nextBranchFailed.1 brs).asg) ∧
            x ≠ (c.successAsClosure S).2.nextMark.2.nextBranchFailed.1 ∧ x ≠ (c.successAsClosure S).2.nextMark.1 := by
          simp only [Ex.asg, Stmt.asg, Stmt.binds, List.nil_append, List.mem_filter, List.mem_append, List.mem_singleton, decide_eq_true_eq] at hx
          exact ⟨hx.1.1, hx.1.2, hx.2⟩
        obtain ⟨hx1, hx2, hx3⟩ := hx'
        have hall : ∀ e ∈ b :: brs, x ∈ e.asg → x ∈ c'.muts ∨ x ∈ O.2 := by
          intro e he h
          rw [fm]
          rcases (r1 e he).2 x h with h | h
          · exact absurd h hx2
          · exact h
        rcases hx1 with h | h
        · exact hall b (by simp) h
        · obtain ⟨e, he, h⟩ := choiceCode_asg h
          exact hall e (by simp [he]) h
      · intro cl hcl
        rcases r2 cl hcl with h | h
        · exact u2 cl h
        · exact .inr h
  | star i e ih =>
    intro p u S F c code c' O h hz hs hS hF hc hu
    rw [compile] at h
    obtain ⟨k1, k2⟩ := rep_scopes ih false hS hF
    split at h
    · rename_i hp
      simp only [sized, hp, Bool.not_true, Bool.false_or, Bool.and_eq_true] at hz
      simp only [scopable, hp] at hs
      obtain ⟨⟨body, r, c1⟩, h1, h⟩ := except_bind_eq_ok h
      cases h
      exact k1 h1 hz.1 hs
    · obtain ⟨⟨body, c1⟩, h1, h⟩ := except_bind_eq_ok h
      cases h
      exact k2 h1
  | plus i e ih =>
    intro p u S F c code c' O h hz hs hS hF hc hu
    rw [compile] at h
    obtain ⟨k1, k2⟩ := rep_scopes ih true hS hF
    split at h
    · rename_i hp
      simp only [sized, hp, Bool.not_true, Bool.false_or, Bool.and_eq_true] at hz
      simp only [scopable, hp] at hs
      obtain ⟨⟨body, r, c1⟩, h1, h⟩ := except_bind_eq_ok h
      cases h
      exact k1 h1 hz.1 hs
    · obtain ⟨⟨body, c1⟩, h1, h⟩ := except_bind_eq_ok h
      cases h
      exact k2 h1
  | opt i e ih =>
    intro p u S F c code c' O h hz hs hS hF hc hu
    rw [compile] at h
    obtain ⟨k1, k2⟩ := opt_scopes ih hS
    split at h
    · rename_i hp
      simp only [sized, hp, Bool.not_true, Bool.false_or, Bool.and_eq_true] at hz
      simp only [scopable, hp] at hs
      obtain ⟨⟨body, r, c1⟩, h1, h⟩ := except_bind_eq_ok h
      cases h
      exact k1 h1 hz.1 hs
    · obtain ⟨⟨body, c1⟩, h1, h⟩ := except_bind_eq_ok h
      cases h
      exact k2 h1
  | not i e ih =>
    intro p u S F c code c' O h hz hs hS hF hc hu
    rw [compile] at h
    split at h
    · cases h
    · obtain ⟨⟨body, c1⟩, h1, h⟩ := except_bind_eq_ok h
      cases h
      exact pred_scopes ih true hS hF h1
  | and i e ih =>
    intro p u S F c code c' O h hz hs hS hF hc hu
    rw [compile] at h
    split at h
    · cases h
    · obtain ⟨⟨body, c1⟩, h1, h⟩ := except_bind_eq_ok h
      cases h
      exact pred_scopes ih false hS hF h1
  | act i e boxed f ih =>
    intro p u S F c code c' O h hz hs hS hF hc hu
    rw [compile] at h
    split at h
    · rename_i hp
      simp only [sized, hp, Bool.not_true, Bool.false_or, Bool.and_eq_true, beq_iff_eq] at hz
      simp only [scopable, hp, Bool.true_and, Bool.and_eq_true, Bool.not_eq_true', Bool.and_eq_false_iff] at hs
      obtain ⟨⟨r, c1⟩, h1, h⟩ := except_bind_eq_ok h
      obtain ⟨⟨code1, c2⟩, h2, h⟩ := except_bind_eq_ok h
      obtain ⟨c3, h3, h⟩ := except_bind_eq_ok h
      cases h
      obtain ⟨e1, e2⟩ := nextFreeVar_eq h1
      obtain ⟨e3, e4⟩ := closeScope_eq h3
      have e3' : c2.fv = [] := e3
      subst e4
      have em : c1.muts = c.muts := by rw [e2]
      have ek : c1.marks = c.marks := by rw [e2]
      have ec : c1.closures = c.closures := by rw [e2]
      have m := compile_moves T e true hz.1 _ _ _ _ _ h2
      have hO : u = false → (c1.fv ++ c.muts ++ O.1, c.muts ++ O.2) = ([], []) := by
        intro hu'
        obtain ⟨a1, a2, a3⟩ := hu hu'
        have a1' : c1.fv = [] := a1
        rw [a1', a2, a3]; rfl
      obtain ⟨k1, k2⟩ := ih true u _ F _ _ _ (c1.fv ++ c.muts ++ O.1, c.muts ++ O.2) h2 hz.1 hs.1 (by
        refine ⟨?_, ?_⟩
        · intro x hx
          have := hS.fv x
          rw [e1] at this
          have ha := actionCall_fv boxed f (decide (T e.id = .unit)) (c1.openScope (T e.id).card).2.fv x
          have hx' : x ∈ (actionCall boxed f (decide (T e.id = .unit)) (c1.openScope (T e.id).card).2.fv).fv ∨ (x ∈ S.fv ∧ x ≠ r) := by
            simp only [Ex.fv, Stmt.fv, Stmt.binds, List.mem_append, List.mem_filter, decide_eq_true_eq, List.mem_singleton] at hx
            exact hx
          show x ∈ [] ∨ x ∈ (c1.openScope (T e.id).card).2.fv ∨ x ∈ c1.marks ∨ x ∈ c1.fv ++ c.muts ++ O.1
          rw [ek]
          generalize (c1.openScope (T e.id).card).2.fv = W at *
          rcases hx' with h | ⟨h, hr⟩
          · exact .inr (.inl (ha h))
          · rcases this h with h | h | h | h
            · exact .inr (.inr (.inr (by simp [h])))
            · simp only [List.mem_append, List.mem_singleton] at h
              rcases h with h | h
              · exact .inr (.inr (.inr (by simp [h])))
              · exact absurd h hr
            · exact .inr (.inr (.inl h))
            · exact .inr (.inr (.inr (by simp [h])))
        · intro x hx
          have := hS.asg x
          simp only [Ex.asg, Stmt.asg, Stmt.binds] at hx
          right
          grind) hF (by
        intro hcap
        cases u with
        | false => exact hO rfl
        | true =>
          have : captures T true false e = false := by simpa using hs.2
          have h0 : decide (0 < (c1.openScope (T e.id).card).2.ncomb) = false := by simp [Ctx.openScope, Ctx.freshVars]
          have hcap' : captures T true (decide (0 < (c1.openScope (T e.id).card).2.ncomb)) e = true := hcap
          rw [h0, this] at hcap'
          cases hcap') (fun hu' => ⟨e3', rfl, hO hu'⟩)
      have mm : c2.muts = [] := m.muts
      have mk : c2.marks = c.marks := by rw [m.marks]; exact ek
      refine ⟨⟨?_, ?_⟩, ?_⟩
      · intro x hx
        show x ∈ c1.muts ∨ x ∈ c1.fv ∨ x ∈ c2.marks ∨ x ∈ O.1
        have := k1.fv x hx
        rw [mm, e3'] at this
        rw [em]
        grind
      · intro x hx
        show x ∈ c1.muts ∨ x ∈ O.2
        have := k1.asg x hx
        rw [mm] at this
        rw [em]
        grind
      · intro cl hcl
        rcases k2 cl hcl with h | h
        · left; rw [← ec]; exact h
        · exact .inr h
    · rename_i hp
      rw [scopable] at hs
      have hcap : captures T p (decide (0 < c.ncomb)) (.act i e boxed f) = captures T false (decide (0 < c.ncomb)) e := by
        have : (p && decide (T i ≠ .unit)) = false := by simpa using hp
        rw [captures, this]; simp
      rw [hcap] at hc
      exact ih false u S F c code c' O h (sized_false T e) (scopable_false T e u) hS hF hc hu
  | asc i e t ih =>
    intro p u S F c code c' O h hz hs hS hF hc hu
    rw [compile] at h
    rw [sized] at hz
    rw [scopable] at hs
    rw [captures] at hc
    exact ih _ u S F c code c' O h hz hs hS hF hc hu
  | span i e ih =>
    intro p u S F c code c' O h hz hs hS hF hc hu
    rw [compile] at h
    rw [scopable] at hs
    rw [captures] at hc
    split at h
    · rename_i hp
      simp only [sized, hp, Bool.not_true, Bool.false_or, Bool.and_eq_true, beq_iff_eq] at hz
      rw [hp] at hs hc
      obtain ⟨⟨r, c1⟩, h1, h⟩ := except_bind_eq_ok h
      obtain ⟨⟨code1, c2⟩, h2, h⟩ := except_bind_eq_ok h
      cases h
      exact spanned_scopes ih (v := .span) (fun _ => rfl) hS hF h1 h2 hz.1 hs hc hu
    · rename_i hp
      have hp' : (p && decide (T i ≠ .unit)) = false := by simpa using hp
      rw [hp'] at hs hc
      exact ih false u S F c code c' O h (sized_false T e) hs hS hF hc hu
  | range i e ih =>
    intro p u S F c code c' O h hz hs hS hF hc hu
    rw [compile] at h
    rw [scopable] at hs
    rw [captures] at hc
    split at h
    · rename_i hp
      simp only [sized, hp, Bool.not_true, Bool.false_or, Bool.and_eq_true, beq_iff_eq] at hz
      rw [hp] at hs hc
      obtain ⟨⟨r, c1⟩, h1, h⟩ := except_bind_eq_ok h
      obtain ⟨⟨code1, c2⟩, h2, h⟩ := except_bind_eq_ok h
      cases h
      exact spanned_scopes ih (v := .range) (fun _ => rfl) hS hF h1 h2 hz.1 hs hc hu
    · rename_i hp
      have hp' : (p && decide (T i ≠ .unit)) = false := by simpa using hp
      rw [hp'] at hs hc
      exact ih false u S F c code c' O h (sized_false T e) hs hS hF hc hu

theorem recognizer_scopeOk {T : Nat → Ty} {e : Expr} {f : Fn} (h : compileRecognizer T e = .ok f) : f.scopeOk = true := by
  unfold compileRecognizer at h
  obtain ⟨⟨body, c⟩, h1, h⟩ := except_bind_eq_ok h
  cases h
  have m := compile_moves T e false (sized_false T e) _ _ _ _ _ h1
  obtain ⟨k1, k2⟩ := scopes_all T e false true _ _ _ _ _ ([], []) h1 (sized_false T e) (scopable_false T e true) ⟨by simp [Ex.fv, VEx.fv], by simp [Ex.asg]⟩
    ⟨rfl, rfl⟩ (fun _ => rfl) (by simp)
  simp only [Fn.scopeOk, Bool.and_eq_true, List.all_eq_true, List.isEmpty_iff]
  refine ⟨?_, ?_⟩
  · intro cl hcl
    rcases k2 cl hcl with h | h
    · simp [Ctx.new] at h
    · exact h
  · rw [List.eq_nil_iff_forall_not_mem]
    intro x hx
    have hm : c.muts = [] := m.muts
    have hk : c.marks = [] := m.marks
    have hf : c.fv = [] := by
      obtain ⟨P, p1, _⟩ := m.fv
      simp only [Ctx.new] at p1
      exact (List.append_eq_nil_iff.1 p1.symm).1
    have := k1.fv x hx
    simp [hm, hk, hf] at this

theorem parser_scopeOk {T : Nat → Ty} {r : String} {e : Expr} {f : Fn} (h : compileParser T r e = .ok f)
    (hz : T e.id = .unit ∨ (sized T true e = true ∧ arity T true e = (T e.id).card)) (hs : T e.id = .unit ∨ scopable T true false e = true) :
    f.scopeOk = true := by
  unfold compileParser at h
  split at h
  · cases h
    rfl
  · rename_i hu
    obtain ⟨⟨body, c⟩, h1, h⟩ := except_bind_eq_ok h
    obtain ⟨c1, h2, h⟩ := except_bind_eq_ok h
    cases h
    obtain ⟨e1, e2⟩ := closeScope_eq h2
    subst e2
    have hz := hz.resolve_left hu
    have hs := hs.resolve_left hu
    have m := compile_moves T e true hz.1 _ _ _ _ _ h1
    obtain ⟨k1, k2⟩ := scopes_all T e true false _ _ _ _ _ ([], []) h1 hz.1 hs ⟨fun x hx => .inr (.inl hx), by simp [Ex.asg]⟩
      ⟨rfl, rfl⟩ (fun _ => rfl) (fun _ => ⟨e1, rfl, rfl⟩)
    simp only [Fn.scopeOk, Bool.and_eq_true, List.all_eq_true, List.isEmpty_iff]
    refine ⟨?_, ?_⟩
    · intro cl hcl
      rcases k2 cl hcl with h | h
      · cases h
      · exact h
    · rw [List.eq_nil_iff_forall_not_mem]
      intro x hx
      have hm : c.muts = [] := m.muts
      have hk : c.marks = [] := m.marks
      have := k1.fv x hx
      simp [hm, hk, e1] at this

theorem compileGrammar_scopeOk {T : Nat → Ty} {rules : List (String × Expr)} {fs : List (FnRef × Fn)} (h : compileGrammar T rules = .ok fs)
    (hz : ∀ r ∈ rules, T r.2.id = .unit ∨ (sized T true r.2 = true ∧ arity T true r.2 = (T r.2.id).card))
    (hs : ∀ r ∈ rules, T r.2.id = .unit ∨ scopable T true false r.2 = true) : ∀ f ∈ fs, f.2.scopeOk = true := by
  induction rules generalizing fs with
  | nil => cases h; simp
  | cons r rs ih =>
    obtain ⟨r, e⟩ := r
    simp only [compileGrammar] at h
    obtain ⟨f, h1, h⟩ := except_bind_eq_ok h
    obtain ⟨g, h2, h⟩ := except_bind_eq_ok h
    obtain ⟨fs', h3, h⟩ := except_bind_eq_ok h
    cases h
    intro x hx
    simp only [List.mem_cons] at hx
    rcases hx with rfl | rfl | hx
    · exact recognizer_scopeOk h1
    · exact parser_scopeOk h2 (hz (r, e) (by simp)) (hs (r, e) (by simp))
    · exact ih h3 (fun r hr => hz r (by simp [hr])) (fun r hr => hs r (by simp [hr])) x hx

end Oak
