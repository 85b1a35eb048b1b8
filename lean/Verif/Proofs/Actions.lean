import Verif.Spec.Actions
import Verif.Proofs.Main
/-!
The compiler puts in the generated code only the actions whose data is wanted.
-/
set_option linter.constructorNameAsVariable false
set_option autoImplicit false

namespace Oak

/-- Actions in the closures. -/
def Ctx.actions (c : Ctx) : List Path := c.closures.flatMap (fun c => c.body.actions)

theorem live_false (T : Nat → Ty) (e : Expr) : liveActions T false e = [] := by
  induction e using Expr.ind with
  | seq i es ih | choice i es ih =>
    simp only [liveActions, Bool.false_and]
    induction es with
    | nil => rfl
    | cons e es ihes => simp [liveActionsAll, ih e (by simp), ihes (fun e he => ih e (by simp [he]))]
  | star i e ih | plus i e ih | opt i e ih => simpa [liveActions] using ih
  | asc i e t ih => simpa [liveActions] using ih
  | span i e ih | range i e ih => simpa [liveActions] using ih
  | _ => simp [liveActions]

/-- Every action of `code` and of the closures of `c'` is in `A`, or in the continuations, or was in the closures of `c`. -/
def ActOk (A : List Path) (S F : Ex) (c : Ctx) (r : Ex × Ctx) : Prop :=
  (∀ f ∈ r.1.actions, f ∈ A ∨ f ∈ S.actions ∨ f ∈ F.actions) ∧
  (∀ f ∈ r.2.actions, f ∈ A ∨ f ∈ S.actions ∨ f ∈ F.actions ∨ f ∈ c.actions)

theorem nextFreeVar_actions {c c' : Ctx} {v : Name} (h : c.nextFreeVar = .ok (v, c')) : c'.closures = c.closures := by
  unfold Ctx.nextFreeVar at h
  split at h <;> cases h; rfl

theorem nextFreeVars_actions {n : Nat} {c c' : Ctx} {v : List Name} (h : c.nextFreeVars n = .ok (v, c')) : c'.closures = c.closures := by
  induction n generalizing c c' v with
  | zero => simp only [Ctx.nextFreeVars] at h; cases h; rfl
  | succ n ih =>
    simp only [Ctx.nextFreeVars] at h
    obtain ⟨⟨v1, c1⟩, h1, h⟩ := except_bind_eq_ok h
    obtain ⟨⟨v2, c2⟩, h2, h⟩ := except_bind_eq_ok h
    cases h
    rw [ih h2, nextFreeVar_actions h1]

theorem nextFreeVarSkip_actions {c c' : Ctx} {v : Name} {n : Nat} (h : c.nextFreeVarSkip n = .ok (v, c')) : c'.closures = c.closures := by
  unfold Ctx.nextFreeVarSkip at h
  split at h
  · split at h <;> cases h; rfl
  · cases h

theorem closeScope_actions {c c' : Ctx} {s : Ctx.Scope} (h : c.closeScope s = .ok c') : c'.closures = c.closures := by
  unfold Ctx.closeScope at h
  split at h <;> cases h; rfl

theorem popMut_actions {c c' : Ctx} (h : c.popMut = .ok c') : c'.closures = c.closures := by
  unfold Ctx.popMut at h
  split at h <;> cases h; rfl

theorem ctx_actions_eq {c c' : Ctx} (h : c'.closures = c.closures) : c'.actions = c.actions := by
  simp [Ctx.actions, h]

theorem repeatCode_actions (plus : Bool) (body S F : Ex) (c : Ctx) :
    (∀ f ∈ (repeatCode plus body S F c).1.actions, f ∈ body.actions ∨ f ∈ S.actions ∨ f ∈ F.actions) ∧
    (repeatCode plus body S F c).2.closures = c.closures := by
  cases plus <;> simp [repeatCode, Ctx.nextMark, Ctx.nextCounter, Ex.actions, Stmt.actions] <;> grind

theorem compileBranches_actions (T : Nat → Ty) (es : List Expr)
    (hes : ∀ e ∈ es, ∀ (p : Bool) (S F : Ex) (c : Ctx) (r : Ex × Ctx), compile T p e S F c = .ok r → ActOk (liveActions T p e) S F c r) :
    ∀ (q : Bool) (b : Name) (S F : Ex) (sc : Ctx.Scope) (c : Ctx) (r : List Ex × Ctx),
        compileBranches T q es b S F sc c = .ok r →
        (∀ x ∈ r.1, ∀ f ∈ x.actions, f ∈ liveActionsAll T q es ∨ f ∈ S.actions ∨ f ∈ F.actions) ∧
        (∀ f ∈ r.2.actions, f ∈ liveActionsAll T q es ∨ f ∈ S.actions ∨ f ∈ F.actions ∨ f ∈ c.actions) := by
  induction es with
  | nil => intro q b S F sc c r h; simp only [compileBranches] at h; cases h
  | cons e es ihes =>
    intro q b S F sc c r h
    simp only [compileBranches] at h
    split at h
    · rename_i he
      obtain rfl : es = [] := by simpa using he
      obtain ⟨c1, h1, h⟩ := except_bind_eq_ok h
      obtain ⟨⟨code, c2⟩, h2, h⟩ := except_bind_eq_ok h
      cases h
      obtain ⟨k1, k2⟩ := hes e (by simp) _ _ _ _ _ h2
      have : c1.actions = c.actions := ctx_actions_eq (c := c.restoreScope sc) (popMut_actions h1)
      simp only [liveActionsAll, List.append_nil, List.mem_singleton, forall_eq]
      rw [this] at k2
      exact ⟨k1, k2⟩
    · obtain ⟨⟨code, c1⟩, h1, h⟩ := except_bind_eq_ok h
      obtain ⟨⟨codes, c2⟩, h2, h⟩ := except_bind_eq_ok h
      cases h
      obtain ⟨k1, k2⟩ := hes e (by simp) _ _ _ _ _ h1
      obtain ⟨l1, l2⟩ := ihes (fun e he => hes e (by simp [he])) _ _ _ _ _ _ _ h2
      simp only [Ex.actions, Stmt.actions, List.nil_append] at k1 k2
      have e1 : (c.restoreScope sc).actions = c.actions := rfl
      have e2 : c1.incr.actions = c1.actions := rfl
      simp only [e1, e2, liveActionsAll, List.mem_append, List.mem_cons] at *
      refine ⟨?_, ?_⟩
      · intro x hx f hf
        rcases hx with rfl | hx
        · rcases k1 f hf with h | h | h <;> simp [h]
        · rcases l1 x hx f hf with h | h | h <;> simp [h]
      · intro f hf
        rcases l2 f hf with h | h | h | h
        · simp [h]
        · simp [h]
        · simp [h]
        · rcases k2 f h with h | h | h | h <;> simp [h]

theorem choiceCode_actions (m b : Name) (l : List Ex) : ∀ f ∈ (choiceCode m b l).actions, ∃ x ∈ l, f ∈ x.actions := by
  induction l with
  | nil => intro f hf; simp [choiceCode, Ex.actions] at hf
  | cons a l ih =>
    intro f hf
    simp only [choiceCode, Ex.actions, Stmt.actions, List.nil_append, List.append_nil, List.mem_append] at hf
    rcases hf with h | h
    · exact ⟨a, by simp, h⟩
    · obtain ⟨x, hx, h⟩ := ih f h; exact ⟨x, by simp [hx], h⟩

theorem valueConstructor_actions {T : Nat → Ty} {e : Expr} {card : Nat} {vec : Bool} {c : Ctx}
    {r : Ex × Name × Ctx}
    (he : ∀ (p : Bool) (S F : Ex) (c : Ctx) (r : Ex × Ctx), compile T p e S F c = .ok r → ActOk (liveActions T p e) S F c r)
    (h : valueConstructor (compile T true e) card vec c = .ok r) :
    (∀ f ∈ r.1.actions, f ∈ liveActions T true e) ∧ (∀ f ∈ r.2.2.actions, f ∈ liveActions T true e ∨ f ∈ c.actions) := by
  unfold valueConstructor at h
  obtain ⟨⟨v, c1⟩, h1, h⟩ := except_bind_eq_ok h
  obtain ⟨⟨body, c2⟩, h2, h⟩ := except_bind_eq_ok h
  obtain ⟨c3, h3, h⟩ := except_bind_eq_ok h
  cases h
  have h2' := h2
  replace h2 := he _ _ _ _ _ h2
  have hS : ∀ x : List Name, (Ex.stmt (if vec = true then Stmt.push v (VEx.tup x) else Stmt.setSome v (VEx.tup x)) Ex.st).actions = [] := by
    intro x; cases vec <;> rfl
  obtain ⟨k1, k2⟩ := h2
  simp only [hS] at k1 k2
  have e1 : c3.actions = c2.actions := ctx_actions_eq (closeScope_actions h3)
  refine ⟨fun f hf => ?_, fun f hf => ?_⟩
  · rcases k1 f hf with h | h | h
    · exact h
    · cases h
    · cases h
  · simp only at hf
    rw [e1] at hf
    rcases k2 f hf with h | h | h | h
    · exact .inl h
    · cases h
    · cases h
    · refine .inr ?_
      have e2 : c1.actions = c.actions := ctx_actions_eq (nextFreeVar_actions h1)
      rw [← e2]; exact h

theorem compile_actions (T : Nat → Ty) (e : Expr) : ∀ (p : Bool) (S F : Ex) (c : Ctx) (r : Ex × Ctx),
    compile T p e S F c = .ok r → ActOk (liveActions T p e) S F c r := by
  have call : ∀ (p : Bool) (i : Nat) (path : Path) (S F : Ex) (c : Ctx) (r : Ex × Ctx),
      compileCall T p i path S F c = .ok r → ActOk [] S F c r := by
    intro p i path S F c r h
    unfold compileCall at h
    split at h
    · obtain ⟨⟨vs, c1⟩, h1, h⟩ := except_bind_eq_ok h
      cases h
      have := ctx_actions_eq (nextFreeVars_actions h1)
      refine ⟨?_, ?_⟩
      · simp [Ex.actions, Stmt.actions]
      · simp only [this]; intro f hf; simp [hf]
    · cases h
      refine ⟨?_, ?_⟩
      · simp [Ex.actions, Stmt.actions]
      · intro f hf; simp [hf]
  induction e using Expr.ind with
  | str i l =>
    intro p S F c r h
    simp only [compile] at h
    cases h
    exact ⟨by simp +contextual [Ex.actions, Stmt.actions, liveActions], fun f hf => by simp [hf]⟩
  | any i =>
    intro p S F c r h
    simp only [compile] at h
    split at h
    · obtain ⟨⟨v, c1⟩, h1, h⟩ := except_bind_eq_ok h
      cases h
      have := ctx_actions_eq (nextFreeVar_actions h1)
      exact ⟨by simp +contextual [Ex.actions, Stmt.actions, liveActions], fun f hf => by simp only [this] at hf; simp [hf]⟩
    · cases h
      exact ⟨by simp +contextual [Ex.actions, Stmt.actions, liveActions], fun f hf => by simp [hf]⟩
  | cls i ivs =>
    intro p S F c r h
    simp only [compile] at h
    split at h
    · obtain ⟨⟨v, c1⟩, h1, h⟩ := except_bind_eq_ok h
      obtain ⟨cond, hc, h⟩ := except_bind_eq_ok h
      cases h
      have := ctx_actions_eq (nextFreeVar_actions h1)
      refine ⟨by simp +contextual [Ex.actions, Stmt.actions, liveActions], fun f hf => ?_⟩
      have e2 : (c1.nextMark).2.actions = c1.actions := rfl
      simp only [e2, this] at hf; simp [hf]
    · obtain ⟨⟨v, c1⟩, h1, h⟩ := except_bind_eq_ok h
      obtain ⟨cond, hc, h⟩ := except_bind_eq_ok h
      cases h1
      cases h
      refine ⟨by simp +contextual [Ex.actions, Stmt.actions, liveActions], fun f hf => ?_⟩
      have e2 : (c.nextMark).2.actions = c.actions := rfl
      simp only [e2] at hf; simp [hf]
  | nt i r => intro p S F c r h; simp only [compile] at h; simp only [liveActions]; exact call _ _ _ _ _ _ _ h
  | ext i r => intro p S F c r h; simp only [compile] at h; simp only [liveActions]; exact call _ _ _ _ _ _ _ h
  | seq i es ih =>
    intro p S F c r h
    simp only [compile] at h
    simp only [liveActions]
    generalize (p && decide (T i ≠ .unit)) = q at *
    induction es generalizing S c r with
    | nil =>
      simp only [compileSeq] at h; cases h
      exact ⟨fun f hf => by simp [hf], fun f hf => by simp [hf]⟩
    | cons e es ihes =>
      simp only [compileSeq] at h
      obtain ⟨⟨S1, c1⟩, h1, h⟩ := except_bind_eq_ok h
      obtain ⟨⟨S2, c2⟩, h2, h⟩ := except_bind_eq_ok h
      cases h
      obtain ⟨k1, k2⟩ := ihes (fun e he => ih e (by simp [he])) _ _ _ h1
      obtain ⟨l1, l2⟩ := ih e (by simp) _ _ _ _ _ h2
      have e2 : c2.incr.actions = c2.actions := rfl
      refine ⟨fun f hf => ?_, fun f hf => ?_⟩
      · simp only [liveActionsAll, List.mem_append]
        rcases l1 f hf with h | h | h
        · simp [h]
        · rcases k1 f h with h | h | h <;> simp [h]
        · simp [h]
      · simp only [liveActionsAll, List.mem_append]
        simp only [e2] at hf
        rcases l2 f hf with h | h | h | h
        · simp [h]
        · rcases k1 f h with h | h | h <;> simp [h]
        · simp [h]
        · rcases k2 f h with h | h | h | h <;> simp [h]
  | choice i es ih =>
    intro p S F c r h
    simp only [compile] at h
    obtain ⟨⟨brs, c1⟩, h1, h⟩ := except_bind_eq_ok h
    obtain ⟨k1, k2⟩ := compileBranches_actions T es ih _ _ _ _ _ _ _ h1
    -- the success continuation became a closure or not
    have hS : ∀ f ∈ (c.successAsClosure S).1.actions, f ∈ S.actions := by
      unfold Ctx.successAsClosure
      split
      · simp [Ex.actions]
      · simp
    have hC : ∀ f ∈ (c.successAsClosure S).2.actions, f ∈ S.actions ∨ f ∈ c.actions := by
      unfold Ctx.successAsClosure
      split
      · simp only [Ctx.actions, List.flatMap_append, List.mem_append]
        intro f hf
        rcases hf with h | h
        · exact .inr h
        · simp only [List.flatMap_cons, List.flatMap_nil, List.append_nil] at h; exact .inl h
      · intro f hf; exact .inr hf
    simp only [liveActions]
    split at h
    · rename_i first rest hb
      simp only at hb; subst hb
      cases h
      refine ⟨fun f hf => ?_, fun f hf => ?_⟩
      · simp only [Ex.actions, Stmt.actions, List.nil_append, List.mem_append] at hf
        have : ∃ x ∈ first :: rest, f ∈ x.actions := by
          rcases hf with h | h
          · exact ⟨_, by simp, h⟩
          · obtain ⟨x, hx, h⟩ := choiceCode_actions _ _ _ f h; exact ⟨x, by simp [hx], h⟩
        obtain ⟨x, hx, hf⟩ := this
        rcases k1 x hx f hf with h | h | h
        · exact .inl h
        · exact .inr (.inl (hS f h))
        · exact .inr (.inr h)
      · rcases k2 f hf with h | h | h | h
        · exact .inl h
        · exact .inr (.inl (hS f h))
        · exact .inr (.inr (.inl h))
        · rcases hC f h with h | h
          · exact .inr (.inl h)
          · exact .inr (.inr (.inr h))
    · cases h
  | star i e ih | plus i e ih =>
    intro p S F c r h
    simp only [compile] at h
    simp only [liveActions]
    split at h
    · rename_i hp
      rw [hp]
      obtain ⟨⟨body, v, c1⟩, h1, h⟩ := except_bind_eq_ok h
      obtain ⟨k1, k2⟩ := valueConstructor_actions ih h1
      cases h
      have hr := fun pl => repeatCode_actions pl body S F c1
      refine ⟨fun f hf => ?_, fun f hf => ?_⟩
      · simp only [Ex.actions, Stmt.actions, List.nil_append] at hf
        rcases (hr _).1 f hf with h | h | h
        · exact .inl (k1 f h)
        · exact .inr (.inl h)
        · exact .inr (.inr h)
      · simp only [ctx_actions_eq (hr _).2] at hf
        rcases k2 f hf with h | h <;> simp [h]
    · rename_i hp
      have hp : (p && decide (T i ≠ .unit)) = false := by simpa using hp
      rw [hp]
      obtain ⟨⟨body, c1⟩, h1, h⟩ := except_bind_eq_ok h
      obtain ⟨k1, k2⟩ := ih _ _ _ _ _ h1
      cases h
      have hr := fun pl => repeatCode_actions pl body S F c1.incr
      refine ⟨fun f hf => ?_, fun f hf => ?_⟩
      · rcases (hr _).1 f hf with h | h | h
        · rcases k1 f h with h | h | h
          · exact .inl h
          · cases h
          · cases h
        · exact .inr (.inl h)
        · exact .inr (.inr h)
      · simp only [ctx_actions_eq (hr _).2] at hf
        rcases k2 f hf with h | h | h | h
        · exact .inl h
        · cases h
        · cases h
        · simp [h]
  | opt i e ih =>
    intro p S F c r h
    simp only [compile] at h
    simp only [liveActions]
    split at h
    · rename_i hp
      rw [hp]
      obtain ⟨⟨body, v, c1⟩, h1, h⟩ := except_bind_eq_ok h
      obtain ⟨k1, k2⟩ := valueConstructor_actions ih h1
      cases h
      refine ⟨fun f hf => ?_, fun f hf => ?_⟩
      · simp only [optionalCode, Ex.actions, Stmt.actions, List.nil_append, List.mem_append] at hf
        rcases hf with h | h
        · exact .inl (k1 f h)
        · exact .inr (.inl h)
      · have e2 : (c1.nextMark).2.actions = c1.actions := rfl
        simp only [optionalCode, e2] at hf
        rcases k2 f hf with h | h <;> simp [h]
    · rename_i hp
      have hp : (p && decide (T i ≠ .unit)) = false := by simpa using hp
      rw [hp]
      obtain ⟨⟨body, c1⟩, h1, h⟩ := except_bind_eq_ok h
      obtain ⟨k1, k2⟩ := ih _ _ _ _ _ h1
      cases h
      refine ⟨fun f hf => ?_, fun f hf => ?_⟩
      · simp only [optionalCode, Ex.actions, Stmt.actions, List.nil_append, List.mem_append] at hf
        rcases hf with h | h
        · rcases k1 f h with h | h | h
          · exact .inl h
          · cases h
          · cases h
        · exact .inr (.inl h)
      · have e2 : (c1.incr.nextMark).2.actions = c1.actions := rfl
        simp only [optionalCode, e2] at hf
        rcases k2 f hf with h | h | h | h
        · exact .inl h
        · cases h
        · cases h
        · simp [h]
  | not i e ih | and i e ih =>
    intro p S F c r h
    simp only [compile] at h
    split at h
    · cases h
    · obtain ⟨⟨body, c1⟩, h1, h⟩ := except_bind_eq_ok h
      obtain ⟨k1, k2⟩ := ih _ _ _ _ _ h1
      rw [live_false] at k1 k2
      cases h
      refine ⟨fun f hf => ?_, fun f hf => ?_⟩
      · simp only [Ex.actions, Stmt.actions, List.nil_append, List.mem_append] at hf
        rcases hf with h | h | h
        · rcases k1 f h with h | h | h <;> cases h
        · simp [h]
        · simp [h]
      · have e2 : c1.incr.actions = c1.actions := rfl
        have e3 : (c.nextMark).2.actions = c.actions := rfl
        simp only [e2] at hf
        rcases k2 f hf with h | h | h | h
        · cases h
        · cases h
        · cases h
        · rw [e3] at h; simp [h]
  | act i e b f ih =>
    intro p S F c r h
    simp only [compile] at h
    simp only [liveActions]
    split at h
    · rename_i hp
      simp only [hp, if_true]
      obtain ⟨⟨v, c1⟩, h1, h⟩ := except_bind_eq_ok h
      obtain ⟨⟨code, c2⟩, h2, h⟩ := except_bind_eq_ok h
      obtain ⟨c3, h3, h⟩ := except_bind_eq_ok h
      cases h
      obtain ⟨k1, k2⟩ := ih _ _ _ _ _ h2
      have hv : ∀ (u : Bool) (args : List Name), (actionCall b f u args).actions = [f] := by
        intro u args
        simp only [actionCall]
        split <;> split <;> rfl
      simp only [Ex.actions, Stmt.actions, hv] at k1 k2
      refine ⟨fun g hg => ?_, fun g hg => ?_⟩
      · rcases k1 g hg with h | h | h
        · simp [h]
        · simp only [List.cons_append, List.nil_append, List.mem_cons] at h
          rcases h with h | h <;> simp [h]
        · simp [h]
      · have e1 : c3.actions = c2.actions := ctx_actions_eq (closeScope_actions h3)
        simp only [e1] at hg
        have e2 : c1.actions = c.actions := ctx_actions_eq (nextFreeVar_actions h1)
        rcases k2 g hg with h | h | h | h
        · simp [h]
        · simp only [List.cons_append, List.nil_append, List.mem_cons] at h
          rcases h with h | h <;> simp [h]
        · simp [h]
        · have : g ∈ c1.actions := h
          rw [e2] at this; simp [this]
    · rename_i hp
      have hp : (p && decide (T i ≠ .unit)) = false := by simpa using hp
      have := ih _ _ _ _ _ h
      rw [live_false] at this
      rw [hp, if_neg (by simp)]; exact this
  | asc i e t ih =>
    intro p S F c r h
    simp only [compile] at h
    simp only [liveActions]
    exact ih _ _ _ _ _ h
  | span i e ih | range i e ih =>
    intro p S F c r h
    simp only [compile] at h
    simp only [liveActions]
    split at h
    · rename_i hp
      rw [hp]
      obtain ⟨⟨v, c1⟩, h1, h⟩ := except_bind_eq_ok h
      obtain ⟨⟨code, c2⟩, h2, h⟩ := except_bind_eq_ok h
      cases h
      obtain ⟨k1, k2⟩ := ih _ _ _ _ _ h2
      simp only [Ex.actions, Stmt.actions, VEx.actions, List.nil_append] at k1 k2
      refine ⟨fun g hg => ?_, fun g hg => ?_⟩
      · simp only [Ex.actions, Stmt.actions, List.nil_append] at hg
        exact k1 g hg
      · have e2 : c1.actions = c.actions := ctx_actions_eq (c := c.nextMark.2) (nextFreeVarSkip_actions h1)
        rcases k2 g hg with h | h | h | h
        · simp [h]
        · simp [h]
        · simp [h]
        · have : g ∈ c1.actions := h
          rw [e2] at this; simp [this]
    · rename_i hp
      have hp : (p && decide (T i ≠ .unit)) = false := by simpa using hp
      rw [hp]
      exact ih _ _ _ _ _ h

theorem compileRecognizer_actions {T : Nat → Ty} {e : Expr} {f : Fn} (h : compileRecognizer T e = .ok f) : f.actions = [] := by
  unfold compileRecognizer at h
  obtain ⟨⟨body, c⟩, h1, h⟩ := except_bind_eq_ok h
  cases h
  obtain ⟨k1, k2⟩ := compile_actions T e _ _ _ _ _ h1
  rw [live_false] at k1 k2
  refine List.eq_nil_iff_forall_not_mem.2 fun g hg => ?_
  simp only [Fn.actions, List.mem_append] at hg
  rcases hg with h | h
  · rcases k2 g h with h | h | h | h <;> cases h
  · rcases k1 g h with h | h | h <;> cases h

theorem compileParser_actions {T : Nat → Ty} {r : String} {e : Expr} {f : Fn} (h : compileParser T r e = .ok f) :
    ∀ g ∈ f.actions, g ∈ liveActions T true e := by
  unfold compileParser at h
  split at h
  · cases h; intro g hg; simp [Fn.actions, Ex.actions, Stmt.actions] at hg
  · obtain ⟨⟨body, c⟩, h1, h⟩ := except_bind_eq_ok h
    obtain ⟨c2, h2, h⟩ := except_bind_eq_ok h
    cases h
    obtain ⟨k1, k2⟩ := compile_actions T e _ _ _ _ _ h1
    intro g hg
    simp only [Fn.actions, List.mem_append] at hg
    rcases hg with h | h
    · have h : g ∈ c2.actions := h
      rw [ctx_actions_eq (closeScope_actions h2)] at h
      rcases k2 g h with h | h | h | h
      · exact h
      all_goals cases h
    · rcases k1 g h with h | h | h
      · exact h
      all_goals cases h

theorem compileGrammar_actions {T : Nat → Ty} {rules : List (String × Expr)} {fs : List (FnRef × Fn)}
    (h : compileGrammar T rules = .ok fs) : ∀ x ∈ fs, if x.1.parser then ∃ ru ∈ rules, x.1.path = [ru.1] ∧ ∀ g ∈ x.2.actions, g ∈ liveActions T true ru.2
      else x.2.actions = [] := by
  induction rules generalizing fs with
  | nil => simp only [compileGrammar] at h; cases h; intro x hx; cases hx
  | cons x rules ih =>
    obtain ⟨r', e⟩ := x
    simp only [compileGrammar] at h
    obtain ⟨rc, h1, h⟩ := except_bind_eq_ok h
    obtain ⟨pa, h2, h⟩ := except_bind_eq_ok h
    obtain ⟨rest, h3, h⟩ := except_bind_eq_ok h
    cases h
    intro x hx
    cases hx with
    | head => simpa using compileRecognizer_actions h1
    | tail _ hm =>
      cases hm with
      | head => simp only [if_true]; exact ⟨(r', e), by simp, rfl, compileParser_actions h2⟩
      | tail _ hm =>
        have := ih h3 x hm
        split at this
        · obtain ⟨ru, hru, h⟩ := this
          rename_i hp
          simp only [hp, if_true]
          exact ⟨ru, by simp [hru], h⟩
        · rename_i hp
          simp only [hp]; exact this

end Oak
