import Verif.Proofs.Frame
import Verif.Proofs.Run
import Verif.Spec.Typed
/-!
The generated code computes what the direct-style interpreter `run` computes.
-/
set_option linter.constructorNameAsVariable false
set_option autoImplicit false

namespace Oak

/-- Names made before the factory reached this state. -/
def NameFactory.old (f : NameFactory) : Name → Prop
  | .var p _ => p < f.prefixUid
  | .mark n => n ≤ f.markUid
  | .branchFailed n => n ≤ f.branchFailedUid
  | .counter n => n ≤ f.counterUid
  | .x => False
  | .isSuccess => False

/-- A later state of the factory. -/
structure NameFactory.le (f g : NameFactory) : Prop where
  p : f.prefixUid ≤ g.prefixUid
  m : f.markUid ≤ g.markUid
  b : f.branchFailedUid ≤ g.branchFailedUid
  c : f.counterUid ≤ g.counterUid
  k : f.closureUid ≤ g.closureUid

theorem NameFactory.le.refl (f : NameFactory) : f.le f := ⟨Nat.le_refl _, Nat.le_refl _, Nat.le_refl _, Nat.le_refl _, Nat.le_refl _⟩
theorem NameFactory.le.trans {f g h : NameFactory} (a : f.le g) (b : g.le h) : f.le h :=
  ⟨Nat.le_trans a.p b.p, Nat.le_trans a.m b.m, Nat.le_trans a.b b.b, Nat.le_trans a.c b.c, Nat.le_trans a.k b.k⟩
theorem NameFactory.le.old {f g : NameFactory} (a : f.le g) {x : Name} (h : f.old x) : g.old x := by
  obtain ⟨h1, h2, h3, h4, h5⟩ := a
  cases x <;> simp only [NameFactory.old] at * <;> omega

/-- Closures are numbered in order and call only earlier closures. -/
structure ClosuresOk (c : Ctx) : Prop where
  names : c.closures.map (·.name) = (List.range c.names.closureUid).map (· + 1)
  calls : ∀ cl ∈ c.closures, ∀ k ∈ cl.body.calls, k < cl.name

/-- Well-formed compilation context. -/
structure PreC (c : Ctx) : Prop where
  nodup : c.fv.Nodup
  fvOld : ∀ x ∈ c.fv, c.names.old x
  mutsOld : ∀ x ∈ c.muts, c.names.old x
  marksOld : ∀ x ∈ c.marks, c.names.old x
  closures : ClosuresOk c

/-- Well-formed code: it uses only names and closures made so far. -/
structure PreK (c : Ctx) (k : Ex) : Prop where
  old : ∀ x ∈ k.fv, c.names.old x
  calls : ∀ j ∈ k.calls, j ≤ c.names.closureUid

/-- Effect of a compilation on the context: it consumed the free variables `P`. -/
structure Post (c c' : Ctx) (P : List Name) : Prop where
  fv : c.fv = c'.fv ++ P
  muts : c'.muts = c.muts
  marks : c'.marks = c.marks
  le : c.names.le c'.names
  closures : ∃ l, c'.closures = c.closures ++ l
  ok : ClosuresOk c'

theorem PreC.post {c c' : Ctx} {P : List Name} (h : PreC c) (p : Post c c' P) : PreC c' := by
  obtain ⟨h1, h2, h3, h4, h5⟩ := h
  obtain ⟨p1, p2, p3, p4, p5, p6⟩ := p
  rw [p1] at h1
  refine ⟨(List.nodup_append.1 h1).1, fun x hx => p4.old (h2 x (by rw [p1]; simp [hx])), ?_, ?_, p6⟩
  · rw [p2]; exact fun x hx => p4.old (h3 x hx)
  · rw [p3]; exact fun x hx => p4.old (h4 x hx)

theorem PreK.mono {c c' : Ctx} {k : Ex} (h : PreK c k) (le : c.names.le c'.names) : PreK c' k :=
  ⟨fun x hx => le.old (h.old x hx), fun j hj => Nat.le_trans (h.calls j hj) le.k⟩

theorem Post.refl {c : Ctx} (h : ClosuresOk c) : Post c c [] := ⟨by simp, rfl, rfl, .refl _, ⟨[], by simp⟩, h⟩

theorem Post.trans {c c1 c2 : Ctx} {P1 P2 : List Name} (a : Post c c1 P2) (b : Post c1 c2 P1) : Post c c2 (P1 ++ P2) := by
  obtain ⟨l1, h1⟩ := a.closures
  obtain ⟨l2, h2⟩ := b.closures
  exact ⟨by rw [a.fv, b.fv]; simp, b.muts.trans a.muts, b.marks.trans a.marks, a.le.trans b.le,
    ⟨l1 ++ l2, by rw [h2, h1]; simp⟩, b.ok⟩

theorem Post.incr {c c' : Ctx} {P : List Name} (h : Post c c' P) : Post c c'.incr P :=
  ⟨h.fv, h.muts, h.marks, h.le, h.closures, ⟨h.ok.names, h.ok.calls⟩⟩

theorem Post.mem {c c' : Ctx} {P : List Name} (h : Post c c' P) {cl : Closure} (hc : cl ∈ c.closures) : cl ∈ c'.closures := by
  obtain ⟨l, h⟩ := h.closures
  rw [h]; simp [hc]

theorem Post.sub {c c' : Ctx} {P : List Name} (h : Post c c' P) : ∀ x ∈ P, x ∈ c.fv := by
  intro x hx; rw [h.fv]; simp [hx]

section
variable {σ : Type} (ops : StreamOps σ) (fns : FnRef → PState σ Val → Res (PState σ Val))

/-- The closures in scope behave as their declarations, which are closed. -/
def KOk (n : Nat) (K : Nat → Option (Denot σ)) (cls : List Closure) : Prop :=
  ∀ cl ∈ cls, cl.closed = true ∧ K cl.name = some (closureDenot ops fns n K cl)

/-- Values as contents of variables. -/
def wrap (vs : List Val) : List (Option (EV σ)) := vs.map fun v => some (.val v)

/-- What remains to do after a direct-style run: on success bind the variables `P` and run `k`. -/
def cont (k : Env σ → PState σ Val → Res (Env σ × PState σ Val)) (P : List Name) (env : Env σ) :
    Option (List Val) × PState σ Val → Res (Env σ × PState σ Val)
  | (some vs, st) => restoreRes env P (k (env.setMany P (wrap vs)) st)
  | (none, st) => .ok (env, st)

@[simp] theorem cont_some (k : Env σ → PState σ Val → Res (Env σ × PState σ Val)) (P : List Name) (env : Env σ)
    (vs : List Val) (st : PState σ Val) : cont k P env (some vs, st) = restoreRes env P (k (env.setMany P (wrap vs)) st) := rfl
@[simp] theorem cont_none (k : Env σ → PState σ Val → Res (Env σ × PState σ Val)) (P : List Name) (env : Env σ)
    (st : PState σ Val) : cont k P env (none, st) = .ok (env, st) := rfl

theorem restoreRes_bind {α : Type} (env : Env σ) (X : List Name) (x : Res α) (f : α → Res (Env σ × PState σ Val)) :
    restoreRes env X (x >>= f) = x >>= fun a => restoreRes env X (f a) := by cases x <;> rfl

@[simp] theorem restoreRes_ok (env env1 : Env σ) (X : List Name) (st : PState σ Val) :
    restoreRes env X (.ok (env1, st)) = .ok (env1.restore env X, st) := rfl

theorem restore_of_agree {env env1 : Env σ} {X : List Name} (h : ∀ x, x ∉ X → env1 x = env x) : env1.restore env X = env := by
  funext x; simp only [Env.restore]; split
  · rfl
  · rename_i hx; exact h x hx

@[simp] theorem restore_nil (env old : Env σ) : env.restore old [] = env := by
  funext x; simp [Env.restore]

theorem restoreRes_nil (env : Env σ) (r : Res (Env σ × PState σ Val)) : restoreRes env [] r = r := by
  cases r <;> simp [restoreRes]

/-- Two successive block exits. -/
theorem restoreRes_comp {env env1 : Env σ} {X Y : List Name} (h : ∀ x, x ∉ X → env1 x = env x)
    (r : Res (Env σ × PState σ Val)) : restoreRes env X (restoreRes env1 Y r) = restoreRes env (X ++ Y) r := by
  cases r with
  | ok a =>
    obtain ⟨e, s⟩ := a
    simp only [restoreRes_ok, Res.ok.injEq, Prod.mk.injEq, and_true]
    funext x
    simp only [Env.restore, List.mem_append]
    by_cases h1 : x ∈ X
    · simp [h1]
    · by_cases h2 : x ∈ Y
      · simp [h1, h2, h x h1]
      · simp [h1, h2]
  | panic => rfl
  | stuck => rfl
  | timeout => rfl

/-- Variables that a continuation does not mention can be forgotten. -/
theorem restore_frame (n : Nat) (K : Nat → Option (Denot σ)) (k : Ex) {env env1 env2 : Env σ} {P X Z : List Name}
    (hX : ∀ x ∈ X, x ∉ k.fv) (h12 : ∀ x, x ∉ X → env1 x = env2 x) (h2 : ∀ x, x ∉ P → env2 x = env x)
    (hZ : ∀ x, x ∈ Z ↔ x ∈ P ∨ x ∈ X) (st : PState σ Val) :
    restoreRes env Z (evalEx ops fns n K k env1 st) = restoreRes env P (evalEx ops fns n K k env2 st) := by
  rw [← evalEx_frame ops fns n K k X hX env2 env1 h12]
  generalize evalEx ops fns n K k env1 st = r
  cases r with
  | ok a =>
    obtain ⟨e, s⟩ := a
    simp only [restoreRes_ok, Res.ok.injEq, Prod.mk.injEq, and_true]
    funext x
    simp only [Env.restore, hZ]
    by_cases h1 : x ∈ P
    · simp [h1]
    · by_cases h3 : x ∈ X
      · simp [h1, h3, h2 x h1]
      · simp [h1, h3]
  | panic => rfl
  | stuck => rfl
  | timeout => rfl

theorem setMany_off (env : Env σ) (P : List Name) (vs : List (Option (EV σ))) : ∀ x, x ∉ P → env.setMany P vs x = env x :=
  fun x hx => Env.setMany_notMem env P vs x hx

/-- `cont` and extra variables. -/
theorem cont_frame (n : Nat) (K : Nat → Option (Denot σ)) (k : Ex) {env env1 : Env σ} {P X : List Name}
    (hX : ∀ x ∈ X, x ∉ k.fv) (h : ∀ x, x ∉ X → env1 x = env x) (r : Option (List Val) × PState σ Val) :
    restoreRes env X (cont (evalEx ops fns n K k) P env1 r) = cont (evalEx ops fns n K k) P env r := by
  obtain ⟨o, st⟩ := r
  cases o with
  | none => simp [restore_of_agree h]
  | some vs =>
    simp only [cont_some]
    rw [restoreRes_comp h]
    refine restore_frame ops fns n K k (X := X) (env2 := env.setMany P (wrap vs)) hX ?_ (setMany_off env P _) ?_ st
    · exact (Env.Agree.setMany (A := fun x => x ∉ X) h P (wrap vs))
    · intro x; simp [Or.comm]

theorem setMany_append (env : Env σ) (P Q : List Name) (vs ws : List Val) (h : vs.length = P.length) :
    env.setMany (P ++ Q) (wrap (vs ++ ws)) = (env.setMany P (wrap vs)).setMany Q (wrap ws) := by
  induction P generalizing env vs with
  | nil =>
    cases vs with
    | nil => cases Q <;> rfl
    | cons v vs => simp at h
  | cons x P ih =>
    cases vs with
    | nil => simp at h
    | cons v vs => simp only [List.cons_append, wrap, List.map_cons, Env.setMany]; exact ih _ _ (by simpa using h)

theorem getVals_setMany (env : Env σ) (P : List Name) (vs : List Val) (h : vs.length = P.length) (hn : P.Nodup) :
    (env.setMany P (wrap vs)).getVals P = .ok vs := by
  induction P generalizing env vs with
  | nil => cases vs with
    | nil => rfl
    | cons v vs => simp at h
  | cons x P ih =>
    cases vs with
    | nil => simp at h
    | cons v vs =>
      simp only [List.nodup_cons] at hn
      simp only [wrap, List.map_cons, Env.setMany, Env.getVals, Env.getVal]
      rw [Env.setMany_notMem _ _ _ _ hn.1, Env.set_same]
      simp only [Res.bind_ok]
      have := ih (env.set x (some (.val v))) vs (by simpa using h) hn.2
      simp only [wrap] at this
      rw [this]; rfl

/-! ### Lengths -/

theorem arity_false (T : Nat → Ty) (e : Expr) : arity T false e = 0 := by
  induction e using Expr.ind with
  | seq i es ih =>
    simp only [arity, Bool.false_and]
    induction es with
    | nil => rfl
    | cons e es ihe => simp only [aritySeq, ih e (by simp), ihe (fun e he => ih e (by simp [he]))]
  | choice i es ih =>
    simp only [arity, Bool.false_and]
    cases es with
    | nil => rfl
    | cons e es => simp only [arityHead, ih e (by simp)]
  | asc i e t ih => simp only [arity, Bool.false_and, ih]
  | _ => simp [arity]

theorem arity_and (T : Nat → Ty) (p : Bool) (e : Expr) : arity T p e = if p then arity T true e else 0 := by
  cases p <;> simp [arity_false]

theorem sameArity_iff {T : Nat → Ty} {p : Bool} {n : Nat} {es : List Expr} :
    sameArity T p n es = true ↔ ∀ e ∈ es, arity T p e = n := by
  simp [sameArity]

theorem coherentAll_iff {T : Nat → Ty} {R : String → Nat} {p : Bool} {es : List Expr} :
    coherentAll T R p es = true ↔ ∀ e ∈ es, coherent T R p e = true := by
  induction es with
  | nil => simp [coherentAll]
  | cons e es ih => simp [coherentAll, ih]

/-- The number of values given by a run. -/
theorem run_length (T : Nat → Ty) (R : String → Nat) (n : Nat) (e : Expr) : ∀ (p : Bool) (st st' : PState σ Val) (vs : List Val),
    coherent T R p e = true → run ops fns T n p e st = .ok (some vs, st') → vs.length = arity T p e := by
  have hcall : ∀ (p : Bool) (i : Nat) (path : Path) (st st' : PState σ Val) (vs : List Val),
      runCall fns T p i path st = .ok (some vs, st') → vs.length = if p && T i ≠ .unit then (T i).card else 0 := by
    intro p i path st st' vs h
    unfold runCall at h
    split at h
    · obtain ⟨a, _, h⟩ := Res.bind_eq_ok h
      split at h
      · obtain ⟨⟨b, d⟩, _, h⟩ := Res.bind_eq_ok h
        obtain ⟨ws, hw, h⟩ := Res.bind_eq_ok h
        cases h
        simp only [*, if_true]
        exact untuple_length hw
      · cases h
    · obtain ⟨a, _, h⟩ := Res.bind_eq_ok h
      split at h
      · cases h; simp only [*, if_false]; rfl
      · cases h
  have hrep : ∀ (plus p : Bool) (body : PState σ Val → Res (Option (List Val) × PState σ Val)) (st st' : PState σ Val) (vs : List Val),
      runRepeat n plus p body st = .ok (some vs, st') → vs.length = if p then 1 else 0 := by
    intro plus p body st st' vs h
    unfold runRepeat at h
    obtain ⟨m, _, h⟩ := Res.bind_eq_ok h
    obtain ⟨⟨k, m', ws, st1⟩, _, h⟩ := Res.bind_eq_ok h
    simp only at h
    split at h
    · cases h
    · obtain ⟨a, _, h⟩ := Res.bind_eq_ok h
      cases h; cases p <;> rfl
  have hpred : ∀ (neg : Bool) (body : PState σ Val → Res (Option (List Val) × PState σ Val)) (st st' : PState σ Val) (vs : List Val),
      runPred neg body st = .ok (some vs, st') → vs.length = 0 := by
    intro neg body st st' vs h
    unfold runPred at h
    obtain ⟨m, _, h⟩ := Res.bind_eq_ok h
    obtain ⟨⟨r, st1⟩, _, h⟩ := Res.bind_eq_ok h
    obtain ⟨a, _, h⟩ := Res.bind_eq_ok h
    split at h <;> cases h
    rfl
  induction e using Expr.ind with
  | str i l =>
    intro p st st' vs hc h
    simp only [run] at h
    obtain ⟨⟨r, st1⟩, _, h⟩ := Res.bind_eq_ok h
    simp only at h
    split at h
    · cases h; rfl
    · obtain ⟨a, _, h⟩ := Res.bind_eq_ok h; cases h
  | any i =>
    intro p st st' vs hc h
    simp only [run] at h
    obtain ⟨⟨r, st1⟩, _, h⟩ := Res.bind_eq_ok h
    cases r with
    | none => obtain ⟨a, _, h⟩ := Res.bind_eq_ok h; cases h
    | some c => cases h; simp only [arity]; split <;> rfl
  | cls i ivs =>
    intro p st st' vs hc h
    simp only [run] at h
    obtain ⟨m, _, h⟩ := Res.bind_eq_ok h
    obtain ⟨⟨r, st1⟩, _, h⟩ := Res.bind_eq_ok h
    simp only at h
    split at h
    · cases h; simp only [arity]; split <;> rfl
    · obtain ⟨a, _, h⟩ := Res.bind_eq_ok h
      obtain ⟨a, _, h⟩ := Res.bind_eq_ok h; cases h
  | nt i r => intro p st st' vs hc h; simp only [run] at h; simp only [arity]; exact hcall _ _ _ _ _ _ h
  | ext i r => intro p st st' vs hc h; simp only [run] at h; simp only [arity]; exact hcall _ _ _ _ _ _ h
  | seq i es ih =>
    intro p st st' vs hc h
    simp only [coherent] at hc
    simp only [run] at h
    simp only [arity]
    generalize (p && decide (T i ≠ .unit)) = q at *
    induction es generalizing st vs with
    | nil => simp only [runSeq] at h; cases h; rfl
    | cons e es ihes =>
      simp only [coherentAll, Bool.and_eq_true] at hc
      simp only [runSeq] at h
      obtain ⟨⟨r, st1⟩, h1, h⟩ := Res.bind_eq_ok h
      cases r with
      | none => cases h
      | some v1 =>
        obtain ⟨⟨r, st2⟩, h2, h⟩ := Res.bind_eq_ok h
        cases r with
        | none => cases h
        | some v2 =>
          cases h
          simp only [aritySeq, List.length_append]
          rw [ih e (by simp) _ _ _ _ hc.1 h1, ihes (fun e he => ih e (by simp [he])) _ _ hc.2 h2]
  | choice i es ih =>
    intro p st st' vs hc h
    simp only [coherent, Bool.and_eq_true] at hc
    simp only [run] at h
    simp only [arity]
    generalize (p && decide (T i ≠ .unit)) = q at *
    obtain ⟨m, hm, h'⟩ := Res.bind_eq_ok h
    clear h hm
    have h := h'
    clear h'
    generalize arityHead T q es = a at *
    induction es generalizing st with
    | nil => simp only [runBranches] at h; cases h
    | cons e es ihes =>
      simp only [coherentAll, Bool.and_eq_true] at hc
      simp only [runBranches] at h
      obtain ⟨⟨r, st1⟩, h1, h⟩ := Res.bind_eq_ok h
      cases r with
      | some v1 =>
        cases h
        rw [ih e (by simp) _ _ _ _ hc.1.1 h1]
        exact sameArity_iff.1 hc.2 e (by simp)
      | none =>
        simp only at h
        split at h
        · cases h
        · obtain ⟨st2, _, h⟩ := Res.bind_eq_ok h
          exact ihes (fun e he => ih e (by simp [he])) _ h
            ⟨hc.1.2, sameArity_iff.2 fun e he => sameArity_iff.1 hc.2 e (by simp [he])⟩
  | star i e ih => intro p st st' vs hc h; simp only [run] at h; simp only [arity]; exact hrep _ _ _ _ _ _ h
  | plus i e ih => intro p st st' vs hc h; simp only [run] at h; simp only [arity]; exact hrep _ _ _ _ _ _ h
  | opt i e ih =>
    intro p st st' vs hc h
    simp only [run, runOpt] at h
    simp only [arity]
    obtain ⟨m, _, h⟩ := Res.bind_eq_ok h
    obtain ⟨⟨r, st1⟩, _, h⟩ := Res.bind_eq_ok h
    obtain ⟨m, _, h⟩ := Res.bind_eq_ok h
    cases h
    split <;> rfl
  | not i e ih => intro p st st' vs hc h; simp only [run] at h; simp only [arity]; exact hpred _ _ _ _ _ h
  | and i e ih => intro p st st' vs hc h; simp only [run] at h; simp only [arity]; exact hpred _ _ _ _ _ h
  | act i e b f ih =>
    intro p st st' vs hc h
    simp only [run] at h
    simp only [arity]
    simp only [coherent] at hc
    generalize (p && decide (T i ≠ .unit)) = q at *
    split at h
    · obtain ⟨⟨r, st1⟩, _, h⟩ := Res.bind_eq_ok h
      cases r with
      | none => cases h
      | some v => cases h; simp only [*, if_true]; rfl
    · rename_i hh
      have := ih _ _ _ _ (by simpa [hh] using hc) h
      simpa [arity_false, hh] using this
  | asc i e t ih =>
    intro p st st' vs hc h
    simp only [coherent] at hc
    simp only [run] at h
    simp only [arity]
    exact ih _ _ _ _ hc h
  | span i e ih =>
    intro p st st' vs hc h
    simp only [run] at h
    simp only [arity]
    simp only [coherent, Bool.and_eq_true] at hc
    generalize (p && decide (T i ≠ .unit)) = q at *
    split at h
    · rename_i hh
      obtain ⟨m, _, h⟩ := Res.bind_eq_ok h
      obtain ⟨⟨r, st1⟩, h1, h⟩ := Res.bind_eq_ok h
      cases r with
      | none => cases h
      | some v =>
        obtain ⟨m, _, h⟩ := Res.bind_eq_ok h
        cases h
        simp only [hh, if_true, List.length_cons]
        rw [ih _ _ _ _ (by simpa [hh] using hc.1) h1]
    · rename_i hh
      have := ih _ _ _ _ (by simpa [hh] using hc.1) h
      simpa [arity_false, hh] using this
  | range i e ih =>
    intro p st st' vs hc h
    simp only [run] at h
    simp only [arity]
    simp only [coherent, Bool.and_eq_true] at hc
    generalize (p && decide (T i ≠ .unit)) = q at *
    split at h
    · rename_i hh
      obtain ⟨m, _, h⟩ := Res.bind_eq_ok h
      obtain ⟨⟨r, st1⟩, h1, h⟩ := Res.bind_eq_ok h
      cases r with
      | none => cases h
      | some v =>
        obtain ⟨m, _, h⟩ := Res.bind_eq_ok h
        cases h
        simp only [hh, if_true, List.length_cons]
        rw [ih _ _ _ _ (by simpa [hh] using hc.1) h1]
    · rename_i hh
      have := ih _ _ _ _ (by simpa [hh] using hc.1) h
      simpa [arity_false, hh] using this

end
end Oak
