import Verif.Spec.Scope
/-!
Frame properties of the evaluation of the generated code: it depends only on the free variables and changes only the
assigned ones.
-/
set_option linter.constructorNameAsVariable false
set_option autoImplicit false

namespace Oak

/-- Two outcomes are of the same kind, and related when they are values. -/
def Res.Rel {α β : Type} (R : α → β → Prop) : Res α → Res β → Prop
  | .ok a, .ok b => R a b
  | .panic, .panic => True
  | .stuck, .stuck => True
  | .timeout, .timeout => True
  | _, _ => False

theorem Res.Rel.bind {α β γ δ : Type} {R : α → β → Prop} {R' : γ → δ → Prop} {x : Res α} {y : Res β}
    {f : α → Res γ} {g : β → Res δ} (h : Res.Rel R x y) (hf : ∀ a b, x = .ok a → y = .ok b → R a b → Res.Rel R' (f a) (g b)) :
    Res.Rel R' (x >>= f) (y >>= g) := by
  cases x <;> cases y <;> simp_all [Res.Rel]

theorem Res.Rel.refl {α : Type} {R : α → α → Prop} (hR : ∀ a, R a a) (x : Res α) : Res.Rel R x x := by
  cases x <;> simp [Res.Rel, hR]

theorem Res.Rel.of_eq {α : Type} {R : α → α → Prop} (hR : ∀ a, R a a) {x y : Res α} (h : x = y) : Res.Rel R x y := by
  subst h; exact Res.Rel.refl hR x

theorem Res.Rel.eq {α : Type} {x y : Res α} (h : Res.Rel Eq x y) : x = y := by
  cases x <;> cases y <;> simp_all [Res.Rel]

theorem Res.Rel.mono {α β : Type} {R R' : α → β → Prop} {x : Res α} {y : Res β} (h : Res.Rel R x y)
    (hR : ∀ a b, R a b → R' a b) : Res.Rel R' x y := by
  cases x <;> cases y <;> simp_all [Res.Rel]

namespace Env
variable {S : Type}

theorem set_apply (env : Env S) (x y : Name) (v : Option (EV S)) : env.set x v y = if y = x then v else env y := rfl

@[simp] theorem set_same (env : Env S) (x : Name) (v : Option (EV S)) : env.set x v x = v := by simp [set]

theorem set_other (env : Env S) {x y : Name} (v : Option (EV S)) (h : y ≠ x) : env.set x v y = env y := by simp [set, h]

theorem setMany_notMem (env : Env S) (xs : List Name) (vs : List (Option (EV S))) (y : Name) (h : y ∉ xs) :
    env.setMany xs vs y = env y := by
  induction xs generalizing env vs with
  | nil => cases vs <;> rfl
  | cons x xs ih =>
    simp only [List.mem_cons, not_or] at h
    cases vs with
    | nil => rfl
    | cons v vs => simp only [setMany]; rw [ih _ _ h.2, set_other _ _ h.1]

/-- Agreement on a set of names. -/
def Agree (A : Name → Prop) (env env' : Env S) : Prop := ∀ x, A x → env x = env' x

theorem Agree.set {A : Name → Prop} {env env' : Env S} (h : Agree A env env') (x : Name) (v : Option (EV S)) :
    Agree (fun y => A y ∨ y = x) (env.set x v) (env'.set x v) := by
  intro y hy
  simp only [set_apply]
  split
  · rfl
  · rename_i hne; exact h y (hy.resolve_right hne)

theorem Agree.setMany {A : Name → Prop} {env env' : Env S} (h : Agree A env env') (xs : List Name)
    (vs : List (Option (EV S))) : Agree A (env.setMany xs vs) (env'.setMany xs vs) := by
  induction xs generalizing env env' vs with
  | nil => cases vs <;> exact h
  | cons x xs ih =>
    cases vs with
    | nil => exact h
    | cons v vs => exact ih (fun y hy => (h.set x v) y (.inl hy)) vs

theorem Agree.setMany' {A : Name → Prop} {env env' : Env S} (h : Agree A env env') (xs : List Name)
    (vs : List (Option (EV S))) (hl : vs.length = xs.length) :
    Agree (fun y => A y ∨ y ∈ xs) (env.setMany xs vs) (env'.setMany xs vs) := by
  induction xs generalizing env env' A vs with
  | nil => intro y hy; simp at hy; cases vs <;> exact h y hy
  | cons x xs ih =>
    cases vs with
    | nil => simp at hl
    | cons v vs =>
      have := ih (h.set x v) vs (by simpa using hl)
      intro y hy
      refine this y ?_
      simp only [List.mem_cons] at hy
      rcases hy with hy | hy | hy
      · exact .inl (.inl hy)
      · exact .inl (.inr hy)
      · exact .inr hy

theorem Agree.mono {A B : Name → Prop} {env env' : Env S} (h : Agree A env env') (hB : ∀ x, B x → A x) :
    Agree B env env' := fun x hx => h x (hB x hx)

theorem Agree.restore {A : Name → Prop} {env env' old old' : Env S} {xs : List Name}
    (h : Agree (fun y => A y ∧ y ∉ xs) env env') (ho : Agree A old old') : Agree A (env.restore old xs) (env'.restore old' xs) := by
  intro y hy
  simp only [Env.restore]
  split
  · exact ho y hy
  · rename_i hne; exact h y ⟨hy, hne⟩

theorem Agree.getMark {A : Name → Prop} {env env' : Env S} (h : Agree A env env') {x : Name} (hx : A x) :
    env.getMark x = env'.getMark x := by simp [Env.getMark, h x hx]

theorem Agree.getVal {A : Name → Prop} {env env' : Env S} (h : Agree A env env') {x : Name} (hx : A x) :
    env.getVal x = env'.getVal x := by simp [Env.getVal, h x hx]

theorem Agree.getBool {A : Name → Prop} {env env' : Env S} (h : Agree A env env') {x : Name} (hx : A x) :
    env.getBool x = env'.getBool x := by simp [Env.getBool, h x hx]

theorem Agree.getNat {A : Name → Prop} {env env' : Env S} (h : Agree A env env') {x : Name} (hx : A x) :
    env.getNat x = env'.getNat x := by simp [Env.getNat, h x hx]

theorem Agree.getVals {A : Name → Prop} {env env' : Env S} (h : Agree A env env') {xs : List Name}
    (hx : ∀ x ∈ xs, A x) : env.getVals xs = env'.getVals xs := by
  induction xs with
  | nil => rfl
  | cons x xs ih =>
    simp only [Env.getVals, h.getVal (hx x (by simp)), ih (fun y hy => hx y (by simp [hy]))]

end Env

section
variable {S : Type} (ops : StreamOps S) (fns : FnRef → PState S Val → Res (PState S Val))

theorem evalV_agree {A : Name → Prop} {env env' : Env S} (h : Env.Agree A env env') (st : PState S Val) (v : VEx)
    (hv : ∀ x ∈ v.fv, A x) : evalV ops env st v = evalV ops env' st v := by
  induction v with
  | tup vs => simp only [evalV, h.getVals (xs := vs) hv]
  | call f vs => simp only [evalV, h.getVals (xs := vs) hv]
  | path f => rfl
  | box v ih => simp only [evalV, ih hv]
  | range m => simp only [evalV, h.getMark (hv m (by simp [VEx.fv]))]
  | span m => simp only [evalV, h.getMark (hv m (by simp [VEx.fv]))]

/-- Related results: same state, environments that agree. -/
def SameOn (A : Name → Prop) (r r' : Env S × PState S Val) : Prop := Env.Agree A r.1 r'.1 ∧ r.2 = r'.2

theorem untuple_length {n : Nat} {v : Val} {ws : List Val} (h : untuple n v = .ok ws) : ws.length = n := by
  unfold untuple at h
  split at h
  · cases h; simp [*]
  · split at h
    · split at h
      · cases h; assumption
      · cases h
    · cases h

theorem exec_agree {A : Name → Prop} {env env' : Env S} (h : Env.Agree A env env') (st : PState S Val) (s : Stmt)
    (hs : ∀ x ∈ s.fv, A x) :
    Res.Rel (SameOn (fun y => A y ∨ y ∈ s.binds)) (exec ops fns env st s) (exec ops fns env' st s) := by
  have hrefl : ∀ x : Res (PState S Val), Res.Rel Eq x x := fun x => Res.Rel.refl (fun _ => rfl) x
  cases s with
  | letMark m =>
    simp only [exec]
    refine Res.Rel.bind (Res.Rel.refl (R := Eq) (fun _ => rfl) _) ?_
    rintro a _ _ _ rfl
    exact ⟨(h.set m _).mono (by simp [Stmt.binds]), rfl⟩
  | setMark m =>
    simp only [exec]
    refine Res.Rel.bind (Res.Rel.refl (R := Eq) (fun _ => rfl) _) ?_
    rintro a _ _ _ rfl
    exact ⟨(h.set m _).mono (by simp +contextual [Stmt.binds]), rfl⟩
  | letVal r v =>
    simp only [exec, evalV_agree ops h st v hs]
    refine Res.Rel.bind (Res.Rel.refl (R := Eq) (fun _ => rfl) _) ?_
    rintro a _ _ _ rfl
    exact ⟨(h.set r _).mono (by simp [Stmt.binds]), rfl⟩
  | letNone r => exact ⟨(h.set r _).mono (by simp [Stmt.binds]), rfl⟩
  | letVec r => exact ⟨(h.set r _).mono (by simp [Stmt.binds]), rfl⟩
  | letTrue r => exact ⟨(h.set r _).mono (by simp [Stmt.binds]), rfl⟩
  | letZero r => exact ⟨(h.set r _).mono (by simp [Stmt.binds]), rfl⟩
  | letIsSuccess => exact ⟨(h.set _ _).mono (by simp [Stmt.binds]), rfl⟩
  | setSome r v =>
    simp only [Stmt.fv, List.mem_cons, forall_eq_or_imp] at hs
    simp only [exec, evalV_agree ops h st v hs.2]
    refine Res.Rel.bind (Res.Rel.refl (R := Eq) (fun _ => rfl) _) ?_
    rintro a _ _ _ rfl
    exact ⟨(h.set r _).mono (by simp +contextual [Stmt.binds]), rfl⟩
  | push r v =>
    simp only [Stmt.fv, List.mem_cons, forall_eq_or_imp] at hs
    simp only [exec, evalV_agree ops h st v hs.2, h.getVal hs.1]
    refine Res.Rel.bind (Res.Rel.refl (R := Eq) (fun _ => rfl) _) ?_
    rintro a _ _ _ rfl
    refine Res.Rel.bind (Res.Rel.refl (R := Eq) (fun _ => rfl) _) ?_
    rintro w _ _ _ rfl
    cases w <;> first | trivial | exact ⟨(h.set r _).mono (by simp +contextual [Stmt.binds]), rfl⟩
  | setFalse b => exact ⟨(h.set b _).mono (by simp +contextual [Stmt.binds]), rfl⟩
  | restoreFailed _ m =>
    simp only [exec, h.getMark (hs m (by simp [Stmt.fv]))]
    refine Res.Rel.bind (Res.Rel.refl (R := Eq) (fun _ => rfl) _) ?_
    rintro a _ _ _ rfl
    refine Res.Rel.bind (hrefl _) ?_
    rintro a _ _ _ rfl
    exact ⟨h.mono (by simp [Stmt.binds]), rfl⟩
  | restore m =>
    simp only [exec, h.getMark (hs m (by simp [Stmt.fv]))]
    refine Res.Rel.bind (Res.Rel.refl (R := Eq) (fun _ => rfl) _) ?_
    rintro a _ _ _ rfl
    refine Res.Rel.bind (hrefl _) ?_
    rintro a _ _ _ rfl
    exact ⟨h.mono (by simp [Stmt.binds]), rfl⟩
  | ifFailedRestore m =>
    simp only [exec, h.getMark (hs m (by simp [Stmt.fv]))]
    split
    · refine Res.Rel.bind (Res.Rel.refl (R := Eq) (fun _ => rfl) _) ?_
      rintro a _ _ _ rfl
      refine Res.Rel.bind (hrefl _) ?_
      rintro a _ _ _ rfl
      exact ⟨h.mono (by simp [Stmt.binds]), rfl⟩
    · exact ⟨h.mono (by simp [Stmt.binds]), rfl⟩
  | error e =>
    simp only [exec]
    refine Res.Rel.bind (hrefl _) ?_
    rintro a _ _ _ rfl
    exact ⟨h.mono (by simp [Stmt.binds]), rfl⟩
  | discard => exact ⟨h.mono (by simp [Stmt.binds]), rfl⟩
  | call f =>
    simp only [exec]
    refine Res.Rel.bind (hrefl _) ?_
    rintro a _ _ _ rfl
    exact ⟨h.mono (by simp [Stmt.binds]), rfl⟩
  | extract vs =>
    simp only [exec]
    refine Res.Rel.bind (Res.Rel.refl (R := Eq) (fun _ => rfl) _) ?_
    rintro a _ _ _ rfl
    refine Res.Rel.bind (Res.Rel.refl (R := Eq) (fun _ => rfl) _) ?_
    rintro ws _ hw _ rfl
    exact ⟨(h.setMany' vs _ (by simpa using untuple_length hw)).mono (by simp [Stmt.binds]), rfl⟩
  | fail => exact ⟨h.mono (by simp [Stmt.binds]), rfl⟩

theorem iterate_agree {A : Name → Prop} {body : Env S → PState S Val → Res (Env S × PState S Val)} {c : Option Name}
    {m : Name} (hc : ∀ x ∈ c, A x) (hm : A m)
    (hb : ∀ env env' st, Env.Agree A env env' → Res.Rel (SameOn A) (body env st) (body env' st))
    (n : Nat) {env env' : Env S} (h : Env.Agree A env env') (st : PState S Val) :
    Res.Rel (SameOn A) (iterate body c m n env st) (iterate body c m n env' st) := by
  induction n generalizing env env' st with
  | zero => trivial
  | succ n ih =>
    simp only [iterate]
    refine Res.Rel.bind (hb _ _ _ h) ?_
    rintro ⟨e1, s1⟩ ⟨e2, s2⟩ _ _ ⟨he, rfl⟩
    simp only at he ⊢
    split
    · refine Res.Rel.bind (R := Env.Agree A) ?_ ?_
      · cases c with
        | none => exact he
        | some k =>
          have hk : A k := hc k rfl
          simp only [bump, he.getNat hk]
          refine Res.Rel.bind (Res.Rel.refl (R := Eq) (fun _ => rfl) _) ?_
          rintro a _ _ _ rfl
          exact (he.set k _).mono (by simp +contextual)
      · intro e3 e4 _ _ h34
        refine Res.Rel.bind (Res.Rel.refl (R := Eq) (fun _ => rfl) _) ?_
        rintro a _ _ _ rfl
        exact ih ((h34.set m _).mono (by simp +contextual)) _
    · exact ⟨he, rfl⟩

/-- The evaluation of an expression depends only on its free variables. -/
theorem evalEx_agree (fuel : Nat) (K : Nat → Option (Denot S)) (e : Ex) {A : Name → Prop} (hA : ∀ x ∈ e.fv, A x)
    {env env' : Env S} (h : Env.Agree A env env') (st : PState S Val) :
    Res.Rel (SameOn A) (evalEx ops fns fuel K e env st) (evalEx ops fns fuel K e env' st) := by
  induction e generalizing A env env' st with
  | st => exact ⟨h, rfl⟩
  | success v =>
    simp only [evalEx, evalV_agree ops h st v hA]
    refine Res.Rel.bind (Res.Rel.refl (R := Eq) (fun _ => rfl) _) ?_
    rintro a _ _ _ rfl
    exact ⟨h, rfl⟩
  | failure => exact ⟨h, rfl⟩
  | call k muts vars marks =>
    simp only [evalEx]
    have hm : ∀ l : List Name, (∀ x ∈ l, A x) → l.map env = l.map env' := by
      intro l hl; exact List.map_congr_left fun x hx => h x (hl x hx)
    simp only [Ex.fv, List.mem_append] at hA
    rw [hm muts (fun x hx => hA x (.inl (.inl hx))), hm vars (fun x hx => hA x (.inl (.inr hx))),
      hm marks (fun x hx => hA x (.inr hx))]
    cases K k with
    | none => trivial
    | some d =>
      refine Res.Rel.bind (Res.Rel.refl (R := Eq) (fun _ => rfl) _) ?_
      rintro ⟨ms, st'⟩ _ _ _ rfl
      exact ⟨h.setMany _ _, rfl⟩
  | stmt s e ih =>
    simp only [Ex.fv, List.mem_append, List.mem_filter] at hA
    simp only [evalEx]
    refine Res.Rel.bind (exec_agree ops fns h st s (fun x hx => hA x (.inl hx))) ?_
    rintro ⟨e1, s1⟩ ⟨e2, s2⟩ _ _ ⟨he, rfl⟩
    refine Res.Rel.bind (ih ?_ he _) ?_
    · intro x hx
      by_cases hb : x ∈ s.binds
      · exact .inr hb
      · exact .inl (hA x (.inr ⟨hx, by simpa using hb⟩))
    · rintro ⟨e3, s3⟩ ⟨e4, s4⟩ _ _ ⟨he3, rfl⟩
      exact ⟨Env.Agree.restore (he3.mono (fun x hx => .inl hx.1)) h, rfl⟩
  | bind e k ihe ihk =>
    simp only [Ex.fv, List.mem_append] at hA
    simp only [evalEx]
    refine Res.Rel.bind (ihe (fun x hx => hA x (.inl hx)) h _) ?_
    rintro ⟨e1, s1⟩ ⟨e2, s2⟩ _ _ ⟨he, rfl⟩
    exact ihk (fun x hx => hA x (.inr hx)) he _
  | loop body c m k ihb ihk =>
    simp only [Ex.fv, List.mem_append, List.mem_cons, Option.mem_toList] at hA
    simp only [evalEx]
    refine Res.Rel.bind (iterate_agree (fun x hx => hA x (.inl hx)) (hA m (.inr (.inl rfl)))
      (fun _ _ st' h' => ihb (fun x hx => hA x (.inr (.inr (.inl hx)))) h' st') fuel h st) ?_
    rintro ⟨e1, s1⟩ ⟨e2, s2⟩ _ _ ⟨he, rfl⟩
    exact ihk (fun x hx => hA x (.inr (.inr (.inr hx)))) he _
  | ite c a b iha ihb =>
    simp only [Ex.fv, List.mem_append] at hA
    simp only [evalEx]
    have hc : evalCond env st c = evalCond env' st c := by
      cases c with
      | isSuccessful => rfl
      | var x => simp only [evalCond, h.getBool (hA x (.inl (by simp [Cond.fv])))]
      | lt x n => simp only [evalCond, h.getNat (hA x (.inl (by simp [Cond.fv])))]
    rw [hc]
    refine Res.Rel.bind (Res.Rel.refl (R := Eq) (fun _ => rfl) _) ?_
    rintro a _ _ _ rfl
    split
    · exact iha (fun x hx => hA x (.inr (.inl hx))) h _
    · exact ihb (fun x hx => hA x (.inr (.inr hx))) h _
  | ifPrefix l a b iha ihb =>
    simp only [Ex.fv, List.mem_append] at hA
    simp only [evalEx]
    refine Res.Rel.bind (Res.Rel.refl (R := Eq) (fun _ => rfl) _) ?_
    rintro ⟨r, s1⟩ _ _ _ rfl
    simp only
    split
    · exact iha (fun x hx => hA x (.inl hx)) h _
    · exact ihb (fun x hx => hA x (.inr hx)) h _
  | matchNext p a b iha ihb =>
    simp only [Ex.fv, List.mem_append, List.mem_filter] at hA
    simp only [evalEx]
    refine Res.Rel.bind (Res.Rel.refl (R := Eq) (fun _ => rfl) _) ?_
    rintro ⟨r, s1⟩ _ _ _ rfl
    cases r with
    | none => exact ihb (fun x hx => hA x (.inr hx)) h _
    | some ch =>
      cases p with
      | none => exact iha (fun x hx => hA x (.inl ⟨hx, by simp⟩)) h _
      | some y =>
        simp only
        refine Res.Rel.bind (iha (A := fun z => A z ∨ z = y) ?_ (h.set y _) _) ?_
        · intro x hx
          by_cases hxy : x = y
          · exact .inr hxy
          · exact .inl (hA x (.inl ⟨hx, by simpa using hxy⟩))
        · rintro ⟨e3, s3⟩ ⟨e4, s4⟩ _ _ ⟨he3, rfl⟩
          exact ⟨Env.Agree.restore (he3.mono (fun x hx => .inl hx.1)) h, rfl⟩
  | matchClass y cond a b iha ihb =>
    simp only [Ex.fv, List.mem_append, List.mem_filter] at hA
    simp only [evalEx]
    refine Res.Rel.bind (Res.Rel.refl (R := Eq) (fun _ => rfl) _) ?_
    rintro ⟨r, s1⟩ _ _ _ rfl
    cases r with
    | none => exact ihb (fun x hx => hA x (.inr hx)) h _
    | some ch =>
      simp only
      split
      · refine Res.Rel.bind (iha (A := fun z => A z ∨ z = y) ?_ (h.set y _) _) ?_
        · intro x hx
          by_cases hxy : x = y
          · exact .inr hxy
          · exact .inl (hA x (.inl ⟨hx, by simpa using hxy⟩))
        · rintro ⟨e3, s3⟩ ⟨e4, s4⟩ _ _ ⟨he3, rfl⟩
          exact ⟨Env.Agree.restore (he3.mono (fun x hx => .inl hx.1)) h, rfl⟩
      · exact ihb (fun x hx => hA x (.inr hx)) h _

/-- A statement changes only the variables it declares or assigns. -/
theorem exec_unchanged {env env1 : Env S} {st st1 : PState S Val} {s : Stmt} (h : exec ops fns env st s = .ok (env1, st1))
    {x : Name} (hx : x ∉ s.asg) (hb : x ∉ s.binds) : env1 x = env x := by
  cases s <;> simp only [Stmt.asg, Stmt.binds, List.mem_cons, List.not_mem_nil, or_false] at hx hb <;> simp only [exec] at h
  case letNone => cases h; exact Env.set_other _ _ hb
  case letVec => cases h; exact Env.set_other _ _ hb
  case letTrue => cases h; exact Env.set_other _ _ hb
  case letZero => cases h; exact Env.set_other _ _ hb
  case letIsSuccess => cases h; exact Env.set_other _ _ hb
  case setFalse => cases h; exact Env.set_other _ _ hx
  case discard => cases h; rfl
  case fail => cases h; rfl
  case ifFailedRestore =>
    split at h
    · obtain ⟨a, _, h⟩ := Res.bind_eq_ok h
      obtain ⟨b, _, h⟩ := Res.bind_eq_ok h
      cases h; rfl
    · cases h; rfl
  case push =>
    obtain ⟨a, _, h⟩ := Res.bind_eq_ok h
    obtain ⟨b, _, h⟩ := Res.bind_eq_ok h
    split at h
    · cases h; exact Env.set_other _ _ hx
    · cases h
  case extract =>
    obtain ⟨⟨a, b⟩, _, h⟩ := Res.bind_eq_ok h
    obtain ⟨c, _, h⟩ := Res.bind_eq_ok h
    cases h; exact Env.setMany_notMem _ _ _ _ hb
  case restoreFailed =>
    obtain ⟨a, _, h⟩ := Res.bind_eq_ok h
    obtain ⟨b, _, h⟩ := Res.bind_eq_ok h
    cases h; rfl
  case restore =>
    obtain ⟨a, _, h⟩ := Res.bind_eq_ok h
    obtain ⟨b, _, h⟩ := Res.bind_eq_ok h
    cases h; rfl
  all_goals
    obtain ⟨a, _, h⟩ := Res.bind_eq_ok h
    cases h
    first | rfl | exact Env.set_other _ _ hb | exact Env.set_other _ _ hx

theorem iterate_unchanged {body : Env S → PState S Val → Res (Env S × PState S Val)} {c : Option Name} {m x : Name}
    (hc : x ∉ c.toList) (hm : x ≠ m) (hb : ∀ env st env1 st1, body env st = .ok (env1, st1) → env1 x = env x) (n : Nat)
    {env env1 : Env S} {st st1 : PState S Val} (h : iterate body c m n env st = .ok (env1, st1)) : env1 x = env x := by
  induction n generalizing env st with
  | zero => cases h
  | succ n ih =>
    simp only [iterate] at h
    obtain ⟨⟨e2, s2⟩, h2, h⟩ := Res.bind_eq_ok h
    simp only at h
    split at h
    · obtain ⟨e3, h3, h⟩ := Res.bind_eq_ok h
      obtain ⟨s, _, h⟩ := Res.bind_eq_ok h
      rw [ih h, Env.set_other _ _ hm]
      rw [← hb _ _ _ _ h2]
      cases c with
      | none => cases h3; rfl
      | some k =>
        obtain ⟨a, _, h3⟩ := Res.bind_eq_ok h3
        cases h3
        exact Env.set_other _ _ (by simpa using hc)
    · cases h; exact hb _ _ _ _ h2

/-- The evaluation of an expression changes only the variables it assigns. -/
theorem evalEx_unchanged (fuel : Nat) (K : Nat → Option (Denot S)) (e : Ex) {env env1 : Env S} {st st1 : PState S Val}
    (h : evalEx ops fns fuel K e env st = .ok (env1, st1)) {x : Name} (hx : x ∉ e.asg) : env1 x = env x := by
  induction e generalizing env st env1 st1 with
  | st => cases h; rfl
  | success v => obtain ⟨a, _, h⟩ := Res.bind_eq_ok h; cases h; rfl
  | failure => cases h; rfl
  | call k muts vars marks =>
    simp only [evalEx] at h
    split at h
    · obtain ⟨⟨a, b⟩, _, h⟩ := Res.bind_eq_ok h
      cases h
      exact Env.setMany_notMem _ _ _ _ hx
    · cases h
  | stmt s e ih =>
    simp only [Ex.asg, List.mem_append, List.mem_filter, not_or, not_and, decide_eq_true_eq, Decidable.not_not] at hx
    simp only [evalEx] at h
    obtain ⟨⟨e1, s1⟩, h1, h⟩ := Res.bind_eq_ok h
    obtain ⟨⟨e2, s2⟩, h2, h⟩ := Res.bind_eq_ok h
    cases h
    simp only [Env.restore]
    split
    · rfl
    · rename_i hb
      exact (ih h2 (fun hh => hb (hx.2 hh))).trans (exec_unchanged ops fns h1 hx.1 hb)
  | bind e k ihe ihk =>
    simp only [Ex.asg, List.mem_append, not_or] at hx
    simp only [evalEx] at h
    obtain ⟨⟨e1, s1⟩, h1, h⟩ := Res.bind_eq_ok h
    exact (ihk h hx.2).trans (ihe h1 hx.1)
  | loop body c m k ihb ihk =>
    simp only [Ex.asg, List.mem_append, List.mem_cons, not_or] at hx
    simp only [evalEx] at h
    obtain ⟨⟨e1, s1⟩, h1, h⟩ := Res.bind_eq_ok h
    exact (ihk h hx.2.2.2).trans (iterate_unchanged hx.1 hx.2.1 (fun _ _ _ _ hh => ihb hh hx.2.2.1) _ h1)
  | ite c a b iha ihb =>
    simp only [Ex.asg, List.mem_append, not_or] at hx
    simp only [evalEx] at h
    obtain ⟨r, h1, h⟩ := Res.bind_eq_ok h
    split at h
    · exact iha h hx.1
    · exact ihb h hx.2
  | ifPrefix l a b iha ihb =>
    simp only [Ex.asg, List.mem_append, not_or] at hx
    simp only [evalEx] at h
    obtain ⟨⟨r, s1⟩, h1, h⟩ := Res.bind_eq_ok h
    simp only at h
    split at h
    · exact iha h hx.1
    · exact ihb h hx.2
  | matchNext p a b iha ihb =>
    simp only [Ex.asg, List.mem_append, List.mem_filter, not_or, not_and, decide_eq_true_eq, Decidable.not_not] at hx
    simp only [evalEx] at h
    obtain ⟨⟨r, s1⟩, h1, h⟩ := Res.bind_eq_ok h
    cases r with
    | none => exact ihb h hx.2
    | some ch =>
      cases p with
      | none => exact iha h (fun hh => by simpa using hx.1 hh)
      | some y =>
        obtain ⟨⟨e2, s2⟩, h2, h⟩ := Res.bind_eq_ok h
        cases h
        simp only [Env.restore]
        split
        · rfl
        · rename_i hb
          rw [iha h2 (fun hh => hb (by simpa using hx.1 hh))]
          exact Env.set_other _ _ (by simpa using hb)
  | matchClass y cond a b iha ihb =>
    simp only [Ex.asg, List.mem_append, List.mem_filter, not_or, not_and, decide_eq_true_eq, Decidable.not_not] at hx
    simp only [evalEx] at h
    obtain ⟨⟨r, s1⟩, h1, h⟩ := Res.bind_eq_ok h
    cases r with
    | none => exact ihb h hx.2
    | some ch =>
      simp only at h
      split at h
      · obtain ⟨⟨e2, s2⟩, h2, h⟩ := Res.bind_eq_ok h
        cases h
        simp only [Env.restore]
        split
        · rfl
        · rename_i hb
          have hb' : x ≠ y := by simpa using hb
          rw [iha h2 (fun hh => hb' (by simpa using hx.1 hh))]
          exact Env.set_other _ _ hb'
      · exact ihb h hx.2

/-- The evaluation of an expression depends only on the closures it calls. -/
theorem evalEx_calls (fuel : Nat) (K K' : Nat → Option (Denot S)) (e : Ex) (h : ∀ k ∈ e.calls, K k = K' k)
    (env : Env S) (st : PState S Val) : evalEx ops fns fuel K e env st = evalEx ops fns fuel K' e env st := by
  induction e generalizing env st with
  | st => rfl
  | success v => rfl
  | failure => rfl
  | call k muts vars marks => simp only [evalEx, h k (by simp [Ex.calls])]
  | stmt s e ih => simp only [evalEx, ih h]
  | bind e k ihe ihk =>
    simp only [Ex.calls, List.mem_append] at h
    simp only [evalEx, ihe (fun k hk => h k (.inl hk)), ihk (fun k hk => h k (.inr hk))]
  | loop body c m k ihe ihk =>
    simp only [Ex.calls, List.mem_append] at h
    have : evalEx ops fns fuel K body = evalEx ops fns fuel K' body := by
      funext env st; exact ihe (fun k hk => h k (.inl hk)) env st
    simp only [evalEx, this, ihk (fun k hk => h k (.inr hk))]
  | ite c a b iha ihb =>
    simp only [Ex.calls, List.mem_append] at h
    simp only [evalEx, iha (fun k hk => h k (.inl hk)), ihb (fun k hk => h k (.inr hk))]
  | ifPrefix l a b iha ihb =>
    simp only [Ex.calls, List.mem_append] at h
    simp only [evalEx, iha (fun k hk => h k (.inl hk)), ihb (fun k hk => h k (.inr hk))]
  | matchNext p a b iha ihb =>
    simp only [Ex.calls, List.mem_append] at h
    simp only [evalEx, iha (fun k hk => h k (.inl hk)), ihb (fun k hk => h k (.inr hk))]
  | matchClass p cond a b iha ihb =>
    simp only [Ex.calls, List.mem_append] at h
    simp only [evalEx, iha (fun k hk => h k (.inl hk)), ihb (fun k hk => h k (.inr hk))]

theorem mem_fv_of_mem_asg (e : Ex) {x : Name} (h : x ∈ e.asg) : x ∈ e.fv := by
  induction e with
  | st => simp [Ex.asg] at h
  | success v => simp [Ex.asg] at h
  | failure => simp [Ex.asg] at h
  | call k muts vars marks => simp [Ex.asg, Ex.fv] at *; exact .inl h
  | stmt s e ih =>
    simp only [Ex.asg, Ex.fv, List.mem_append, List.mem_filter] at *
    rcases h with h | h
    · left; cases s <;> simp_all [Stmt.asg, Stmt.fv]
    · exact .inr ⟨ih h.1, h.2⟩
  | bind e k ihe ihk => simp only [Ex.asg, Ex.fv, List.mem_append] at *; exact h.imp ihe ihk
  | loop body c m k ihe ihk =>
    simp only [Ex.asg, Ex.fv, List.mem_append, List.mem_cons] at *
    exact h.imp id (Or.imp id (Or.imp ihe ihk))
  | ite c a b iha ihb => simp only [Ex.asg, Ex.fv, List.mem_append] at *; exact .inr (h.imp iha ihb)
  | ifPrefix l a b iha ihb => simp only [Ex.asg, Ex.fv, List.mem_append] at *; exact h.imp iha ihb
  | matchNext p a b iha ihb =>
    simp only [Ex.asg, Ex.fv, List.mem_append, List.mem_filter] at *
    exact h.imp (And.imp iha id) ihb
  | matchClass p cond a b iha ihb =>
    simp only [Ex.asg, Ex.fv, List.mem_append, List.mem_filter] at *
    exact h.imp (And.imp iha id) ihb

/-- Evaluate, then give back to the names `X` their meaning in `old`. -/
def restoreRes (old : Env S) (X : List Name) (r : Res (Env S × PState S Val)) : Res (Env S × PState S Val) :=
  r >>= fun p => .ok (p.1.restore old X, p.2)

/-- Extra variables that an expression does not mention do not matter. -/
theorem evalEx_frame (fuel : Nat) (K : Nat → Option (Denot S)) (e : Ex) (X : List Name) (hX : ∀ x ∈ X, x ∉ e.fv)
    (env env1 : Env S) (h : ∀ x, x ∉ X → env1 x = env x) (st : PState S Val) :
    restoreRes env X (evalEx ops fns fuel K e env1 st) = evalEx ops fns fuel K e env st := by
  have key := evalEx_agree ops fns fuel K e (A := fun x => x ∉ X) (fun x hx hX' => hX x hX' hx)
    (env := env1) (env' := env) h st
  have un : ∀ env2 st2, evalEx ops fns fuel K e env st = .ok (env2, st2) → ∀ x ∈ X, env2 x = env x := by
    intro env2 st2 h2 x hx
    exact evalEx_unchanged ops fns fuel K e h2 (fun hh => hX x hx (mem_fv_of_mem_asg e hh))
  generalize evalEx ops fns fuel K e env1 st = r1 at *
  generalize evalEx ops fns fuel K e env st = r2 at *
  cases r1 <;> cases r2 <;> simp_all [Res.Rel, restoreRes]
  rename_i a b
  obtain ⟨ea, sa⟩ := a
  obtain ⟨eb, sb⟩ := b
  obtain ⟨h1, h2⟩ := key
  simp only at h1 h2
  simp only [Prod.mk.injEq, h2, and_true]
  funext x
  simp only [Env.restore]
  split
  · rename_i hx; exact (un _ _ rfl x hx).symm
  · rename_i hx; exact h1 x hx

/-- A call of a closed closure is the evaluation of its body. -/
theorem call_closed (fuel : Nat) (K : Nat → Option (Denot S)) (c : Closure) (hc : c.closed = true)
    (hK : K c.name = some (closureDenot ops fns fuel K c)) (env : Env S) (st : PState S Val) :
    evalEx ops fns fuel K (.call c.name c.muts c.vars c.marks) env st = evalEx ops fns fuel K c.body env st := by
  simp only [Closure.closed, Bool.and_eq_true, List.all_eq_true, decide_eq_true_eq, List.mem_append] at hc
  simp only [evalEx, hK, closureDenot, Res.bind_assoc, Res.bind_ok]
  have agree : Env.Agree (fun x => (x ∈ c.muts ∨ x ∈ c.vars) ∨ x ∈ c.marks)
      (((Env.empty.setMany c.muts (c.muts.map env)).setMany c.vars (c.vars.map env)).setMany c.marks (c.marks.map env)) env := by
    have key : ∀ (l : List Name) (e0 : Env S) (x : Name), x ∈ l ∨ e0 x = env x → (e0.setMany l (l.map env)) x = env x := by
      intro l
      induction l with
      | nil => intro e0 x h; simpa [Env.setMany] using h
      | cons y l ih =>
        intro e0 x h
        simp only [List.map_cons, Env.setMany]
        apply ih
        simp only [List.mem_cons] at h
        by_cases hxy : x = y
        · right; subst hxy; simp
        · rcases h with (h | h) | h
          · exact absurd h hxy
          · exact .inl h
          · right; rw [Env.set_other _ _ hxy, h]
    rintro x ((hx | hx) | hx)
    · exact key _ _ _ (.inr (key _ _ _ (.inr (key _ _ _ (.inl hx)))))
    · exact key _ _ _ (.inr (key _ _ _ (.inl hx)))
    · exact key _ _ _ (.inl hx)
  have key := evalEx_agree ops fns fuel K c.body hc.1 agree st
  have un : ∀ env2 st2, evalEx ops fns fuel K c.body env st = .ok (env2, st2) → ∀ x, x ∉ c.muts → env2 x = env x := by
    intro env2 st2 h2 x hx
    exact evalEx_unchanged ops fns fuel K c.body h2 (fun hh => hx (hc.2 x hh))
  generalize evalEx ops fns fuel K c.body _ st = r1 at *
  generalize evalEx ops fns fuel K c.body env st = r2 at *
  cases r1 <;> cases r2 <;> simp_all [Res.Rel]
  rename_i a b
  obtain ⟨ea, sa⟩ := a
  obtain ⟨eb, sb⟩ := b
  obtain ⟨h1, h2⟩ := key
  simp only at h1 h2
  simp only [Prod.mk.injEq, h2, and_true]
  have key2 : ∀ (l : List Name) (e0 : Env S) (x : Name), (e0.setMany l (l.map ea)) x = if x ∈ l then ea x else e0 x := by
    intro l
    induction l with
    | nil => intro e0 x; simp [Env.setMany]
    | cons y l ih =>
      intro e0 x
      simp only [List.map_cons, Env.setMany]
      rw [ih]
      by_cases hxy : x = y
      · subst hxy; simp
      · simp [hxy, Env.set_other]
  funext x
  rw [key2]
  split
  · rename_i hx; exact h1 x (.inl (.inl hx))
  · rename_i hx; exact (un _ _ rfl x hx).symm

end
end Oak
