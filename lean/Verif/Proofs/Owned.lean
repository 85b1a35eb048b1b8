import Verif.Proofs.ActionCall
import Verif.Spec.Ownership
import Verif.Proofs.Scoped
/-! Ownership in the generated code: composition of checks, and what compiling adds to the context. -/
set_option autoImplicit false
set_option linter.constructorNameAsVariable false

namespace Oak

/-! ### Lists of moved variables -/

theorem mem_assigned {xs M : List Name} {x : Name} : x ∈ assigned xs M ↔ x ∈ M ∧ x ∉ xs := by simp [assigned]

theorem mem_leave {xs M N : List Name} {x : Name} : x ∈ leave xs M N ↔ (x ∈ N ∧ x ∉ xs) ∨ (x ∈ M ∧ x ∈ xs) := by simp [leave, mem_assigned]

theorem useVar_eq {κ : Name → Bool} {x : Name} {M : List Name} (h : x ∉ M) : ∃ M', useVar κ x M = some M' ∧ ∀ y ∈ M', y ∈ M ∨ (y = x ∧ κ x = false) := by
  unfold useVar
  rw [if_neg h]
  cases hk : κ x
  · exact ⟨x :: M, rfl, fun y hy => by simp at hy ⊢; grind⟩
  · exact ⟨_, rfl, fun y hy => .inl (by simpa using hy)⟩

theorem useAll_eq {κ : Name → Bool} {xs M : List Name} (h : ∀ x ∈ xs, x ∉ M) (hn : xs.Nodup) :
    ∃ M', useAll κ xs M = some M' ∧ ∀ y ∈ M', y ∈ M ∨ (y ∈ xs ∧ κ y = false) := by
  induction xs generalizing M with
  | nil => exact ⟨M, rfl, fun _ h => .inl h⟩
  | cons x xs ih =>
    rw [List.nodup_cons] at hn
    rw [List.forall_mem_cons] at h
    obtain ⟨M1, h1, h2⟩ := useVar_eq (κ := κ) h.1
    obtain ⟨M2, h3, h4⟩ := ih (M := M1) (fun y hy hy' => by
      rcases h2 y hy' with h0 | ⟨rfl, _⟩
      · exact h.2 y hy h0
      · exact hn.1 hy) hn.2
    refine ⟨M2, by rw [useAll, h1]; exact h3, fun y hy => ?_⟩
    rcases h4 y hy with h0 | ⟨h0, h5⟩
    · rcases h2 y h0 with h0 | ⟨rfl, h5⟩
      · exact .inl h0
      · exact .inr ⟨by simp, h5⟩
    · exact .inr ⟨by simp [h0], h5⟩

theorem readVar_eq {x : Name} {M : List Name} (h : x ∉ M) : readVar x M = some M := by unfold readVar; rw [if_neg h]
theorem readAll_eq {xs M : List Name} (h : ∀ x ∈ xs, x ∉ M) : readAll xs M = some M := by
  unfold readAll; rw [if_neg]; rintro ⟨x, h1, h2⟩; exact h x h1 h2

/-! ### Checks -/

/-- The code can be run when all the names of the factory are available, and moves at most the variables of `X`. -/
def Own (κ : Name → Bool) (f : NameFactory) (S : Ex) (X : Name → Prop) : Prop :=
  ∀ M, (∀ x ∈ M, ¬ f.old x) → ∃ M', S.owns κ M = some M' ∧ ∀ x ∈ M', x ∈ M ∨ X x

/-- The same for statements, which may moreover move new variables. -/
def OwnS (κ : Name → Bool) (f : NameFactory) (s : Stmt) (X : Name → Prop) : Prop :=
  ∀ M, (∀ x ∈ M, ¬ f.old x) → ∃ M', s.owns κ M = some M' ∧ ∀ x ∈ M', (x ∈ M ∧ x ∉ s.binds) ∨ X x

/-- The same for values. -/
def OwnV (κ : Name → Bool) (f : NameFactory) (v : VEx) (X : Name → Prop) : Prop :=
  ∀ M, (∀ x ∈ M, ¬ f.old x) → ∃ M', v.owns κ M = some M' ∧ ∀ x ∈ M', x ∈ M ∨ X x

section
variable {κ : Name → Bool} {f g : NameFactory} {S F a b k : Ex} {X Y : Name → Prop}

theorem Own.mono (h : Own κ f S X) (hx : ∀ x, X x → Y x) : Own κ f S Y := fun M hM => by
  obtain ⟨M', h1, h2⟩ := h M hM
  exact ⟨M', h1, fun x h => (h2 x h).imp_right (hx x)⟩

theorem Own.le (h : Own κ f S X) (hf : f.le g) : Own κ g S X := fun M hM => h M fun x hx ho => hM x hx (hf.old ho)

theorem OwnV.le {v : VEx} (h : OwnV κ f v X) (hf : f.le g) : OwnV κ g v X := fun M hM => h M fun x hx ho => hM x hx (hf.old ho)

theorem Own.st : Own κ f .st fun _ => False := fun M _ => ⟨M, rfl, fun _ h => .inl h⟩
theorem Own.failure : Own κ f .failure fun _ => False := fun M _ => ⟨M, rfl, fun _ h => .inl h⟩
theorem Own.success {v : VEx} (h : OwnV κ f v X) : Own κ f (.success v) X := h

/-- A statement that declares variables, or moves new ones. -/
theorem Own.stmt {s : Stmt} (hf : f.le g) (hs : OwnS κ g s Y) (hn : ∀ x, Y x → f.old x → False) (hk : Own κ f k X) :
    Own κ g (.stmt s k) fun x => (X x ∨ Y x) ∧ x ∉ s.binds := by
  intro M hM
  obtain ⟨M1, h1, h2⟩ := hs M hM
  obtain ⟨M2, h3, h4⟩ := hk M1 fun x hx ho => by
    rcases h2 x hx with h | h
    · exact hM x h.1 (hf.old ho)
    · exact hn x h ho
  refine ⟨leave s.binds M M2, by simp [Ex.owns, h1, h3], fun x hx => ?_⟩
  rcases mem_leave.1 hx with ⟨hx, hb⟩ | ⟨hx, _⟩
  · rcases h4 x hx with h | h
    · rcases h2 x h with h | h
      · exact .inl h.1
      · exact .inr ⟨.inr h, hb⟩
    · exact .inr ⟨.inl h, hb⟩
  · exact .inl hx

/-- A statement that moves nothing. -/
theorem Own.stmt0 {s : Stmt} (hf : f.le g) (hs : OwnS κ g s fun _ => False) (hk : Own κ f k X) : Own κ g (.stmt s k) fun x => X x ∧ x ∉ s.binds :=
  (Own.stmt hf hs (fun _ h => h.elim) hk).mono fun x h => ⟨h.1.resolve_right id, h.2⟩

theorem OwnS.decl {s : Stmt} (h : ∀ M, s.owns κ M = some (assigned s.binds M)) : OwnS κ f s X := fun M _ => ⟨_, h M, fun x hx => .inl (mem_assigned.1 hx)⟩

theorem OwnS.skip {s : Stmt} (hb : s.binds = []) (h : ∀ M, s.owns κ M = some M) : OwnS κ f s X := fun M _ => ⟨_, h M, fun x hx => .inl ⟨hx, by simp [hb]⟩⟩

theorem OwnS.setFalse {y : Name} : OwnS κ f (.setFalse y) X := fun M _ => ⟨_, rfl, fun x hx => .inl ⟨(mem_assigned.1 hx).1, by simp [Stmt.binds]⟩⟩

theorem OwnS.use {s : Stmt} {m : Name} (hb : s.binds = []) (h : ∀ M, s.owns κ M = useVar κ m M) (hm : f.old m) : OwnS κ f s fun x => x = m := fun M hM => by
  obtain ⟨M', h1, h2⟩ := useVar_eq (κ := κ) (x := m) (M := M) fun h => hM m h hm
  exact ⟨M', by rw [h, h1], fun x hx => (h2 x hx).imp (fun h => ⟨h, by simp [hb]⟩) fun h => h.1⟩

theorem OwnS.read {m : Name} (hm : f.old m) : OwnS κ f (.restoreFailed true m) X := fun M hM =>
  ⟨M, by rw [Stmt.owns, readVar_eq fun h => hM m h hm], fun x hx => .inl ⟨hx, by simp [Stmt.binds]⟩⟩

theorem OwnS.letVal {r : Name} {v : VEx} (h : OwnV κ f v X) : OwnS κ f (.letVal r v) X := fun M hM => by
  obtain ⟨M', h1, h2⟩ := h M hM
  refine ⟨assigned [r] M', by rw [Stmt.owns, h1]; rfl, fun x hx => ?_⟩
  obtain ⟨h3, h4⟩ := mem_assigned.1 hx
  exact (h2 x h3).imp_left fun h => ⟨h, h4⟩

theorem OwnS.setSome {r : Name} {v : VEx} (h : OwnV κ f v X) : OwnS κ f (.setSome r v) X := fun M hM => by
  obtain ⟨M', h1, h2⟩ := h M hM
  refine ⟨assigned [r] M', by rw [Stmt.owns, h1]; rfl, fun x hx => ?_⟩
  exact (h2 x (mem_assigned.1 hx).1).imp_left fun h => ⟨h, by simp [Stmt.binds]⟩

theorem OwnS.push {r : Name} {v : VEx} (h : OwnV κ f v X) (hr : f.old r) (hn : ¬ X r) : OwnS κ f (.push r v) X := fun M hM => by
  obtain ⟨M', h1, h2⟩ := h M hM
  refine ⟨M', ?_, fun x hx => (h2 x hx).imp_left fun h => ⟨h, by simp [Stmt.binds]⟩⟩
  rw [Stmt.owns, h1]
  exact readVar_eq fun h0 => by
    rcases h2 r h0 with h0 | h0
    · exact hM r h0 hr
    · exact hn h0

theorem OwnV.tup {vs : List Name} (ho : ∀ x ∈ vs, f.old x) (hn : vs.Nodup) : OwnV κ f (.tup vs) fun x => x ∈ vs ∧ κ x = false :=
  fun M hM => useAll_eq (fun x hx h => hM x h (ho x hx)) hn

theorem OwnV.read {m : Name} {v : Name → VEx} (hv : ∀ m M, (v m).owns κ M = readVar m M) (ho : f.old m) : OwnV κ f (v m) X :=
  fun M hM => ⟨M, by rw [hv, readVar_eq fun h => hM m h ho], fun x hx => .inl hx⟩

theorem OwnV.action {vs : List Name} (ho : ∀ x ∈ vs, f.old x) (hn : vs.Nodup) (bx : Bool) (p : Path) (u : Bool) :
    OwnV κ f (actionCall bx p u vs) fun x => x ∈ vs ∧ κ x = false := by
  have h1 : OwnV κ f (.call p vs) fun x => x ∈ vs ∧ κ x = false := fun M hM => useAll_eq (fun x hx h => hM x h (ho x hx)) hn
  have h2 : OwnV κ f (.path p) fun x => x ∈ vs ∧ κ x = false := fun M _ => ⟨M, rfl, fun _ h => .inl h⟩
  intro M hM
  rw [actionCall_eq]
  dsimp only
  cases (Spec.isVariant p && u) <;> cases bx
  · exact h1 M hM
  · exact h1 M hM
  · exact h2 M hM
  · exact h2 M hM

/-- Two expressions one after the other: the first one moves nothing. -/
theorem Own.bind (ha : Own κ f a fun _ => False) (hk : Own κ f k X) : Own κ f (.bind a k) X := by
  intro M hM
  obtain ⟨M1, h1, h2⟩ := ha M hM
  have h2' : ∀ x ∈ M1, x ∈ M := fun x hx => (h2 x hx).resolve_right id
  obtain ⟨M2, h3, h4⟩ := hk M1 fun x hx => hM x (h2' x hx)
  exact ⟨M2, by simp [Ex.owns, h1, h3], fun x hx => (h4 x hx).imp_left (h2' x)⟩

theorem Own.ite {c : Cond} (hc : ∀ M, (∀ x ∈ M, ¬ f.old x) → c.owns M = some M) (ha : Own κ f a X) (hb : Own κ f b X) : Own κ f (.ite c a b) X := by
  intro M hM
  obtain ⟨A, h1, h2⟩ := ha M hM
  obtain ⟨B, h3, h4⟩ := hb M hM
  refine ⟨A ++ B, by simp [Ex.owns, hc M hM, h1, h3], fun x hx => ?_⟩
  rcases List.mem_append.1 hx with hx | hx
  · exact h2 x hx
  · exact h4 x hx

theorem Own.iteVar {y : Name} (hy : f.old y) (ha : Own κ f a X) (hb : Own κ f b X) : Own κ f (.ite (.var y) a b) X :=
  .ite (fun M hM => readVar_eq fun h => hM y h hy) ha hb

theorem Own.iteLt {y : Name} {n : Nat} (hy : f.old y) (ha : Own κ f a X) (hb : Own κ f b X) : Own κ f (.ite (.lt y n) a b) X :=
  .ite (fun M hM => readVar_eq fun h => hM y h hy) ha hb

theorem Own.iteSuccess (ha : Own κ f a X) (hb : Own κ f b X) : Own κ f (.ite .isSuccessful a b) X := .ite (fun _ _ => rfl) ha hb

theorem Own.ifPrefix {l : String} (ha : Own κ f a X) (hb : Own κ f b X) : Own κ f (.ifPrefix l a b) X := by
  intro M hM
  obtain ⟨A, h1, h2⟩ := ha M hM
  obtain ⟨B, h3, h4⟩ := hb M hM
  refine ⟨A ++ B, by simp [Ex.owns, h1, h3], fun x hx => ?_⟩
  rcases List.mem_append.1 hx with hx | hx
  · exact h2 x hx
  · exact h4 x hx

theorem Own.matchNext {p : Option Name} (ha : Own κ f a X) (hb : Own κ f b fun _ => False) : Own κ f (.matchNext p a b) fun x => X x ∧ x ∉ p.toList := by
  intro M hM
  obtain ⟨A, h1, h2⟩ := ha (assigned p.toList M) fun x hx => hM x (mem_assigned.1 hx).1
  obtain ⟨B, h3, h4⟩ := hb M hM
  refine ⟨leave p.toList M A ++ B, by simp [Ex.owns, h1, h3], fun x hx => ?_⟩
  rcases List.mem_append.1 hx with hx | hx
  · rcases mem_leave.1 hx with ⟨hx, hp⟩ | ⟨hx, _⟩
    · rcases h2 x hx with h | h
      · exact .inl (mem_assigned.1 h).1
      · exact .inr ⟨h, hp⟩
    · exact .inl hx
  · exact (h4 x hx).imp_right False.elim

theorem Own.matchClass {p : Name} {c : CharCond} (ha : Own κ f a X) (hb : Own κ f b fun _ => False) : Own κ f (.matchClass p c a b) fun x => X x ∧ x ≠ p := by
  intro M hM
  obtain ⟨A, h1, h2⟩ := ha (assigned [p] M) fun x hx => hM x (mem_assigned.1 hx).1
  obtain ⟨B, h3, h4⟩ := hb M hM
  refine ⟨leave [p] M A ++ B, by simp [Ex.owns, h1, h3], fun x hx => ?_⟩
  rcases List.mem_append.1 hx with hx | hx
  · rcases mem_leave.1 hx with ⟨hx, hp⟩ | ⟨hx, _⟩
    · rcases h2 x hx with h | h
      · exact .inl (mem_assigned.1 h).1
      · exact .inr ⟨h, by simpa using hp⟩
    · exact .inl hx
  · exact (h4 x hx).imp_right False.elim

theorem Own.loop {m : Name} {c : Option Name} (hc : ∀ x ∈ c.toList, f.old x) (ha : Own κ f a fun _ => False) (hk : Own κ f k X) : Own κ f (.loop a c m k) X := by
  intro M hM
  obtain ⟨N, h1, h2⟩ := ha M hM
  have h2' : ∀ x ∈ N, x ∈ M := fun x hx => (h2 x hx).resolve_right id
  have hsub : ∀ x ∈ M ++ assigned [m] N, x ∈ M := fun x hx => by
    rcases List.mem_append.1 hx with hx | hx
    · exact hx
    · exact h2' x (mem_assigned.1 hx).1
  obtain ⟨N', h3, h4⟩ := ha (M ++ assigned [m] N) fun x hx => hM x (hsub x hx)
  have h4' : ∀ x ∈ N', x ∈ M := fun x hx => hsub x ((h4 x hx).resolve_right id)
  have hN : ∀ x ∈ N ++ N', x ∈ M := fun x hx => by
    rcases List.mem_append.1 hx with hx | hx
    · exact h2' x hx
    · exact h4' x hx
  obtain ⟨M', h5, h6⟩ := hk (N ++ N') fun x hx => hM x (hN x hx)
  refine ⟨M', ?_, fun x hx => (h6 x hx).imp_left (hN x)⟩
  have r1 : readAll c.toList N = some N := readAll_eq fun x hx h => hM x (h2' x h) (hc x hx)
  have r2 : readAll c.toList N' = some N' := readAll_eq fun x hx h => hM x (h4' x h) (hc x hx)
  simp [Ex.owns, h1, r1, h3, r2, h5]

theorem Own.call {n : Nat} {muts vars marks : List Name} (hn : (muts ++ vars ++ marks).Nodup) (ho : ∀ x ∈ muts ++ vars ++ marks, f.old x) :
    Own κ f (.call n muts vars marks) fun x => x ∈ vars ∧ κ x = false := by
  intro M hM
  rw [List.append_assoc, List.nodup_append] at hn
  obtain ⟨h1, h2, h3⟩ := hn
  rw [List.nodup_append] at h2
  obtain ⟨M', h4, h5⟩ := useAll_eq (κ := κ) (xs := vars) (M := M) (fun x hx h => hM x h (ho x (by simp [hx]))) h2.1
  refine ⟨M', ?_, h5⟩
  rw [Ex.owns, if_pos ⟨h1, fun x hx h => h3 x hx x h rfl⟩, h4]
  exact readAll_eq fun x hx h => by
    rcases h5 x h with h | h
    · exact hM x h (ho x (by simp at hx ⊢; grind))
    · rcases List.mem_append.1 hx with hx | hx
      · exact h3 x hx x (by simp [h.1]) rfl
      · exact h2.2.2 x h.1 x hx rfl

end

/-! ### What compiling adds to the context -/

/-- Names and closures are added. -/
structure Adds (c c' : Ctx) : Prop where
  le : c.names.le c'.names
  sub : ∀ cl ∈ c.closures, cl ∈ c'.closures

theorem Adds.refl (c : Ctx) : Adds c c := ⟨.refl _, fun _ h => h⟩
theorem Adds.trans {c c1 c2 : Ctx} (a : Adds c c1) (b : Adds c1 c2) : Adds c c2 := ⟨a.le.trans b.le, fun x hx => b.sub x (a.sub x hx)⟩
theorem Adds.of_eq {c c' : Ctx} (h1 : c'.names = c.names) (h2 : c'.closures = c.closures) : Adds c c' := ⟨h1 ▸ .refl _, fun x hx => h2 ▸ hx⟩
theorem Adds.right {c c1 c2 : Ctx} (h : Adds c c1) (h1 : c2.names = c1.names) (h2 : c2.closures = c1.closures) : Adds c c2 := h.trans (.of_eq h1 h2)

theorem nextMark_adds (c : Ctx) : Adds c c.nextMark.2 := ⟨by constructor <;> simp [Ctx.nextMark], fun _ h => h⟩
theorem nextCounter_adds (c : Ctx) : Adds c c.nextCounter.2 := ⟨by constructor <;> simp [Ctx.nextCounter], fun _ h => h⟩
theorem nextBranchFailed_adds (c : Ctx) : Adds c c.nextBranchFailed.2 := ⟨by constructor <;> simp [Ctx.nextBranchFailed], fun _ h => h⟩
theorem openScope_adds (c : Ctx) (n : Nat) : Adds c (c.openScope n).2 := ⟨openScope_le c n, fun _ h => h⟩

theorem nextFreeVar_adds {c c1 : Ctx} {v : Name} (h : c.nextFreeVar = .ok (v, c1)) : Adds c c1 := by
  have := (nextFreeVar_eq h).2
  exact .of_eq (by rw [this]) (by rw [this])
theorem nextFreeVars_adds {c c1 : Ctx} {n : Nat} {v : List Name} (h : c.nextFreeVars n = .ok (v, c1)) : Adds c c1 := by
  have := (nextFreeVars_eq h).2.1
  exact .of_eq (by rw [this]) (by rw [this])
theorem nextFreeVarSkip_adds {c c1 : Ctx} {n : Nat} {v : Name} (h : c.nextFreeVarSkip n = .ok (v, c1)) : Adds c c1 := by
  obtain ⟨A, B, _, _, this⟩ := nextFreeVarSkip_eq h
  exact .of_eq (by rw [this]) (by rw [this])
theorem successAsClosure_adds (c : Ctx) (S : Ex) : Adds c (c.successAsClosure S).2 := by
  unfold Ctx.successAsClosure
  split
  · exact ⟨by constructor <;> simp, fun _ h => by simp [h]⟩
  · exact .refl c

theorem repeatCode_adds (plus : Bool) (body S F : Ex) (c : Ctx) : Adds c (repeatCode plus body S F c).2 := by
  cases plus
  · exact nextMark_adds c
  · exact (nextMark_adds c).trans (nextCounter_adds _)
theorem optionalCode_adds (body S : Ex) (c : Ctx) : Adds c (optionalCode body S c).2 := nextMark_adds c

theorem valueConstructor_adds {comp : Ex → Ex → Ctx → Except String (Ex × Ctx)} {card : Nat} (hc : ∀ S F c code c', comp S F c = .ok (code, c') → Adds c c')
    {vec : Bool} {c c' : Ctx} {body : Ex} {r : Name} (h : valueConstructor comp card vec c = .ok (body, r, c')) : Adds c c' := by
  unfold valueConstructor at h
  obtain ⟨⟨r1, c1⟩, h1, h⟩ := except_bind_eq_ok h
  obtain ⟨⟨body1, c2⟩, h2, h⟩ := except_bind_eq_ok h
  obtain ⟨c3, h3, h⟩ := except_bind_eq_ok h
  cases h
  obtain ⟨e3, e4⟩ := closeScope_eq h3
  subst e4
  have g2 := hc _ _ _ _ _ h2
  exact (nextFreeVar_adds h1).trans ((openScope_adds c1 card).trans ⟨g2.le, g2.sub⟩)

theorem call_adds {T : Nat → Ty} {p : Bool} {i : Nat} {path : Path} {S F code : Ex} {c c' : Ctx} (h : compileCall T p i path S F c = .ok (code, c')) : Adds c c' := by
  unfold compileCall at h
  split at h
  · obtain ⟨⟨vs, c1⟩, h1, h⟩ := except_bind_eq_ok h
    cases h
    exact nextFreeVars_adds h1
  · cases h; exact .refl c

theorem seq_adds {T : Nat → Ty} {p : Bool} {es : List Expr} (ih : ∀ e ∈ es, ∀ p S F c code c', compile T p e S F c = .ok (code, c') → Adds c c') {S F code : Ex} {c c' : Ctx}
    (h : compileSeq T p es S F c = .ok (code, c')) : Adds c c' := by
  induction es generalizing code c' with
  | nil => simp only [compileSeq] at h; cases h; exact .refl c
  | cons e es ihe =>
    rw [compileSeq] at h
    obtain ⟨⟨S1, c1⟩, h1, h⟩ := except_bind_eq_ok h
    obtain ⟨⟨code2, c2⟩, h2, h⟩ := except_bind_eq_ok h
    cases h
    rw [List.forall_mem_cons] at ih
    have := (ihe ih.2 h1).trans (ih.1 _ _ _ _ _ _ h2)
    exact ⟨this.le, this.sub⟩

theorem branches_adds {T : Nat → Ty} {p : Bool} {es : List Expr} (ih : ∀ e ∈ es, ∀ p S F c code c', compile T p e S F c = .ok (code, c') → Adds c c') {b : Name} {S F : Ex}
    {codes : List Ex} {c c' : Ctx} {scope : Ctx.Scope} (h : compileBranches T p es b S F scope c = .ok (codes, c')) : Adds c c' := by
  induction es generalizing c codes with
  | nil => simp [compileBranches] at h
  | cons e es ihe =>
    rw [compileBranches] at h
    rw [List.forall_mem_cons] at ih
    split at h
    · obtain ⟨c1, h1, h⟩ := except_bind_eq_ok h
      obtain ⟨⟨code, c2⟩, h2, h⟩ := except_bind_eq_ok h
      cases h
      have := popMut_eq h1
      subst this
      have := ih.1 _ _ _ _ _ _ h2
      exact ⟨this.le, this.sub⟩
    · obtain ⟨⟨code, c1⟩, h1, h⟩ := except_bind_eq_ok h
      obtain ⟨⟨codes', c2⟩, h2, h⟩ := except_bind_eq_ok h
      cases h
      have g1 := ih.1 _ _ _ _ _ _ h1
      have g2 := ihe ih.2 h2
      exact ⟨g1.le.trans g2.le, fun x hx => g2.sub x (g1.sub x hx)⟩

/-- Compiling adds names and closures. -/
theorem compile_adds (T : Nat → Ty) (e : Expr) : ∀ p S F c code c', compile T p e S F c = .ok (code, c') → Adds c c' := by
  induction e using Expr.ind with
  | str i l => intro p S F c code c' h; rw [compile] at h; cases h; exact .refl c
  | any i =>
    intro p S F c code c' h
    rw [compile] at h
    split at h
    · obtain ⟨⟨v, c1⟩, h1, h⟩ := except_bind_eq_ok h
      cases h
      exact nextFreeVar_adds h1
    · cases h; exact .refl c
  | cls i ivs =>
    intro p S F c code c' h
    rw [compile] at h
    split at h
    · obtain ⟨⟨v, c1⟩, h1, h⟩ := except_bind_eq_ok h
      obtain ⟨cond, h2, h⟩ := except_bind_eq_ok h
      cases h
      exact (nextFreeVar_adds h1).trans (nextMark_adds _)
    · obtain ⟨⟨v, c1⟩, h1, h⟩ := except_bind_eq_ok h
      cases h1
      obtain ⟨cond, h2, h⟩ := except_bind_eq_ok h
      cases h
      exact nextMark_adds _
  | nt i r => intro p S F c code c' h; rw [compile] at h; exact call_adds h
  | ext i r => intro p S F c code c' h; rw [compile] at h; exact call_adds h
  | seq i es ih => intro p S F c code c' h; rw [compile] at h; exact seq_adds ih h
  | choice i es ih =>
    intro p S F c code c' h
    rw [compile] at h
    obtain ⟨⟨brs, c1⟩, h1, h⟩ := except_bind_eq_ok h
    cases brs with
    | nil => cases h
    | cons b brs =>
      cases h
      have g := branches_adds ih h1
      exact (successAsClosure_adds c S).trans ((nextMark_adds _).trans ((nextBranchFailed_adds _).trans ⟨g.le, g.sub⟩))
  | star i e ih =>
    intro p S F c code c' h
    rw [compile] at h
    split at h
    · obtain ⟨⟨body, r, c1⟩, h1, h⟩ := except_bind_eq_ok h
      cases h
      have g := (valueConstructor_adds (ih true) h1).trans (repeatCode_adds false body S F c1)
      exact g
    · obtain ⟨⟨body, c1⟩, h1, h⟩ := except_bind_eq_ok h
      cases h
      have g := ih _ _ _ _ _ _ h1
      have g := Adds.trans (c1 := c1.incr) (c2 := (repeatCode false body S F c1.incr).2) ⟨g.le, g.sub⟩ (repeatCode_adds false body S F c1.incr)
      exact g
  | plus i e ih =>
    intro p S F c code c' h
    rw [compile] at h
    split at h
    · obtain ⟨⟨body, r, c1⟩, h1, h⟩ := except_bind_eq_ok h
      cases h
      have g := (valueConstructor_adds (ih true) h1).trans (repeatCode_adds true body S F c1)
      exact g
    · obtain ⟨⟨body, c1⟩, h1, h⟩ := except_bind_eq_ok h
      cases h
      have g := ih _ _ _ _ _ _ h1
      have g := Adds.trans (c1 := c1.incr) (c2 := (repeatCode true body S F c1.incr).2) ⟨g.le, g.sub⟩ (repeatCode_adds true body S F c1.incr)
      exact g
  | opt i e ih =>
    intro p S F c code c' h
    rw [compile] at h
    split at h
    · obtain ⟨⟨body, r, c1⟩, h1, h⟩ := except_bind_eq_ok h
      cases h
      have g := (valueConstructor_adds (ih true) h1).trans (optionalCode_adds body S c1)
      exact g
    · obtain ⟨⟨body, c1⟩, h1, h⟩ := except_bind_eq_ok h
      cases h
      have g := ih _ _ _ _ _ _ h1
      have g := Adds.trans (c1 := c1.incr) (c2 := (optionalCode body S c1.incr).2) ⟨g.le, g.sub⟩ (optionalCode_adds body S c1.incr)
      exact g
  | not i e ih =>
    intro p S F c code c' h
    rw [compile] at h
    split at h
    · cases h
    · obtain ⟨⟨body, c1⟩, h1, h⟩ := except_bind_eq_ok h
      cases h
      have g := ih _ _ _ _ _ _ h1
      exact (nextMark_adds c).trans ⟨g.le, g.sub⟩
  | and i e ih =>
    intro p S F c code c' h
    rw [compile] at h
    split at h
    · cases h
    · obtain ⟨⟨body, c1⟩, h1, h⟩ := except_bind_eq_ok h
      cases h
      have g := ih _ _ _ _ _ _ h1
      exact (nextMark_adds c).trans ⟨g.le, g.sub⟩
  | act i e boxed f ih =>
    intro p S F c code c' h
    rw [compile] at h
    split at h
    · obtain ⟨⟨r, c1⟩, h1, h⟩ := except_bind_eq_ok h
      obtain ⟨⟨code1, c2⟩, h2, h⟩ := except_bind_eq_ok h
      obtain ⟨c3, h3, h⟩ := except_bind_eq_ok h
      cases h
      obtain ⟨e3, e4⟩ := closeScope_eq h3
      subst e4
      have g := ih _ _ _ _ _ _ h2
      exact (nextFreeVar_adds h1).trans ((openScope_adds c1 _).trans ⟨g.le, g.sub⟩)
    · exact ih _ _ _ _ _ _ h
  | asc i e t ih => intro p S F c code c' h; rw [compile] at h; exact ih _ _ _ _ _ _ h
  | span i e ih =>
    intro p S F c code c' h
    rw [compile] at h
    split at h
    · obtain ⟨⟨r, c1⟩, h1, h⟩ := except_bind_eq_ok h
      obtain ⟨⟨code1, c2⟩, h2, h⟩ := except_bind_eq_ok h
      cases h
      have g := ih _ _ _ _ _ _ h2
      exact (nextMark_adds c).trans ((nextFreeVarSkip_adds h1).trans ⟨g.le, g.sub⟩)
    · exact ih _ _ _ _ _ _ h
  | range i e ih =>
    intro p S F c code c' h
    rw [compile] at h
    split at h
    · obtain ⟨⟨r, c1⟩, h1, h⟩ := except_bind_eq_ok h
      obtain ⟨⟨code1, c2⟩, h2, h⟩ := except_bind_eq_ok h
      cases h
      have g := ih _ _ _ _ _ _ h2
      exact (nextMark_adds c).trans ((nextFreeVarSkip_adds h1).trans ⟨g.le, g.sub⟩)
    · exact ih _ _ _ _ _ _ h

end Oak
