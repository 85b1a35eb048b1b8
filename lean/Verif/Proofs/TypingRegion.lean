import Verif.Proofs.TypingSum
/-!
The expressions that are typed together, and what is known of their types.
-/
set_option linter.constructorNameAsVariable false
set_option autoImplicit false

namespace Oak

/-- `x` is an expression of the zone of `e`. -/
inductive ZSub (e : Expr) : Expr → Prop where
  | root : ZSub e e
  | kid {x c} : ZSub e x → c ∈ x.zkids → ZSub e c

theorem ZSub.trans {e x y : Expr} (h : ZSub e x) (h' : ZSub x y) : ZSub e y := by
  induction h' with
  | root => exact h
  | kid _ hc ih => exact ih.kid hc

theorem zsub_kids {e x : Expr} : ZSub e x ↔ x = e ∨ ∃ c ∈ e.zkids, ZSub c x := by
  constructor
  · intro h
    induction h with
    | root => exact .inl rfl
    | kid h hc ih =>
      rcases ih with rfl | ⟨d, hd, h1⟩
      · exact .inr ⟨_, hc, .root⟩
      · exact .inr ⟨d, hd, h1.kid hc⟩
  · rintro (rfl | ⟨c, hc, h⟩)
    · exact .root
    · exact (ZSub.root.kid hc).trans h

theorem ZSub.zone {e x : Expr} (h : ZSub e x) : ∀ j ∈ x.zone, j ∈ e.zone := by
  induction h with
  | root => exact fun _ h => h
  | kid _ hc ih => exact fun j hj => ih j (mem_zone.2 (.inr ⟨_, hc, hj⟩))

theorem ZSub.sub {e x : Expr} (h : ZSub e x) : Sub x e := by
  induction h with
  | root => exact .refl
  | kid _ hc ih => exact (Sub.kid (zkids_sub hc)).trans ih

/-- `x` is an expression of the zone of `e` that is under no expression of unit type. -/
inductive Live (T : Nat → IType) (e : Expr) : Expr → Prop where
  | root : Live T e e
  | kid {x c} : Live T e x → (T x.id).isUnitKind = false → c ∈ x.zkids → Live T e c

theorem Live.zsub {T : Nat → IType} {e x : Expr} (h : Live T e x) : ZSub e x := by
  induction h with
  | root => exact .root
  | kid _ _ hc ih => exact ih.kid hc

theorem Live.trans {T : Nat → IType} {e x y : Expr} (h : Live T e x) (h' : Live T x y) : Live T e y := by
  induction h' with
  | root => exact h
  | kid _ hu hc ih => exact ih.kid hu hc

theorem live_kids {T : Nat → IType} {e x : Expr} : Live T e x ↔ x = e ∨ ((T e.id).isUnitKind = false ∧ ∃ c ∈ e.zkids, Live T c x) := by
  constructor
  · intro h
    induction h with
    | root => exact .inl rfl
    | kid h hu hc ih =>
      rcases ih with rfl | ⟨h0, d, hd, h1⟩
      · exact .inr ⟨hu, _, hc, .root⟩
      · exact .inr ⟨h0, d, hd, h1.kid hu hc⟩
  · rintro (rfl | ⟨h0, c, hc, h⟩)
    · exact .root
    · exact (Live.root.kid h0 hc).trans h

theorem Live.congr {T T' : Nat → IType} {e x : Expr} (h : Live T e x) (hT : ∀ y, Live T e y → T' y.id = T y.id) : Live T' e x := by
  induction h with
  | root => exact .root
  | kid h hu hc ih => exact ih.kid (by rw [hT _ h]; exact hu) hc

theorem Live.congr' {T T' : Nat → IType} {e x : Expr} (h : Live T' e x) (hT : ∀ y, Live T e y → T' y.id = T y.id) : Live T e x := by
  induction h with
  | root => exact .root
  | kid h hu hc ih => exact ih.kid (by rw [← hT _ ih]; exact hu) hc

theorem Live.zoneCongr {T T' : Nat → IType} {e x : Expr} (h : Live T e x) (hT : ∀ j ∈ e.zone, T' j = T j) : Live T' e x :=
  h.congr fun y hy => hT _ (hy.zsub.zone _ (id_mem_zone y))

section
variable (A : AGrammar) (k : Nat)

/-- The type of `x` is the documented one. -/
def Doc (T : Nat → IType) (x : Expr) : Prop := ∃ v, HasType A x v ∧ v.Flat ∧ Unf T v (T x.id)

/-- `j` is an expression of a typed rule, under no expression of unit type. -/
def InRules (T : Nat → IType) (j : Nat) : Prop := ∃ r b y, A.grammar.find r = some b ∧ (∀ j ∈ b.zone, T j ≠ .infer) ∧ Live T b y ∧ y.id = j

/-- The type of `x` refers to expressions of its zone, of typed rules, and to the span type. -/
def RefsOk (T : Nat → IType) (x : Expr) : Prop := ∀ j ∈ (T x.id).refs, j = k ∨ (∃ y, Live T x y ∧ y.id = j) ∨ InRules A T j

/-- What is known of an expression. -/
def NodeDoc (T : Nat → IType) (x : Expr) : Prop := Doc A T x ∧ RefsOk A k T x

/-- What is known of a rule. -/
def RuleDoc (T : Nat → IType) (b : Expr) : Prop := ∀ x, Live T b x → NodeDoc A k T x

end

section
variable {A : AGrammar} {k : Nat} {T T' : Nat → IType}

theorem InRules.grow (hg : ∀ j, T j ≠ .infer → T' j = T j) {j : Nat} (h : InRules A T j) : InRules A T' j := by
  obtain ⟨r, b, y, h1, h2, h3, h4⟩ := h
  refine ⟨r, b, y, h1, fun j hj => ?_, h3.zoneCongr fun j hj => hg j (h2 j hj), h4⟩
  rw [hg j (h2 j hj)]; exact h2 j hj

theorem NodeDoc.grow (hg : ∀ j, T j ≠ .infer → T' j = T j) {x : Expr} (hx : ∀ j ∈ x.zone, T j ≠ .infer) (h : NodeDoc A k T x) : NodeDoc A k T' x := by
  obtain ⟨⟨v, h1, h2, h3⟩, h4⟩ := h
  have hid := hg _ (hx _ (id_mem_zone x))
  refine ⟨⟨v, h1, h2, by rw [hid]; exact Unf.grow hg v _ h3⟩, fun j hj => ?_⟩
  rw [hid] at hj
  rcases h4 j hj with h | ⟨y, hy, h⟩ | h
  · exact .inl h
  · exact .inr (.inl ⟨y, hy.zoneCongr fun j hj => hg j (hx j hj), h⟩)
  · exact .inr (.inr (h.grow hg))

theorem RuleDoc.grow (hg : ∀ j, T j ≠ .infer → T' j = T j) {b : Expr} (hb : ∀ j ∈ b.zone, T j ≠ .infer) (h : RuleDoc A k T b) : RuleDoc A k T' b := by
  intro x hx
  have hx' : Live T b x := hx.congr' fun y hy => hg _ (hb _ (hy.zsub.zone _ (id_mem_zone y)))
  exact (h x hx').grow hg fun j hj => hb j (hx'.zsub.zone j hj)

end

end Oak
