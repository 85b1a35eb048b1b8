import Verif.Proofs.RustTypes
/-! The prefixes of the variables made by a compilation, and their types. -/
set_option autoImplicit false
set_option linter.constructorNameAsVariable false

namespace Oak

mutual
/-- The number of scopes opened by the compilation of an expression. -/
def scopes (T : Nat → Ty) (p : Bool) (e : Expr) : Nat :=
  match e with
  | .str _ _ | .any _ | .cls _ _ | .nt _ _ | .ext _ _ => 0
  | .seq i es => scopesAll T (p && T i ≠ .unit) es
  | .choice i es => scopesAll T (p && T i ≠ .unit) es
  | .star i e | .plus i e | .opt i e | .act i e _ _ => if p && T i ≠ .unit then 1 + scopes T true e else scopes T false e
  | .not _ e | .and _ e => scopes T false e
  | .asc i e _ | .span i e | .range i e => scopes T (p && T i ≠ .unit) e
/-- The same for lists. -/
def scopesAll (T : Nat → Ty) (p : Bool) (es : List Expr) : Nat :=
  match es with
  | [] => 0
  | e :: es => scopes T p e + scopesAll T p es
end

/-- The variables of the `n`-th scope have the types of the values of the expression. -/
def ScopeTyped (sg : Sigs) (T : Nat → Ty) (a : Asg) (e : Expr) (n : Nat) : Prop :=
  ∃ us, Gives sg T true e us ∧ us.length = (T e.id).card ∧ ((List.range (T e.id).card).map (Name.var n)).map a.ty = us.map .val

mutual
/-- The variables of all the scopes, from the `n`-th one, have the types of the values they hold. -/
def Asgd (sg : Sigs) (T : Nat → Ty) (a : Asg) (p : Bool) (e : Expr) (n : Nat) : Prop :=
  match e with
  | .str _ _ | .any _ | .cls _ _ | .nt _ _ | .ext _ _ => True
  | .seq i es => AsgdSeq sg T a (p && T i ≠ .unit) es n
  | .choice i es => AsgdAlts sg T a (p && T i ≠ .unit) es n
  | .star i e | .plus i e | .opt i e | .act i e _ _ =>
    if p && T i ≠ .unit then ScopeTyped sg T a e n ∧ Asgd sg T a true e (n + 1) else Asgd sg T a false e n
  | .not _ e | .and _ e => Asgd sg T a false e n
  | .asc i e _ | .span i e | .range i e => Asgd sg T a (p && T i ≠ .unit) e n
/-- Sequences are compiled from right to left. -/
def AsgdSeq (sg : Sigs) (T : Nat → Ty) (a : Asg) (p : Bool) (es : List Expr) (n : Nat) : Prop :=
  match es with
  | [] => True
  | e :: es => AsgdSeq sg T a p es n ∧ Asgd sg T a p e (n + scopesAll T p es)
/-- The branches of a choice. -/
def AsgdAlts (sg : Sigs) (T : Nat → Ty) (a : Asg) (p : Bool) (es : List Expr) (n : Nat) : Prop :=
  match es with
  | [] => True
  | e :: es => Asgd sg T a p e n ∧ AsgdAlts sg T a p es (n + scopes T p e)
end

section
variable {T : Nat → Ty}

/-- What is proved of every expression. -/
def Prefixed (T : Nat → Ty) (e : Expr) : Prop :=
  ∀ p S F c code c', compile T p e S F c = .ok (code, c') → c'.names.prefixUid = c.names.prefixUid + scopes T p e

theorem call_prefix {p : Bool} {i : Nat} {path : Path} {S F code : Ex} {c c' : Ctx} (h : compileCall T p i path S F c = .ok (code, c')) :
    c'.names.prefixUid = c.names.prefixUid := by
  unfold compileCall at h
  split at h
  · obtain ⟨⟨vs, c1⟩, h1, h⟩ := except_bind_eq_ok h
    cases h
    rw [(nextFreeVars_eq h1).2.1]
  · cases h; rfl

theorem valueConstructor_prefix {e : Expr} (ih : Prefixed T e) {vec : Bool} {c c' : Ctx} {body : Ex} {r : Name}
    (h : valueConstructor (compile T true e) (T e.id).card vec c = .ok (body, r, c')) : c'.names.prefixUid = c.names.prefixUid + (1 + scopes T true e) := by
  unfold valueConstructor at h
  obtain ⟨⟨r1, c1⟩, h1, h⟩ := except_bind_eq_ok h
  obtain ⟨⟨body1, c2⟩, h2, h⟩ := except_bind_eq_ok h
  obtain ⟨c3, h3, h⟩ := except_bind_eq_ok h
  cases h
  obtain ⟨e1, e2⟩ := nextFreeVar_eq h1
  obtain ⟨e3, e4⟩ := closeScope_eq h3
  subst e4
  have := ih _ _ _ _ _ _ h2
  show c2.names.prefixUid = _
  rw [this, e2]
  simp only [Ctx.openScope, Ctx.freshVars, Ctx.pushMut]
  omega

theorem seq_prefix {es : List Expr} (ih : ∀ e ∈ es, Prefixed T e) {p : Bool} {S F code : Ex} {c c' : Ctx} (h : compileSeq T p es S F c = .ok (code, c')) :
    c'.names.prefixUid = c.names.prefixUid + scopesAll T p es := by
  induction es generalizing code c' with
  | nil => simp only [compileSeq] at h; cases h; rfl
  | cons e es ihe =>
    rw [compileSeq] at h
    obtain ⟨⟨S1, c1⟩, h1, h⟩ := except_bind_eq_ok h
    obtain ⟨⟨code2, c2⟩, h2, h⟩ := except_bind_eq_ok h
    cases h
    rw [List.forall_mem_cons] at ih
    have k1 := ihe ih.2 h1
    have k2 := ih.1 _ _ _ _ _ _ h2
    show c2.names.prefixUid = _
    rw [scopesAll]; omega

theorem branches_prefix {es : List Expr} (ih : ∀ e ∈ es, Prefixed T e) {p : Bool} {b : Name} {S F : Ex} {codes : List Ex} {c c' : Ctx} {scope : Ctx.Scope}
    (h : compileBranches T p es b S F scope c = .ok (codes, c')) : c'.names.prefixUid = c.names.prefixUid + scopesAll T p es := by
  induction es generalizing c codes with
  | nil => simp [compileBranches] at h
  | cons e es ihe =>
    rw [compileBranches] at h
    rw [List.forall_mem_cons] at ih
    split at h
    · rename_i hem
      obtain ⟨c1, h1, h⟩ := except_bind_eq_ok h
      obtain ⟨⟨code, c2⟩, h2, h⟩ := except_bind_eq_ok h
      cases h
      have := popMut_eq h1
      subst this
      have k := ih.1 _ _ _ _ _ _ h2
      have : es = [] := by simpa using hem
      subst this
      simpa [scopesAll, Ctx.restoreScope] using k
    · obtain ⟨⟨code, c1⟩, h1, h⟩ := except_bind_eq_ok h
      obtain ⟨⟨codes', c2⟩, h2, h⟩ := except_bind_eq_ok h
      cases h
      have k := ih.1 _ _ _ _ _ _ h1
      have k' := ihe ih.2 h2
      rw [scopesAll]
      simp only [Ctx.restoreScope, Ctx.incr] at k k'
      omega

theorem successAsClosure_prefix (c : Ctx) (S : Ex) : (c.successAsClosure S).2.names.prefixUid = c.names.prefixUid := by
  unfold Ctx.successAsClosure; split <;> rfl

/-- The number of prefixes made by a compilation. -/
theorem compile_prefix (e : Expr) : Prefixed T e := by
  induction e using Expr.ind with
  | str i l => intro p S F c code c' h; rw [compile] at h; cases h; rfl
  | any i =>
    intro p S F c code c' h
    rw [compile] at h
    split at h
    · obtain ⟨⟨v, c1⟩, h1, h⟩ := except_bind_eq_ok h
      cases h
      rw [(nextFreeVar_eq h1).2]; rfl
    · cases h; rfl
  | cls i ivs =>
    intro p S F c code c' h
    rw [compile] at h
    split at h
    · obtain ⟨⟨v, c1⟩, h1, h⟩ := except_bind_eq_ok h
      obtain ⟨cond, h2, h⟩ := except_bind_eq_ok h
      cases h
      show c1.names.prefixUid = _
      rw [(nextFreeVar_eq h1).2]; rfl
    · obtain ⟨⟨v, c1⟩, h1, h⟩ := except_bind_eq_ok h
      cases h1
      obtain ⟨cond, h2, h⟩ := except_bind_eq_ok h
      cases h
      rfl
  | nt i r => intro p S F c code c' h; rw [compile] at h; rw [scopes]; exact call_prefix h
  | ext i r => intro p S F c code c' h; rw [compile] at h; rw [scopes]; exact call_prefix h
  | seq i es ih => intro p S F c code c' h; rw [compile] at h; rw [scopes]; exact seq_prefix ih h
  | choice i es ih =>
    intro p S F c code c' h
    rw [compile] at h
    obtain ⟨⟨brs, c1⟩, h1, h⟩ := except_bind_eq_ok h
    cases brs with
    | nil => cases h
    | cons b brs =>
      cases h
      have := branches_prefix ih h1
      rw [scopes, this]
      show (c.successAsClosure S).2.names.prefixUid + _ = _
      rw [successAsClosure_prefix]
  | star i e ih =>
    intro p S F c code c' h
    rw [compile] at h
    rw [scopes]
    split at h
    · rename_i hp
      obtain ⟨⟨body, r, c1⟩, h1, h⟩ := except_bind_eq_ok h
      cases h
      have := valueConstructor_prefix ih h1
      rw [if_pos hp]; exact this
    · rename_i hp
      obtain ⟨⟨body, c1⟩, h1, h⟩ := except_bind_eq_ok h
      cases h
      have := ih _ _ _ _ _ _ h1
      rw [if_neg hp]; exact this
  | plus i e ih =>
    intro p S F c code c' h
    rw [compile] at h
    rw [scopes]
    split at h
    · rename_i hp
      obtain ⟨⟨body, r, c1⟩, h1, h⟩ := except_bind_eq_ok h
      cases h
      have := valueConstructor_prefix ih h1
      rw [if_pos hp]; exact this
    · rename_i hp
      obtain ⟨⟨body, c1⟩, h1, h⟩ := except_bind_eq_ok h
      cases h
      have := ih _ _ _ _ _ _ h1
      rw [if_neg hp]; exact this
  | opt i e ih =>
    intro p S F c code c' h
    rw [compile] at h
    rw [scopes]
    split at h
    · rename_i hp
      obtain ⟨⟨body, r, c1⟩, h1, h⟩ := except_bind_eq_ok h
      cases h
      have := valueConstructor_prefix ih h1
      rw [if_pos hp]; exact this
    · rename_i hp
      obtain ⟨⟨body, c1⟩, h1, h⟩ := except_bind_eq_ok h
      cases h
      have := ih _ _ _ _ _ _ h1
      rw [if_neg hp]; exact this
  | not i e ih =>
    intro p S F c code c' h
    rw [compile] at h
    split at h
    · cases h
    · obtain ⟨⟨body, c1⟩, h1, h⟩ := except_bind_eq_ok h
      cases h
      have := ih _ _ _ _ _ _ h1
      rw [scopes]; exact this
  | and i e ih =>
    intro p S F c code c' h
    rw [compile] at h
    split at h
    · cases h
    · obtain ⟨⟨body, c1⟩, h1, h⟩ := except_bind_eq_ok h
      cases h
      have := ih _ _ _ _ _ _ h1
      rw [scopes]; exact this
  | act i e boxed f ih =>
    intro p S F c code c' h
    rw [compile] at h
    rw [scopes]
    split at h
    · rename_i hp
      obtain ⟨⟨r, c1⟩, h1, h⟩ := except_bind_eq_ok h
      obtain ⟨⟨code1, c2⟩, h2, h⟩ := except_bind_eq_ok h
      obtain ⟨c3, h3, h⟩ := except_bind_eq_ok h
      cases h
      obtain ⟨e1, e2⟩ := nextFreeVar_eq h1
      obtain ⟨e3, e4⟩ := closeScope_eq h3
      subst e4
      have := ih _ _ _ _ _ _ h2
      rw [if_pos hp]
      show c2.names.prefixUid = _
      rw [this, e2]
      simp only [Ctx.openScope, Ctx.freshVars]
      omega
    · rename_i hp
      rw [if_neg hp]
      exact ih _ _ _ _ _ _ h
  | asc i e t ih => intro p S F c code c' h; rw [compile] at h; rw [scopes]; exact ih _ _ _ _ _ _ h
  | span i e ih =>
    intro p S F c code c' h
    rw [compile] at h
    rw [scopes]
    split at h
    · rename_i hp
      obtain ⟨⟨r, c1⟩, h1, h⟩ := except_bind_eq_ok h
      obtain ⟨⟨code1, c2⟩, h2, h⟩ := except_bind_eq_ok h
      cases h
      obtain ⟨A, B, e1, e2, e3⟩ := nextFreeVarSkip_eq h1
      have := ih _ _ _ _ _ _ h2
      rw [hp]
      show c2.names.prefixUid = _
      rw [this, e3]; rfl
    · rename_i hp
      rw [Bool.not_eq_true] at hp
      rw [hp]
      exact ih _ _ _ _ _ _ h
  | range i e ih =>
    intro p S F c code c' h
    rw [compile] at h
    rw [scopes]
    split at h
    · rename_i hp
      obtain ⟨⟨r, c1⟩, h1, h⟩ := except_bind_eq_ok h
      obtain ⟨⟨code1, c2⟩, h2, h⟩ := except_bind_eq_ok h
      cases h
      obtain ⟨A, B, e1, e2, e3⟩ := nextFreeVarSkip_eq h1
      have := ih _ _ _ _ _ _ h2
      rw [hp]
      show c2.names.prefixUid = _
      rw [this, e3]; rfl
    · rename_i hp
      rw [Bool.not_eq_true] at hp
      rw [hp]
      exact ih _ _ _ _ _ _ h

end

end Oak
