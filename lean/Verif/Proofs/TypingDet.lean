import Verif.Proofs.TypingSum
/-!
The documented type of an expression is unique.
-/
set_option linter.constructorNameAsVariable false
set_option autoImplicit false

namespace Oak

theorem ChoiceType.det {ts : List DType} {t u : DType} (h : ChoiceType ts t) (h' : ChoiceType ts u) : t = u := by
  cases h with
  | same h =>
    rename_i ts
    cases h' with
    | same _ => rfl
    | @known _ pre _ post he h1 h2 h3 h4 =>
      cases pre with
      | nil => simp only [List.nil_append, List.cons.injEq] at he; exact he.1
      | cons x pre =>
        simp only [List.cons_append, List.cons.injEq] at he
        have hx := h1 x (by simp)
        have hu := h u (by rw [he.2]; simp)
        rw [he.1, hx] at hu
        exact absurd (same_external hu) h2
    | units h1 h2 h3 =>
      have hs : ∀ x ∈ t :: ts, Same x t := List.forall_mem_cons.2 ⟨.refl t, h⟩
      have a := hs _ h1
      have b := hs _ h2
      cases a
      cases b
  | @known _ pre _ post he h1 h2 h3 h4 =>
    cases h' with
    | same h =>
      cases pre with
      | nil => simp only [List.nil_append, List.cons.injEq] at he; exact he.1.symm
      | cons x pre =>
        simp only [List.cons_append, List.cons.injEq] at he
        have hx := h1 x (by simp)
        have hu := h t (by rw [he.2]; simp)
        rw [he.1, hx] at hu
        exact absurd (same_external hu) h2
    | @known _ pre' _ post' he' h1' h2' h3' h4' =>
      rw [he] at he'
      clear he h4 h4' h3 h3'
      induction pre generalizing pre' with
      | nil =>
        cases pre' with
        | nil => simp only [List.nil_append, List.cons.injEq] at he'; exact he'.1
        | cons x pre' =>
          simp only [List.nil_append, List.cons_append, List.cons.injEq] at he'
          exact absurd (he'.1.trans (h1' x (by simp))) h2
      | cons y pre ih =>
        cases pre' with
        | nil =>
          simp only [List.nil_append, List.cons_append, List.cons.injEq] at he'
          exact absurd (he'.1.symm.trans (h1 y (by simp))) h2'
        | cons x pre' =>
          simp only [List.cons_append, List.cons.injEq] at he'
          exact ih (fun u hu => h1 u (by simp [hu])) (fun u hu => h1' u (by simp [hu])) he'.2
    | units _ _ h5 => exact absurd (h5 _ h4) (by simp)
  | units h1 h2 h3 =>
    cases h' with
    | same h =>
      have hs : ∀ x ∈ u :: _, Same x u := List.forall_mem_cons.2 ⟨.refl u, h⟩
      have a := hs _ h1
      have b := hs _ h2
      cases a
      cases b
    | known _ _ _ _ h4 => exact absurd (h3 _ h4) (by simp)
    | units => rfl

theorem AscribedType.det {ty : IType} {t u : DType} (h : AscribedType ty t) (h' : AscribedType ty u) : t = u := by
  cases h <;> cases h' <;> rfl

mutual
theorem HasType.det {A : AGrammar} {e : Expr} {t u : DType} (h : HasType A e t) (h' : HasType A e u) : t = u := by
  match h, h' with
  | .str, .str => rfl
  | .not, .not => rfl
  | .and, .and => rfl
  | .any, .any => rfl
  | .cls, .cls => rfl
  | .ext, .ext => rfl
  | .act, .act => rfl
  | .nt h1 h2, .nt h3 h4 => rw [h1] at h3; cases h3; exact h2.det h4
  | .asc h1, .asc h2 => exact h1.det h2
  | .star h1 _, .star h2 _ => rw [h1.det h2]
  | .star h1 h3, .starHidden h2 => exact absurd (h1.det h2) h3
  | .starHidden h1, .star h2 h3 => exact absurd (h1.det h2).symm h3
  | .starHidden _, .starHidden _ => rfl
  | .plus h1 _, .plus h2 _ => rw [h1.det h2]
  | .plus h1 h3, .plusHidden h2 => exact absurd (h1.det h2) h3
  | .plusHidden h1, .plus h2 h3 => exact absurd (h1.det h2).symm h3
  | .plusHidden _, .plusHidden _ => rfl
  | .opt h1 _, .opt h2 _ => rw [h1.det h2]
  | .opt h1 h3, .optHidden h2 => exact absurd (h1.det h2) h3
  | .optHidden h1, .opt h2 h3 => exact absurd (h1.det h2).symm h3
  | .optHidden _, .optHidden _ => rfl
  | .span h1, .span h2 => rw [h1.det h2]
  | .range _, .range _ => rfl
  | .seq h1 _, .seq h2 _ => rw [h1.det h2]
  | .seq h1 ⟨t, h3, h4⟩, .seqHidden h2 h5 => exact absurd (h5 t (h1.det h2 ▸ h3)) h4
  | .seqHidden h2 h5, .seq h1 ⟨t, h3, h4⟩ => exact absurd (h5 t (h2.det h1 ▸ h3)) h4
  | .seqHidden _ _, .seqHidden _ _ => rfl
  | .choice h1 h2, .choice h3 h4 => exact h2.det (h1.det h3 ▸ h4)
theorem HasTypes.det {A : AGrammar} {es : List Expr} {ts us : List DType} (h : HasTypes A es ts) (h' : HasTypes A es us) : ts = us := by
  match h, h' with
  | .nil, .nil => rfl
  | .cons h1 h2, .cons h3 h4 => rw [h1.det h3, h2.det h4]
end

end Oak
