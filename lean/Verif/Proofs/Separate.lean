import Verif.Spec.Checked
/-! The computed check of moves. -/
set_option autoImplicit false
set_option linter.constructorNameAsVariable false

namespace Oak

section
variable {A : AGrammar} {T : Nat → Ty} {cp : String → Bool} {n : Nat}

theorem copiesAll_iff {es : List Expr} : copiesAll A T cp n es = true ↔ ∀ e ∈ es, copies A T cp n e = true := by
  induction es with
  | nil => simp [copiesAll]
  | cons e es ih => simp [copiesAll, ih]

theorem copies_value (e : Expr) : copies A T cp n e = true → CopyValue A T cp e := by
  induction e using Expr.ind with
  | str i l => exact fun _ => .str
  | any i => exact fun _ => .any
  | cls i l => exact fun _ => .cls
  | nt i r =>
    intro h; rw [copies] at h
    split at h
    · rename_i b hb
      split at h
      · exact .nt hb ‹_› h
      · cases h
    · cases h
  | ext i f => intro h; rw [copies] at h; cases h
  | seq i es ih => intro h; rw [copies, copiesAll_iff] at h; exact .seq fun e he => ih e he (h e he)
  | choice i es ih => intro h; rw [copies, copiesAll_iff] at h; exact .choice fun e he => ih e he (h e he)
  | star i e ih => intro h; rw [copies] at h; cases h
  | plus i e ih => intro h; rw [copies] at h; cases h
  | opt i e ih => intro h; rw [copies] at h; exact .opt (ih h)
  | not i e ih => exact fun _ => .not
  | and i e ih => exact fun _ => .and
  | act i e b f ih =>
    intro h; rw [copies] at h
    split at h
    · exact .act ‹_› h
    · cases h
  | asc i e t ih => intro h; rw [copies] at h; exact .asc (ih h)
  | span i e ih => intro h; rw [copies, Bool.and_eq_true] at h; exact .span h.1 (ih h.2)
  | range i e ih => intro h; rw [copies, Bool.and_eq_true] at h; exact .range h.1 (ih h.2)

/-- What is proved of every expression. -/
def ApartSound (T : Nat → Ty) (P : Expr → Prop) (Q : Expr → Bool) (e : Expr) : Prop :=
  ∀ p live (L : Prop), (L → live = true) → apart T Q p live e = true → Apart T P p L e

theorem apart_sound {P : Expr → Prop} {Q : Expr → Bool} (hQ : ∀ e, Q e = true → P e) (e : Expr) : ApartSound T P Q e := by
  have seq : ∀ es : List Expr, (∀ e ∈ es, ApartSound T P Q e) → ∀ p live (L : Prop), (L → live = true) → apartSeq T Q p live es = true → ApartSeq T P p L es := by
    intro es
    induction es with
    | nil => intros; rw [ApartSeq]; trivial
    | cons e es ih =>
      intro h p live L hL hs
      rw [apartSeq, Bool.and_eq_true] at hs
      rw [ApartSeq]
      refine ⟨h e (by simp) _ _ _ hL hs.1, ih (fun e he => h e (by simp [he])) _ _ _ ?_ hs.2⟩
      rintro (h1 | ⟨h1, h2⟩)
      · rw [hL h1]; rfl
      · have : Q e = false := by cases h3 : Q e with | false => rfl | true => exact absurd (hQ e h3) h2
        rw [h1, this]; simp
  have alts : ∀ es : List Expr, (∀ e ∈ es, ApartSound T P Q e) → ∀ p, apartAlts T Q p es = true → ApartAlts T P p es := by
    intro es
    induction es with
    | nil => intros; rw [ApartAlts]; trivial
    | cons e es ih =>
      intro h p hs
      rw [apartAlts, Bool.and_eq_true] at hs
      rw [ApartAlts]
      exact ⟨h e (by simp) _ _ _ (fun h => h.elim) hs.1, ih (fun e he => h e (by simp [he])) _ hs.2⟩
  induction e using Expr.ind with
  | str i l => intro p live L hL h; rw [Apart]; trivial
  | any i => intro p live L hL h; rw [Apart]; trivial
  | cls i l => intro p live L hL h; rw [Apart]; trivial
  | nt i r => intro p live L hL h; rw [Apart]; trivial
  | ext i f => intro p live L hL h; rw [Apart]; trivial
  | seq i es ih => intro p live L hL h; rw [apart] at h; rw [Apart]; exact seq es ih _ _ _ hL h
  | choice i es ih =>
    intro p live L hL h
    rw [apart, Bool.and_eq_true] at h
    rw [Apart]
    exact ⟨fun l => by rw [hL l] at h; simp at h, alts es ih _ h.2⟩
  | star i e ih =>
    intro p live L hL h
    rw [apart] at h; rw [Apart]
    split at h
    · rw [if_pos ‹_›]; exact ih _ _ _ (fun h => h.elim) h
    · rw [if_neg ‹_›]; exact ih _ _ _ hL h
  | plus i e ih =>
    intro p live L hL h
    rw [apart] at h; rw [Apart]
    split at h
    · rw [if_pos ‹_›]; exact ih _ _ _ (fun h => h.elim) h
    · rw [if_neg ‹_›]; exact ih _ _ _ hL h
  | opt i e ih =>
    intro p live L hL h
    rw [apart] at h; rw [Apart]
    split at h
    · rw [if_pos ‹_›]; exact ih _ _ _ (fun h => h.elim) h
    · rw [if_neg ‹_›]; exact ih _ _ _ hL h
  | not i e ih => intro p live L hL h; rw [apart] at h; rw [Apart]; exact ih _ _ _ hL h
  | and i e ih => intro p live L hL h; rw [apart] at h; rw [Apart]; exact ih _ _ _ hL h
  | act i e b f ih => intro p live L hL h; rw [apart] at h; rw [Apart]; exact ih _ _ _ hL h
  | asc i e t ih => intro p live L hL h; rw [apart] at h; rw [Apart]; exact ih _ _ _ hL h
  | span i e ih => intro p live L hL h; rw [apart] at h; rw [Apart]; exact ih _ _ _ hL h
  | range i e ih => intro p live L hL h; rw [apart] at h; rw [Apart]; exact ih _ _ _ hL h

theorem RTy.copy_mono {cp cp' : String → Bool} (h : ∀ s, cp s = true → cp' s = true) : ∀ t : RTy, t.copy cp = true → t.copy cp' = true := by
  have key : ∀ n, (∀ t : RTy, sizeOf t ≤ n → t.copy cp = true → t.copy cp' = true) ∧ (∀ ts : List RTy, sizeOf ts ≤ n → copyAll cp ts = true → copyAll cp' ts = true) := by
    intro n
    induction n with
    | zero =>
      refine ⟨fun t h => ?_, fun ts h => ?_⟩
      · cases t <;> simp at h
      · cases ts <;> simp at h
    | succ n ih =>
      refine ⟨fun t hn ht => ?_, fun ts hn ht => ?_⟩
      · cases t <;> simp only [RTy.copy] at ht ⊢
        · cases ht
        · exact ih.1 _ (by simp at hn; omega) ht
        · exact ih.2 _ (by simp at hn; omega) ht
        · exact h _ ht
      · cases ts with
        | nil => rfl
        | cons t ts =>
          rw [copyAll, Bool.and_eq_true] at ht ⊢
          exact ⟨ih.1 _ (by simp at hn; omega) ht.1, ih.2 _ (by simp at hn; omega) ht.2⟩
  exact fun t => (key (sizeOf t)).1 t (Nat.le_refl _)

theorem CopyValue.mono {cp cp' : String → Bool} (h : ∀ s, cp s = true → cp' s = true) {e : Expr} (hc : CopyValue A T cp e) : CopyValue A T cp' e := by
  induction hc with
  | str => exact .str
  | not => exact .not
  | and => exact .and
  | any => exact .any
  | cls => exact .cls
  | nt h1 h2 h3 => exact .nt h1 h2 (RTy.copy_mono h _ h3)
  | act h1 h2 => exact .act h1 (h _ h2)
  | seq _ ih => exact .seq ih
  | choice _ ih => exact .choice ih
  | opt _ ih => exact .opt ih
  | asc _ ih => exact .asc ih
  | span h1 _ ih => exact .span (h _ h1) ih
  | range h1 _ ih => exact .range (h _ h1) ih

/-- If no type is assumed to be `Copy`, the check is made for all the sets of `Copy` types. -/
theorem separate_all (h : A.separate T (fun _ => false) n = true) (cp : String → Bool) : A.Apart T cp := by
  intro r hr
  have := List.all_eq_true.1 h r hr
  rw [Bool.or_eq_true, beq_iff_eq] at this
  exact this.imp_right fun h => apart_sound (fun e he => (copies_value e he).mono fun s h => by cases h) _ _ _ _ (fun h => h.elim) h

theorem separate_apart (h : A.separate T cp n = true) : A.Apart T cp := by
  intro r hr
  have := List.all_eq_true.1 h r hr
  rw [Bool.or_eq_true, beq_iff_eq] at this
  exact this.imp_right fun h => apart_sound copies_value _ _ _ _ (fun h => h.elim) h

end
end Oak
