import Verif.Spec.Peg
/-!
Basic facts about the specification of PEG matching: inversion, determinism, suffixes.
-/
set_option linter.constructorNameAsVariable false
set_option autoImplicit false

namespace Oak.Spec
open Oak

variable {G : Grammar} {X : ExtSpec}

theorem Peg.str_inv {i lit s o L} (h : Peg G X (.str i lit) s o L) :
    (∃ r, s = lit.toList ++ r ∧ o = .ok r .leaf ∧ L = []) ∨ (¬ lit.toList <+: s ∧ o = .fail ∧ L = [(s, lit)]) := by
  cases h with
  | str_ok => exact .inl ⟨_, rfl, rfl, rfl⟩
  | str_fail h => exact .inr ⟨h, rfl, rfl⟩

/-- PEG matching is deterministic. -/
theorem Peg.det (hX : X.Det) {e s o L} (h : Peg G X e s o L) : ∀ {o' L'}, Peg G X e s o' L' → o = o' ∧ L = L' := by
  induction h with
  | @str_ok i lit r =>
    intro o' L' h'
    rcases h'.str_inv with ⟨r', h1, rfl, rfl⟩ | ⟨h1, rfl, rfl⟩
    · rw [List.append_cancel_left h1]; exact ⟨rfl, rfl⟩
    · exact absurd (List.prefix_append _ _) h1
  | @str_fail i lit s hn =>
    intro o' L' h'
    rcases h'.str_inv with ⟨r', rfl, rfl, rfl⟩ | ⟨h1, rfl, rfl⟩
    · exact absurd (List.prefix_append _ _) hn
    · exact ⟨rfl, rfl⟩
  | any_ok => intro o' L' h'; cases h'; exact ⟨rfl, rfl⟩
  | any_fail => intro o' L' h'; cases h'; exact ⟨rfl, rfl⟩
  | cls_ok hc => intro o' L' h'; cases h' <;> first | exact ⟨rfl, rfl⟩ | contradiction
  | cls_fail hc => intro o' L' h'; cases h' <;> first | exact ⟨rfl, rfl⟩ | contradiction
  | cls_eof => intro o' L' h'; cases h'; exact ⟨rfl, rfl⟩
  | nt_ok hf h ih =>
    intro o' L' h'
    cases h' with
    | nt_ok hf' h' => rw [hf] at hf'; cases hf'; have := ih h'; simp_all
    | nt_fail hf' h' => rw [hf] at hf'; cases hf'; have := ih h'; simp_all
  | nt_fail hf h ih =>
    intro o' L' h'
    cases h' with
    | nt_ok hf' h' => rw [hf] at hf'; cases hf'; have := ih h'; simp_all
    | nt_fail hf' h' => rw [hf] at hf'; cases hf'; have := ih h'; simp_all
  | ext hx => intro o' L' h'; cases h' with | ext hx' => exact hX _ _ _ _ _ _ hx hx'
  | seq_nil => intro o' L' h'; cases h'; exact ⟨rfl, rfl⟩
  | seq_cons h1 h2 ih1 ih2 =>
    intro o' L' h'
    cases h' with
    | seq_cons a b => obtain ⟨h, rfl⟩ := ih1 a; cases h; obtain ⟨h, rfl⟩ := ih2 b; cases h; exact ⟨rfl, rfl⟩
    | seq_fail a => have := ih1 a; simp_all
    | seq_later a b => obtain ⟨h, rfl⟩ := ih1 a; cases h; have := ih2 b; simp_all
  | seq_fail h1 ih1 =>
    intro o' L' h'
    cases h' with
    | seq_cons a b => have := ih1 a; simp_all
    | seq_fail a => have := ih1 a; simp_all
    | seq_later a b => have := ih1 a; simp_all
  | seq_later h1 h2 ih1 ih2 =>
    intro o' L' h'
    cases h' with
    | seq_cons a b => obtain ⟨h, rfl⟩ := ih1 a; cases h; have := ih2 b; simp_all
    | seq_fail a => have := ih1 a; simp_all
    | seq_later a b => obtain ⟨h, rfl⟩ := ih1 a; cases h; have := ih2 b; simp_all
  | choice_nil => intro o' L' h'; cases h'; exact ⟨rfl, rfl⟩
  | choice_first h1 ih1 =>
    intro o' L' h'
    cases h' with
    | choice_first a => obtain ⟨h, rfl⟩ := ih1 a; cases h; exact ⟨rfl, rfl⟩
    | choice_next a b => have := ih1 a; simp_all
    | choice_fail a b => have := ih1 a; simp_all
  | choice_next h1 h2 ih1 ih2 =>
    intro o' L' h'
    cases h' with
    | choice_first a => have := ih1 a; simp_all
    | choice_next a b => obtain ⟨h, rfl⟩ := ih1 a; obtain ⟨h, rfl⟩ := ih2 b; cases h; exact ⟨rfl, rfl⟩
    | choice_fail a b => have := ih2 b; simp_all
  | choice_fail h1 h2 ih1 ih2 =>
    intro o' L' h'
    cases h' with
    | choice_first a => have := ih1 a; simp_all
    | choice_next a b => have := ih2 b; simp_all
    | choice_fail a b => obtain ⟨h, rfl⟩ := ih1 a; obtain ⟨h, rfl⟩ := ih2 b; exact ⟨rfl, rfl⟩
  | star_stop h1 ih1 =>
    intro o' L' h'
    cases h' with
    | star_stop a => have := ih1 a; simp_all
    | star_more a b => have := ih1 a; simp_all
  | star_more h1 h2 ih1 ih2 =>
    intro o' L' h'
    cases h' with
    | star_stop a => have := ih1 a; simp_all
    | star_more a b => obtain ⟨h, rfl⟩ := ih1 a; cases h; obtain ⟨h, rfl⟩ := ih2 b; cases h; exact ⟨rfl, rfl⟩
  | plus_fail h1 ih1 =>
    intro o' L' h'
    cases h' with
    | plus_fail a => have := ih1 a; simp_all
    | plus_ok a b => have := ih1 a; simp_all
  | plus_ok h1 h2 ih1 ih2 =>
    intro o' L' h'
    cases h' with
    | plus_fail a => have := ih1 a; simp_all
    | plus_ok a b => obtain ⟨h, rfl⟩ := ih1 a; cases h; obtain ⟨h, rfl⟩ := ih2 b; cases h; exact ⟨rfl, rfl⟩
  | opt_some h ih => intro o' L' h'; cases h' with | opt_some a => have := ih a; simp_all | opt_none a => have := ih a; simp_all
  | opt_none h ih => intro o' L' h'; cases h' with | opt_some a => have := ih a; simp_all | opt_none a => have := ih a; simp_all
  | not_ok h ih => intro o' L' h'; cases h' with | not_ok a => have := ih a; simp_all | not_fail a => have := ih a; simp_all
  | not_fail h ih => intro o' L' h'; cases h' with | not_ok a => have := ih a; simp_all | not_fail a => have := ih a; simp_all
  | and_ok h ih => intro o' L' h'; cases h' with | and_ok a => have := ih a; simp_all | and_fail a => have := ih a; simp_all
  | and_fail h ih => intro o' L' h'; cases h' with | and_ok a => have := ih a; simp_all | and_fail a => have := ih a; simp_all
  | act_ok h ih => intro o' L' h'; cases h' with | act_ok a => have := ih a; simp_all | act_fail a => have := ih a; simp_all
  | act_fail h ih => intro o' L' h'; cases h' with | act_ok a => have := ih a; simp_all | act_fail a => have := ih a; simp_all
  | asc_ok h ih => intro o' L' h'; cases h' with | asc_ok a => have := ih a; simp_all | asc_fail a => have := ih a; simp_all
  | asc_fail h ih => intro o' L' h'; cases h' with | asc_ok a => have := ih a; simp_all | asc_fail a => have := ih a; simp_all
  | span_ok h ih => intro o' L' h'; cases h' with | span_ok a => have := ih a; simp_all | span_fail a => have := ih a; simp_all
  | span_fail h ih => intro o' L' h'; cases h' with | span_ok a => have := ih a; simp_all | span_fail a => have := ih a; simp_all
  | range_ok h ih => intro o' L' h'; cases h' with | range_ok a => have := ih a; simp_all | range_fail a => have := ih a; simp_all
  | range_fail h ih => intro o' L' h'; cases h' with | range_ok a => have := ih a; simp_all | range_fail a => have := ih a; simp_all

/-- Matching only moves forward in the input, and only tries terminals at or after the start. -/
theorem Peg.forward (hX : X.Forward) {e s o L} (h : Peg G X e s o L) :
    (∀ s' t, o = .ok s' t → s' <:+ s) ∧ ∀ x ∈ L, x.1 <:+ s := by
  induction h with
  | str_ok => exact ⟨by rintro s' t h; cases h; exact List.suffix_append _ _, by simp⟩
  | str_fail => simp
  | any_ok => exact ⟨by rintro s' t h; cases h; exact List.suffix_cons _ _, by simp⟩
  | any_fail => simp
  | cls_ok => exact ⟨by rintro s' t h; cases h; exact List.suffix_cons _ _, by simp⟩
  | cls_fail => simp
  | cls_eof => simp
  | ext hx => exact hX _ _ _ _ hx
  | seq_nil => exact ⟨by rintro s' t h; cases h; exact List.suffix_rfl, by simp⟩
  | seq_cons _ _ ih1 ih2 | star_more _ _ ih1 ih2 | plus_ok _ _ ih1 ih2 =>
    refine ⟨?_, ?_⟩
    · rintro s' t h; cases h; exact (ih2.1 _ _ rfl).trans (ih1.1 _ _ rfl)
    · intro x hx
      rcases List.mem_append.1 hx with h | h
      · exact ih1.2 x h
      · exact (ih2.2 x h).trans (ih1.1 _ _ rfl)
  | seq_later _ _ ih1 ih2 =>
    refine ⟨by simp, ?_⟩
    intro x hx
    rcases List.mem_append.1 hx with h | h
    · exact ih1.2 x h
    · exact (ih2.2 x h).trans (ih1.1 _ _ rfl)
  | choice_nil => simp
  | choice_next _ _ ih1 ih2 =>
    refine ⟨by rintro s' t h; cases h; exact ih2.1 _ _ rfl, ?_⟩
    intro x hx
    rcases List.mem_append.1 hx with h | h
    · exact ih1.2 x h
    · exact ih2.2 x h
  | choice_fail _ _ ih1 ih2 =>
    refine ⟨by simp, ?_⟩
    intro x hx
    rcases List.mem_append.1 hx with h | h
    · exact ih1.2 x h
    · exact ih2.2 x h
  | star_stop _ ih | opt_none _ ih | not_ok _ ih | and_ok _ ih =>
    exact ⟨by rintro s' t h; cases h; exact List.suffix_rfl, ih.2⟩
  | nt_fail _ _ ih | seq_fail _ ih | plus_fail _ ih | not_fail _ ih | and_fail _ ih | act_fail _ ih | asc_fail _ ih
  | span_fail _ ih | range_fail _ ih => exact ⟨by simp, ih.2⟩
  | nt_ok _ _ ih | choice_first _ ih | opt_some _ ih | act_ok _ ih | asc_ok _ ih | span_ok _ ih | range_ok _ ih =>
    exact ⟨by rintro s' t h; cases h; exact ih.1 _ _ rfl, ih.2⟩

end Oak.Spec
