import Verif.Proofs.FrontSpans
/-! The spans of the expressions of a grammar: rules and blocks. -/
set_option autoImplicit false
set_option linter.constructorNameAsVariable false

namespace Oak
open Spec

theorem Laid.imp {P Q : List LTok → String × Expr → Prop} (h : ∀ us r, P us r → Q us r) {ts : List LTok} {rs : List (String × Expr)} (hl : Laid P ts rs) : Laid Q ts rs := by
  induction hl with
  | nil => exact .nil
  | cons h1 _ ih => exact .cons (h _ _ h1) ih

theorem Laid.right {P : List LTok → String × Expr → Prop} {ts : List LTok} {rs : List (String × Expr)} (a : List LTok) (hl : Laid P ts rs) : Laid P (a ++ ts) rs := by
  cases hl with
  | nil => exact .nil
  | @cons a1 us b r rs h1 h2 =>
    have := Laid.cons (a := a ++ a1) h1 h2
    simpa using this

/-- Each rule has its text in the source. -/
theorem Laid.mem {P : List LTok → String × Expr → Prop} {ts : List LTok} {rs : List (String × Expr)} (hl : Laid P ts rs) :
    ∀ r ∈ rs, ∃ a us b, ts = a ++ us ++ b ∧ P us r := by
  induction hl with
  | nil => intro r hr; cases hr
  | @cons a us b r rs h1 _ ih =>
    intro q hq
    rcases List.mem_cons.1 hq with rfl | hq
    · exact ⟨a, us, b, rfl, h1⟩
    · obtain ⟨a2, vs, b2, rfl, h2⟩ := ih q hq
      exact ⟨a ++ us ++ a2, vs, b2, by simp, h2⟩

theorem lsplitAttrs_cut (ts : List LTok) : ∃ a, ts = a ++ (lsplitAttrs ts).2 := by
  induction ts with
  | nil => exact ⟨[], rfl⟩
  | cons t ts ih =>
    unfold lsplitAttrs
    split
    · rename_i p a w ts1 h
      cases h
      obtain ⟨b, hb⟩ := ih
      exact ⟨.leaf (.attr p) a w :: b, by simpa using hb⟩
    · exact ⟨[], rfl⟩

/-- What is known of a rule that has been read. -/
theorem lparseRule_loc {n : Nat} {T T' : List SrcSpan} {ts rest : List LTok} {r : String × Expr} (h : lparseRule n T ts = .ok (r, T', rest)) :
    ∃ us D, us ≠ [] ∧ ts = us ++ rest ∧ T' = T ++ D ∧ RuleText us r ∧ ∀ x, Sub x r.2 → PointsAt T' us x := by
  unfold lparseRule at h
  split at h
  · rename_i name ha wa ts1
    replace h := Res.bind_eq_ok h; obtain ⟨⟨sp, ty, ts2⟩, h1, h⟩ := h
    simp only at h
    split at h
    · rename_i j hb wb ts3
      replace h := Res.bind_eq_ok h; obtain ⟨⟨e, T1, ts4⟩, h2, h⟩ := h
      obtain ⟨us, hne, rfl, ⟨D, rfl⟩, hp⟩ := (loc_all n).choice h2
      obtain ⟨⟨e', k, r4⟩, h3, ⟨h4, _, h5, _⟩⟩ := ((same_all n).choice T (us ++ ts4)).ok_left h2
      simp only at h4 h5
      obtain ⟨pre, _, hpre, hc⟩ := (sound_all n).choice h3
      rw [h5] at hpre
      rw [← h4] at hc
      have hus := text_cut rfl hpre
      rw [← hus] at hc
      rcases lparseType_cut h1 with ⟨rfl, rfl⟩ | ⟨i, hc1, wc, pre2, b, rfl, hty, hni, t, ws, rfl, rfl⟩
      · simp only at h
        cases h
        refine ⟨.leaf (.path [name]) ha wa :: .leaf (.punct '=' j) hb wb :: us, D, by simp, rfl, rfl, ?_, ?_⟩
        · have := Syntax.Blocks.rule (as := []) (name := name) (j := j) hc .nil
          simpa [RuleText, eraseAll_cons, erase_leaf_eq, TokLeaf.tok] using this
        · intro x hx
          exact (hp e (by simp) x hx).part ((TextPart.refl us).right [_, _]) hne
      · have hq : ∀ y, Sub y (.asc (T ++ D).length e ty) → PointsAt (T ++ D ++ [t.head])
            (.leaf (.path [name]) ha wa :: .leaf (.punct ':' i) hc1 wc :: (t :: ws) ++ .leaf (.punct '=' j) hb wb :: us) y := by
          refine points_wrap (us := us) ?_ (fun _ => hne) (fun _ => ?_) ?_ rfl ?_ ?_
          · simpa [Expr.kids] using hp e (by simp)
          · have := (TextPart.refl us).right (.leaf (.path [name]) ha wa :: .leaf (.punct ':' i) hc1 wc :: (t :: ws) ++ [.leaf (.punct '=' j) hb wb])
            simpa using this
          · have := SrcText.rule (name := name) (i := i) (j := j) hty hc
            simpa [eraseAll_cons, eraseAll_append, erase_leaf_eq, TokLeaf.tok, Expr.bare] using this
          · exact .inl ⟨[.leaf (.path [name]) ha wa], _, hc1, wc, t, ws ++ .leaf (.punct '=' j) hb wb :: us, i, by simp, rfl, at_end _ _⟩
          · intro lo hi hpl
            exact hpl.head (u := t) (by simp)
        have ht : RuleText (.leaf (.path [name]) ha wa :: .leaf (.punct ':' i) hc1 wc :: (t :: ws) ++ .leaf (.punct '=' j) hb wb :: us)
            (name, .asc (T ++ D).length e ty) := by
          have := Syntax.Blocks.typed (as := []) (name := name) (i := i) (j := j) hty hc .nil
          simpa [RuleText, eraseAll_cons, eraseAll_append, erase_leaf_eq, TokLeaf.tok, Expr.bare] using this
        have : r = (name, .asc (T ++ D).length e ty) ∧ T' = T ++ D ++ [t.head] ∧ rest = ts4 := by
          cases ty <;> first | exact (hni rfl).elim | (cases h; exact ⟨rfl, rfl, rfl⟩)
        obtain ⟨rfl, rfl, rfl⟩ := this
        exact ⟨_, D ++ [t.head], by simp, by simp, by simp, ht, hq⟩
    · cases h
  · cases h

/-- What is known of the rules of a grammar. -/
theorem lparseBlocks_loc : ∀ (n : Nat) (T : List SrcSpan) (ts : List LTok) (F : FGrammar) (T' : List SrcSpan), lparseBlocks n T ts = .ok (F, T') →
    (∃ D, T' = T ++ D) ∧ Laid (fun us r => us ≠ [] ∧ RuleText us r ∧ ∀ x, Sub x r.2 → PointsAt T' us x) ts F.rules := by
  intro n
  induction n with
  | zero => intro T ts F T' h; cases h
  | succ n ih =>
    intro T ts F T' h
    unfold lparseBlocks at h
    split at h
    · cases h
      exact ⟨⟨[], by simp⟩, .nil⟩
    · obtain ⟨a, ha⟩ := lsplitAttrs_cut ts
      generalize lsplitAttrs ts = x at h ha
      obtain ⟨ps, ts1⟩ := x
      simp only at h ha
      subst ha
      split at h
      · replace h := Res.bind_eq_ok h; obtain ⟨⟨r, T1, ts2⟩, h1, h⟩ := h
        simp only at h
        replace h := Res.bind_eq_ok h; obtain ⟨⟨F2, T2⟩, h2, h⟩ := h
        cases h
        obtain ⟨us, D, hne, rfl, rfl, ht, hp⟩ := lparseRule_loc h1
        obtain ⟨⟨D2, rfl⟩, hl⟩ := ih _ _ _ _ h2
        refine ⟨⟨D ++ D2, by simp⟩, ?_⟩
        rw [← List.append_assoc]
        exact .cons ⟨hne, ht, fun x hx => (hp x hx).grow D2⟩ hl
      · split at h
        · rename_i it hd w ts2 _ _
          replace h := Res.bind_eq_ok h; obtain ⟨⟨F2, T2⟩, h2, h⟩ := h
          cases h
          obtain ⟨hD, hl⟩ := ih _ _ _ _ h2
          refine ⟨hD, ?_⟩
          have := hl.right (a ++ [.leaf (.item it) hd w])
          simpa using this
        · cases h

end Oak
