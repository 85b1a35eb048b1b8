import Verif.Spec.Operators
import Verif.Proofs.PegBasic
/-!
The operators of PEG in terms of the matches of their operands.
-/
set_option linter.constructorNameAsVariable false
set_option autoImplicit false

namespace Oak.Spec
open Oak

variable {G : Grammar} {X : ExtSpec}

theorem choice_ok_alt {i es s s' t L} (h : Peg G X (.choice i es) s (.ok s' t) L) : ∃ k u, t = .alt k u := by
  cases h with
  | choice_first _ => exact ⟨_, _, rfl⟩
  | choice_next _ _ => exact ⟨_, _, rfl⟩

theorem seq_ok_seq {i es s s' t L} (h : Peg G X (.seq i es) s (.ok s' t) L) : ∃ ts, t = .seq ts := by
  cases h with
  | seq_nil => exact ⟨_, rfl⟩
  | seq_cons _ _ => exact ⟨_, rfl⟩

theorem star_ok_rep {i e s s' t L} (h : Peg G X (.star i e) s (.ok s' t) L) : ∃ ts, t = .rep ts := by
  cases h with
  | star_stop _ => exact ⟨_, rfl⟩
  | star_more _ _ => exact ⟨_, rfl⟩

theorem choice_matches_iff {i es s s'} : Matches G X (.choice i es) s s' ↔ FirstMatch G X es s s' := by
  constructor
  · rintro ⟨t, L, h⟩
    induction es generalizing t L with
    | nil => cases h
    | cons e es ih =>
      cases h with
      | choice_first a => exact ⟨[], e, es, rfl, by simp, _, _, a⟩
      | choice_next a b =>
        obtain ⟨bs, x, as, rfl, h1, h2⟩ := ih _ _ b
        refine ⟨e :: bs, x, as, rfl, ?_, h2⟩
        intro y hy
        cases hy with
        | head => exact ⟨_, a⟩
        | tail _ hm => exact h1 y hm
  · rintro ⟨bs, x, as, rfl, h1, t, L, h2⟩
    induction bs with
    | nil => exact ⟨_, _, .choice_first h2⟩
    | cons b bs ih =>
      obtain ⟨t', L', h⟩ := ih (fun y hy => h1 y (by simp [hy]))
      obtain ⟨k, u, rfl⟩ := choice_ok_alt h
      obtain ⟨L1, hb⟩ := h1 b (by simp)
      exact ⟨_, _, .choice_next hb h⟩

theorem choice_fails_iff {i es s} : Fails G X (.choice i es) s ↔ ∀ e ∈ es, Fails G X e s := by
  constructor
  · rintro ⟨L, h⟩
    induction es generalizing L with
    | nil => intro e he; cases he
    | cons e es ih =>
      cases h with
      | choice_fail a b =>
        intro y hy
        cases hy with
        | head => exact ⟨_, a⟩
        | tail _ hm => exact ih _ b y hm
  · intro h
    induction es with
    | nil => exact ⟨_, .choice_nil⟩
    | cons e es ih =>
      obtain ⟨L1, h1⟩ := h e (by simp)
      obtain ⟨L2, h2⟩ := ih (fun y hy => h y (by simp [hy]))
      exact ⟨_, .choice_fail h1 h2⟩

theorem seq_matches_iff {i es s s'} : Matches G X (.seq i es) s s' ↔ Follow G X es s s' := by
  constructor
  · rintro ⟨t, L, h⟩
    induction es generalizing s t L with
    | nil => cases h; exact .nil
    | cons e es ih =>
      cases h with
      | seq_cons a b => exact .cons ⟨_, _, a⟩ (ih _ _ b)
  · intro h
    induction h with
    | nil => exact ⟨_, _, .seq_nil⟩
    | cons h1 _ ih =>
      obtain ⟨t, L, h⟩ := ih
      obtain ⟨ts, rfl⟩ := seq_ok_seq h
      obtain ⟨t1, L1, h1⟩ := h1
      exact ⟨_, _, .seq_cons h1 h⟩

/-- A sequence fails when an element fails after the match of the elements before it. -/
theorem seq_fails_iff {i es s} : Fails G X (.seq i es) s ↔
    ∃ before e after s1, es = before ++ e :: after ∧ Follow G X before s s1 ∧ Fails G X e s1 := by
  constructor
  · rintro ⟨L, h⟩
    induction es generalizing s L with
    | nil => cases h
    | cons e es ih =>
      cases h with
      | seq_fail a => exact ⟨[], e, es, s, rfl, .nil, _, a⟩
      | seq_later a b =>
        obtain ⟨bs, x, as, s1, rfl, h1, h2⟩ := ih _ b
        exact ⟨e :: bs, x, as, s1, rfl, .cons ⟨_, _, a⟩ h1, h2⟩
  · rintro ⟨bs, x, as, s1, rfl, h1, h2⟩
    induction h1 with
    | nil => obtain ⟨L, h2⟩ := h2; exact ⟨_, .seq_fail h2⟩
    | cons a _ ih =>
      obtain ⟨t, L1, a⟩ := a
      obtain ⟨L, h⟩ := ih h2
      exact ⟨_, .seq_later a h⟩

theorem star_matches_iff {i e s s'} : Matches G X (.star i e) s s' ↔ (∃ k, Chain G X e k s s') ∧ Fails G X e s' := by
  constructor
  · rintro ⟨t, L, h⟩
    generalize hx : Expr.star i e = x at h
    generalize ho : Out.ok s' t = o at h
    induction h generalizing t with
    | star_stop h => cases hx; cases ho; exact ⟨⟨0, .zero⟩, _, h⟩
    | star_more h1 h2 _ ih =>
      cases hx; cases ho
      obtain ⟨⟨k, hc⟩, hf⟩ := ih _ rfl rfl
      exact ⟨⟨k + 1, .succ ⟨_, _, h1⟩ hc⟩, hf⟩
    | _ => cases hx
  · rintro ⟨⟨k, hc⟩, L, hf⟩
    induction hc with
    | zero => exact ⟨_, _, .star_stop hf⟩
    | succ h1 _ ih =>
      obtain ⟨t, L1, h⟩ := ih hf
      obtain ⟨ts, rfl⟩ := star_ok_rep h
      obtain ⟨t1, L2, h1⟩ := h1
      exact ⟨_, _, .star_more h1 h⟩

theorem star_not_fails {i e s} : ¬ Fails G X (.star i e) s := by
  rintro ⟨L, h⟩; cases h

theorem plus_matches_iff {i e s s'} : Matches G X (.plus i e) s s' ↔ (∃ k, Chain G X e (k + 1) s s') ∧ Fails G X e s' := by
  constructor
  · rintro ⟨t, L, h⟩
    cases h with
    | plus_ok h1 h2 =>
      obtain ⟨⟨k, hc⟩, hf⟩ := (star_matches_iff (i := i)).1 ⟨_, _, h2⟩
      exact ⟨⟨k, .succ ⟨_, _, h1⟩ hc⟩, hf⟩
  · rintro ⟨⟨k, hc⟩, hf⟩
    cases hc with
    | succ h1 hc =>
      obtain ⟨t, L, h⟩ := (star_matches_iff (i := i)).2 ⟨⟨k, hc⟩, hf⟩
      obtain ⟨ts, rfl⟩ := star_ok_rep h
      obtain ⟨t1, L2, h1⟩ := h1
      exact ⟨_, _, .plus_ok h1 h⟩

theorem plus_fails_iff {i e s} : Fails G X (.plus i e) s ↔ Fails G X e s := by
  constructor
  · rintro ⟨L, h⟩; cases h with | plus_fail h => exact ⟨_, h⟩
  · rintro ⟨L, h⟩; exact ⟨_, .plus_fail h⟩

theorem opt_matches_iff {i e s s'} : Matches G X (.opt i e) s s' ↔ Matches G X e s s' ∨ (Fails G X e s ∧ s' = s) := by
  constructor
  · rintro ⟨t, L, h⟩
    cases h with
    | opt_some h => exact .inl ⟨_, _, h⟩
    | opt_none h => exact .inr ⟨⟨_, h⟩, rfl⟩
  · rintro (⟨t, L, h⟩ | ⟨⟨L, h⟩, rfl⟩)
    · exact ⟨_, _, .opt_some h⟩
    · exact ⟨_, _, .opt_none h⟩

theorem opt_not_fails {i e s} : ¬ Fails G X (.opt i e) s := by
  rintro ⟨L, h⟩; cases h

theorem not_matches_iff {i e s s'} : Matches G X (.not i e) s s' ↔ s' = s ∧ Fails G X e s := by
  constructor
  · rintro ⟨t, L, h⟩; cases h with | not_ok h => exact ⟨rfl, _, h⟩
  · rintro ⟨rfl, L, h⟩; exact ⟨_, _, .not_ok h⟩

theorem not_fails_iff {i e s} : Fails G X (.not i e) s ↔ ∃ s', Matches G X e s s' := by
  constructor
  · rintro ⟨L, h⟩; cases h with | not_fail h => exact ⟨_, _, _, h⟩
  · rintro ⟨s', t, L, h⟩; exact ⟨_, .not_fail h⟩

theorem and_matches_iff {i e s s'} : Matches G X (.and i e) s s' ↔ s' = s ∧ ∃ s1, Matches G X e s s1 := by
  constructor
  · rintro ⟨t, L, h⟩; cases h with | and_ok h => exact ⟨rfl, _, _, _, h⟩
  · rintro ⟨rfl, s1, t, L, h⟩; exact ⟨_, _, .and_ok h⟩

theorem and_fails_iff {i e s} : Fails G X (.and i e) s ↔ Fails G X e s := by
  constructor
  · rintro ⟨L, h⟩; cases h with | and_fail h => exact ⟨_, h⟩
  · rintro ⟨L, h⟩; exact ⟨_, .and_fail h⟩

theorem predicate_tree {i e s s' t L} (h : Peg G X (.not i e) s (.ok s' t) L ∨ Peg G X (.and i e) s (.ok s' t) L) : t = .leaf := by
  rcases h with h | h <;> cases h <;> rfl

theorem Matches.not_fails (hX : X.Det) {e s s'} (h : Matches G X e s s') : ¬ Fails G X e s := by
  rintro ⟨L, h'⟩
  obtain ⟨t, L', h⟩ := h
  have := (h.det hX h').1
  cases this

theorem Matches.unique (hX : X.Det) {e s a b} (h : Matches G X e s a) (h' : Matches G X e s b) : a = b := by
  obtain ⟨t, L, h⟩ := h
  obtain ⟨t', L', h'⟩ := h'
  have := (h.det hX h').1
  cases this; rfl

theorem choice_append_iff {i es fs s} {P : Option (List Char) → Log → Prop} :
    (∃ o L, Peg G X (.choice i (es ++ fs)) s o L ∧ P o.stop L) ↔
    ((∃ s' t L, Peg G X (.choice i es) s (.ok s' t) L ∧ P (some s') L) ∨
     (∃ L o L', Peg G X (.choice i es) s .fail L ∧ Peg G X (.choice i fs) s o L' ∧
        P o.stop (L ++ L'))) := by
  induction es generalizing P with
  | nil =>
    constructor
    · rintro ⟨o, L, h, hp⟩; exact .inr ⟨[], o, L, .choice_nil, h, hp⟩
    · rintro (⟨s', t, L, h, _⟩ | ⟨L, o, L', h, h', hp⟩)
      · cases h
      · cases h; exact ⟨o, L', h', hp⟩
  | cons e es ih =>
    constructor
    · rintro ⟨o, L, h, hp⟩
      cases h with
      | choice_first a => exact .inl ⟨_, _, _, .choice_first a, hp⟩
      | @choice_next _ _ _ _ s1 k t L1 L2 a b =>
        rcases (ih (P := fun o L => P o (L1 ++ L))).1 ⟨_, _, b, hp⟩ with ⟨s', t', L, h, hp'⟩ | ⟨L, o, L', h, h', hp'⟩
        · obtain ⟨k, u, rfl⟩ := choice_ok_alt h
          exact .inl ⟨_, _, _, .choice_next a h, hp'⟩
        · exact .inr ⟨_, _, _, .choice_fail a h, h', by simpa using hp'⟩
      | @choice_fail _ _ _ _ L1 L2 a b =>
        rcases (ih (P := fun o L => P o (L1 ++ L))).1 ⟨_, _, b, hp⟩ with ⟨s', t', L, h, hp'⟩ | ⟨L, o, L', h, h', hp'⟩
        · obtain ⟨k, u, rfl⟩ := choice_ok_alt h
          exact .inl ⟨_, _, _, .choice_next a h, hp'⟩
        · exact .inr ⟨_, _, _, .choice_fail a h, h', by simpa using hp'⟩
    · rintro (⟨s', t, L, h, hp⟩ | ⟨L, o, L', h, h', hp⟩)
      · cases h with
        | choice_first a => exact ⟨_, _, .choice_first a, hp⟩
        | @choice_next _ _ _ _ s1 k t L1 L2 a b =>
          obtain ⟨o, L, h, hp'⟩ := (ih (P := fun o L => P o (L1 ++ L))).2 (.inl ⟨_, _, _, b, hp⟩)
          cases o with
          | fail => exact ⟨_, _, .choice_fail a h, hp'⟩
          | ok s' t =>
            obtain ⟨k, u, rfl⟩ := choice_ok_alt h
            exact ⟨_, _, .choice_next a h, hp'⟩
      · cases h with
        | @choice_fail _ _ _ _ L1 L2 a b =>
          obtain ⟨o, L, h, hp'⟩ := (ih (P := fun o L => P o (L1 ++ L))).2 (.inr ⟨_, _, _, b, h', by simpa using hp⟩)
          cases o with
          | fail => exact ⟨_, _, .choice_fail a h, hp'⟩
          | ok s' t =>
            obtain ⟨k, u, rfl⟩ := choice_ok_alt h
            exact ⟨_, _, .choice_next a h, hp'⟩

theorem firstMatch_skip (hX : X.Det) {es bs s s'} (hf : ∀ e ∈ es, Fails G X e s) (h : FirstMatch G X (es ++ bs) s s') :
    FirstMatch G X bs s s' := by
  induction es with
  | nil => exact h
  | cons e es ih =>
    apply ih (fun b hb => hf b (by simp [hb]))
    obtain ⟨l, x, a, heq, h1, h2⟩ := h
    cases l with
    | nil =>
      simp only [List.cons_append, List.nil_append, List.cons.injEq] at heq
      exact absurd (hf e (by simp)) (by rw [heq.1]; exact h2.not_fails hX)
    | cons y l =>
      simp only [List.cons_append, List.cons.injEq] at heq
      exact ⟨l, x, a, heq.2, fun b hb => h1 b (by simp [hb]), h2⟩

theorem outcome_choice_append {i es fs s x L} : Outcome G X (.choice i (es ++ fs)) s x L ↔
    (x ≠ none ∧ Outcome G X (.choice i es) s x L) ∨
    (∃ L1 L2, L = L1 ++ L2 ∧ Outcome G X (.choice i es) s none L1 ∧ Outcome G X (.choice i fs) s x L2) := by
  have h := choice_append_iff (G := G) (X := X) (i := i) (es := es) (fs := fs) (s := s) (P := fun x' L' => x' = x ∧ L' = L)
  constructor
  · rintro ⟨o, hp, ho⟩
    rcases h.1 ⟨o, L, hp, ho, rfl⟩ with ⟨s', t, L, h1, rfl, rfl⟩ | ⟨L1, o, L2, h1, h2, rfl, rfl⟩
    · exact .inl ⟨nofun, _, h1, rfl⟩
    · exact .inr ⟨_, _, rfl, ⟨_, h1, rfl⟩, _, h2, rfl⟩
  · rintro (⟨hx, o, hp, rfl⟩ | ⟨L1, L2, rfl, ⟨o1, h1, e1⟩, o2, h2, rfl⟩)
    · cases o with
      | fail => exact absurd rfl hx
      | ok s' t =>
        obtain ⟨o, L, h1, h2, rfl⟩ := h.2 (.inl ⟨_, _, _, hp, rfl, rfl⟩)
        exact ⟨o, h1, h2⟩
    · cases o1 with
      | fail =>
        obtain ⟨o, L, h1, h2, rfl⟩ := h.2 (.inr ⟨_, _, _, h1, h2, rfl, rfl⟩)
        exact ⟨o, h1, h2⟩
      | ok s' t => cases e1

theorem outcome_choice_single {i e s x L} : Outcome G X (.choice i [e]) s x L ↔ Outcome G X e s x L := by
  constructor
  · rintro ⟨o, h, rfl⟩
    cases h with
    | choice_first a => exact ⟨_, a, rfl⟩
    | choice_next a b => cases b
    | choice_fail a b => cases b; exact ⟨_, by simpa using a, rfl⟩
  · rintro ⟨o, h, rfl⟩
    cases o with
    | fail => exact ⟨_, by simpa using Peg.choice_fail h .choice_nil, rfl⟩
    | ok s' t => exact ⟨_, .choice_first h, rfl⟩

theorem peg_choice_id {i j es s o L} (h : Peg G X (.choice i es) s o L) : Peg G X (.choice j es) s o L := by
  induction es generalizing o L with
  | nil => cases h; exact .choice_nil
  | cons e es ih =>
    cases h with
    | choice_first a => exact .choice_first a
    | choice_next a b => exact .choice_next a (ih b)
    | choice_fail a b => exact .choice_fail a (ih b)

theorem outcome_choice_id {i j es s x L} : Outcome G X (.choice i es) s x L ↔ Outcome G X (.choice j es) s x L :=
  ⟨fun ⟨o, h, e⟩ => ⟨o, peg_choice_id h, e⟩, fun ⟨o, h, e⟩ => ⟨o, peg_choice_id h, e⟩⟩

theorem outcome_choice_nest {i j as bs cs s x L} :
    Outcome G X (.choice i (as ++ .choice j bs :: cs)) s x L ↔ Outcome G X (.choice i (as ++ (bs ++ cs))) s x L := by
  rw [outcome_choice_append, outcome_choice_append (es := as) (fs := bs ++ cs)]
  have : ∀ L, Outcome G X (.choice i (.choice j bs :: cs)) s x L ↔ Outcome G X (.choice i (bs ++ cs)) s x L := by
    intro L
    rw [show Expr.choice j bs :: cs = [Expr.choice j bs] ++ cs from rfl, outcome_choice_append, outcome_choice_append (es := bs)]
    simp only [outcome_choice_single, outcome_choice_id (i := j) (j := i)]
  simp only [this]

end Oak.Spec
