import Verif.Proofs.Renaming
import Verif.Proofs.TypingDoc
/-!
Types of grammars that differ by the presentation.
-/
set_option linter.constructorNameAsVariable false
set_option autoImplicit false

namespace Oak
open Spec Typing

variable {ρ : String → String → Prop} {A A' : AGrammar} {k k' : Nat}

theorem HasType.alike (hc : Corresponds ρ A.grammar A'.grammar) (hf : A'.functions = A.functions) {e : Expr} {t : DType} (h : HasType A e t) :
    ∀ {e' : Expr}, Likeness ρ e e' → HasType A' e' t := by
  suffices hs : ∀ e', Likeness ρ e e' → HasType A' e' t from fun {e'} => hs e'
  have hact : ∀ b f, actionType A b f = actionType A' b f := by intro b f; simp only [actionType, hf]
  refine HasType.rec (motive_1 := fun e t _ => ∀ e' : Expr, Likeness ρ e e' → HasType A' e' t)
    (motive_2 := fun es ts _ => ∀ es' : List Expr, LikenessAll ρ es es' → HasTypes A' es' ts)
    ?_ ?_ ?_ ?_ ?_ ?_ ?_ ?_ ?_ ?_ ?_ ?_ ?_ ?_ ?_ ?_ ?_ ?_ ?_ ?_ ?_ ?_ h
  · intro i l e' h; cases h; exact .str
  · intro i e e' h; cases h; exact .not
  · intro i e e' h; cases h; exact .and
  · intro i e' h; cases h; exact .any
  · intro i l e' h; cases h; exact .cls
  · intro i l e' h; cases h; exact .ext
  · intro i r b t hb _ ih e' h
    cases h with | nt h => obtain ⟨b', h1, h2⟩ := hc.body h hb; exact .nt h1 (ih _ h2)
  · intro i e b f e' h; cases h; rw [hact]; exact .act
  · intro i e ty t ht e' h; cases h; exact .asc ht
  · intro i e t _ hn ih e' h; cases h with | star h => exact .star (ih _ h) hn
  · intro i e t _ hn ih e' h; cases h with | plus h => exact .plus (ih _ h) hn
  · intro i e t _ hn ih e' h; cases h with | opt h => exact .opt (ih _ h) hn
  · intro i e _ ih e' h; cases h with | star h => exact .starHidden (ih _ h)
  · intro i e _ ih e' h; cases h with | plus h => exact .plusHidden (ih _ h)
  · intro i e _ ih e' h; cases h with | opt h => exact .optHidden (ih _ h)
  · intro i e t _ ih e' h; cases h with | span h => exact .span (ih _ h)
  · intro i e t _ ih e' h; cases h with | range h => exact .range (ih _ h)
  · intro i es ts _ hx ih e' h; cases h with | seq h => exact .seq (ih _ h) hx
  · intro i es ts _ hx ih e' h; cases h with | seq h => exact .seqHidden (ih _ h) hx
  · intro i es ts t _ hx ih e' h; cases h with | choice h => exact .choice (ih _ h) hx
  · intro es' h; cases h; exact .nil
  · intro e es t ts _ _ ih1 ih2 es' h; cases h with | cons h1 h2 => exact .cons (ih1 _ h1) (ih2 _ h2)

/-- What is known of expressions at the same place. -/
structure Facing (ρ : String → String → Prop) (A A' : AGrammar) (k k' : Nat) (U U' : Nat → IType) (e e' : Expr) : Prop where
  alike : Likeness ρ e e'
  occ : Occurs A.grammar e
  occ' : Occurs A'.grammar e'
  known : ((U e.id).isUnitKind = true ∧ (U' e'.id).isUnitKind = true) ∨ (Typing.Done A k U true e ∧ Typing.Done A' k' U' true e') ∨
    (Typing.Done A k U false e ∧ RuleDoc A k U e ∧ Typing.Done A' k' U' false e' ∧ RuleDoc A' k' U' e')

section
variable {N N' : Prop} {U U' : Nat → IType} {T T' : Nat → Ty}

theorem Facing.unit_iff (hc : Corresponds ρ A.grammar A'.grammar) (hf : A'.functions = A.functions) {e e' : Expr} (h : Facing ρ A A' k k' U U' e e') :
    (U e.id).isUnitKind = true ↔ (U' e'.id).isUnitKind = true := by
  rcases h.known with ⟨h1, h2⟩ | ⟨h1, h2⟩ | ⟨_, h1, _, h2⟩
  · rw [h1, h2]
  · obtain ⟨s, hs⟩ := h1.rust rfl
    obtain ⟨s', hs'⟩ := h2.rust rfl
    rw [hs, hs']; simp [IType.isUnitKind]
  · obtain ⟨⟨v, v1, _, v3⟩, _⟩ := h1 e .root
    obtain ⟨⟨w, w1, _, w3⟩, _⟩ := h2 e' .root
    have := (HasType.alike hc hf v1 h.alike).det w1
    subst this
    rw [unf_unit v3, unf_unit w3]

theorem Facing.kid (hc : Corresponds ρ A.grammar A'.grammar) (hf : A'.functions = A.functions) {e e' c c' : Expr} (h : Facing ρ A A' k k' U U' e e')
    (hu : ¬ (U e.id).isUnitKind = true) (hz : c ∈ e.zkids) (hz' : c' ∈ e'.zkids) (ha : Likeness ρ c c')
    (hs : ∀ i es, e = .seq i es → ∀ j es', e' = .seq j es' → ∃ n : Nat, es[n]? = some c ∧ es'[n]? = some c') : Facing ρ A A' k k' U U' c c' := by
  have hu' : ¬ (U' e'.id).isUnitKind = true := fun h0 => hu ((h.unit_iff hc hf).2 h0)
  refine ⟨ha, h.occ.kid (zkids_sub hz), h.occ'.kid (zkids_sub hz'), ?_⟩
  have hdoc : ∀ {A : AGrammar} {k : Nat} {U : Nat → IType} {e c : Expr}, ¬ (U e.id).isUnitKind = true → c ∈ e.zkids → RuleDoc A k U e → RuleDoc A k U c := by
    intro A k U e c hu hc hr x hx
    exact hr x (live_kids.2 (.inr ⟨by simpa using hu, c, hc, hx⟩))
  rcases h.known with ⟨h1, _⟩ | ⟨h1, h2⟩ | ⟨h1, g1, h2, g2⟩
  · exact absurd h1 hu
  · cases h1 with
    | act => cases hz
    | asc => cases hz
    | nt => cases hz
    | ext => cases hz
    | @seq i es s pre d post _ e1 d1 d2 d3 d4 =>
      cases h2 with
      | @seq j es' s' pre' d' post' _ e1' d1' d2' d3' d4' =>
        obtain ⟨n, hn, hn'⟩ := hs i es rfl j es' rfl
        have key : ∀ {es pre post : List Expr} {d c : Expr}, es = pre ++ d :: post → c ∈ es → c = d ∨ c ∈ pre ++ post := by
          rintro es pre post d c rfl hc
          simp only [List.mem_append, List.mem_cons] at hc ⊢
          rcases hc with h | h | h
          · exact .inr (.inl h)
          · exact .inl h
          · exact .inr (.inr h)
        rcases key e1 hz with g | g <;> rcases key e1' hz' with g' | g'
        · subst g; subst g'; exact .inr (.inl ⟨d1, d1'⟩)
        · subst g
          obtain ⟨v, v1, v2⟩ := d3
          obtain ⟨w, w1, w2⟩ := d4' c' g'
          have := (HasType.alike hc hf v1 ha).det w1
          subst this
          exact absurd w2 v2
        · subst g'
          obtain ⟨v, v1, v2⟩ := d4 c g
          obtain ⟨w, w1, w2⟩ := d3'
          have := (HasType.alike hc hf v1 ha).det w1
          subst this
          exact absurd v2 w2
        · exact .inl ⟨d2 c g, d2' c' g'⟩
      | _ => cases h.alike
    | choice _ d1 =>
      cases h2 with
      | choice _ d2 => exact .inr (.inl ⟨d1 c (by simpa [Expr.zkids] using hz), d2 c' (by simpa [Expr.zkids] using hz')⟩)
      | _ => cases h.alike
    | range _ d1 =>
      cases h2 with
      | range _ d2 =>
        simp only [Expr.zkids, List.mem_singleton] at hz hz'
        subst hz; subst hz'
        exact .inr (.inl ⟨d1, d2⟩)
      | _ => cases h.alike
  · refine .inr (.inr ⟨?_, hdoc hu hz g1, ?_, hdoc hu' hz' g2⟩)
    · cases h1 with
      | unit h0 => exact absurd h0 hu
      | node _ _ h0 => exact h0 c hz
      | act => cases hz
      | asc => cases hz
    · cases h2 with
      | unit h0 => exact absurd h0 hu'
      | node _ _ h0 => exact h0 c' hz'
      | act => cases hz'
      | asc => cases hz'

theorem Faces.facing (hc : Corresponds ρ A.grammar A'.grammar) (hf : A'.functions = A.functions) (H : A.Ready k) (H' : A'.Ready k')
    (h : Final A k N U) (hT : ∀ i, i ≤ k → reduceFinal (U i) = .ok (T i)) (n : N)
    (h' : Final A' k' N' U') (n' : N') {e e' : Expr} (he : Faces ρ A.grammar A'.grammar T e e') : Facing ρ A A' k k' U U' e e' := by
  have hnu : ∀ {e e' : Expr}, Facing ρ A A' k k' U U' e e' → T e.id ≠ .unit → ¬ (U e.id).isUnitKind = true := fun hg hu h0 =>
    hu ((Typing.unit_iff h hT (Nat.le_of_lt (H.lt hg.occ _ (id_mem_indices _)))).2 h0)
  have hlist : ∀ {es es' : List Expr} {n : Nat} {c c' : Expr}, LikenessAll ρ es es' → es[n]? = some c → es'[n]? = some c' → Likeness ρ c c' := by
    intro es es' n c c' ha h1 h2
    obtain ⟨d, h3, h4⟩ := ha.get h1
    rw [h2] at h3; cases h3; exact h4
  induction he with
  | body hr hb hb' =>
    obtain ⟨b', h1, h2⟩ := hc.body hr hb
    rw [hb'] at h1; cases h1
    exact ⟨h2, .body hb, .body hb', .inr (.inr ⟨h.done n _ _ hb, h.rules n _ _ hb, h'.done n' _ _ hb', h'.rules n' _ _ hb'⟩)⟩
  | @seq i j es es' c c' m _ hu h1 h2 ih =>
    have ha := ih.alike
    cases ha with
    | seq ha =>
      refine ih.kid hc hf (hnu ih hu) (List.mem_of_getElem? h1) (List.mem_of_getElem? h2) (hlist ha h1 h2) ?_
      rintro _ _ ⟨⟩ _ _ ⟨⟩
      exact ⟨m, h1, h2⟩
  | @choice i j es es' c c' m _ hu h1 h2 ih =>
    have ha := ih.alike
    cases ha with
    | choice ha => exact ih.kid hc hf (hnu ih hu) (List.mem_of_getElem? h1) (List.mem_of_getElem? h2) (hlist ha h1 h2) (by rintro _ _ ⟨⟩)
  | star _ hu ih =>
    have ha := ih.alike
    cases ha with | star ha => exact ih.kid hc hf (hnu ih hu) (by simp [Expr.zkids]) (by simp [Expr.zkids]) ha (by rintro _ _ ⟨⟩)
  | plus _ hu ih =>
    have ha := ih.alike
    cases ha with | plus ha => exact ih.kid hc hf (hnu ih hu) (by simp [Expr.zkids]) (by simp [Expr.zkids]) ha (by rintro _ _ ⟨⟩)
  | opt _ hu ih =>
    have ha := ih.alike
    cases ha with | opt ha => exact ih.kid hc hf (hnu ih hu) (by simp [Expr.zkids]) (by simp [Expr.zkids]) ha (by rintro _ _ ⟨⟩)
  | span _ hu ih =>
    have ha := ih.alike
    cases ha with | span ha => exact ih.kid hc hf (hnu ih hu) (by simp [Expr.zkids]) (by simp [Expr.zkids]) ha (by rintro _ _ ⟨⟩)
  | range _ hu ih =>
    have ha := ih.alike
    cases ha with | range ha => exact ih.kid hc hf (hnu ih hu) (by simp [Expr.zkids]) (by simp [Expr.zkids]) ha (by rintro _ _ ⟨⟩)
  | act _ hu ih =>
    have ha := ih.alike
    have hu1 := hnu ih hu
    have hu2 : ¬ _ := fun h0 => hu1 ((ih.unit_iff hc hf).2 h0)
    cases ha with
    | act ha =>
      refine ⟨ha, ih.occ.kid (by simp [Expr.kids]), ih.occ'.kid (by simp [Expr.kids]), .inr (.inr ?_)⟩
      have key : ∀ {A : AGrammar} {k : Nat} {U : Nat → IType} {a : Bool} {i : Nat} {c : Expr} {b : Bool} {f : Path}, ¬ (U i).isUnitKind = true →
          Typing.Done A k U a (.act i c b f) → Typing.Done A k U false c ∧ RuleDoc A k U c := by
        intro A k U a i c b f hu h
        cases h with
        | unit h0 => exact absurd h0 hu
        | node h0 => exact absurd rfl (h0 _ _ _ _)
        | act h1 h2 _ => exact ⟨h2, h1⟩
      rcases ih.known with ⟨h1, _⟩ | ⟨h1, h2⟩ | ⟨h1, _, h2, _⟩
      · exact absurd h1 hu1
      · exact ⟨(key hu1 h1).1, (key hu1 h1).2, (key hu2 h2).1, (key hu2 h2).2⟩
      · exact ⟨(key hu1 h1).1, (key hu1 h1).2, (key hu2 h2).1, (key hu2 h2).2⟩
  | asc _ hu ih =>
    have ha := ih.alike
    have hu1 := hnu ih hu
    have hu2 : ¬ _ := fun h0 => hu1 ((ih.unit_iff hc hf).2 h0)
    cases ha with
    | asc ha =>
      refine ⟨ha, ih.occ.kid (by simp [Expr.kids]), ih.occ'.kid (by simp [Expr.kids]), .inr (.inl ?_)⟩
      have key : ∀ {A : AGrammar} {k : Nat} {U : Nat → IType} {a : Bool} {i : Nat} {c : Expr} {t : IType}, ¬ (U i).isUnitKind = true →
          Typing.Done A k U a (.asc i c t) → Typing.Done A k U true c := by
        intro A k U a i c t hu h
        cases h with
        | unit h0 => exact absurd h0 hu
        | node _ h0 => exact absurd rfl (h0 _ _ _)
        | asc _ _ _ h2 => exact h2
      rcases ih.known with ⟨h1, _⟩ | ⟨h1, h2⟩ | ⟨h1, _, h2, _⟩
      · exact absurd h1 hu1
      · exact ⟨key hu1 h1, key hu2 h2⟩
      · exact ⟨key hu1 h1, key hu2 h2⟩

theorem final_agree (hc : Corresponds ρ A.grammar A'.grammar) (hf : A'.functions = A.functions) (H : A.Ready k) (H' : A'.Ready k')
    (h : Final A k N U) (hT : ∀ i, i ≤ k → reduceFinal (U i) = .ok (T i)) (n : N)
    (h' : Final A' k' N' U') (hT' : ∀ i, i ≤ k' → reduceFinal (U' i) = .ok (T' i)) (n' : N') : TypesAgree ρ A.grammar A'.grammar T T' := by
  intro e e' he
  have hg := he.facing hc hf H H' h hT n h' n'
  rw [Typing.unit_iff h hT (Nat.le_of_lt (H.lt hg.occ _ (id_mem_indices _))), Typing.unit_iff h' hT' (Nat.le_of_lt (H'.lt hg.occ' _ (id_mem_indices _)))]
  exact hg.unit_iff hc hf

end

end Oak
