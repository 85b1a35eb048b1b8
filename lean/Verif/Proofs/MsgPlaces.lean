import Verif.Proofs.FrontSpansRules
import Verif.Proofs.TypingPlaces
import Verif.Properties.Macro
import Verif.Properties.Chaining
/-! What the messages of the analysis phase are about: expressions that are written in the grammar. -/
set_option linter.constructorNameAsVariable false
set_option autoImplicit false

namespace Oak
open Spec

/-- What a phase gives and what its messages say. -/
def Phase.Tells {α : Type} (x : Phase α) (P : α → Prop) (Q : Msg → Prop) : Prop :=
  ∀ p ms, x = .ok (p, ms) → (∀ a, p = .value a ∨ p = .fake a → P a) ∧ ∀ msg ∈ ms, Q msg

theorem Phase.Tells.andThen {α β : Type} {x : Phase α} {f : α → Phase β} {P : α → Prop} {R : β → Prop} {Q : Msg → Prop} (hx : x.Tells P Q)
    (hf : ∀ a, P a → (f a).Tells R Q) : Phase.Tells (Phase.andThen x f) R Q := by
  intro q ms h
  rcases andThen_ok h with ⟨a, ms1, ms2, h1, h2, rfl⟩ | ⟨a, ms1, ms2, q', h1, h2, rfl, rfl⟩ | ⟨h1, rfl⟩
  · obtain ⟨k1, k2⟩ := hx _ _ h1
    obtain ⟨k3, k4⟩ := hf a (k1 a (.inl rfl)) _ _ h2
    refine ⟨k3, fun msg hm => ?_⟩
    rcases List.mem_append.1 hm with hm | hm
    · exact k2 msg hm
    · exact k4 msg hm
  · obtain ⟨k1, k2⟩ := hx _ _ h1
    obtain ⟨k3, k4⟩ := hf a (k1 a (.inr rfl)) _ _ h2
    refine ⟨fun b hb => ?_, fun msg hm => ?_⟩
    · cases q' with
      | value c => rcases hb with hb | hb <;> cases hb; exact k3 _ (.inl rfl)
      | fake c => rcases hb with hb | hb <;> cases hb; exact k3 _ (.inr rfl)
      | nothing => rcases hb with hb | hb <;> cases hb
    · rcases List.mem_append.1 hm with hm | hm
      · exact k2 msg hm
      · exact k4 msg hm
  · obtain ⟨_, k2⟩ := hx _ _ h1
    exact ⟨fun b hb => (by rcases hb with hb | hb <;> cases hb), k2⟩

/-- The message is about expressions that are written in the rules. -/
def Written (rules : List (String × Expr)) (msg : Msg) : Prop := ∀ e ∈ msg.exprs, ∃ r ∈ rules, Sub e.written r.2

/-- The rules that are retained. -/
def Kept (rules : List (String × Expr)) (G : Grammar) : Prop := (∀ r ∈ G.rules, r ∈ rules) ∧ (G.rules.map (·.1)).Nodup

theorem ruleDuplicate_tells (A : AGrammar) (rules : List (String × Expr)) : Phase.Tells (ruleDuplicate A rules) (fun A => Kept rules A.grammar) (Written rules) := by
  intro p ms h
  unfold ruleDuplicate at h
  simp only [Res.ok.injEq, Prod.mk.injEq] at h
  obtain ⟨rfl, rfl⟩ := h
  refine ⟨fun a ha => ?_, fun msg hm => ?_⟩
  · obtain ⟨items, h1, h2, h3, h4, _⟩ := C25_retained Prod.fst rules
    have : a = { A with grammar := ⟨items.map (·.2)⟩ } := by
      rcases h1 with h1 | h1 <;> rw [h1] at ha <;> rcases ha with ha | ha <;> cases ha <;> rfl
    subst this
    refine ⟨fun r hr => h2.subset hr, ?_⟩
    have : (items.map (·.2)).map (·.1) = items.map (·.1) := by
      rw [List.map_map]
      exact List.map_congr_left fun y hy => (h3 y hy).symm
    simp only
    rw [this]
    exact h4
  · obtain ⟨d, _, rfl⟩ := List.mem_map.1 hm
    intro e he; cases he

theorem functionsDuplicate_tells (A : AGrammar) (items : List Item) {rules : List (String × Expr)} (hA : Kept rules A.grammar) :
    Phase.Tells (functionsDuplicate A items) (fun A => Kept rules A.grammar) (Written rules) := by
  intro p ms h
  unfold functionsDuplicate at h
  simp only [Res.ok.injEq, Prod.mk.injEq] at h
  obtain ⟨rfl, rfl⟩ := h
  refine ⟨fun a ha => ?_, fun msg hm => ?_⟩
  · have : a.grammar = A.grammar := by
      generalize (duplicates RustFn.name (splitFns items).1).1 = q at ha
      cases q <;> rcases ha with ha | ha <;> cases ha <;> rfl
    show Kept rules a.grammar
    rw [this]; exact hA
  · obtain ⟨d, _, rfl⟩ := List.mem_map.1 hm
    intro e he; cases he

/-- The grammar after the resolution of calls. -/
def KeptResolved (rules : List (String × Expr)) (G : Grammar) : Prop := ∃ H, Kept rules H ∧ G = resolveGrammar H

theorem KeptResolved.nodup {rules : List (String × Expr)} {G : Grammar} (h : KeptResolved rules G) : (G.rules.map (·.1)).Nodup := by
  obtain ⟨H, h1, rfl⟩ := h
  simpa [resolveGrammar, List.map_map, Function.comp_def] using h1.2

theorem KeptResolved.occurs {rules : List (String × Expr)} {G : Grammar} (h : KeptResolved rules G) (hr : ∀ r ∈ rules, r.2.Unresolved) {e : Expr} (he : Occurs G e) :
    ∃ r ∈ rules, Sub e.written r.2 := by
  obtain ⟨H, h1, rfl⟩ := h
  obtain ⟨q, b, h2, h3⟩ := he
  have := grammar_find_mem h2
  obtain ⟨r, h4, h5⟩ := List.mem_map.1 this
  cases h5
  refine ⟨r, h1.1 r h4, ?_⟩
  have := sub_written h3
  rw [resolve_written, unresolved_written (hr r (h1.1 r h4))] at this
  exact this

theorem analysisPhase_tells (n m : Nat) (F : FGrammar) (hF : F.Built) :
    Phase.Tells (analysisPhase n m F) (fun A => KeptResolved F.rules A.grammar) (Written F.rules) := by
  have hu := hF.unresolved
  refine Phase.Tells.andThen (P := fun F' => F' = F) ?_ ?_
  · intro p ms h
    unfold atLeastOneRule at h
    split at h
    · cases h
      refine ⟨fun a ha => (by rcases ha with ha | ha <;> cases ha), fun msg hm e he => ?_⟩
      simp only [List.mem_singleton] at hm
      subst hm; cases he
    · cases h
      exact ⟨fun a ha => (by rcases ha with ha | ha <;> cases ha; rfl), fun msg hm => by cases hm⟩
  · rintro F' rfl
    unfold analyse
    refine Phase.Tells.andThen (P := fun A => KeptResolved F'.rules A.grammar) ?_ ?_
    · refine Phase.Tells.andThen (P := fun A => KeptResolved F'.rules A.grammar) ?_ ?_
      · refine Phase.Tells.andThen (P := fun A => KeptResolved F'.rules A.grammar) ?_ ?_
        · refine Phase.Tells.andThen (P := fun A => Kept F'.rules A.grammar) ?_ ?_
          · exact Phase.Tells.andThen (ruleDuplicate_tells _ _) fun A hA => functionsDuplicate_tells A _ hA
          · intro A hA p ms h
            unfold resolvePhase at h
            cases h
            exact ⟨fun a ha => (by rcases ha with ha | ha <;> cases ha; exact ⟨A.grammar, hA, rfl⟩), fun msg hm => by cases hm⟩
        · intro A hA p ms h
          unfold wellFormedPhase at h
          obtain ⟨st, h1, h2⟩ := Res.bind_eq_ok h
          cases h2
          refine ⟨fun a ha => ?_, fun msg hm => ?_⟩
          · split at ha <;> rcases ha with ha | ha <;> cases ha
            exact hA
          · obtain ⟨d, hd, rfl⟩ := List.mem_map.1 hm
            have hfound := C21_found h1 d (List.mem_reverse.1 hd)
            intro e he
            cases d with
            | leftRecursion r c => cases he
            | neverSucceed x => simp only [Msg.exprs, List.mem_singleton] at he; subst he; exact hA.occurs hu hfound.1
            | alwaysSucceed x => simp only [Msg.exprs, List.mem_singleton] at he; subst he; exact hA.occurs hu hfound.1
            | loopRepeat x => simp only [Msg.exprs, List.mem_singleton] at he; subst he; exact hA.occurs hu hfound.1
            | unreachable c b =>
              obtain ⟨h3, i, bs, as, h4, _⟩ := hfound
              simp only [Msg.exprs, List.mem_cons, List.not_mem_nil, or_false] at he
              rcases he with rfl | rfl
              · exact hA.occurs hu h3
              · refine hA.occurs hu (h3.sub (.kid ?_))
                rw [h4]; simp [Expr.kids]
      · intro A hA p ms h
        unfold chainPhase at h
        obtain ⟨ws, h1, h2⟩ := Res.bind_eq_ok h
        cases h2
        refine ⟨fun a ha => (by rcases ha with ha | ha <;> cases ha; exact hA), fun msg hm => ?_⟩
        obtain ⟨w, hw, rfl⟩ := List.mem_map.1 hm
        intro e he
        simp only [Msg.exprs, List.mem_singleton] at he
        subst he
        exact hA.occurs hu (C23_occurs hA.nodup h1 hw).1
    · intro A hA p ms h
      unfold attributesPhase at h
      cases h
      refine ⟨fun a ha => (by rcases ha with ha | ha <;> cases ha; exact hA), fun msg hm e he => ?_⟩
      rw [(C35_unknown _ _).2] at hm
      obtain ⟨_, _, rfl⟩ := List.mem_map.1 hm
      cases he

end Oak
