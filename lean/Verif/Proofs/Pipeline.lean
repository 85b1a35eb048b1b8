import Verif.Model.Macro
import Verif.Properties.Front
import Verif.Proofs.TypingSized
import Verif.Proofs.TypingMsgs
/-!
From the tokens to the grammars given to the typing phase.
-/
set_option linter.constructorNameAsVariable false
set_option autoImplicit false

namespace Oak

theorem mem_writtenAll {e : Expr} {es : List Expr} (h : e ∈ es) : e.written ∈ writtenAll es := by
  induction h with
  | head => rw [writtenAll]; exact .head _
  | tail _ _ ih => rw [writtenAll]; exact .tail _ ih

theorem mem_bareAll {e : Expr} {es : List Expr} (h : e ∈ es) : e.bare ∈ bareAll es := by
  induction h with
  | head => rw [bareAll]; exact .head _
  | tail _ _ ih => rw [bareAll]; exact .tail _ ih

theorem sub_written {x e : Expr} (h : Sub x e) : Sub x.written e.written := by
  induction h with
  | refl => exact .refl
  | seq hm _ ih => rw [Expr.written.eq_def (.seq _ _)]; exact .seq (mem_writtenAll hm) ih
  | choice hm _ ih => rw [Expr.written.eq_def (.choice _ _)]; exact .choice (mem_writtenAll hm) ih
  | star _ ih => exact .star ih
  | plus _ ih => exact .plus ih
  | opt _ ih => exact .opt ih
  | not _ ih => exact .not ih
  | and _ ih => exact .and ih
  | act _ ih => exact .act ih
  | asc _ ih => exact .asc ih
  | span _ ih => exact .span ih
  | range _ ih => exact .range ih

theorem sub_bare {x e : Expr} (h : Sub x e) : Sub x.bare e.bare := by
  induction h with
  | refl => exact .refl
  | seq hm _ ih => rw [Expr.bare.eq_def (.seq _ _)]; exact .seq (mem_bareAll hm) ih
  | choice hm _ ih => rw [Expr.bare.eq_def (.choice _ _)]; exact .choice (mem_bareAll hm) ih
  | star _ ih => exact .star ih
  | plus _ ih => exact .plus ih
  | opt _ ih => exact .opt ih
  | not _ ih => exact .not ih
  | and _ ih => exact .and ih
  | act _ ih => exact .act ih
  | asc _ ih => exact .asc ih
  | span _ ih => exact .span ih
  | range _ ih => exact .range ih

/-- What does not depend on the resolution of calls. -/
theorem written_same (e : Expr) : e.written.indices = e.indices ∧ e.written.filled = e.filled ∧ e.written.shaped = e.shaped := by
  have hlist : ∀ es : List Expr, (∀ e ∈ es, e.written.indices = e.indices ∧ e.written.filled = e.filled ∧ e.written.shaped = e.shaped) →
      indicesAll (writtenAll es) = indicesAll es ∧ filledAll (writtenAll es) = filledAll es ∧ shapedAll (writtenAll es) = shapedAll es ∧
      (writtenAll es).isEmpty = es.isEmpty := by
    intro es
    induction es with
    | nil => intro _; exact ⟨rfl, rfl, rfl, rfl⟩
    | cons e es ih =>
      intro h
      obtain ⟨a1, a2, a3, _⟩ := ih fun e he => h e (by simp [he])
      obtain ⟨b1, b2, b3⟩ := h e (by simp)
      simp [writtenAll, indicesAll, filledAll, shapedAll, a1, a2, a3, b1, b2, b3]
  induction e using Expr.ind with
  | seq i es ih =>
    obtain ⟨a1, a2, a3, a4⟩ := hlist es ih
    simp [Expr.written, Expr.indices, Expr.filled, Expr.shaped, a1, a2, a3, a4]
  | choice i es ih =>
    obtain ⟨a1, a2, a3, a4⟩ := hlist es ih
    simp [Expr.written, Expr.indices, Expr.filled, Expr.shaped, a1, a2, a3, a4]
  | str | any | cls | nt | ext => simp [Expr.written, Expr.indices, Expr.filled, Expr.shaped]
  | star i e ih | plus i e ih | opt i e ih | not i e ih | and i e ih | act i e b f ih | asc i e t ih | span i e ih | range i e ih =>
    simp [Expr.written, Expr.indices, Expr.filled, Expr.shaped, ih]

theorem writableAll_mem {es : List Expr} (h : WritableAll es) {e : Expr} (he : e ∈ es) : e.Writable := by
  induction he with
  | head => exact h.1
  | tail _ _ ih => exact ih h.2

/-- The ascriptions and the ranges of what can be written. -/
theorem writable_sub {e : Expr} : e.Writable → (∀ i c t, Sub (.asc i c t) e → t.Written) ∧ ∀ i c, Sub (.range i c) e → ∃ j d, c = .asc j d (.regular .unit) := by
  have hasc : ∀ (i : Nat) (e : Expr) (ty : IType), ty.Written →
      ((∀ i c t, Sub (.asc i c t) e → t.Written) ∧ ∀ i c, Sub (.range i c) e → ∃ j d, c = .asc j d (.regular .unit)) →
      (∀ j c t, Sub (.asc j c t) (.asc i e ty) → t.Written) ∧ ∀ j c, Sub (.range j c) (.asc i e ty) → ∃ j d, c = .asc j d (.regular .unit) := by
    intro i e ty ht h
    refine ⟨fun j c t hs => ?_, fun j c hs => ?_⟩
    · cases hs with
      | refl => exact ht
      | asc hs => exact h.1 _ _ _ hs
    · cases hs with | asc hs => exact h.2 _ _ hs
  induction e using Expr.ind with
  | str | any | cls | nt | ext => intro _; exact ⟨fun _ _ _ hs => (by cases hs), fun _ _ hs => (by cases hs)⟩
  | seq i es ih =>
    intro h
    refine ⟨fun _ _ _ hs => ?_, fun _ _ hs => ?_⟩ <;> cases hs with
      | seq hm hs => first | exact (ih _ hm (writableAll_mem h.2 hm)).1 _ _ _ hs | exact (ih _ hm (writableAll_mem h.2 hm)).2 _ _ hs
  | choice i es ih =>
    intro h
    refine ⟨fun _ _ _ hs => ?_, fun _ _ hs => ?_⟩ <;> cases hs with
      | choice hm hs => first | exact (ih _ hm (writableAll_mem h.2 hm)).1 _ _ _ hs | exact (ih _ hm (writableAll_mem h.2 hm)).2 _ _ hs
  | star i e ih | plus i e ih | opt i e ih | not i e ih | and i e ih | act i e _ _ ih | span i e ih =>
    intro h
    refine ⟨fun _ _ _ hs => ?_, fun _ _ hs => ?_⟩ <;> cases hs <;> rename_i hs
    · exact (ih h).1 _ _ _ hs
    · exact (ih h).2 _ _ hs
  | asc i e ty ih =>
    rintro ⟨h1, h2⟩
    exact hasc i e ty (by rcases h2 with h | h | h <;> simp [IType.Written, h]) (ih h1)
  | range i e ih =>
    intro h
    unfold Expr.Writable at h
    split at h
    · rename_i j e' ty
      obtain ⟨h1, rfl⟩ := h
      have h2 := ih (show Expr.Writable _ from ⟨h1, .inl rfl⟩)
      refine ⟨fun _ _ _ hs => ?_, fun _ _ hs => ?_⟩
      · cases hs with | range hs => exact h2.1 _ _ _ hs
      · cases hs with
        | refl => exact ⟨_, _, rfl⟩
        | range hs => exact h2.2 _ _ hs
    · exact h.elim

theorem blocks_writable {ts : List Tok} {F : FGrammar} (h : Syntax.Blocks ts F) : ∀ r ∈ F.rules, r.2.Writable := by
  induction h with
  | nil => simp
  | rule h1 _ ih => intro r hr; cases hr with
    | head => exact writable_all h1
    | tail _ hr => exact ih r hr
  | typed ht h1 _ ih => intro r hr; cases hr with
    | head =>
      refine ⟨writable_all h1, ?_⟩
      cases ht with
      | unit => exact .inl rfl
      | invisible => exact .inr (.inl rfl)
      | _ => exact .inr (.inr ⟨_, rfl⟩)
    | tail _ hr => exact ih r hr
  | item _ ih => exact ih

/-- What is known of a grammar read from tokens and accepted by the analysis phase. -/
structure Prepared (A : AGrammar) (k : Nat) : Prop where
  ready : A.Ready k
  plain : A.PlainRanges
  shaped : A.grammar.shaped = true
  resolved : A.grammar.resolved = true
  accepted : Accepted A.grammar

theorem prepared {n k : Nat} {ts : List Tok} {F : FGrammar} (h : parseBlocks n 0 ts = .ok (F, k)) {a b : Nat} {A : AGrammar} {ms : List Msg}
    (h' : analysisPhase a b F = .ok (.value A, ms)) : Prepared A k ∧ A.grammar.rules.map (fun r => (r.1, r.2.written)) = F.rules := by
  have hg : parseGrammar n ts = .ok F := parseGrammar_ok.2 ⟨k, h⟩
  have hF := C46_built hg
  obtain ⟨_, hnd, hw, hre, hacc, _⟩ := C43_accepted hF h'
  have hb := blocks_writable ((C39_reads ts F.bare).1 ⟨n, F, hg, rfl⟩)
  have hmem : ∀ r ∈ A.grammar.rules, (r.1, r.2.written) ∈ F.rules := fun r hr => by rw [← hw]; exact List.mem_map.2 ⟨r, hr, rfl⟩
  have hwr : ∀ r ∈ A.grammar.rules, r.2.written.bare.Writable := fun r hr =>
    hb _ (show (r.1, r.2.written.bare) ∈ F.bare.rules from List.mem_map.2 ⟨_, hmem r hr, rfl⟩)
  have hnum : indicesAll (A.grammar.rules.map (·.2)) = List.range k := by
    obtain ⟨_, h2⟩ := blocks_numbered _ _ _ _ _ h
    rw [Nat.sub_zero] at h2
    rw [List.range_eq_range', ← h2, ← hw, List.map_map]
    generalize A.grammar.rules = rs
    induction rs with
    | nil => rfl
    | cons r rs ih => simp only [List.map_cons, indicesAll, Function.comp_apply, (written_same r.2).1]; rw [ih]
  refine ⟨⟨⟨?_, ?_, ?_, hnum, ?_⟩, ?_, ?_, hre, hacc⟩, hw⟩
  · rw [← hw, List.map_map] at hnd; exact hnd
  · exact fun r hr => (List.all_eq_true.1 hre) r hr
  · intro r hr
    rw [← (written_same r.2).2.1]
    exact hF.filled _ (hmem r hr)
  · rintro i e t ⟨r, b, hb, hs⟩
    have := sub_bare (sub_written hs)
    exact (writable_sub (hwr _ (grammar_find_mem hb))).1 _ _ _ this
  · rintro i e ⟨r, b, hb, hs⟩
    have := sub_bare (sub_written hs)
    obtain ⟨j, d, h1⟩ := (writable_sub (hwr _ (grammar_find_mem hb))).2 _ _ this
    cases e <;> simp only [Expr.written, Expr.bare, reduceCtorEq] at h1
    cases h1
    exact ⟨_, _, rfl⟩
  · refine List.all_eq_true.2 fun r hr => ?_
    rw [← (written_same r.2).2.2]
    exact hF.shaped _ (hmem r hr)

theorem prepared_stream {A : AGrammar} {k : Nat} (h : Prepared A k) : Prepared (extractStream A) k := by
  have e := (C44_stream A).2.2.2.1
  obtain ⟨⟨h1, h2, h3, h4, h5⟩, h6, h7, h8, h9⟩ := h
  refine ⟨⟨?_, ?_, ?_, ?_, ?_⟩, ?_, ?_, ?_, ?_⟩ <;> (try unfold AGrammar.PlainRanges) <;> rw [e]
  · exact h1
  · exact h2
  · exact h3
  · exact h4
  · exact h5
  · exact h6
  · exact h7
  · exact h8
  · exact h9

mutual
/-- The expression calls no external rule. -/
def Expr.closed (e : Expr) : Bool :=
  match e with
  | .str _ _ | .any _ | .cls _ _ | .nt _ _ => true
  | .ext _ _ => false
  | .seq _ es | .choice _ es => closedAll es
  | .star _ e | .plus _ e | .opt _ e | .not _ e | .and _ e | .act _ e _ _ | .asc _ e _ | .span _ e | .range _ e => e.closed
/-- The same for lists. -/
def closedAll (es : List Expr) : Bool :=
  match es with
  | [] => true
  | e :: es => e.closed && closedAll es
end

theorem closedAll_mem {es : List Expr} (h : closedAll es = true) {e : Expr} (he : e ∈ es) : e.closed = true := by
  induction he with
  | head => rw [closedAll, Bool.and_eq_true] at h; exact h.1
  | tail _ _ ih => rw [closedAll, Bool.and_eq_true] at h; exact ih h.2

theorem closed_sub {x e : Expr} (h : Sub x e) (he : e.closed = true) : x.closed = true := by
  induction h with
  | refl => exact he
  | seq hm _ ih => rw [Expr.closed] at he; exact ih (closedAll_mem he hm)
  | choice hm _ ih => rw [Expr.closed] at he; exact ih (closedAll_mem he hm)
  | _ _ ih => rw [Expr.closed] at he; exact ih he

theorem no_ext_of {G : Grammar} (h : (G.rules.all fun r => r.2.closed) = true) (i : Nat) (p : Path) : ¬ Occurs G (.ext i p) := by
  rintro ⟨r, b, hb, hs⟩
  have := closed_sub hs (List.all_eq_true.1 h _ (grammar_find_mem hb))
  cases this

end Oak
