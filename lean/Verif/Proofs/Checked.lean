import Verif.Spec.Checked
import Verif.Proofs.RustGives
/-! A grammar whose types pass the check gives well typed functions. -/
set_option autoImplicit false
set_option linter.constructorNameAsVariable false

namespace Oak
open Typing

section
/-- `RTy.same` is equality. -/
theorem same_eq : ∀ t u : RTy, t.same u = true → t = u := by
  have key : ∀ n, (∀ t u : RTy, sizeOf t ≤ n → t.same u = true → t = u) ∧ (∀ ts us : List RTy, sizeOf ts ≤ n → sameTypes ts us = true → ts = us) := by
    intro n
    induction n with
    | zero =>
      refine ⟨fun t u h => ?_, fun ts us h => ?_⟩
      · cases t <;> simp at h
      · cases ts <;> simp at h
    | succ n ih =>
      refine ⟨fun t u h hs => ?_, fun ts us h hs => ?_⟩
      · cases t <;> cases u <;> simp only [RTy.same, Bool.false_eq_true] at hs
        · rfl
        · rfl
        · rw [ih.1 _ _ (by simp at h; omega) hs]
        · rw [ih.1 _ _ (by simp at h; omega) hs]
        · rw [ih.2 _ _ (by simp at h; omega) hs]
        · rw [beq_iff_eq] at hs; rw [hs]
      · cases ts <;> cases us <;> simp only [sameTypes, Bool.false_eq_true, Bool.and_eq_true] at hs
        · rfl
        · rw [ih.1 _ _ (by simp at h; omega) hs.1, ih.2 _ _ (by simp at h; omega) hs.2]
  exact fun t u h => (key (sizeOf t)).1 t u (Nat.le_refl _) h

theorem sameTypes_eq {ts us : List RTy} (h : sameTypes ts us = true) : ts = us := by
  induction ts generalizing us with
  | nil => cases us <;> simp [sameTypes] at h ⊢
  | cons t ts ih =>
    cases us with
    | nil => simp [sameTypes] at h
    | cons u us =>
      rw [sameTypes, Bool.and_eq_true] at h
      rw [same_eq _ _ h.1, ih h.2]

theorem unpack_eq {t : RTy} {n : Nat} {us : List RTy} (h : t.unpack n = some us) : us.length = n ∧ t = .pack us := by
  unfold RTy.unpack at h
  split at h
  · split at h
    · cases h; exact ⟨rfl, rfl⟩
    · cases h
  · cases h; exact ⟨rfl, rfl⟩
  · split at h
    · rename_i m _ ts
      split at h
      · rename_i hl
        cases h
        refine ⟨hl, ?_⟩
        match us, hl with
        | _ :: _ :: _, _ => rfl
      · cases h
    · cases h

theorem elemOf_eq {ts : List RTy} {t : RTy} (h : elemOf ts = some t) : ts = [.vec t] := by
  unfold elemOf at h
  split at h <;> cases h; rfl

theorem someOf_eq {ts : List RTy} {t : RTy} (h : someOf ts = some t) : ts = [.option t] := by
  unfold someOf at h
  split at h <;> cases h; rfl

theorem oneOf_eq {ts : List RTy} {t : RTy} (h : oneOf ts = some t) : ts = [t] := by
  unfold oneOf at h
  split at h <;> cases h; rfl

theorem restOf_eq {s : String} {ts us : List RTy} (h : restOf s ts = some us) : ts = .rust s :: us := by
  unfold restOf at h
  split at h
  · split at h
    · rename_i hs; cases h; rw [same_eq _ _ hs]
    · cases h
  · cases h

variable {A : AGrammar} {T : Nat → Ty} {n : Nat}

/-- A box whose content is of unknown type. -/
theorem act_box {f : Path} {u : Bool} {s : String} (h : actionType A true f = .external) : ActTyped (A.sigs T) true f u (.rust s) := by
  have h' : actionType A false f = .external := by
    unfold actionType at h ⊢
    split at h
    · split at h
      · split at h <;> cases h
      · rfl
    · rfl
  intro Γ vs ts hΓ
  refine .boxUnknown fun t => ?_
  exact act_unknown (T := T) (u := u) h' Γ vs ts hΓ (t := t)

theorem actGives_typed {b u : Bool} {f : Path} {t : RTy} (h : actGives A b f u t = true) : ActTyped (A.sigs T) b f u t := by
  unfold actGives at h
  split at h
  · rename_i s hs
    rw [Bool.and_eq_true] at h
    rw [same_eq _ _ h.1]
    exact act_rust hs fun h1 h2 => by rw [h1, h2] at h; simp at h
  · rename_i hs
    cases b with
    | false => exact act_unknown hs
    | true =>
      split at h
      · exact act_box hs
      · cases h
  · cases h

theorem checks_gives (e : Expr) : ∀ p ts, checks A T n p e ts = true → Gives (A.sigs T) T p e ts := by
  have emp : ∀ {ts : List RTy}, ts.isEmpty = true → ts = [] := List.isEmpty_iff.1
  induction e using Expr.ind with
  | str i l => intro p ts h; rw [checks] at h; rw [Gives]; exact emp h
  | any i =>
    intro p ts h; rw [checks] at h; rw [Gives]
    split at h
    · rw [if_pos ‹_›]; exact sameTypes_eq h
    · rw [if_neg ‹_›]; exact emp h
  | cls i l =>
    intro p ts h; rw [checks] at h; rw [Gives]
    split at h
    · rw [if_pos ‹_›]; exact sameTypes_eq h
    · rw [if_neg ‹_›]; exact emp h
  | nt i r =>
    intro p ts h; rw [checks] at h; rw [Gives]
    split at h
    · rw [if_pos ‹_›]
      split at h
      · rename_i b hb
        rw [Bool.and_eq_true, beq_iff_eq] at h
        refine ⟨?_, h.1⟩
        intro r' b' hr' hb'
        cases hr'
        rw [hb] at hb'; cases hb'
        replace h := h.2
        split at h
        · rename_i t ht
          exact ⟨n, by rw [ht, same_eq _ _ h]⟩
        · cases h
      · cases h
    · rw [if_neg ‹_›]; exact emp h
  | ext i f =>
    intro p ts h; rw [checks] at h; rw [Gives]
    split at h
    · rw [if_pos ‹_›]
      simp only [Bool.and_eq_true, bne_iff_ne, beq_iff_eq] at h
      refine ⟨?_, h.2⟩
      rintro r' b' rfl
      simp at h
    · rw [if_neg ‹_›]; exact emp h
  | seq i es ih =>
    intro p ts h; rw [checks] at h; rw [Gives]
    have key : ∀ es : List Expr, (∀ e ∈ es, ∀ p ts, checks A T n p e ts = true → Gives (A.sigs T) T p e ts) → ∀ p ts, checksSeq A T n p es ts = true → GivesSeq (A.sigs T) T p es ts := by
      intro es
      induction es with
      | nil => intro _ p ts h; rw [checksSeq] at h; rw [GivesSeq]; exact emp h
      | cons e es ihs =>
        intro ih p ts h
        rw [checksSeq, Bool.and_eq_true] at h
        rw [GivesSeq]
        exact ⟨_, _, ih e (by simp) _ _ h.1, ihs (fun e he => ih e (by simp [he])) _ _ h.2, (List.take_append_drop _ _).symm⟩
    exact key es ih _ _ h
  | choice i es ih =>
    intro p ts h; rw [checks, Bool.and_eq_true] at h; rw [Gives]
    refine ⟨fun h0 => by simp [h0] at h, ?_⟩
    have key : ∀ es : List Expr, (∀ e ∈ es, ∀ p ts, checks A T n p e ts = true → Gives (A.sigs T) T p e ts) → ∀ p, checksAll A T n p es ts = true → GivesAll (A.sigs T) T p es ts := by
      intro es
      induction es with
      | nil => intro _ p h; rw [GivesAll]; trivial
      | cons e es ihs =>
        intro ih p h
        rw [checksAll, Bool.and_eq_true] at h
        rw [GivesAll]
        exact ⟨ih e (by simp) _ _ h.1, ihs (fun e he => ih e (by simp [he])) _ h.2⟩
    exact key es ih _ h.2
  | star i e ih =>
    intro p ts h; rw [checks] at h; rw [Gives]
    split at h
    · rw [if_pos ‹_›]
      split at h
      · rename_i us hu
        obtain ⟨t, h1, h2⟩ := Option.bind_eq_some_iff.1 hu
        obtain ⟨u1, rfl⟩ := unpack_eq h2
        exact ⟨us, ih _ _ h, u1, elemOf_eq h1⟩
      · cases h
    · rw [if_neg ‹_›]; exact emp h
  | plus i e ih =>
    intro p ts h; rw [checks] at h; rw [Gives]
    split at h
    · rw [if_pos ‹_›]
      split at h
      · rename_i us hu
        obtain ⟨t, h1, h2⟩ := Option.bind_eq_some_iff.1 hu
        obtain ⟨u1, rfl⟩ := unpack_eq h2
        exact ⟨us, ih _ _ h, u1, elemOf_eq h1⟩
      · cases h
    · rw [if_neg ‹_›]; exact emp h
  | opt i e ih =>
    intro p ts h; rw [checks] at h; rw [Gives]
    split at h
    · rw [if_pos ‹_›]
      split at h
      · rename_i us hu
        obtain ⟨t, h1, h2⟩ := Option.bind_eq_some_iff.1 hu
        obtain ⟨u1, rfl⟩ := unpack_eq h2
        exact ⟨us, ih _ _ h, u1, someOf_eq h1⟩
      · cases h
    · rw [if_neg ‹_›]; exact emp h
  | not i e ih => intro p ts h; rw [checks, Bool.and_eq_true, Bool.not_eq_true'] at h; rw [Gives]; exact ⟨h.1, emp h.2⟩
  | and i e ih => intro p ts h; rw [checks, Bool.and_eq_true, Bool.not_eq_true'] at h; rw [Gives]; exact ⟨h.1, emp h.2⟩
  | act i e b f ih =>
    intro p ts h; rw [checks] at h; rw [Gives]
    split at h
    · rw [if_pos ‹_›]
      split at h
      · rename_i t us h0 hu
        rw [Bool.and_eq_true] at h
        unfold partsOf at hu
        split at hu
        · exact ⟨us, t, ih _ _ h.1, (unpack_eq hu).1, oneOf_eq h0, actGives_typed h.2⟩
        · cases hu
      · cases h
    · rw [if_neg ‹_›]; exact emp h
  | asc i e t ih => intro p ts h; rw [checks] at h; rw [Gives]; exact ih _ _ h
  | span i e ih =>
    intro p ts h; rw [checks] at h; rw [Gives]
    split at h
    · rw [if_pos ‹_›]
      split at h
      · rename_i us h0
        simp only [Bool.and_eq_true, beq_iff_eq] at h
        exact ⟨us, ih _ _ h.2, h.1, restOf_eq h0⟩
      · cases h
    · rw [if_neg ‹_›]; exact emp h
  | range i e ih =>
    intro p ts h; rw [checks] at h; rw [Gives]
    split at h
    · rw [if_pos ‹_›]
      split at h
      · rename_i us h0
        simp only [Bool.and_eq_true, beq_iff_eq] at h
        exact ⟨us, ih _ _ h.2, h.1, restOf_eq h0⟩
      · cases h
    · rw [if_neg ‹_›]; exact emp h

theorem rule_gives {e : Expr} (h : ruleChecks A T n e = true) (hT : T e.id ≠ .unit) :
    ∃ ts, Gives (A.sigs T) T true e ts ∧ ts.length = (T e.id).card ∧ compileType T n e.id = .ok (.pack ts) := by
  unfold ruleChecks at h
  rw [Bool.or_eq_true, beq_iff_eq] at h
  replace h := h.resolve_left hT
  split at h
  · rename_i ts hts
    unfold partsOf at hts
    split at hts
    · rename_i t ht
      obtain ⟨l1, rfl⟩ := unpack_eq hts
      exact ⟨ts, checks_gives _ _ _ h, l1, ht⟩
    · cases hts
  · cases h

theorem compileType_unit {i : Nat} (h : T i = .unit) : compileType T 1 i = .ok .unit := by rw [compileType, h]

theorem consistent_sized (h : A.consistent T n = true) : A.grammar.sized T = true ∧ A.grammar.coherent T = true := by
  unfold AGrammar.consistent at h
  rw [Bool.and_eq_true, List.all_eq_true] at h
  refine ⟨List.all_eq_true.2 fun r hr => ?_, h.1⟩
  rw [Bool.or_eq_true, beq_iff_eq, Bool.and_eq_true, beq_iff_eq]
  by_cases hT : T r.2.id = .unit
  · exact .inl hT
  · obtain ⟨ts, t1, t2, _⟩ := rule_gives (h.2 r hr) hT
    obtain ⟨s1, s2⟩ := gives_sized _ _ _ t1
    exact .inr ⟨s1, by omega⟩

theorem consistent_fnTyped (hnd : (A.grammar.rules.map (·.1)).Nodup) (h : A.consistent T n = true) {fs : List (FnRef × Fn)} (hc : compileGrammar T A.grammar.rules = .ok fs)
    (hsc : A.grammar.scopable T = true) (hr : ∀ f ∈ fs, f.2.refOk = true) :
    ∀ f ∈ fs, ∃ ty : Name → VTy, if f.1.parser then ∃ t, (A.sigs T).parser f.1.path t ∧ FnTyped (A.sigs T) (fun x t => ty x = t) f.2 t
      else FnTyped (A.sigs T) (fun x t => ty x = t) f.2 .unit := by
  unfold AGrammar.consistent at h
  rw [Bool.and_eq_true, List.all_eq_true] at h
  have sig : ∀ {x : String × Expr} {m : Nat} {t : RTy}, x ∈ A.grammar.rules → compileType T m x.2.id = .ok t → (A.sigs T).parser [x.1] t := by
    rintro ⟨r, b⟩ m t hx ht r' b' hr' hb'
    cases hr'
    rw [body_of_mem hnd hx] at hb'; cases hb'
    exact ⟨m, ht⟩
  refine grammar_fnTyped hc (fun r hr hT => ?_) (fun r hr hT => sig hr (compileType_unit hT)) ?_ hr
  · obtain ⟨ts, t1, t2, t3⟩ := rule_gives (h.2 r hr) hT
    exact ⟨ts, t1, t2, sig hr t3⟩
  · simpa [Grammar.scopable, List.all_eq_true] using hsc

end
end Oak
