import Verif.Spec.Typing
import Verif.Proofs.TypingEnd
/-!
The typing phase is refused iff an error (other than that of a unit action) is reported.
-/
set_option linter.constructorNameAsVariable false
set_option autoImplicit false
set_option linter.unusedSectionVars false

namespace Oak
namespace Typing

/-- The flag tells whether an error was reported. -/
def Honest (s : TState) : Prop := s.error = true ↔ ∃ x ∈ s.msgs, x.blocking = true

theorem Honest.set {s : TState} (h : Honest s) (i : Nat) (t : IType) : Honest (s.set i t) := h

theorem Honest.fail {s : TState} {x : TMsg} {l : List TDiag} (hx : x.blocking = true) : Honest { s with error := true, msgs := s.msgs ++ [x], log := l } := by
  refine ⟨fun _ => ⟨x, by simp, hx⟩, fun _ => rfl⟩

theorem Honest.more {s : TState} (h : Honest s) {xs : List TMsg} (hx : ∀ x ∈ xs, x.blocking = false) : Honest { s with msgs := s.msgs ++ xs } := by
  unfold Honest at *
  simp only [List.mem_append]
  rw [h]
  constructor
  · rintro ⟨x, h1, h2⟩; exact ⟨x, .inl h1, h2⟩
  · rintro ⟨x, h1 | h1, h2⟩
    · exact ⟨x, h1, h2⟩
    · rw [hx x h1] at h2; cases h2

/-- Facts on the state that do not depend on the types and resist the messages that are given during the visits. -/
structure Stable (Q : TState → Prop) : Prop where
  set : ∀ {s}, Q s → ∀ i t, Q (s.set i t)
  fail : ∀ {s x d}, Q s → x.blocking = true → tdiagMsg d = x → Q { s with error := true, msgs := s.msgs ++ [x], log := s.log ++ [d] }
  more : ∀ {s xs}, Q s → (∀ x ∈ xs, ∃ j, x = TMsg.unitAction j) → Q { s with msgs := s.msgs ++ xs }

theorem stable_honest : Stable Honest where
  set h i t := h.set i t
  fail _ hx _ := .fail hx
  more h hx := h.more fun x hm => by obtain ⟨j, rfl⟩ := hx x hm; rfl

/-- A visit that keeps these facts. -/
def Keeps (Q : TState → Prop) {α : Type} (x : Res (α × TState)) : Prop := ∀ y, x = .ok y → Q y.2
/-- The same without a result. -/
def KeepsS (Q : TState → Prop) (x : Res TState) : Prop := ∀ s, x = .ok s → Q s

section
variable {Q : TState → Prop}

theorem keeps_ok {α : Type} {a : α} {s : TState} (h : Q s) : Keeps Q (.ok (a, s)) := by
  intro y hy; cases hy; exact h

theorem keeps_bind {α β : Type} {x : Res (α × TState)} {f : α × TState → Res (β × TState)} (hx : Keeps Q x) (hf : ∀ a s, Q s → Keeps Q (f (a, s))) :
    Keeps Q (x >>= f) := by
  intro y hy
  obtain ⟨⟨a, s⟩, h1, h2⟩ := Res.bind_eq_ok hy
  exact hf a s (hx _ h1) y h2

variable (hQ : Stable Q)
include hQ

theorem surfStep_keeps {i : Nat} {s : TState} (h : Q s) {walk : Res (IType × TState)} (hw : Keeps Q walk) : Keeps Q (surfStep i s walk) := by
  intro y hy
  unfold surfStep at hy
  split at hy
  · obtain ⟨⟨t, s1⟩, h1, h2⟩ := Res.bind_eq_ok hy
    obtain ⟨u, h3, h4⟩ := Res.bind_eq_ok h2
    cases h4
    exact hQ.set (hw _ h1) i u
  · cases hy; exact h

theorem surfChoice_keeps {m i : Nat} {tys : List IType} {s : TState} (h : Q s) : Keeps Q (surfChoice m i tys s) := by
  intro y hy
  unfold surfChoice at hy
  obtain ⟨o, h1, h2⟩ := Res.bind_eq_ok hy
  cases o with
  | some t => cases h2; exact h
  | none => cases h2; exact hQ.fail h rfl rfl

omit hQ in
theorem action_msgs (A : AGrammar) (i : Nat) (b : Bool) (f : Path) : ∀ x ∈ (resolveAction A i b f).2, ∃ j, x = .unitAction j := by
  intro x hx
  unfold resolveAction at hx
  split at hx
  · split at hx
    · split at hx
      · simp only [List.mem_singleton] at hx; subst hx; exact ⟨_, rfl⟩
      · dsimp only at hx
        split at hx
        · simp only [List.mem_singleton] at hx; subst hx; exact ⟨_, rfl⟩
        · cases hx
    · cases hx
  · cases hx

section
variable {A : AGrammar} {k m : Nat} {call : String → TState → Res (IType × TState)}

theorem surfAll_keeps {es : List Expr} (hes : ∀ e ∈ es, ∀ s, Q s → Keeps Q (surfExpr A k m call e s)) (s : TState) (h : Q s) :
    Keeps Q (surfAll A k m call es s) := by
  induction es generalizing s with
  | nil => rw [surfAll]; exact keeps_ok h
  | cons e es ih =>
    rw [surfAll]
    refine keeps_bind (hes e (by simp) s h) fun t s h => ?_
    refine keeps_bind (ih (fun e he => hes e (by simp [he])) s h) fun ts s h => ?_
    exact keeps_ok h

theorem surfExpr_keeps (hc : ∀ r s, Q s → Keeps Q (call r s)) (e : Expr) : ∀ s, Q s → Keeps Q (surfExpr A k m call e s) := by
  induction e using Expr.ind with
  | str | any | cls | ext | not | and | asc => intro s h; rw [surfExpr]; exact surfStep_keeps hQ h (keeps_ok h)
  | nt i r => intro s h; rw [surfExpr]; exact surfStep_keeps hQ h (hc r s h)
  | act i e b f => intro s h; rw [surfExpr]; exact surfStep_keeps hQ h (keeps_ok (hQ.more h (action_msgs A i b f)))
  | star i e ih | plus i e ih | opt i e ih | span i e ih | range i e ih =>
    intro s h; rw [surfExpr]; exact surfStep_keeps hQ h (keeps_bind (ih s h) fun t s h => keeps_ok h)
  | seq i es ih => intro s h; rw [surfExpr]; exact surfStep_keeps hQ h (keeps_bind (surfAll_keeps hQ ih s h) fun t s h => keeps_ok h)
  | choice i es ih => intro s h; rw [surfExpr]; exact surfStep_keeps hQ h (keeps_bind (surfAll_keeps hQ ih s h) fun t s h => surfChoice_keeps hQ h)

theorem surfRule_keeps (n : Nat) : ∀ path r s, Q s → Keeps Q (surfRule A k m n path r s) := by
  induction n with
  | zero => intro path r s _ y hy; rw [surfRule] at hy; cases hy
  | succ n ih =>
    intro path r s h y hy
    rw [surfRule] at hy
    split at hy
    · cases hy
    · split at hy
      · split at hy
        · cases hy; exact h
        · obtain ⟨⟨t, s1⟩, h1, h2⟩ := Res.bind_eq_ok hy
          obtain ⟨u, h3, h4⟩ := Res.bind_eq_ok h2
          cases h4
          exact hQ.set (surfExpr_keeps hQ (ih _) _ s h _ h1) _ _
      · cases hy; exact h

theorem surfRules_keeps {n : Nat} (rs : List (String × Expr)) : ∀ s, Q s → KeepsS Q (surfRules A k m n rs s) := by
  induction rs with
  | nil => intro s h y hy; rw [surfRules] at hy; cases hy; exact h
  | cons r rs ih =>
    intro s h y hy
    rw [surfRules] at hy
    obtain ⟨⟨t, s1⟩, h1, h2⟩ := Res.bind_eq_ok hy
    exact ih s1 (surfRule_keeps hQ n _ _ s h _ h1) y h2

end

theorem matchAscription_keeps {m i : Nat} {t a : IType} {s : TState} (h : Q s) : KeepsS Q (matchAscription m i t a s) := by
  intro y hy
  unfold matchAscription at hy
  obtain ⟨b, h1, h2⟩ := Res.bind_eq_ok hy
  cases b with
  | true => cases h2; exact h
  | false => cases h2; exact hQ.fail h rfl rfl

theorem depthStep_keeps {m i : Nat} {u : Bool} {a : Option IType} {s : TState} {walk : Bool → TState → Res TState} (h : Q s)
    (hw : ∀ u s, Q s → KeepsS Q (walk u s)) : KeepsS Q (depthStep m i u a s walk) := by
  intro y hy
  unfold depthStep at hy
  split at hy
  · exact hw _ _ (hQ.set h _ _) y hy
  · split at hy
    · exact hw _ _ h y hy
    · split at hy
      · split at hy
        · exact hw _ _ (hQ.set h _ _) y hy
        · obtain ⟨s1, h1, h2⟩ := Res.bind_eq_ok hy
          exact hw _ _ (matchAscription_keeps hQ h s1 h1) y h2
      · exact hw _ _ h y hy

section
variable {m : Nat} {surf : Expr → TState → Res (IType × TState)}

theorem depthSeq_keeps {es : List Expr} (hes : ∀ e ∈ es, ∀ u a s, Q s → KeepsS Q (depthExpr m surf u a e s)) (u : Bool) (a : Option IType) :
    ∀ s, Q s → KeepsS Q (depthSeq m surf u a es s) := by
  induction es with
  | nil => intro s h y hy; rw [depthSeq] at hy; cases hy; exact h
  | cons e es ih =>
    intro s h y hy
    rw [depthSeq] at hy
    obtain ⟨s1, h1, h2⟩ := Res.bind_eq_ok hy
    exact ih (fun e he => hes e (by simp [he])) s1 (hes e (by simp) _ _ s h s1 h1) y h2

theorem depthAll_keeps {es : List Expr} (hes : ∀ e ∈ es, ∀ u a s, Q s → KeepsS Q (depthExpr m surf u a e s)) (u : Bool) (a : Option IType) :
    ∀ s, Q s → KeepsS Q (depthAll m surf u a es s) := by
  induction es with
  | nil => intro s h y hy; rw [depthAll] at hy; cases hy; exact h
  | cons e es ih =>
    intro s h y hy
    rw [depthAll] at hy
    obtain ⟨s1, h1, h2⟩ := Res.bind_eq_ok hy
    exact ih (fun e he => hes e (by simp [he])) s1 (hes e (by simp) _ _ s h s1 h1) y h2

theorem depthExpr_keeps (hs : ∀ e s, Q s → Keeps Q (surf e s)) (e : Expr) : ∀ u a s, Q s → KeepsS Q (depthExpr m surf u a e s) := by
  induction e using Expr.ind with
  | str | any | cls | ext | nt => intro u a s h; rw [depthExpr]; exact depthStep_keeps hQ h fun u s h y hy => by cases hy; exact h
  | star i e ih | plus i e ih | opt i e ih | span i e ih | range i e ih | not i e ih | and i e ih =>
    intro u a s h; rw [depthExpr]; exact depthStep_keeps hQ h fun u s h => ih u a s h
  | seq i es ih => intro u a s h; rw [depthExpr]; exact depthStep_keeps hQ h fun u s h => depthSeq_keeps hQ ih u a s h
  | choice i es ih => intro u a s h; rw [depthExpr]; exact depthStep_keeps hQ h fun u s h => depthAll_keeps hQ ih u a s h
  | asc i e ty ih =>
    intro u a s h; rw [depthExpr]
    refine depthStep_keeps hQ h fun u s h y hy => ?_
    have key : ∀ s, Q s → ∀ y, (do
        let s ← if u then .ok s else do
          let (_, s) ← surf e s
          .ok s
        depthExpr m surf u (some ty) e s : Res TState) = .ok y → Q y := by
      intro s h y hy
      cases u with
      | true => exact ih _ _ s h y hy
      | false =>
        obtain ⟨⟨t, s2⟩, h3, h4⟩ := Res.bind_eq_ok hy
        exact ih _ _ _ (hs e s h _ h3) y h4
    cases a with
    | none => exact key s h y hy
    | some a =>
      obtain ⟨s1, h1, h2⟩ := Res.bind_eq_ok hy
      exact key s1 (matchAscription_keeps hQ h s1 h1) y h2
  | act i e b f ih =>
    intro u a s h; rw [depthExpr]
    refine depthStep_keeps hQ h fun u s h y hy => ?_
    obtain ⟨⟨t, s2⟩, h3, h4⟩ := Res.bind_eq_ok hy
    exact ih _ _ _ (hs e s h _ h3) y h4

end

theorem checkRules_keeps {m : Nat} (rs : List (String × Expr)) : ∀ s, Q s → KeepsS Q (checkRules m rs s) := by
  induction rs with
  | nil => intro s h y hy; rw [checkRules] at hy; cases hy; exact h
  | cons r rs ih =>
    intro s h y hy
    obtain ⟨r, e⟩ := r
    rw [checkRules] at hy
    obtain ⟨b, h1, h2⟩ := Res.bind_eq_ok hy
    cases b with
    | true => exact ih _ (hQ.fail (d := .untyped r) h rfl rfl) y h2
    | false => exact ih _ h y h2

end

theorem warn_msgs {G : Grammar} {T : Nat → IType} {w : List TMsg} (h : warnRecursive G T = .ok w) : ∀ x ∈ w, x.blocking = false := by
  unfold warnRecursive at h
  dsimp only at h
  revert h
  generalize List.filter _ _ = ps
  induction ps generalizing w with
  | nil => intro h; cases h; simp
  | cons p ps ih =>
    intro h
    rw [List.mapM_cons] at h
    obtain ⟨a, h1, h2⟩ := Res.bind_eq_ok h
    obtain ⟨b, h3, h4⟩ := Res.bind_eq_ok h2
    cases h4
    intro x hx
    cases hx with
    | head =>
      split at h1
      · cases h1
      · split at h1
        · cases h1; rfl
        · cases h1
    | tail _ hx => exact ih h3 x hx

theorem typeInference_honest {A : AGrammar} {k m n : Nat} {p : Partial (Nat → Ty)} {ms : List TMsg} (h : typeInference A k m n = .ok (p, ms)) :
    ((∃ T, p = .value T) ∨ p = .nothing) ∧ ((∃ T, p = .value T) ↔ ∀ x ∈ ms, x.blocking = false) := by
  have key : ∀ s : TState, Honest s → s.error = true → ((∃ T, (.nothing : Partial (Nat → Ty)) = .value T) ∨ (.nothing : Partial (Nat → Ty)) = .nothing) ∧
      ((∃ T, (.nothing : Partial (Nat → Ty)) = .value T) ↔ ∀ x ∈ s.msgs, x.blocking = false) := by
    intro s h he
    refine ⟨.inr rfl, ⟨fun h => (by obtain ⟨_, h⟩ := h; cases h), fun hx => ?_⟩⟩
    obtain ⟨x, h1, h2⟩ := h.1 he
    rw [hx x h1] at h2; cases h2
  have h0 : Honest (.new k) := ⟨fun h => (by cases h), fun ⟨x, h, _⟩ => (by cases h)⟩
  rw [typeInference_eq] at h
  obtain ⟨s1, h1, h⟩ := Res.bind_eq_ok h
  have k1 := surfRules_keeps stable_honest _ _ h0 s1 h1
  split at h
  · rename_i he; cases h; exact key s1 k1 he
  · obtain ⟨w, hw, h⟩ := Res.bind_eq_ok h
    obtain ⟨T1, hT1, h⟩ := Res.bind_eq_ok h
    obtain ⟨s2, h2, h⟩ := Res.bind_eq_ok h
    have k2 := depthAll_keeps stable_honest (m := m) (surf := surfHere A k m n) (fun e _ => depthExpr_keeps stable_honest (fun e s h => surfExpr_keeps stable_honest (surfRule_keeps stable_honest n []) e s h) e) _ _ _
      (show Honest { s1 with types := T1, msgs := s1.msgs ++ w } from k1.more (warn_msgs hw)) s2 h2
    split at h
    · rename_i he; cases h; exact key s2 k2 he
    · obtain ⟨T2, hT2, h⟩ := Res.bind_eq_ok h
      obtain ⟨s3, h3, h⟩ := Res.bind_eq_ok h
      have k3 := checkRules_keeps stable_honest _ _ k2 s3 h3
      split at h
      · rename_i he; cases h; exact key s3 k3 he
      · rename_i he
        cases h
        refine ⟨.inl ⟨_, rfl⟩, ⟨fun _ x hx => ?_, fun _ => ⟨_, rfl⟩⟩⟩
        cases hb : x.blocking with
        | false => rfl
        | true => exact absurd (k3.2 ⟨x, hx, hb⟩) he

end Typing
end Oak
