import Verif.Proofs.TypingMsgs
import Verif.Proofs.WFAccept
import Verif.Proofs.Renaming
import Verif.Spec.FrontSpans
/-! What the messages of the typing phase are about: expressions and rules of the grammar. -/
set_option linter.constructorNameAsVariable false
set_option autoImplicit false

namespace Oak
namespace Typing
open Spec

section
variable (G : Grammar)

/-- The messages that have been given are about the grammar. -/
def Placed (s : TState) : Prop := ∀ x ∈ s.msgs, x.About G

variable {G}

theorem Placed.set {s : TState} (h : Placed G s) (i : Nat) (t : IType) : Placed G (s.set i t) := h

theorem Placed.fail {s : TState} (h : Placed G s) {x : TMsg} {l : List TDiag} (hx : x.About G) : Placed G { s with error := true, msgs := s.msgs ++ [x], log := l } := by
  intro y hy
  rcases List.mem_append.1 hy with hy | hy
  · exact h y hy
  · simp only [List.mem_singleton] at hy; subst hy; exact hx

theorem Placed.more {s : TState} (h : Placed G s) {xs : List TMsg} (hx : ∀ x ∈ xs, x.About G) : Placed G { s with msgs := s.msgs ++ xs } := by
  intro y hy
  rcases List.mem_append.1 hy with hy | hy
  · exact h y hy
  · exact hx y hy

theorem surfStep_placed {i : Nat} {s : TState} (h : Placed G s) {walk : Res (IType × TState)} (hw : Keeps (Placed G) walk) :
    Keeps (Placed G) (surfStep i s walk) := by
  intro y hy
  unfold surfStep at hy
  split at hy
  · obtain ⟨⟨t, s1⟩, h1, h2⟩ := Res.bind_eq_ok hy
    obtain ⟨u, h3, h4⟩ := Res.bind_eq_ok h2
    cases h4
    exact (hw _ h1).set i u
  · cases hy; exact h

theorem surfChoice_placed {m i : Nat} {es : List Expr} {tys : List IType} {s : TState} (ho : Occurs G (.choice i es)) (h : Placed G s) :
    Keeps (Placed G) (surfChoice m i tys s) := by
  intro y hy
  unfold surfChoice at hy
  obtain ⟨o, h1, h2⟩ := Res.bind_eq_ok hy
  cases o with
  | some t => cases h2; exact h
  | none => cases h2; exact h.fail ⟨es, ho⟩

theorem action_about (A : AGrammar) (i : Nat) (b : Bool) (f : Path) {e : Expr} (ho : Occurs G (.act i e b f)) : ∀ x ∈ (resolveAction A i b f).2, x.About G := by
  intro x hx
  have : x = .unitAction i := by
    unfold resolveAction at hx
    split at hx
    · split at hx
      · split at hx
        · simpa using hx
        · dsimp only at hx
          split at hx
          · simpa using hx
          · cases hx
      · cases hx
    · cases hx
  subst this
  exact ⟨e, b, f, ho⟩

section
variable {A : AGrammar} {k m : Nat} {call : String → TState → Res (IType × TState)}

theorem surfAll_placed {es : List Expr} (hes : ∀ e ∈ es, ∀ s, Placed G s → Keeps (Placed G) (surfExpr A k m call e s)) (s : TState) (h : Placed G s) :
    Keeps (Placed G) (surfAll A k m call es s) := by
  induction es generalizing s with
  | nil => rw [surfAll]; exact keeps_ok h
  | cons e es ih =>
    rw [surfAll]
    refine keeps_bind (hes e (by simp) s h) fun t s h => ?_
    refine keeps_bind (ih (fun e he => hes e (by simp [he])) s h) fun ts s h => ?_
    exact keeps_ok h

theorem surfExpr_placed (hc : ∀ r s, Placed G s → Keeps (Placed G) (call r s)) (e : Expr) : Occurs G e →
    ∀ s, Placed G s → Keeps (Placed G) (surfExpr A k m call e s) := by
  induction e using Expr.ind with
  | str | any | cls | ext | not | and | asc => intro _ s h; rw [surfExpr]; exact surfStep_placed h (keeps_ok h)
  | nt i r => intro _ s h; rw [surfExpr]; exact surfStep_placed h (hc r s h)
  | act i e b f => intro ho s h; rw [surfExpr]; exact surfStep_placed h (keeps_ok (h.more (action_about A i b f ho)))
  | star i e ih | plus i e ih | opt i e ih | span i e ih | range i e ih =>
    intro ho s h; rw [surfExpr]; exact surfStep_placed h (keeps_bind (ih (Occurs.kid ho (by simp [Expr.kids])) s h) fun t s h => keeps_ok h)
  | seq i es ih =>
    intro ho s h; rw [surfExpr]
    exact surfStep_placed h (keeps_bind (surfAll_placed (fun e he => ih e he (Occurs.kid ho (by simpa [Expr.kids] using he))) s h) fun t s h => keeps_ok h)
  | choice i es ih =>
    intro ho s h; rw [surfExpr]
    exact surfStep_placed h (keeps_bind (surfAll_placed (fun e he => ih e he (Occurs.kid ho (by simpa [Expr.kids] using he))) s h) fun t s h => surfChoice_placed ho h)

end

section
variable {A : AGrammar} {k m : Nat}

theorem surfRule_placed (n : Nat) : ∀ path r s, Placed A.grammar s → Keeps (Placed A.grammar) (surfRule A k m n path r s) := by
  induction n with
  | zero => intro path r s _ y hy; rw [surfRule] at hy; cases hy
  | succ n ih =>
    intro path r s h y hy
    rw [surfRule] at hy
    split at hy
    · cases hy
    · rename_i b hb
      split at hy
      · split at hy
        · cases hy; exact h
        · obtain ⟨⟨t, s1⟩, h1, h2⟩ := Res.bind_eq_ok hy
          obtain ⟨u, h3, h4⟩ := Res.bind_eq_ok h2
          cases h4
          exact (surfExpr_placed (ih _) _ ⟨r, b, hb, .refl⟩ s h _ h1).set _ _
      · cases hy; exact h

theorem surfRules_placed {n : Nat} (rs : List (String × Expr)) : ∀ s, Placed A.grammar s → KeepsS (Placed A.grammar) (surfRules A k m n rs s) := by
  induction rs with
  | nil => intro s h y hy; rw [surfRules] at hy; cases hy; exact h
  | cons r rs ih =>
    intro s h y hy
    rw [surfRules] at hy
    obtain ⟨⟨t, s1⟩, h1, h2⟩ := Res.bind_eq_ok hy
    exact ih s1 (surfRule_placed n _ _ s h _ h1) y h2

end

theorem matchAscription_placed {m i : Nat} {t a : IType} {s : TState} (hi : ∃ e, Occurs G e ∧ e.id = i) (h : Placed G s) :
    KeepsS (Placed G) (matchAscription m i t a s) := by
  intro y hy
  unfold matchAscription at hy
  obtain ⟨b, h1, h2⟩ := Res.bind_eq_ok hy
  cases b with
  | true => cases h2; exact h
  | false => cases h2; exact h.fail hi

theorem depthStep_placed {m i : Nat} {u : Bool} {a : Option IType} {s : TState} {walk : Bool → TState → Res TState} (hi : ∃ e, Occurs G e ∧ e.id = i)
    (h : Placed G s) (hw : ∀ u s, Placed G s → KeepsS (Placed G) (walk u s)) : KeepsS (Placed G) (depthStep m i u a s walk) := by
  intro y hy
  unfold depthStep at hy
  split at hy
  · exact hw _ _ (h.set _ _) y hy
  · split at hy
    · exact hw _ _ h y hy
    · split at hy
      · split at hy
        · exact hw _ _ (h.set _ _) y hy
        · obtain ⟨s1, h1, h2⟩ := Res.bind_eq_ok hy
          exact hw _ _ (matchAscription_placed hi h s1 h1) y h2
      · exact hw _ _ h y hy

section
variable {m : Nat} {surf : Expr → TState → Res (IType × TState)}

theorem depthSeq_placed {es : List Expr} (hes : ∀ e ∈ es, ∀ u a s, Placed G s → KeepsS (Placed G) (depthExpr m surf u a e s)) (u : Bool) (a : Option IType) :
    ∀ s, Placed G s → KeepsS (Placed G) (depthSeq m surf u a es s) := by
  induction es with
  | nil => intro s h y hy; rw [depthSeq] at hy; cases hy; exact h
  | cons e es ih =>
    intro s h y hy
    rw [depthSeq] at hy
    obtain ⟨s1, h1, h2⟩ := Res.bind_eq_ok hy
    exact ih (fun e he => hes e (by simp [he])) s1 (hes e (by simp) _ _ s h s1 h1) y h2

theorem depthAll_placed {es : List Expr} (hes : ∀ e ∈ es, ∀ u a s, Placed G s → KeepsS (Placed G) (depthExpr m surf u a e s)) (u : Bool) (a : Option IType) :
    ∀ s, Placed G s → KeepsS (Placed G) (depthAll m surf u a es s) := by
  induction es with
  | nil => intro s h y hy; rw [depthAll] at hy; cases hy; exact h
  | cons e es ih =>
    intro s h y hy
    rw [depthAll] at hy
    obtain ⟨s1, h1, h2⟩ := Res.bind_eq_ok hy
    exact ih (fun e he => hes e (by simp [he])) s1 (hes e (by simp) _ _ s h s1 h1) y h2

theorem depthExpr_placed (hs : ∀ e, Occurs G e → ∀ s, Placed G s → Keeps (Placed G) (surf e s)) (e : Expr) : Occurs G e →
    ∀ u a s, Placed G s → KeepsS (Placed G) (depthExpr m surf u a e s) := by
  induction e using Expr.ind with
  | str | any | cls | ext | nt => intro ho u a s h; rw [depthExpr]; exact depthStep_placed ⟨_, ho, rfl⟩ h fun u s h y hy => by cases hy; exact h
  | star i e ih | plus i e ih | opt i e ih | span i e ih | range i e ih | not i e ih | and i e ih =>
    intro ho u a s h; rw [depthExpr]; exact depthStep_placed ⟨_, ho, rfl⟩ h fun u s h => ih (Occurs.kid ho (by simp [Expr.kids])) u a s h
  | seq i es ih =>
    intro ho u a s h; rw [depthExpr]
    exact depthStep_placed ⟨_, ho, rfl⟩ h fun u s h => depthSeq_placed (fun e he => ih e he (Occurs.kid ho (by simpa [Expr.kids] using he))) u a s h
  | choice i es ih =>
    intro ho u a s h; rw [depthExpr]
    exact depthStep_placed ⟨_, ho, rfl⟩ h fun u s h => depthAll_placed (fun e he => ih e he (Occurs.kid ho (by simpa [Expr.kids] using he))) u a s h
  | asc i e ty ih =>
    intro ho u a s h; rw [depthExpr]
    have hk := Occurs.kid ho (c := e) (by simp [Expr.kids])
    refine depthStep_placed ⟨_, ho, rfl⟩ h fun u s h y hy => ?_
    have key : ∀ s, Placed G s → ∀ y, (do
        let s ← if u then .ok s else do
          let (_, s) ← surf e s
          .ok s
        depthExpr m surf u (some ty) e s : Res TState) = .ok y → Placed G y := by
      intro s h y hy
      cases u with
      | true => exact ih hk _ _ s h y hy
      | false =>
        obtain ⟨⟨t, s2⟩, h3, h4⟩ := Res.bind_eq_ok hy
        exact ih hk _ _ _ (hs e hk s h _ h3) y h4
    cases a with
    | none => exact key s h y hy
    | some a =>
      obtain ⟨s1, h1, h2⟩ := Res.bind_eq_ok hy
      exact key s1 (matchAscription_placed ⟨_, ho, rfl⟩ h s1 h1) y h2
  | act i e b f ih =>
    intro ho u a s h; rw [depthExpr]
    have hk := Occurs.kid ho (c := e) (by simp [Expr.kids])
    refine depthStep_placed ⟨_, ho, rfl⟩ h fun u s h y hy => ?_
    obtain ⟨⟨t, s2⟩, h3, h4⟩ := Res.bind_eq_ok hy
    exact ih hk _ _ _ (hs e hk s h _ h3) y h4

end

theorem checkRules_placed {m : Nat} (rs : List (String × Expr)) : (∀ r ∈ rs, (G.find r.1).isSome = true) → ∀ s, Placed G s → KeepsS (Placed G) (checkRules m rs s) := by
  induction rs with
  | nil => intro _ s h y hy; rw [checkRules] at hy; cases hy; exact h
  | cons r rs ih =>
    intro hr s h y hy
    obtain ⟨r, e⟩ := r
    rw [checkRules] at hy
    obtain ⟨b, h1, h2⟩ := Res.bind_eq_ok hy
    have hr2 : ∀ r ∈ rs, (G.find r.1).isSome = true := fun q hq => hr q (by simp [hq])
    cases b with
    | true => exact ih hr2 _ (h.fail (x := .untyped r) (hr (r, e) (by simp))) y h2
    | false => exact ih hr2 _ h y h2

end

theorem warn_about {G : Grammar} {T : Nat → IType} {w : List TMsg} (h : warnRecursive G T = .ok w) : ∀ x ∈ w, x.About G := by
  unfold warnRecursive at h
  dsimp only at h
  revert h
  generalize List.filter _ _ = ps
  induction ps generalizing w with
  | nil => intro h; cases h; simp
  | cons p ps ih =>
    intro h
    rw [List.mapM_cons] at h
    obtain ⟨a, h1, h2⟩ := Res.bind_eq_ok h
    obtain ⟨b, h3, h4⟩ := Res.bind_eq_ok h2
    cases h4
    intro x hx
    cases hx with
    | head =>
      split at h1
      · cases h1
      · rename_i z zs hz
        split at h1
        · rename_i hf
          cases h1; exact ⟨z, zs, hz, hf⟩
        · cases h1
    | tail _ hx => exact ih h3 x hx

/-- The messages of the typing phase are about the grammar. -/
theorem typeInference_about {A : AGrammar} {k m n : Nat} {p : Partial (Nat → Ty)} {ms : List TMsg} (hu : (A.grammar.rules.map (·.1)).Nodup)
    (h : typeInference A k m n = .ok (p, ms)) : ∀ x ∈ ms, x.About A.grammar := by
  have h0 : Placed A.grammar (.new k) := by intro x hx; cases hx
  rw [typeInference_eq] at h
  obtain ⟨s1, h1, h⟩ := Res.bind_eq_ok h
  have k1 := surfRules_placed _ _ h0 s1 h1
  split at h
  · cases h; exact k1
  · obtain ⟨w, hw, h⟩ := Res.bind_eq_ok h
    obtain ⟨T1, hT1, h⟩ := Res.bind_eq_ok h
    obtain ⟨s2, h2, h⟩ := Res.bind_eq_ok h
    have k2 := depthAll_placed (G := A.grammar) (m := m) (surf := surfHere A k m n)
      (fun e he => depthExpr_placed (fun e ho s h => surfExpr_placed (surfRule_placed n []) e ho s h) e (by
        obtain ⟨⟨r, e'⟩, hr, rfl⟩ := List.mem_map.1 he
        exact ⟨r, e', find_of_mem_nodup hu hr, .refl⟩)) _ _ _
      (show Placed A.grammar { s1 with types := T1, msgs := s1.msgs ++ w } from Placed.more k1 (warn_about hw)) s2 h2
    split at h
    · cases h; exact k2
    · obtain ⟨T2, hT2, h⟩ := Res.bind_eq_ok h
      obtain ⟨s3, h3, h⟩ := Res.bind_eq_ok h
      have k3 := checkRules_placed _ (fun r hr => find_of_mem hr) _ k2 s3 h3
      split at h <;> (cases h; exact k3)

end Typing
end Oak
