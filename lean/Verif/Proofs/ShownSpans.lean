import Verif.Proofs.PegBasic
import Verif.Spec.Calls
import Verif.Spec.WellFormed
/-!
The spans and ranges shown by the data of a match.
-/
set_option linter.constructorNameAsVariable false
set_option autoImplicit false

namespace Oak
open Spec

/-- `w` is the value that the spanned expression `x` (`..c` or `...c`) adds in front of those of `c` when `c` is matched between the positions `s1` and `s2`. -/
def SpanValue (sp : SpanSpec) (x c : Expr) (s1 s2 : List Char) (w : Val) : Prop :=
  (∃ i, x = .span i c ∧ w = .span (sp.span s1 s2).1 (sp.span s1 s2).2) ∨ (∃ i, x = .range i c ∧ w = .range (sp.pos s1) (sp.pos s2))

/-- Spans and ranges. -/
def Val.isSpan : Val → Bool
  | .span _ _ | .range _ _ => true
  | _ => false

/-- `w` was given by an external rule, or is the span of a match of a spanned expression between the two positions. -/
def SpanFound (G : Grammar) (X : ExtSpec) (sp : SpanSpec) (e : Expr) (s s' : List Char) (xs : List Val) (w : Val) : Prop :=
  (∃ y ∈ xs, Shown w y) ∨ ∃ x c s1 s2 t L, (Sub x e ∨ Occurs G x) ∧ Peg G X c s1 (.ok s2 t) L ∧ s1 <:+ s ∧ s' <:+ s2 ∧ SpanValue sp x c s1 s2 w

variable {G : Grammar} {X : ExtSpec} {T : Nat → Ty} {sp : SpanSpec} {w : Val}

theorem SpanFound.mono {e e' s s' u u' xs xs'} (h : SpanFound G X sp e s s' xs w) (he : ∀ x, (∃ i c, x = .span i c ∨ x = .range i c) → Sub x e → Sub x e' ∨ Occurs G x) (hs : s <:+ u) (hs' : u' <:+ s')
    (hx : ∀ y ∈ xs, y ∈ xs') : SpanFound G X sp e' u u' xs' w := by
  rcases h with ⟨y, hy, h⟩ | ⟨x, c, s1, s2, t, L, h1, h2, h3, h4, h5⟩
  · exact .inl ⟨y, hx y hy, h⟩
  · exact .inr ⟨x, c, s1, s2, t, L, h1.elim (he x (by rcases h5 with ⟨i, h, _⟩ | ⟨i, h, _⟩ <;> exact ⟨i, c, by simp [h]⟩)) .inr, h2, h3.trans hs, hs'.trans h4, h5⟩

theorem span_tuple (hw : w.isSpan = true) {vs : List Val} (h : Shown w (tupleVal vs)) : ∃ v ∈ vs, Shown w v := by
  have key : ∀ u, u = Val.tup vs → Shown w u → ∃ v ∈ vs, Shown w v := by
    intro u hu h
    cases h
    case here => subst hu; cases hw
    all_goals cases hu
    case tup hs hm => exact ⟨_, hm, hs⟩
  cases vs with
  | nil => exact key _ rfl h
  | cons v vs =>
    cases vs with
    | nil => exact ⟨v, by simp, h⟩
    | cons x vs => exact key _ rfl h

theorem span_list (hw : w.isSpan = true) {vs : List Val} (h : Shown w (.list vs)) : ∃ v ∈ vs, Shown w v := by
  cases h with
  | here => cases hw
  | list hm hs => exact ⟨_, hm, hs⟩

theorem _root_.Oak.Spec.Peg.shown_spans (hX : X.Forward) (hw : w.isSpan = true) {e s o L} (h : Peg G X e s o L) : ∀ {s' t}, o = .ok s' t → ∀ v ∈ ast G T sp e t, Shown w v →
    SpanFound G X sp e s s' t.exts w := by
  have R := List.suffix_refl (α := Char)
  induction h with
  | str_ok | any_ok | cls_ok _ | not_ok _ | and_ok _ | star_stop _ | opt_none _ =>
    rintro s' t ⟨⟩ v hv hs
    simp only [ast, astRep] at hv
    first
      | (cases hv; done)
      | (split at hv
         · cases hv
         · rw [List.mem_singleton] at hv; subst hv
           cases hs
           · cases hw
           all_goals (rename_i hm; cases hm))
      | (split at hv
         · cases hv
         · rw [List.mem_singleton] at hv; subst hv
           cases hs; cases hw)
  | nt_ok hb hp ih =>
    rintro s' t ⟨⟩ v hv hs
    simp only [ast, hb] at hv
    split at hv
    · cases hv
    · exact (ih rfl v hv hs).mono (fun x _ hx => .inr ⟨_, _, hb, hx⟩) (R _) (R _) (fun y hy => by rw [Tree.exts]; exact hy)
  | @ext i p s o L hx =>
    rintro s' t rfl v hv hs
    cases t with
    | ext x =>
      simp only [ast] at hv
      split at hv
      · cases hv
      · rw [List.mem_singleton] at hv; subst hv
        exact .inl ⟨v, by simp [Tree.exts], hs⟩
    | leaf => simp only [ast] at hv; cases hv
    | chr c | none =>
      simp only [ast] at hv
      split at hv
      · cases hv
      · rw [List.mem_singleton] at hv; subst hv
        cases hs; cases hw
    | _ => simp only [ast] at hv; split at hv <;> cases hv
  | seq_nil =>
    rintro s' t ⟨⟩ v hv hs
    simp only [ast, astSeq] at hv
    split at hv <;> cases hv
  | @seq_cons i e es s s1 s2 t ts L1 L2 h1 h2 ih1 ih2 =>
    rintro s' t ⟨⟩ v hv hs
    have f1 := (h1.forward hX).1 _ _ rfl
    have f2 := (h2.forward hX).1 _ _ rfl
    by_cases hu : T i = .unit
    · simp only [ast, astSeq, Expr.id, hu, if_true] at hv; cases hv
    · simp only [ast, astSeq, Expr.id, hu, if_false] at hv
      rcases List.mem_append.1 hv with hv | hv
      · exact (ih1 rfl v hv hs).mono (fun x _ hx => .inl (.seq List.mem_cons_self hx)) (R _) f2 (fun y hy => by simp [Tree.exts, hy])
      · have hv : v ∈ ast G T sp (.seq i es) (.seq ts) := by simp only [ast, Expr.id, hu, if_false]; exact hv
        refine (ih2 rfl v hv hs).mono (fun x hn hx => .inl ?_) f1 (R _) (fun y hy => by simp only [Tree.exts] at hy ⊢; simp [hy])
        cases hx with
        | refl => obtain ⟨_, _, h | h⟩ := hn <;> cases h
        | seq hm hx => exact .seq (List.mem_cons_of_mem _ hm) hx
  | @choice_first i e es s s1 t L h1 ih =>
    rintro s' t ⟨⟩ v hv hs
    by_cases hu : T i = .unit
    · simp only [ast, Expr.id, List.getElem?_cons_zero, hu, if_true] at hv; cases hv
    · simp only [ast, Expr.id, List.getElem?_cons_zero, hu, if_false] at hv
      exact (ih rfl v hv hs).mono (fun x _ hx => .inl (.choice List.mem_cons_self hx)) (R _) (R _) (fun y hy => by rw [Tree.exts]; exact hy)
  | @choice_next i e es s s1 k t L1 L2 h1 h2 _ ih =>
    rintro s' t ⟨⟩ v hv hs
    have hv : v ∈ ast G T sp (.choice i es) (.alt k t) := by
      simp only [ast, Expr.id, List.getElem?_cons_succ] at hv ⊢
      exact hv
    refine (ih rfl v hv hs).mono (fun x hn hx => .inl ?_) (R _) (R _) (fun y hy => by simp only [Tree.exts] at hy ⊢; exact hy)
    cases hx with
    | refl => obtain ⟨_, _, h | h⟩ := hn <;> cases h
    | choice hm hx => exact .choice (List.mem_cons_of_mem _ hm) hx
  | @star_more i e s s1 s2 t ts L1 L2 h1 h2 ih1 ih2 =>
    rintro s' t ⟨⟩ v hv hs
    have f1 := (h1.forward hX).1 _ _ rfl
    have f2 := (h2.forward hX).1 _ _ rfl
    by_cases hu : T i = .unit
    · simp only [ast, astRep, Expr.id, hu, if_true] at hv; cases hv
    · simp only [ast, astRep, Expr.id, hu, if_false] at hv
      rw [List.mem_singleton] at hv; subst hv
      obtain ⟨u, hu', hs⟩ := span_list hw hs
      rcases List.mem_cons.1 hu' with rfl | hu'
      · obtain ⟨v, hv, hs⟩ := span_tuple hw hs
        exact (ih1 rfl v hv hs).mono (fun x _ hx => .inl (.star hx)) (R _) f2 (fun y hy => by simp [Tree.exts, hy])
      · refine (ih2 rfl (.list (astRep G T sp e ts)) (by simp [ast, Expr.id, hu]) (.list hu' hs)).mono (fun x hn hx => .inl hx) f1 (R _)
          (fun y hy => by simp only [Tree.exts] at hy ⊢; simp [hy])
  | @plus_ok i e s s1 s2 t ts L1 L2 h1 h2 ih1 ih2 =>
    rintro s' t ⟨⟩ v hv hs
    have f1 := (h1.forward hX).1 _ _ rfl
    have f2 := (h2.forward hX).1 _ _ rfl
    by_cases hu : T i = .unit
    · simp only [ast, astRep, Expr.id, hu, if_true] at hv; cases hv
    · simp only [ast, astRep, Expr.id, hu, if_false] at hv
      rw [List.mem_singleton] at hv; subst hv
      obtain ⟨u, hu', hs⟩ := span_list hw hs
      rcases List.mem_cons.1 hu' with rfl | hu'
      · obtain ⟨v, hv, hs⟩ := span_tuple hw hs
        exact (ih1 rfl v hv hs).mono (fun x _ hx => .inl (.plus hx)) (R _) f2 (fun y hy => by simp [Tree.exts, hy])
      · refine (ih2 rfl (.list (astRep G T sp e ts)) (by simp [ast, Expr.id, hu]) (.list hu' hs)).mono (fun x hn hx => .inl ?_) f1 (R _)
          (fun y hy => by simp only [Tree.exts] at hy ⊢; simp [hy])
        cases hx with
        | refl => obtain ⟨_, _, h | h⟩ := hn <;> cases h
        | star hx => exact .plus hx
  | @opt_some i e s s1 t L h1 ih =>
    rintro s' t ⟨⟩ v hv hs
    by_cases hu : T i = .unit
    · simp only [ast, Expr.id, hu, if_true] at hv; cases hv
    · simp only [ast, Expr.id, hu, if_false] at hv
      rw [List.mem_singleton] at hv; subst hv
      cases hs with
      | here => cases hw
      | some hs =>
        obtain ⟨v, hv, hs⟩ := span_tuple hw hs
        exact (ih rfl v hv hs).mono (fun x _ hx => .inl (.opt hx)) (R _) (R _) (fun y hy => by rw [Tree.exts]; exact hy)
  | @act_ok i e b f s s1 t L h1 ih =>
    rintro s' t ⟨⟩ v hv hs
    by_cases hu : T i = .unit
    · simp only [ast, Expr.id, hu, if_true] at hv; cases hv
    · simp only [ast, Expr.id, hu, if_false] at hv
      rw [List.mem_singleton] at hv
      have hs' : Shown w (if isVariant f && T e.id = .unit then Val.path f else .app f (ast G T sp e t)) := by
        subst hv
        cases b with
        | false => exact hs
        | true =>
          simp only [if_true] at hs
          cases hs with
          | here => cases hw
          | box hs => exact hs
      split at hs'
      · cases hs'; cases hw
      · cases hs' with
        | here => cases hw
        | app hm hs => exact (ih rfl _ hm hs).mono (fun x _ hx => .inl (.act hx)) (R _) (R _) (fun y hy => by rw [Tree.exts]; exact hy)
  | @asc_ok i e ty s s1 t L h1 ih =>
    rintro s' t ⟨⟩ v hv hs
    by_cases hu : T i = .unit
    · simp only [ast, Expr.id, hu, if_true] at hv; cases hv
    · simp only [ast, Expr.id, hu, if_false] at hv
      exact (ih rfl v hv hs).mono (fun x _ hx => .inl (.asc hx)) (R _) (R _) (fun y hy => by rw [Tree.exts]; exact hy)
  | @span_ok i e s s1 t L h1 ih =>
    rintro s' t ⟨⟩ v hv hs
    by_cases hu : T i = .unit
    · simp only [ast, Expr.id, hu, if_true] at hv; cases hv
    · simp only [ast, Expr.id, hu, if_false] at hv
      rcases List.mem_cons.1 hv with rfl | hv
      · cases hs
        exact .inr ⟨_, e, s, _, _, _, .inl .refl, h1, R _, R _, .inl ⟨i, rfl, rfl⟩⟩
      · exact (ih rfl v hv hs).mono (fun x _ hx => .inl (.span hx)) (R _) (R _) (fun y hy => by rw [Tree.exts]; exact hy)
  | @range_ok i e s s1 t L h1 ih =>
    rintro s' t ⟨⟩ v hv hs
    by_cases hu : T i = .unit
    · simp only [ast, Expr.id, hu, if_true] at hv; cases hv
    · simp only [ast, Expr.id, hu, if_false] at hv
      rcases List.mem_cons.1 hv with rfl | hv
      · cases hs
        exact .inr ⟨_, e, s, _, _, _, .inl .refl, h1, R _, R _, .inr ⟨i, rfl, rfl⟩⟩
      · exact (ih rfl v hv hs).mono (fun x _ hx => .inl (.range hx)) (R _) (R _) (fun y hy => by rw [Tree.exts]; exact hy)
  | _ => rintro s' t h; cases h

end Oak
