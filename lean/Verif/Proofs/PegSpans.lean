import Verif.Proofs.PegOps
import Verif.Spec.Resolved
import Verif.Proofs.RunSound
/-!
Spans of parse trees, logs of failures, trees without spans.
-/
set_option linter.constructorNameAsVariable false
set_option autoImplicit false

namespace Oak.Spec
open Oak

variable {G : Grammar} {X : ExtSpec}

/-- External rules give no span of their own (they give opaque values). -/
def ExtSpec.Opaque (X : ExtSpec) : Prop := ∀ p s s' t L, X p s (.ok s' t) L → t.spans = []

theorem Peg.spans_within (hX : X.Forward) (hO : X.Opaque) {e s o L} (h : Peg G X e s o L) : ∀ {s' t}, o = .ok s' t →
    ∀ x ∈ t.spans, x.1 <:+ s ∧ x.2 <:+ x.1 ∧ s' <:+ x.2 := by
  induction h with
  | str_ok | any_ok | cls_ok _ | seq_nil => intro s' t ho x hx; cases ho; simp [Tree.spans] at hx
  | str_fail _ | any_fail | cls_fail _ | cls_eof | nt_fail _ _ _ | seq_fail _ _ | seq_later _ _ _ _ | choice_nil | choice_fail _ _ _ _
  | plus_fail _ _ | not_fail _ _ | and_fail _ _ | act_fail _ _ | asc_fail _ _ | span_fail _ _ | range_fail _ _ =>
    intro s' t ho; cases ho
  | nt_ok _ _ ih | choice_first _ ih | opt_some _ ih | act_ok _ ih | asc_ok _ ih =>
    intro s' t ho x hx; cases ho; exact ih rfl x (by simpa [Tree.spans] using hx)
  | choice_next _ _ _ ih =>
    intro s' t ho x hx; cases ho; exact ih rfl x (by simpa [Tree.spans] using hx)
  | ext hx =>
    intro s' t ho x hx'
    subst ho
    rw [hO _ _ _ _ _ hx] at hx'; cases hx'
  | seq_cons h1 h2 ih1 ih2 | star_more h1 h2 ih1 ih2 | plus_ok h1 h2 ih1 ih2 =>
    intro s' t ho x hx; cases ho
    have f1 := (h1.forward hX).1 _ _ rfl
    have f2 := (h2.forward hX).1 _ _ rfl
    simp only [Tree.spans, List.flatMap_cons, List.mem_append] at hx
    rcases hx with hx | hx
    · obtain ⟨a, b, c⟩ := ih1 rfl x hx; exact ⟨a, b, f2.trans c⟩
    · obtain ⟨a, b, c⟩ := ih2 rfl x (by simpa [Tree.spans] using hx); exact ⟨a.trans f1, b, c⟩
  | star_stop _ _ | opt_none _ _ | not_ok _ _ | and_ok _ _ => intro s' t ho x hx; cases ho; simp [Tree.spans] at hx
  | span_ok h ih | range_ok h ih =>
    intro s' t ho x hx; cases ho
    simp only [Tree.spans, List.mem_cons] at hx
    rcases hx with rfl | hx
    · exact ⟨List.suffix_rfl, (h.forward hX).1 _ _ rfl, List.suffix_rfl⟩
    · exact ih rfl x hx

/-- Without `!` and external rules, a failure comes from a terminal. -/
theorem Peg.fail_log (hG : ∀ r e, G.find r = some e → e.positive = true ∧ e.shaped = true) {e s o L} (h : Peg G X e s o L) :
    e.positive = true → e.shaped = true → o = .fail → L ≠ [] := by
  induction h with
  | str_ok | any_ok | cls_ok _ | nt_ok _ _ _ | seq_nil | seq_cons _ _ _ _ | choice_first _ _ | choice_next _ _ _ _ | star_stop _ _ | star_more _ _ _ _
  | plus_ok _ _ _ _ | opt_some _ _ | opt_none _ _ | not_ok _ _ | and_ok _ _ | act_ok _ _ | asc_ok _ _ | span_ok _ _ | range_ok _ _ =>
    intro _ _ ho; cases ho
  | str_fail _ | any_fail | cls_fail _ | cls_eof => intro _ _ _; simp
  | nt_fail hf _ ih => intro _ _ _; exact ih (hG _ _ hf).1 (hG _ _ hf).2 rfl
  | ext hx => intro hp; simp [Expr.positive] at hp
  | not_fail _ _ => intro hp; simp [Expr.positive] at hp
  | seq_fail _ ih =>
    intro hp hs _
    simp only [Expr.positive, Expr.shaped, positiveAll, shapedAll, Bool.and_eq_true] at hp hs
    exact ih hp.1 hs.1 rfl
  | seq_later _ _ _ ih =>
    intro hp hs _
    simp only [Expr.positive, Expr.shaped, positiveAll, shapedAll, Bool.and_eq_true] at hp hs
    have := ih (by simpa [Expr.positive] using hp.2) (by simpa [Expr.shaped] using hs.2) rfl
    simp [this]
  | choice_nil => intro _ hs; simp [Expr.shaped] at hs
  | choice_fail _ _ ih _ =>
    intro hp hs _
    simp only [Expr.positive, Expr.shaped, positiveAll, shapedAll, Bool.and_eq_true] at hp hs
    have := ih hp.1 hs.2.1 rfl
    simp [this]
  | plus_fail _ ih | and_fail _ ih | act_fail _ ih | asc_fail _ ih | span_fail _ ih | range_fail _ ih =>
    intro hp hs _
    simp only [Expr.positive, Expr.shaped] at hp hs
    exact ih hp hs rfl

/-! ### The farthest position -/

theorem farthest_le {s : List Char} {L : Log} : (farthest s L).length ≤ s.length ∧ ∀ x ∈ L, (farthest s L).length ≤ x.1.length := by
  induction L generalizing s with
  | nil => simp [farthest]
  | cons a L ih =>
    obtain ⟨p, d⟩ := a
    simp only [farthest]
    split
    · rename_i h
      obtain ⟨h1, h2⟩ := ih (s := p)
      refine ⟨by omega, ?_⟩
      intro x hx
      cases hx with
      | head => exact h1
      | tail _ hm => exact h2 x hm
    · rename_i h
      obtain ⟨h1, h2⟩ := ih (s := s)
      refine ⟨h1, ?_⟩
      intro x hx
      cases hx with
      | head => simp only; omega
      | tail _ hm => exact h2 x hm

theorem farthest_mem {s : List Char} {L : Log} : farthest s L = s ∨ ∃ x ∈ L, x.1 = farthest s L := by
  induction L generalizing s with
  | nil => simp [farthest]
  | cons a L ih =>
    obtain ⟨p, d⟩ := a
    simp only [farthest]
    split
    · rcases ih (s := p) with h | ⟨x, hx, he⟩
      · exact .inr ⟨(p, d), by simp, h.symm⟩
      · exact .inr ⟨x, by simp [hx], he⟩
    · rcases ih (s := s) with h | ⟨x, hx, he⟩
      · exact .inl h
      · exact .inr ⟨x, by simp [hx], he⟩

theorem expectedAt_farthest_ne_nil {s : List Char} {L : Log} (hL : ∀ x ∈ L, x.1 <:+ s) (hne : L ≠ []) :
    expectedAt (farthest s L) L ≠ [] := by
  have key : ∃ x ∈ L, x.1 = farthest s L := by
    rcases farthest_mem (s := s) (L := L) with h | h
    · cases L with
      | nil => exact absurd rfl hne
      | cons a L =>
        refine ⟨a, by simp, ?_⟩
        have h1 := (farthest_le (s := s) (L := a :: L)).2 a (by simp)
        have h2 := hL a (by simp)
        rw [h] at h1 ⊢
        exact h2.eq_of_length (Nat.le_antisymm h2.length_le h1)
    · exact h
  obtain ⟨x, hx, he⟩ := key
  intro hn
  simp only [expectedAt, List.map_eq_nil_iff, List.filter_eq_nil_iff, decide_eq_true_eq] at hn
  exact hn x hx he

end Oak.Spec
namespace Oak
open Spec

theorem blen_suffix_le {a b : List Char} (h : a <:+ b) : blen a ≤ blen b := by
  obtain ⟨p, rfl⟩ := h
  rw [blen_append]; omega

/-! ### Data without spans -/

theorem noSpanAll_mem {es : List Expr} (h : noSpanAll es = true) {e : Expr} (he : e ∈ es) : e.noSpan = true := by
  induction es with
  | nil => cases he
  | cons a es ih =>
    simp only [noSpanAll, Bool.and_eq_true] at h
    cases he with
    | head => exact h.1
    | tail _ hm => exact ih h.2 hm

theorem ast_noSpan {G : Grammar} {T : Nat → Ty} (hG : ∀ r e, G.find r = some e → e.noSpan = true) {sp sp' : SpanSpec} :
    ∀ (t : Tree) (e : Expr), e.noSpan = true → ast G T sp e t = ast G T sp' e t := by
  intro t
  refine Tree.rec (motive_1 := fun t => ∀ (e : Expr), e.noSpan = true → ast G T sp e t = ast G T sp' e t)
    (motive_2 := fun ts => (∀ es, noSpanAll es = true → astSeq G T sp es ts = astSeq G T sp' es ts) ∧
      ∀ e : Expr, e.noSpan = true → astRep G T sp e ts = astRep G T sp' e ts)
    ?_ ?_ ?_ ?_ ?_ ?_ ?_ ?_ ?_ ?_ ?_ ?_ ?_ ?_ t
  · intro e _; simp [ast]
  · intro c e _; simp [ast]
  · intro t ih e he
    simp only [ast]
    split
    · rfl
    · cases e with
      | nt i r =>
        simp only
        cases hf : G.find r with
        | none => rfl
        | some b => exact ih b (hG r b hf)
      | _ => rfl
  · intro v e _; simp [ast]
  · intro ts ih e he
    simp only [ast]
    split
    · rfl
    · cases e with
      | seq i es => exact ih.1 es (by simpa [Expr.noSpan] using he)
      | _ => rfl
  · intro k t ih e he
    simp only [ast]
    split
    · rfl
    · cases e with
      | choice i es =>
        simp only
        cases hk : es[k]? with
        | none => rfl
        | some b => exact ih b (noSpanAll_mem (by simpa [Expr.noSpan] using he) (List.mem_of_getElem? hk))
      | _ => rfl
  · intro ts ih e he
    simp only [ast]
    split
    · rfl
    · cases e with
      | star i c => simp only [ih.2 c (by simpa [Expr.noSpan] using he)]
      | plus i c => simp only [ih.2 c (by simpa [Expr.noSpan] using he)]
      | _ => rfl
  · intro e _; simp [ast]
  · intro t ih e he
    simp only [ast]
    split
    · rfl
    · cases e with
      | opt i c => simp only [ih c (by simpa [Expr.noSpan] using he)]
      | _ => rfl
  · intro t ih e he
    simp only [ast]
    split
    · rfl
    · cases e with
      | act i c b f => simp only [ih c (by simpa [Expr.noSpan] using he)]
      | _ => rfl
  · intro t ih e he
    simp only [ast]
    split
    · rfl
    · cases e with
      | asc i c b => simp only [ih c (by simpa [Expr.noSpan] using he)]
      | _ => rfl
  · intro lo hi t ih e he
    simp only [ast]
    split
    · rfl
    · cases e with
      | span i c => simp [Expr.noSpan] at he
      | range i c => simp [Expr.noSpan] at he
      | _ => rfl
  · exact ⟨fun es _ => by simp [astSeq], fun e _ => by simp [astRep]⟩
  · intro t ts iht ihts
    refine ⟨fun es hes => ?_, fun e he => ?_⟩
    · cases es with
      | nil => simp [astSeq]
      | cons e es =>
        simp only [noSpanAll, Bool.and_eq_true] at hes
        simp only [astSeq, iht e hes.1, ihts.1 es hes.2]
    · simp only [astRep, iht e he, ihts.2 e he]

end Oak
