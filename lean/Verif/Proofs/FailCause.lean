import Verif.Proofs.PegSpans
import Verif.Proofs.Chaining
/-!
Failures that try no terminal in vain.
-/
set_option linter.constructorNameAsVariable false
set_option autoImplicit false

namespace Oak
open Spec

variable {G : Grammar} {X : ExtSpec}

/-- The `!` and the external rules of the expression are in the grammar. -/
structure Known (G : Grammar) (e : Expr) : Prop where
  not : ∀ i c, Sub (.not i c) e → Occurs G (.not i c)
  ext : ∀ i p, Sub (.ext i p) e → Occurs G (.ext i p)

theorem Known.sub {x y : Expr} (h : Known G y) (hx : Sub x y) : Known G x := ⟨fun i c hs => h.not i c (hs.trans hx), fun i p hs => h.ext i p (hs.trans hx)⟩

theorem Known.body {r : String} {e : Expr} (h : G.find r = some e) : Known G e := ⟨fun _ _ hs => ⟨r, e, h, hs⟩, fun _ _ hs => ⟨r, e, h, hs⟩⟩

theorem Known.tail {i : Nat} {e : Expr} {es : List Expr} (h : Known G (.seq i (e :: es))) : Known G (.seq i es) := by
  refine ⟨fun j c hs => h.not j c ?_, fun j p hs => h.ext j p ?_⟩ <;>
  · cases hs with
    | seq h1 h2 => exact .seq (List.mem_cons_of_mem _ h1) h2

/-- A failure that tries no terminal in vain comes from a `!` whose operand matches, or from an external rule. -/
theorem fail_cause (hX : X.Forward) (hG : ∀ r e, G.find r = some e → e.shaped = true) {e s o L} (h : Peg G X e s o L) :
    Known G e → e.shaped = true → o = .fail → L = [] →
    ∃ s', s' <:+ s ∧ ((∃ i c s'' t, Occurs G (.not i c) ∧ Peg G X c s' (.ok s'' t) []) ∨ ∃ i p, Occurs G (.ext i p) ∧ X p s' .fail []) := by
  induction h with
  | str_ok | any_ok | cls_ok _ | nt_ok _ _ _ | seq_nil | seq_cons _ _ _ _ | choice_first _ _ | choice_next _ _ _ _ | star_stop _ _ | star_more _ _ _ _
  | plus_ok _ _ _ _ | opt_some _ _ | opt_none _ _ | not_ok _ _ | and_ok _ _ | act_ok _ _ | asc_ok _ _ | span_ok _ _ | range_ok _ _ =>
    intro _ _ ho; cases ho
  | str_fail _ | any_fail | cls_fail _ | cls_eof => intro _ _ _ h; cases h
  | nt_fail hf _ ih => intro _ _ _ hl; exact ih (.body hf) (hG _ _ hf) rfl hl
  | ext hx => intro ho _ h1 h2; subst h1; subst h2; exact ⟨_, List.suffix_rfl, .inr ⟨_, _, ho.ext _ _ .refl, hx⟩⟩
  | not_fail h _ => intro ho _ _ hl; subst hl; exact ⟨_, List.suffix_rfl, .inl ⟨_, _, _, _, ho.not _ _ .refl, h⟩⟩
  | seq_fail _ ih =>
    intro ho hs _ hl
    simp only [Expr.shaped, shapedAll, Bool.and_eq_true] at hs
    exact ih (ho.sub (.seq (by simp) .refl)) hs.1 rfl hl
  | seq_later h1 h2 _ ih =>
    intro ho hs _ hl
    simp only [Expr.shaped, shapedAll, Bool.and_eq_true] at hs
    simp only [List.append_eq_nil_iff] at hl
    obtain ⟨s', k1, k2⟩ := ih ho.tail (by simpa [Expr.shaped] using hs.2) rfl hl.2
    exact ⟨s', k1.trans ((h1.forward hX).1 _ _ rfl), k2⟩
  | choice_nil => intro _ hs; simp [Expr.shaped] at hs
  | choice_fail _ _ ih _ =>
    intro ho hs _ hl
    simp only [Expr.shaped, shapedAll, Bool.and_eq_true] at hs
    simp only [List.append_eq_nil_iff] at hl
    exact ih (ho.sub (.choice (by simp) .refl)) hs.2.1 rfl hl.1
  | plus_fail _ ih | and_fail _ ih | act_fail _ ih | asc_fail _ ih | span_fail _ ih | range_fail _ ih =>
    intro ho hs _ hl
    simp only [Expr.shaped] at hs
    exact ih (ho.sub (by constructor; exact .refl)) hs rfl hl

end Oak
