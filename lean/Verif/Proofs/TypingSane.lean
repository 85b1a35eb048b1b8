import Verif.Spec.Rejections
import Verif.Proofs.TypingSum
/-!
The messages are justified: the first one that stops the inference, and those that do not stop it. What their texts are made of.
-/
set_option linter.constructorNameAsVariable false
set_option autoImplicit false

namespace Oak
namespace Typing

/-- The message that the text belongs to. -/
def tdiagMsg : TDiag → TMsg
  | .mismatch i _ _ => .mismatch i
  | .ascription i _ _ _ => .ascription i
  | .untyped r => .untyped r

/-- The error is justified and its types are the documented ones. -/
def TDoc (A : AGrammar) : TDiag → Prop
  | .mismatch i tys T => ∃ es vs, Occurs A.grammar (.choice i es) ∧ HasTypes A es vs ∧ (∀ v ∈ vs, v.Flat) ∧ (∀ v, ¬ ChoiceType vs v) ∧ UnfL T vs tys
  | .ascription i t a T =>
    (∃ j c x e v, Occurs A.grammar (.asc j c (.regular (.rust x))) ∧ AscPart A c e ∧ e.id = i ∧ HasType A e v ∧ v.Flat ∧ v ≠ .external ∧ (∀ y, v ≠ .rust y) ∧ Unf T v t ∧
      a = .regular (.rust x)) ∨
    (∃ j c ty d ty', Occurs A.grammar (.asc j c ty) ∧ Under c (.asc i d ty') ∧ ¬ Alike ty ty' ∧ t = ty' ∧ a = ty)
  | .untyped r => ∃ b t, A.grammar.find r = some b ∧ HasType A b t ∧ t.known = false

theorem TDoc.justified {A : AGrammar} {d : TDiag} (h : TDoc A d) : (tdiagMsg d).Justified A := by
  cases d with
  | mismatch i tys T => obtain ⟨es, vs, h1, h2, _, h3, _⟩ := h; exact ⟨es, vs, h1, h2, h3⟩
  | ascription i t a T =>
    rcases h with ⟨j, c, x, e, v, h1, h2, h3, h4, _, h5, h6, _⟩ | ⟨j, c, ty, d, ty', h1, h2, h3, _⟩
    · exact .inl ⟨j, c, x, e, v, h1, h2, h3, h4, h5, h6⟩
    · exact .inr ⟨j, c, ty, d, ty', h1, h2, h3⟩
  | untyped r => exact h

/-- What is needed to write the text. -/
def TFine (A : AGrammar) : TDiag → Prop
  | .mismatch i tys T => (∃ es, Occurs A.grammar (.choice i es) ∧ tys.length = es.length) ∧ (∀ t ∈ tys, t ≠ .infer ∧ ∃ n, Dp T n t) ∧
      ∀ rs, .rec_ rs ∈ tys → rs ≠ [] ∧ ∀ p ∈ rs, p.path ≠ [] ∧ ∀ x ∈ p.path, ∃ b, A.grammar.find x = some b
  | .ascription i t a T => (∃ e, Occurs A.grammar e ∧ e.id = i) ∧ (∃ n, Dp T n t) ∧ a.Written
  | .untyped r => ∃ b, A.grammar.find r = some b

/-- The first message that stops the inference is justified, and so are those that do not stop it. -/
structure Sane (A : AGrammar) (s : TState) : Prop where
  none : s.error = false → s.msgs.find? TMsg.blocking = none ∧ s.log = []
  some : s.error = true → ∃ d, s.msgs.find? TMsg.blocking = some (tdiagMsg d) ∧ s.log.head? = some d ∧ TDoc A d
  rest : ∀ x ∈ s.msgs, x.blocking = false → x.Justified A

theorem Sane.more {A : AGrammar} {s : TState} {T : Nat → IType} (h : Sane A s) {xs : List TMsg} (hx : ∀ x ∈ xs, x.blocking = false ∧ x.Justified A) :
    Sane A ⟨T, s.error, s.msgs ++ xs, s.log⟩ := by
  have hn : xs.find? TMsg.blocking = .none := List.find?_eq_none.2 fun x hm => by rw [(hx x hm).1]; simp
  refine ⟨fun he => ?_, fun he => ?_, fun x hm hb => ?_⟩
  · dsimp only at he ⊢; rw [List.find?_append, (h.none he).1, hn]; exact ⟨rfl, (h.none he).2⟩
  · obtain ⟨m, h1, h2, h3⟩ := h.some he
    exact ⟨m, by dsimp only; rw [List.find?_append, h1]; rfl, h2, h3⟩
  · rcases List.mem_append.1 hm with hm | hm
    · exact h.rest x hm hb
    · exact (hx x hm).2

theorem Sane.types {A : AGrammar} {s : TState} (h : Sane A s) (T : Nat → IType) : Sane A ⟨T, s.error, s.msgs, s.log⟩ := ⟨h.none, h.some, h.rest⟩

theorem Sane.fail {A : AGrammar} {s : TState} {T : Nat → IType} {x : TMsg} {d : TDiag} (h : Sane A s) (hb : x.blocking = true) (hd : tdiagMsg d = x)
    (hj : s.error = false → TDoc A d) : Sane A ⟨T, true, s.msgs ++ [x], s.log ++ [d]⟩ := by
  refine ⟨(by intro he; cases he), fun _ => ?_, fun y hm hy => ?_⟩
  · cases he : s.error with
    | false => exact ⟨d, by dsimp only; rw [List.find?_append, (h.none he).1]; simp [hb, hd], by dsimp only; rw [(h.none he).2]; rfl, hj he⟩
    | true =>
      obtain ⟨m, h1, h2, h3⟩ := h.some he
      refine ⟨m, by dsimp only; rw [List.find?_append, h1]; rfl, ?_, h3⟩
      dsimp only
      cases hl : s.log with
      | nil => rw [hl] at h2; cases h2
      | cons y l => rw [hl] at h2; exact h2
  · rcases List.mem_append.1 hm with hm | hm
    · exact h.rest y hm hy
    · rw [List.mem_singleton] at hm
      subst hm
      rw [hb] at hy; cases hy

end Typing
end Oak
