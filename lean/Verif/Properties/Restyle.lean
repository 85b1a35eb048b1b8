import Verif.Proofs.Restyle
import Verif.Properties.Parsing
/-!
The same grammar with other functions: C74.
-/
set_option linter.constructorNameAsVariable false
set_option autoImplicit false

namespace Oak
open Spec

variable {K : Restyling} {E : Val → Prop} {R : String → String → Prop} {ρ : String → Path → Prop} {T T' : Nat → Ty}
  {G G' : Grammar} {X X' : ExtSpec} {fs fs' : List (FnRef × Fn)} {ext ext' : Nat → FnRef → PState StrStream Val → Res (PState StrStream Val)} {ptr : Nat}
  {input : List Char} {r r' : String}

/-- C74: the recognizers of rules that are the same but for the functions, the types written and the modules that declare the rules they call, return the same results. -/
theorem C74_recognizers (d : Deployed G T fs ext X ptr input) (d' : Deployed G' T' fs' ext' X' ptr input)
    (C : RestyledBy K E R ρ T T' (strSpans input) G X G' X') (hr : R r r') (ht : ∃ res, Returns ext fs false r ptr input res) (res : PResult StrStream Val) :
    Returns ext fs false r ptr input res ↔ Returns ext' fs' false r' ptr input res := by
  obtain ⟨b, b', hb, hb', _⟩ := C.rules r r' hr
  rw [d'.returns_iff hb']
  have hfwd : ∀ res, Returns ext fs false r ptr input res → ∃ o L, Peg G' X' b' input o L ∧ res = expectedResult G' T' b' false ptr input L o := by
    intro res h
    obtain ⟨o, L, h1, rfl⟩ := (d.returns_iff hb _ _).1 h
    obtain ⟨c, o', h2, h3, h4⟩ := restyled_result C hr (p := false) (ptr := ptr) hb h1
    rw [hb'] at h2; cases h2
    exact ⟨o', L, h3, by simpa using h4⟩
  refine ⟨hfwd res, ?_⟩
  rintro ⟨o, L, h1, rfl⟩
  obtain ⟨res, h⟩ := ht
  obtain ⟨o', L', h2, rfl⟩ := hfwd res h
  obtain ⟨rfl, rfl⟩ := h1.det d'.ext.det h2
  exact h

/-- C74: their parsers return the same results, but for the functions that built the values. -/
theorem C74_parsers (d : Deployed G T fs ext X ptr input) (d' : Deployed G' T' fs' ext' X' ptr input)
    (C : RestyledBy K E R ρ T T' (strSpans input) G X G' X') (hr : R r r') (ht : ∃ res, Returns ext fs true r ptr input res) :
    ∃ res res', ResultStyle K E res res' ∧ (∀ x, Returns ext fs true r ptr input x ↔ x = res) ∧ ∀ x, Returns ext' fs' true r' ptr input x ↔ x = res' := by
  obtain ⟨b, b', hb, hb', _⟩ := C.rules r r' hr
  obtain ⟨res, h⟩ := ht
  obtain ⟨o, L, h1, rfl⟩ := (d.returns_iff hb _ _).1 h
  obtain ⟨c, o', h2, h3, h4⟩ := restyled_result C hr (p := true) (ptr := ptr) hb h1
  rw [hb'] at h2; cases h2
  refine ⟨_, expectedResult G' T' b' true ptr input L o', by simpa using h4, fun x => ?_, fun x => ?_⟩
  · rw [d.returns_iff hb]
    constructor
    · rintro ⟨o1, L1, h5, rfl⟩; obtain ⟨rfl, rfl⟩ := h1.det d.ext.det h5; rfl
    · rintro rfl; exact ⟨o, L, h1, rfl⟩
  · rw [d'.returns_iff hb']
    constructor
    · rintro ⟨o1, L1, h5, rfl⟩; obtain ⟨rfl, rfl⟩ := h3.det d'.ext.det h5; rfl
    · rintro rfl; exact ⟨o', L, h3, rfl⟩

end Oak
