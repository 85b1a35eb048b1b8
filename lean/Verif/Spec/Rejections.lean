import Verif.Spec.Typing
/-!
# Specification: the errors of the type inference

What is wrong in a grammar when the type inference reports an error.
-/
set_option autoImplicit false

namespace Oak

/-- The parts of the expression `c` whose value is the value of `c`, or takes part in it, when a Rust type is ascribed to `c`: the ascribed type is also that of the
branches of a choice and of the parts of a sequence that have a value. -/
inductive AscPart (A : AGrammar) (c : Expr) : Expr → Prop where
  | self : AscPart A c c
  | seq {i es e v} : AscPart A c (.seq i es) → e ∈ es → HasType A e v → v ≠ .hidden → v ≠ .unit → AscPart A c e
  | choice {i es e} : AscPart A c (.choice i es) → e ∈ es → AscPart A c e
  | span {i e} : AscPart A c (.span i e) → AscPart A c e
  | range {i e} : AscPart A c (.range i e) → AscPart A c e

/-- The parts of the expression `c` that are under no other semantic action or ascription. -/
inductive Under (c : Expr) : Expr → Prop where
  | self : Under c c
  | seq {i es e} : Under c (.seq i es) → e ∈ es → Under c e
  | choice {i es e} : Under c (.choice i es) → e ∈ es → Under c e
  | star {i e} : Under c (.star i e) → Under c e
  | plus {i e} : Under c (.plus i e) → Under c e
  | opt {i e} : Under c (.opt i e) → Under c e
  | not {i e} : Under c (.not i e) → Under c e
  | and {i e} : Under c (.and i e) → Under c e
  | span {i e} : Under c (.span i e) → Under c e
  | range {i e} : Under c (.range i e) → Under c e

/-- Ascribed types that are not distinguished: Rust types are compared by the Rust compiler. -/
def Alike (ty ty' : IType) : Prop := ty = ty' ∨ ∃ x y, ty = .regular (.rust x) ∧ ty' = .regular (.rust y)

/-- What a message of the type inference tells. -/
def TMsg.Justified (A : AGrammar) : TMsg → Prop
  /- The branches of the choice have types, from which the choice has none. -/
  | .mismatch i => ∃ es ts, Occurs A.grammar (.choice i es) ∧ HasTypes A es ts ∧ ∀ t, ¬ ChoiceType ts t
  /- An expression must have a Rust type by an ascription, and has a type that is not a Rust type and is not unknown; or an ascription is inside another one, and
  the types are of different kinds. -/
  | .ascription i =>
    (∃ j c x e v, Occurs A.grammar (.asc j c (.regular (.rust x))) ∧ AscPart A c e ∧ e.id = i ∧ HasType A e v ∧ v ≠ .external ∧ ∀ y, v ≠ .rust y) ∨
    (∃ j c ty d ty', Occurs A.grammar (.asc j c ty) ∧ Under c (.asc i d ty') ∧ ¬ Alike ty ty')
  /- The type of the rule is not known. -/
  | .untyped r => ∃ b t, A.grammar.find r = some b ∧ HasType A b t ∧ t.known = false
  /- The function of the semantic action is declared, and returns `()`. -/
  | .unitAction i => ∃ e boxed f d fn, Occurs A.grammar (.act i e boxed [f]) ∧ A.functions.find? (·.1 == f) = some (d, fn) ∧
      (fn.ret = .default ∨ fn.ret = .ty "()")
  /- A warning, about recursive types. -/
  | .recursive _ => ¬ A.grammar.NoSeenRec

/-- The grammar has no error of type that the inference can find: all the choices have a type, the expressions to which a Rust type is ascribed have a Rust type or
an unknown type, the types of the rules are known. -/
structure AGrammar.TypeCorrect (A : AGrammar) : Prop where
  choices : ∀ i es, Occurs A.grammar (.choice i es) → ∃ t, HasType A (.choice i es) t
  ascriptions : ∀ i c x, Occurs A.grammar (.asc i c (.regular (.rust x))) → HasType A c .external ∨ ∃ y, HasType A c (.rust y)
  rules : ∀ r b, A.grammar.find r = some b → ∃ t, HasType A b t ∧ t.known = true

/-- An ascription is not inside an ascription of another kind, and no span is inside the ascription of a Rust type, except under semantic actions. -/
structure AGrammar.Untangled (A : AGrammar) : Prop where
  alike : ∀ i c ty, Occurs A.grammar (.asc i c ty) → ∀ j d ty', Under c (.asc j d ty') → Alike ty ty'
  spans : ∀ i c x, Occurs A.grammar (.asc i c (.regular (.rust x))) → ∀ j d, ¬ Under c (.span j d) ∧ ¬ Under c (.range j d)

end Oak
