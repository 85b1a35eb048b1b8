import Verif.Spec.Analysis
import Verif.Spec.Front
import Verif.Model.Typing
/-!
# Specification: type inference

The type of an expression depends on the types of its parts, except under a predicate, a semantic action or a type ascription. The calls that are not
under one of them are said to be *seen*.
-/
set_option autoImplicit false

namespace Oak

mutual
/-- The rules whose type matters for the type of the expression. -/
def Expr.seenCalls (e : Expr) : List String :=
  match e with
  | .str _ _ | .any _ | .cls _ _ | .ext _ _ | .not _ _ | .and _ _ | .act _ _ _ _ | .asc _ _ _ => []
  | .nt _ r => [r]
  | .seq _ es | .choice _ es => seenCallsAll es
  | .star _ e | .plus _ e | .opt _ e | .span _ e | .range _ e => e.seenCalls
/-- The same for lists of expressions. -/
def seenCallsAll (es : List Expr) : List String :=
  match es with
  | [] => []
  | e :: es => e.seenCalls ++ seenCallsAll es
end

/-- The only recursion that is seen is that of rules that call themselves: a rule does not call itself through another one, unless the recursion goes
through a semantic action, a type ascription or a predicate. -/
def Grammar.DirectRec (G : Grammar) : Prop :=
  ∃ rank : String → Nat, ∀ r b s, G.find r = some b → s ∈ b.seenCalls → s = r ∨ rank s < rank r

/-- No recursion is seen: it always goes through a semantic action, a type ascription or a predicate. -/
def Grammar.NoSeenRec (G : Grammar) : Prop :=
  ∃ rank : String → Nat, ∀ r b s, G.find r = some b → s ∈ b.seenCalls → rank s < rank r

/-- The types that can be written in an ascription: `()`, `(^)` or a Rust type. -/
def IType.Written (t : IType) : Prop := t = .invisible ∨ t = .regular .unit ∨ ∃ s, t = .regular (.rust s)

/-- The grammars given to the typing phase, with `k` expressions. -/
structure AGrammar.Ready (A : AGrammar) (k : Nat) : Prop where
  /-- Names of rules are different. -/
  names : (A.grammar.rules.map (·.1)).Nodup
  /-- Calls are calls of declared rules. -/
  calls : ∀ r ∈ A.grammar.rules, r.2.resolved A.grammar = true
  /-- Sequences and choices are not empty. -/
  filled : ∀ r ∈ A.grammar.rules, r.2.filled = true
  /-- Expressions are numbered as the front-end does. -/
  numbered : indicesAll (A.grammar.rules.map (·.2)) = List.range k
  /-- Ascribed types are those that can be written. -/
  written : ∀ i e t, Occurs A.grammar (.asc i e t) → t.Written

/-! ## The documented types -/

/-- Types of expressions. `hidden` is `(^)`, the type of what gives no value and disappears from repetitions and options; `external` is the unknown type of a
semantic action or of an external rule. -/
inductive DType where
  | hidden
  | unit
  | char
  | external
  | list (t : DType)
  | option (t : DType)
  | tuple (ts : List DType)
  | rust (s : String)

/-- The values of an expression of this type in a sequence: unit values are left out, tuples are flattened. -/
def DType.parts : DType → List DType
  | .hidden | .unit => []
  | .tuple ts => ts
  | t => [t]

/-- The type of these values. -/
def DType.pack : List DType → DType
  | [] => .unit
  | [t] => t
  | ts => .tuple ts

mutual
/-- No part of the type is unknown. -/
def DType.known : DType → Bool
  | .hidden | .unit | .char | .rust _ => true
  | .external => false
  | .list t | .option t => t.known
  | .tuple ts => knownAll ts
/-- The same for lists. -/
def knownAll : List DType → Bool
  | [] => true
  | t :: ts => t.known && knownAll ts
end

mutual
/-- Types of branches that are not distinguished: Rust types are compared by the Rust compiler. -/
inductive Same : DType → DType → Prop where
  | hidden : Same .hidden .hidden
  | unit : Same .unit .unit
  | char : Same .char .char
  | external : Same .external .external
  | list {t u} : Same t u → Same (.list t) (.list u)
  | option {t u} : Same t u → Same (.option t) (.option u)
  | tuple {ts us} : SameAll ts us → Same (.tuple ts) (.tuple us)
  | rust {s s'} : Same (.rust s) (.rust s')
/-- The same for lists. -/
inductive SameAll : List DType → List DType → Prop where
  | nil : SameAll [] []
  | cons {t u ts us} : Same t u → SameAll ts us → SameAll (t :: ts) (u :: us)
end

/-- The type of a choice whose branches have the types `ts`. -/
inductive ChoiceType : List DType → DType → Prop where
  /-- All the branches have the same type. -/
  | same {t ts} : (∀ u ∈ ts, Same u t) → ChoiceType (t :: ts) t
  /-- Unknown types are those of the other branches. -/
  | known {ts pre t post} : ts = pre ++ t :: post → (∀ u ∈ pre, u = .external) → t ≠ .external → (∀ u ∈ post, u = .external ∨ Same u t) →
      DType.external ∈ ts → ChoiceType ts t
  /-- `()` and `(^)` are mixed. -/
  | units {ts} : DType.unit ∈ ts → DType.hidden ∈ ts → (∀ u ∈ ts, u = .unit ∨ u = .hidden) → ChoiceType ts .hidden

/-- The type of a semantic action: the return type of a function declared in the grammar, otherwise unknown. -/
def actionType (A : AGrammar) (boxed : Bool) (f : Path) : DType :=
  match f with
  | [name] =>
    match A.functions.find? (·.1 == name) with
    | some (_, fn) =>
      match fn.ret with
      | .default => .unit
      | .ty t => .rust (if boxed then "Box<" ++ t ++ ">" else t)
    | none => .external
  | _ => .external

/-- The types that can be ascribed. -/
inductive AscribedType : IType → DType → Prop where
  | hidden : AscribedType .invisible .hidden
  | unit : AscribedType (.regular .unit) .unit
  | rust {s} : AscribedType (.regular (.rust s)) (.rust s)

mutual
/-- The type of an expression. -/
inductive HasType (A : AGrammar) : Expr → DType → Prop where
  | str {i l} : HasType A (.str i l) .hidden
  | not {i e} : HasType A (.not i e) .hidden
  | and {i e} : HasType A (.and i e) .hidden
  | any {i} : HasType A (.any i) .char
  | cls {i l} : HasType A (.cls i l) .char
  | ext {i f} : HasType A (.ext i f) .external
  | nt {i r b t} : A.grammar.find r = some b → HasType A b t → HasType A (.nt i r) t
  | act {i e boxed f} : HasType A (.act i e boxed f) (actionType A boxed f)
  | asc {i e ty t} : AscribedType ty t → HasType A (.asc i e ty) t
  | star {i e t} : HasType A e t → t ≠ .hidden → HasType A (.star i e) (.list t)
  | plus {i e t} : HasType A e t → t ≠ .hidden → HasType A (.plus i e) (.list t)
  | opt {i e t} : HasType A e t → t ≠ .hidden → HasType A (.opt i e) (.option t)
  | starHidden {i e} : HasType A e .hidden → HasType A (.star i e) .hidden
  | plusHidden {i e} : HasType A e .hidden → HasType A (.plus i e) .hidden
  | optHidden {i e} : HasType A e .hidden → HasType A (.opt i e) .hidden
  | span {i e t} : HasType A e t → HasType A (.span i e) (.pack (.rust "<Range<Stream> as StreamSpan>::Output" :: t.parts))
  | range {i e t} : HasType A e t → HasType A (.range i e) (.rust "Range<Stream>")
  | seq {i es ts} : HasTypes A es ts → (∃ t ∈ ts, t ≠ .hidden) → HasType A (.seq i es) (.pack (ts.flatMap DType.parts))
  | seqHidden {i es ts} : HasTypes A es ts → (∀ t ∈ ts, t = .hidden) → HasType A (.seq i es) .hidden
  | choice {i es ts t} : HasTypes A es ts → ChoiceType ts t → HasType A (.choice i es) t
/-- The types of several expressions. -/
inductive HasTypes (A : AGrammar) : List Expr → List DType → Prop where
  | nil : HasTypes A [] []
  | cons {e es t ts} : HasType A e t → HasTypes A es ts → HasTypes A (e :: es) (t :: ts)
end

mutual
/-- The Rust type. -/
def DType.toRust : DType → RTy
  | .hidden | .unit => .unit
  | .char => .char
  | .external => .rust "_"
  | .list t => .vec t.toRust
  | .option t => .option t.toRust
  | .tuple ts => .tuple (toRustAll ts)
  | .rust s => .rust s
/-- The same for lists. -/
def toRustAll : List DType → List RTy
  | [] => []
  | t :: ts => t.toRust :: toRustAll ts
end

/-- The expressions whose value is built when the rule of body `b` is: those under no predicate, no type ascription, and no expression of unit type. -/
inductive Built (T : Nat → Ty) (b : Expr) : Expr → Prop where
  | body : Built T b b
  | seq {i es e} : Built T b (.seq i es) → T i ≠ .unit → e ∈ es → Built T b e
  | choice {i es e} : Built T b (.choice i es) → T i ≠ .unit → e ∈ es → Built T b e
  | star {i e} : Built T b (.star i e) → T i ≠ .unit → Built T b e
  | plus {i e} : Built T b (.plus i e) → T i ≠ .unit → Built T b e
  | opt {i e} : Built T b (.opt i e) → T i ≠ .unit → Built T b e
  | span {i e} : Built T b (.span i e) → T i ≠ .unit → Built T b e
  | range {i e} : Built T b (.range i e) → T i ≠ .unit → Built T b e
  | act {i e boxed f} : Built T b (.act i e boxed f) → T i ≠ .unit → Built T b e

/-- No choice has both a branch of unknown type and a branch that gives several values. -/
def AGrammar.Unmixed (A : AGrammar) : Prop :=
  ∀ i es, Occurs A.grammar (.choice i es) → (∃ e ∈ es, HasType A e .external) → ∀ e ∈ es, ∀ ts, ¬ HasType A e (.tuple ts)

/-- The messages that report an error, but that of a semantic action of type `()`, which is reported without stopping the inference. -/
def TMsg.blocking : TMsg → Bool
  | .mismatch _ | .ascription _ | .untyped _ => true
  | .unitAction _ | .recursive _ => false

/-- The front-end reads `... e` as `... (e:())`. -/
def AGrammar.PlainRanges (A : AGrammar) : Prop := ∀ i e, Occurs A.grammar (.range i e) → ∃ j c, e = .asc j c (.regular .unit)

end Oak
