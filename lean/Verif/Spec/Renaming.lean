import Verif.Spec.Result
import Verif.Spec.WellFormed
import Verif.Spec.Typing
/-!
# Specification: grammars that differ by the presentation

The order of the rules, their names, the numbering of the expressions and the rules that are not used do not belong to the meaning of a grammar.
-/
set_option autoImplicit false

namespace Oak
open Spec

mutual
/-- The expressions are written alike: they differ by the numbering, and by the names of the rules they call, which are related by `ρ`. -/
inductive Likeness (ρ : String → String → Prop) : Expr → Expr → Prop where
  | str {i j l} : Likeness ρ (.str i l) (.str j l)
  | any {i j} : Likeness ρ (.any i) (.any j)
  | cls {i j l} : Likeness ρ (.cls i l) (.cls j l)
  | nt {i j r r'} : ρ r r' → Likeness ρ (.nt i r) (.nt j r')
  | ext {i j p} : Likeness ρ (.ext i p) (.ext j p)
  | seq {i j es es'} : LikenessAll ρ es es' → Likeness ρ (.seq i es) (.seq j es')
  | choice {i j es es'} : LikenessAll ρ es es' → Likeness ρ (.choice i es) (.choice j es')
  | star {i j e e'} : Likeness ρ e e' → Likeness ρ (.star i e) (.star j e')
  | plus {i j e e'} : Likeness ρ e e' → Likeness ρ (.plus i e) (.plus j e')
  | opt {i j e e'} : Likeness ρ e e' → Likeness ρ (.opt i e) (.opt j e')
  | not {i j e e'} : Likeness ρ e e' → Likeness ρ (.not i e) (.not j e')
  | and {i j e e'} : Likeness ρ e e' → Likeness ρ (.and i e) (.and j e')
  | act {i j e e' b f} : Likeness ρ e e' → Likeness ρ (.act i e b f) (.act j e' b f)
  | asc {i j e e' t} : Likeness ρ e e' → Likeness ρ (.asc i e t) (.asc j e' t)
  | span {i j e e'} : Likeness ρ e e' → Likeness ρ (.span i e) (.span j e')
  | range {i j e e'} : Likeness ρ e e' → Likeness ρ (.range i e) (.range j e')
/-- The same for lists. -/
inductive LikenessAll (ρ : String → String → Prop) : List Expr → List Expr → Prop where
  | nil : LikenessAll ρ [] []
  | cons {e e' es es'} : Likeness ρ e e' → LikenessAll ρ es es' → LikenessAll ρ (e :: es) (e' :: es')
end

/-- The rules related by `ρ` are declared and their bodies are written alike. -/
def Corresponds (ρ : String → String → Prop) (G G' : Grammar) : Prop :=
  ∀ r r', ρ r r' → ∃ b b', G.find r = some b ∧ G'.find r' = some b' ∧ Likeness ρ b b'

/-- Every rule of `G` is related to a rule. -/
def Covers (ρ : String → String → Prop) (G : Grammar) : Prop := ∀ r b, G.find r = some b → ∃ r', ρ r r'

mutual
/-- Other names for the rules. -/
def Expr.rename (φ : String → String) (e : Expr) : Expr :=
  match e with
  | .nt i r => .nt i (φ r)
  | .str i l => .str i l
  | .any i => .any i
  | .cls i l => .cls i l
  | .ext i p => .ext i p
  | .seq i es => .seq i (renameAll φ es)
  | .choice i es => .choice i (renameAll φ es)
  | .star i e => .star i (e.rename φ)
  | .plus i e => .plus i (e.rename φ)
  | .opt i e => .opt i (e.rename φ)
  | .not i e => .not i (e.rename φ)
  | .and i e => .and i (e.rename φ)
  | .act i e b f => .act i (e.rename φ) b f
  | .asc i e t => .asc i (e.rename φ) t
  | .span i e => .span i (e.rename φ)
  | .range i e => .range i (e.rename φ)
/-- The same for lists. -/
def renameAll (φ : String → String) (es : List Expr) : List Expr :=
  match es with
  | [] => []
  | e :: es => e.rename φ :: renameAll φ es
end

/-- Other names for the rules of a grammar. -/
def Grammar.rename (φ : String → String) (G : Grammar) : Grammar := ⟨G.rules.map fun r => (φ r.1, r.2.rename φ)⟩

/-- The rules without the numbers of the expressions. -/
def Grammar.text (G : Grammar) : List (String × Expr) := G.rules.map fun r => (r.1, r.2.bare)

/-- Expressions at the same place in bodies of related rules, under no expression of unit type. -/
inductive Faces (ρ : String → String → Prop) (G G' : Grammar) (T : Nat → Ty) : Expr → Expr → Prop where
  | body {r r' b b'} : ρ r r' → G.find r = some b → G'.find r' = some b' → Faces ρ G G' T b b'
  | seq {i j es es' e e'} {k : Nat} : Faces ρ G G' T (.seq i es) (.seq j es') → T i ≠ .unit → es[k]? = some e → es'[k]? = some e' → Faces ρ G G' T e e'
  | choice {i j es es' e e'} {k : Nat} : Faces ρ G G' T (.choice i es) (.choice j es') → T i ≠ .unit → es[k]? = some e → es'[k]? = some e' →
      Faces ρ G G' T e e'
  | star {i j e e'} : Faces ρ G G' T (.star i e) (.star j e') → T i ≠ .unit → Faces ρ G G' T e e'
  | plus {i j e e'} : Faces ρ G G' T (.plus i e) (.plus j e') → T i ≠ .unit → Faces ρ G G' T e e'
  | opt {i j e e'} : Faces ρ G G' T (.opt i e) (.opt j e') → T i ≠ .unit → Faces ρ G G' T e e'
  | act {i j e e' b b' f f'} : Faces ρ G G' T (.act i e b f) (.act j e' b' f') → T i ≠ .unit → Faces ρ G G' T e e'
  | asc {i j e e' t t'} : Faces ρ G G' T (.asc i e t) (.asc j e' t') → T i ≠ .unit → Faces ρ G G' T e e'
  | span {i j e e'} : Faces ρ G G' T (.span i e) (.span j e') → T i ≠ .unit → Faces ρ G G' T e e'
  | range {i j e e'} : Faces ρ G G' T (.range i e) (.range j e') → T i ≠ .unit → Faces ρ G G' T e e'

/-- The types of the two grammars agree on the expressions that give no value. -/
def TypesAgree (ρ : String → String → Prop) (G G' : Grammar) (T T' : Nat → Ty) : Prop :=
  ∀ e e', Faces ρ G G' T e e' → (T e.id = .unit ↔ T' e'.id = .unit)

end Oak
