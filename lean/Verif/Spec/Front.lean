import Verif.Model.Front
import Verif.Spec.CharClass
/-!
# Specification: the concrete syntax of grammars

The syntax as a grammar on tokens, from the loosest to the tightest operator:

    choice   ::= branch ('/' branch)*
    branch   ::= spanned ('>' 'box'? path)?
    spanned  ::= '...' seq | '..' seq | seq
    seq      ::= typed+
    typed    ::= prefixed (':' type)?
    prefixed ::= '!' suffixed | '&' suffixed | suffixed
    suffixed ::= atom '*' | atom '+' | atom '?' | atom
    atom     ::= "literal" | '.' | '(' choice ')' | path | '[' "class" ']'

Two rules resolve what would be ambiguous: two adjacent dots at the beginning of a branch are a span operator, and a parenthesised group that follows
a path used as a type is read as the arguments of that type.

The expressions are those of the arena with all indices erased.
-/
set_option autoImplicit false

namespace Oak

mutual
/-- The expression without its indices. -/
def Expr.bare (e : Expr) : Expr :=
  match e with
  | .str _ l => .str 0 l
  | .any _ => .any 0
  | .cls _ k => .cls 0 k
  | .nt _ r => .nt 0 r
  | .ext _ p => .ext 0 p
  | .seq _ es => .seq 0 (bareAll es)
  | .choice _ es => .choice 0 (bareAll es)
  | .star _ e => .star 0 e.bare
  | .plus _ e => .plus 0 e.bare
  | .opt _ e => .opt 0 e.bare
  | .not _ e => .not 0 e.bare
  | .and _ e => .and 0 e.bare
  | .act _ e b f => .act 0 e.bare b f
  | .asc _ e t => .asc 0 e.bare t
  | .span _ e => .span 0 e.bare
  | .range _ e => .range 0 e.bare
/-- The same for lists of expressions. -/
def bareAll (es : List Expr) : List Expr :=
  match es with
  | [] => []
  | e :: es => e.bare :: bareAll es
end

/-- The grammar without the indices of its expressions. -/
def FGrammar.bare (F : FGrammar) : FGrammar := ⟨F.rules.map fun r => (r.1, r.2.bare), F.items, F.attrs⟩

mutual
/-- The indices of the nodes of an expression, children first. -/
def Expr.indices (e : Expr) : List Nat :=
  match e with
  | .str i _ | .any i | .cls i _ | .nt i _ | .ext i _ => [i]
  | .seq i es | .choice i es => indicesAll es ++ [i]
  | .star i e | .plus i e | .opt i e | .not i e | .and i e | .act i e _ _ | .asc i e _ | .span i e | .range i e => e.indices ++ [i]
/-- The same for lists of expressions. -/
def indicesAll (es : List Expr) : List Nat :=
  match es with
  | [] => []
  | e :: es => e.indices ++ indicesAll es
end

/-- The tokens begin with a parenthesised group. -/
def startsParen : List Tok → Bool
  | .paren _ :: _ => true
  | _ => false

/-- The tokens begin with a dot. -/
def startsDot : List Tok → Bool
  | .punct '.' _ :: _ => true
  | _ => false

/-- The tokens begin with two adjacent dots. -/
def startsDots : List Tok → Bool
  | .punct '.' true :: .punct '.' _ :: _ => true
  | _ => false

namespace Syntax

/-- The text of a path: its segments, separated by `::`. -/
def written : Path → String
  | [] => ""
  | [x] => x
  | x :: y :: p => x ++ "::" ++ written (y :: p)

/-- `TypeText t s`: the token is the type `s`. -/
inductive TypeText : Tok → String → Prop where
  | path {p} : TypeText (.path p) (written p)
  | rust {t} : TypeText (.rtype t) t
  | paren {t s} : TypeText t s → TypeText (.paren [t]) ("(" ++ s ++ ")")

/-- `IsType ts ty bare`: the tokens after the colon of a type ascription; `bare` when it is a path that a parenthesised group would extend. -/
inductive IsType : List Tok → IType → Bool → Prop where
  | unit : IsType [.paren []] (.regular .unit) false
  | invisible {j} : IsType [.paren [.punct '^' j]] .invisible false
  | path {p} : IsType [.path p] (.regular (.rust (written p))) true
  | rust {t} : IsType [.rtype t] (.regular (.rust t)) false
  | paren {t s} : TypeText t s → IsType [.paren [t]] (.regular (.rust ("(" ++ s ++ ")"))) false
  | args0 {p} : IsType [.path p, .paren []] (.regular (.rust (written p ++ "()"))) false
  | args {p t s} : TypeText t s → IsType [.path p, .paren [t]] (.regular (.rust (written p ++ "(" ++ s ++ ")"))) false

mutual
/-- Atoms. -/
inductive Atom : List Tok → Expr → Prop where
  | lit {s} : Atom [.lit s] (.str 0 s)
  | any {j} : Atom [.punct '.' j] (.any 0)
  | paren {ts e} : Choice ts e → Atom [.paren ts] e
  | call {p} : Atom [.path p] (.ext 0 p)
  | cls {s} {K : ClassText} : K.Valid → K.text = s.toList → Atom [.bracket [.lit s]] (.cls 0 K.intervals)
/-- Repetitions and options. -/
inductive Suffixed : List Tok → Expr → Prop where
  | atom {ts e} : Atom ts e → Suffixed ts e
  | star {ts e j} : Atom ts e → Suffixed (ts ++ [.punct '*' j]) (.star 0 e)
  | plus {ts e j} : Atom ts e → Suffixed (ts ++ [.punct '+' j]) (.plus 0 e)
  | opt {ts e j} : Atom ts e → Suffixed (ts ++ [.punct '?' j]) (.opt 0 e)
/-- Predicates. -/
inductive Prefixed : List Tok → Expr → Prop where
  | suffixed {ts e} : Suffixed ts e → Prefixed ts e
  | not {ts e j} : Suffixed ts e → Prefixed (.punct '!' j :: ts) (.not 0 e)
  | and {ts e j} : Suffixed ts e → Prefixed (.punct '&' j :: ts) (.and 0 e)
/-- Type ascriptions; the flag tells that they end with a path used as a type. -/
inductive Typed : List Tok → Expr → Bool → Prop where
  | prefixed {ts e} : Prefixed ts e → Typed ts e false
  | asc {ts us e ty b j} : Prefixed ts e → IsType us ty b → Typed (ts ++ .punct ':' j :: us) (.asc 0 e ty) b
/-- The elements of a sequence. -/
inductive Elems : List Tok → List Expr → Prop where
  | one {ts e b} : Typed ts e b → Elems ts [e]
  | cons {ts us e b es} : Typed ts e b → Elems us es → (b = true → startsParen us = false) → Elems (ts ++ us) (e :: es)
/-- Sequences. -/
inductive Seq : List Tok → Expr → Prop where
  | one {ts e} : Elems ts [e] → Seq ts e
  | many {ts e1 e2 es} : Elems ts (e1 :: e2 :: es) → Seq ts (.seq 0 (e1 :: e2 :: es))
/-- Spans. -/
inductive Spanned : List Tok → Expr → Prop where
  | seq {ts e} : Seq ts e → startsDots ts = false → Spanned ts e
  | span {ts e j} : Seq ts e → (j = true → startsDot ts = false) → Spanned (.punct '.' true :: .punct '.' j :: ts) (.span 0 e)
  | range {ts e j} : Seq ts e →
      Spanned (.punct '.' true :: .punct '.' true :: .punct '.' j :: ts) (.range 0 (.asc 0 e (.regular .unit)))
/-- Branches of a choice. -/
inductive Branch : List Tok → Expr → Prop where
  | spanned {ts e} : Spanned ts e → Branch ts e
  | act {ts e f j} : Spanned ts e → Branch (ts ++ [.punct '>' j, .path f]) (.act 0 e false f)
  | boxed {ts e f j} : Spanned ts e → Branch (ts ++ [.punct '>' j, .box, .path f]) (.act 0 e true f)
/-- The branches of a choice. -/
inductive Branches : List Tok → List Expr → Prop where
  | one {ts e} : Branch ts e → Branches ts [e]
  | cons {ts us e es j} : Branch ts e → Branches us es → Branches (ts ++ .punct '/' j :: us) (e :: es)
/-- Choices. -/
inductive Choice : List Tok → Expr → Prop where
  | one {ts e} : Branches ts [e] → Choice ts e
  | many {ts e1 e2 es} : Branches ts (e1 :: e2 :: es) → Choice ts (.choice 0 (e1 :: e2 :: es))
end

/-- A whole grammar: rules `name = choice` or `name: type = choice` (the same as `name = (choice): type`) and Rust items, each of them possibly after inner
attributes. -/
inductive Blocks : List Tok → FGrammar → Prop where
  | nil : Blocks [] ⟨[], [], []⟩
  | rule {as name ts e us F j} : Choice ts e → Blocks us F →
      Blocks (as.map .attr ++ .path [name] :: .punct '=' j :: ts ++ us) ⟨(name, e) :: F.rules, F.items, as ++ F.attrs⟩
  | typed {as name tys ty b ts e us F i j} : IsType tys ty b → Choice ts e → Blocks us F →
      Blocks (as.map .attr ++ .path [name] :: .punct ':' i :: tys ++ .punct '=' j :: ts ++ us)
        ⟨(name, .asc 0 e ty) :: F.rules, F.items, as ++ F.attrs⟩
  | item {as it us F} : Blocks us F → Blocks (as.map .attr ++ .item it :: us) ⟨F.rules, it :: F.items, as ++ F.attrs⟩

end Syntax

end Oak
