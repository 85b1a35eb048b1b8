/-!
Abstract syntax of grammars: `src/liboak/ast.rs`, and the types of `src/liboak/middle/typing/ast.rs`.
-/
set_option autoImplicit false

namespace Oak

/-- A `syn::Path` (segments only: generic arguments and a leading `::` are not modelled). -/
abbrev Path := List String

/-- `Type`, middle/typing/ast.rs:337-348. Sub-types are indices of expressions, as in the code.
`Rust(syn::Type)` is kept as its text. -/
inductive Ty where
  | unit
  | atom
  | optional (i : Nat)
  | list (i : Nat)
  | tuple (is : List Nat)
  | rust (t : String)
deriving Repr, DecidableEq

/-- `Type::cardinality`, middle/typing/ast.rs:370-379. -/
def Ty.card : Ty → Nat
  | .unit => 0
  | .atom => 1
  | .optional _ => 1
  | .list _ => 1
  | .rust _ => 1
  | .tuple is => is.length

/-- `RecKind`, middle/typing/ast.rs:173-178. -/
inductive RecKind where
  | unit
  | poly
deriving Repr, DecidableEq

/-- `RecPath`, middle/typing/ast.rs:180-185. -/
structure RecPath where
  kind : RecKind
  path : List String
deriving Repr, DecidableEq

/-- `RecSet`, middle/typing/ast.rs:215-219. -/
abbrev RecSet := List RecPath

/-- `IType`, middle/typing/ast.rs:283-291. -/
inductive IType where
  | infer
  | rec_ (r : RecSet)
  | invisible
  | external
  | regular (t : Ty)
deriving Repr, DecidableEq

/-- `CharacterInterval`, ast.rs:207-212. -/
structure Interval where
  lo : Char
  hi : Char
deriving Repr, DecidableEq

/-- `Expression`, ast.rs:160-179.  The code stores expressions in an arena (`Vec<Expression>`, ast.rs:44) and children
are indices; the parser allocates every node once, children first, so the arena is a forest.  Here an expression
is a tree and `i` is the index of the node in the arena (used to look up its type). -/
inductive Expr where
  | str (i : Nat) (lit : String)
  | any (i : Nat)
  | cls (i : Nat) (ivs : List Interval)
  | nt (i : Nat) (r : String)
  | ext (i : Nat) (p : Path)
  | seq (i : Nat) (es : List Expr)
  | choice (i : Nat) (es : List Expr)
  | star (i : Nat) (e : Expr)
  | plus (i : Nat) (e : Expr)
  | opt (i : Nat) (e : Expr)
  | not (i : Nat) (e : Expr)
  | and (i : Nat) (e : Expr)
  | act (i : Nat) (e : Expr) (boxed : Bool) (f : Path)
  | asc (i : Nat) (e : Expr) (ty : IType)
  | span (i : Nat) (e : Expr)
  | range (i : Nat) (e : Expr)
deriving Repr

/-- The index of a node. -/
def Expr.id : Expr → Nat
  | .str i _ | .any i | .cls i _ | .nt i _ | .ext i _ | .seq i _ | .choice i _ | .star i _ | .plus i _ | .opt i _
  | .not i _ | .and i _ | .act i _ _ _ | .asc i _ _ | .span i _ | .range i _ => i

/-- Induction principle on expressions, with the list motive replaced by membership. -/
theorem Expr.ind {P : Expr → Prop}
    (str : ∀ i l, P (.str i l)) (any : ∀ i, P (.any i)) (cls : ∀ i k, P (.cls i k)) (nt : ∀ i r, P (.nt i r))
    (ext : ∀ i p, P (.ext i p)) (seq : ∀ i es, (∀ e ∈ es, P e) → P (.seq i es))
    (choice : ∀ i es, (∀ e ∈ es, P e) → P (.choice i es)) (star : ∀ i e, P e → P (.star i e))
    (plus : ∀ i e, P e → P (.plus i e)) (opt : ∀ i e, P e → P (.opt i e)) (not : ∀ i e, P e → P (.not i e))
    (and : ∀ i e, P e → P (.and i e)) (act : ∀ i e b f, P e → P (.act i e b f))
    (asc : ∀ i e t, P e → P (.asc i e t)) (span : ∀ i e, P e → P (.span i e))
    (range : ∀ i e, P e → P (.range i e)) (e : Expr) : P e := by
  refine Expr.rec (motive_1 := P) (motive_2 := fun es => ∀ e ∈ es, P e)
    str any cls nt ext seq choice star plus opt not and act asc span range ?_ ?_ e
  · intro e he; cases he
  · intro e es he hes x hx
    cases hx with
    | head => exact he
    | tail _ h => exact hes x h

/-- `Grammar`: the declared rules with their bodies, ast.rs:40-50 (`rules`, `exprs`).  Functions, Rust items and attributes are
modelled separately. -/
structure Grammar where
  rules : List (String × Expr)
deriving Repr

/-- `find_rule_by_ident` followed by `expr_idx`, ast.rs:69-78: the first rule of that name
(`none` models the `expect` panic). -/
def Grammar.find (G : Grammar) (r : String) : Option Expr :=
  (G.rules.find? (·.1 == r)).map (·.2)

/-- `CharacterInterval::escape_lo`/`escape_hi` (ast.rs:223-229) through `char::escape_default`. -/
def escapeChar (c : Char) : String :=
  if c = '\t' then "\\t" else if c = '\r' then "\\r" else if c = '\n' then "\\n"
  else if c = '\'' then "\\'" else if c = '"' then "\\\"" else if c = '\\' then "\\\\"
  else if 0x20 ≤ c.toNat ∧ c.toNat ≤ 0x7e then String.ofList [c]
  else "\\u{" ++ String.ofList (Nat.toDigits 16 c.toNat) ++ "}"

/-- `Display for CharacterInterval`, ast.rs:232-242. -/
def Interval.display (iv : Interval) : String :=
  if iv.lo = iv.hi then escapeChar iv.lo else escapeChar iv.lo ++ "-" ++ escapeChar iv.hi

/-- `Display for CharacterClassExpr`, ast.rs:196-205. -/
def classDesc (ivs : List Interval) : String :=
  "[\"" ++ String.join (ivs.map Interval.display) ++ "\"]"

/-- Values of the generated parsers.  Semantic actions are uninterpreted constructors `app`; `path` is a unit variant
used as a value (back/compiler/semantic_action.rs:57-59); `foreign` is data returned by an external parser.
`tup []` is `()`. -/
inductive Val where
  | chr (c : Char)
  | tup (vs : List Val)
  | list (vs : List Val)
  | none
  | some (v : Val)
  | span (lo hi : Nat)
  | range (lo hi : Nat)
  | app (f : Path) (args : List Val)
  | path (f : Path)
  | box (v : Val)
  | foreign (s : String)
deriving Repr

/-- A parenthesised list of Rust expressions `(#(#vs),*)`: one value is not a tuple
(back/compiler/value.rs:20-23). -/
def tupleVal : List Val → Val
  | [v] => v
  | vs => .tup vs

end Oak
