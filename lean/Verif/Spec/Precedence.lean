import Verif.Model.Ast
import Verif.Spec.Yields
import Verif.Spec.Operators
/-!
# Specification: tables of operators with precedences

doc/src/learn-oak.md ("Operator precedence", "Operator associativity") gives a template of rules for operators with any number of levels of precedence:

```text
expr_lvl_1 = expr_lvl_2 (operators_lvl_1 expr_lvl_2)* > fold_left
expr_lvl_2 = (expr_lvl_3 operators_lvl_2)* expr_lvl_3 > fold_right
...
expr_lvl_n = value > leaf / "(" expr_lvl_1 ")"
```

This file says what expressions with such operators are, independently of parsing expression grammars.
-/
set_option autoImplicit false

namespace Oak.Precedence
open Oak Spec

/-- An operator: its symbol, and the function of the user that its rule calls. -/
structure Oper where
  sym : String
  fn : String
deriving DecidableEq, Repr

/-- A level of precedence: are its operators grouped to the right, and which are they. A table is a list of levels; the first one binds the least. -/
structure Level where
  right : Bool
  ops : List Oper
deriving Repr

/-- Expressions: values, and operators (given by the name of their function) applied to two operands. -/
inductive Term where
  | leaf (vs : List Val)
  | bin (f : String) (a b : Term)

/-- The text `s` is a way to write the expression `t` where an operand of level `k` is wanted: the operators of `t` that are not between parentheses are of level `k` or
more; the right operand (for levels grouped to the left; the left operand for the other levels) of an operator of level `i` is of level `i + 1`. Parentheses can be
written around `t` where an operand of level `k` is wanted if `par k t`. -/
inductive Writes (tab : List Level) (word : List Val → List Char → Prop) (par : Nat → Term → Prop) : Nat → Term → List Char → Prop where
  | word {k vs w} : word vs w → Writes tab word par k (.leaf vs) w
  | paren {k t s} : par k t → Writes tab word par 0 t s → Writes tab word par k t ('(' :: (s ++ [')']))
  | left {k i : Nat} {lv o a b sa sb} : k ≤ i → tab[i]? = some lv → lv.right = false → o ∈ lv.ops → Writes tab word par i a sa → Writes tab word par (i + 1) b sb →
      Writes tab word par k (.bin o.fn a b) (sa ++ (o.sym.toList ++ sb))
  | right {k i : Nat} {lv o a b sa sb} : k ≤ i → tab[i]? = some lv → lv.right = true → o ∈ lv.ops → Writes tab word par (i + 1) a sa → Writes tab word par i b sb →
      Writes tab word par k (.bin o.fn a b) (sa ++ (o.sym.toList ++ sb))

/-- Parentheses are allowed everywhere. -/
def anywhere : Nat → Term → Prop := fun _ _ => True

/-- Parentheses are written only where they are needed: around an operator of a level smaller than what is wanted. -/
def needed (tab : List Level) : Nat → Term → Prop := fun k t =>
  ∃ (i : Nat) (lv : Level) (o : Oper) (a b : Term), t = .bin o.fn a b ∧ tab[i]? = some lv ∧ o ∈ lv.ops ∧ i < k

/-- The operators of the expression are in the table, and its values can be written. -/
inductive Over (tab : List Level) (word : List Val → List Char → Prop) : Term → Prop where
  | leaf {vs w} : word vs w → Over tab word (.leaf vs)
  | bin {i : Nat} {lv o a b} : tab[i]? = some lv → o ∈ lv.ops → Over tab word a → Over tab word b → Over tab word (.bin o.fn a b)

/-- Values made of one or more characters of a class. -/
def Word (p : Char → Bool) (vs : List Val) (w : List Char) : Prop := w ≠ [] ∧ (∀ c ∈ w, p c = true) ∧ vs = [.list (w.map .chr)]

/-- The symbols of the table can be told apart: they are not empty and do not begin with a character of values or a closing parenthesis; no symbol is at the beginning of
another one. -/
structure Clear (tab : List Level) (p : Char → Bool) : Prop where
  symbols : ∀ (i : Nat) lv o, tab[i]? = some lv → o ∈ lv.ops → ∃ c cs, o.sym.toList = c :: cs ∧ p c = false ∧ c ≠ ')'
  opening : p '(' = false
  closing : p ')' = false
  distinct : ∀ (i j : Nat) li lj o q, tab[i]? = some li → o ∈ li.ops → tab[j]? = some lj → q ∈ lj.ops → o.sym.toList <+: q.sym.toList → i = j ∧ o = q

/-! ## With any lexical syntax -/

/-- Reading of tokens: from a text to what remains of it after the token. -/
structure Lexis where
  op : Oper → List Char → List Char → Prop
  opening : List Char → List Char → Prop
  closing : List Char → List Char → Prop
  word : List Val → List Char → List Char → Prop

/-- The text that begins with `s` and ends where `r` remains is a way to write `t` where an operand of level `k` is wanted. -/
inductive Reads (tab : List Level) (X : Lexis) : Nat → Term → List Char → List Char → Prop where
  | word {k vs s r} : X.word vs s r → Reads tab X k (.leaf vs) s r
  | paren {k t s s1 s2 r} : X.opening s s1 → Reads tab X 0 t s1 s2 → X.closing s2 r → Reads tab X k t s r
  | left {k i : Nat} {lv o a b s s1 s2 r} : k ≤ i → tab[i]? = some lv → lv.right = false → o ∈ lv.ops → Reads tab X i a s s1 → X.op o s1 s2 → Reads tab X (i + 1) b s2 r →
      Reads tab X k (.bin o.fn a b) s r
  | right {k i : Nat} {lv o a b s s1 s2 r} : k ≤ i → tab[i]? = some lv → lv.right = true → o ∈ lv.ops → Reads tab X (i + 1) a s s1 → X.op o s1 s2 → Reads tab X i b s2 r →
      Reads tab X k (.bin o.fn a b) s r

/-! ## The functions of the user -/

/-- The value computed by `fold_left`, `fold_right` (doc/src/learn-oak.md, tests/grammars/calc.rs:108-116), the functions of the operators and `leaf`, when they are called
as the term of calls `v` says, is the expression `t`. -/
inductive Denotes : Val → Term → Prop where
  | leaf {vs} : Denotes (.app ["leaf"] vs) (.leaf vs)
  | leftNil {h t} : Denotes h t → Denotes (.app ["fold_left"] [h, .list []]) t
  /-- the last operator is applied last -/
  | leftSnoc {h vs f v a b} : Denotes (.app ["fold_left"] [h, .list vs]) a → Denotes v b →
      Denotes (.app ["fold_left"] [h, .list (vs ++ [.tup [.app [f] [], v]])]) (.bin f a b)
  | rightNil {l t} : Denotes l t → Denotes (.app ["fold_right"] [.list [], l]) t
  /-- the first operator is applied last -/
  | rightCons {vs l f v a b} : Denotes v a → Denotes (.app ["fold_right"] [.list vs, l]) b →
      Denotes (.app ["fold_right"] [.list (.tup [v, .app [f] []] :: vs), l]) (.bin f a b)

/-! ## The template -/

/-- The branches of the rule of the operators of a level. -/
inductive Branches (T : Nat → Ty) (opE : Oper → Expr) : List Oper → List Expr → Prop where
  | nil : Branches T opE [] []
  | cons {i o os es} : T i ≠ .unit → isVariant [o.fn] = false → Branches T opE os es → Branches T opE (o :: os) (.act i (opE o) false [o.fn] :: es)

/-- The rule of the operators of a level: `o1 > f1 / o2 > f2 / ...`. -/
inductive OperRule (T : Nat → Ty) (opE : Oper → Expr) : List Oper → Expr → Prop where
  | one {i o} : T i ≠ .unit → isVariant [o.fn] = false → OperRule T opE [o] (.act i (opE o) false [o.fn])
  | many {i os es} : T i ≠ .unit → Branches T opE os es → OperRule T opE os (.choice i es)

/-- The rule of a level, `next` being that of the following one and `oper` that of its operators. -/
inductive LevelRule (T : Nat → Ty) (oper next : String) : Bool → Expr → Prop where
  | left {a b c d e f g} : (∀ x ∈ [a, b, c, d, e, f, g], T x ≠ .unit) →
      LevelRule T oper next false (.act a (.seq b [.nt c next, .star d (.seq e [.nt f oper, .nt g next])]) false ["fold_left"])
  | right {a b c d e f g} : (∀ x ∈ [a, b, c, d, e, f, g], T x ≠ .unit) →
      LevelRule T oper next true (.act a (.seq b [.star c (.seq d [.nt e next, .nt f oper]), .nt g next]) false ["fold_right"])

/-- The grammar contains the rules of the template for the table, `lvl i` and `oper i` being the names of the rules of level `i`. The expressions of the tokens are given
(`opE`, `openE`, `closeE`, `wordE`). What carries data has been given a type other than `(^)`. -/
structure Template (G : Grammar) (T : Nat → Ty) (tab : List Level) (lvl oper : Nat → String) (opE : Oper → Expr) (openE closeE wordE : Expr) : Prop where
  level : ∀ (i : Nat) lv, tab[i]? = some lv → ∃ e, G.find (lvl i) = some e ∧ LevelRule T (oper i) (lvl (i + 1)) lv.right e
  opers : ∀ (i : Nat) lv, tab[i]? = some lv → ∃ e, G.find (oper i) = some e ∧ OperRule T opE lv.ops e
  atom : ∃ a b c d, G.find (lvl tab.length) = some (.choice a [.act b wordE false ["leaf"], .seq c [openE, .nt d (lvl 0), closeE]]) ∧ ∀ x ∈ [a, b, c, d], T x ≠ .unit

/-- The expressions of the tokens read the tokens; tokens cannot be taken for one another. -/
structure Tokens (G : Grammar) (X : ExtSpec) (T : Nat → Ty) (sp : SpanSpec) (tab : List Level) (opE : Oper → Expr) (openE closeE wordE : Expr) (K : Lexis) : Prop where
  op : ∀ {i : Nat} {lv o}, tab[i]? = some lv → o ∈ lv.ops → ∀ s r vs, Yields G X T sp (opE o) s r vs ↔ K.op o s r ∧ vs = []
  op_fails : ∀ {i : Nat} {lv o}, tab[i]? = some lv → o ∈ lv.ops → ∀ s, (∀ r, ¬ K.op o s r) → Fails G X (opE o) s
  opening : ∀ s r vs, Yields G X T sp openE s r vs ↔ K.opening s r ∧ vs = []
  closing : ∀ s r vs, Yields G X T sp closeE s r vs ↔ K.closing s r ∧ vs = []
  word : ∀ s r vs, Yields G X T sp wordE s r vs ↔ K.word vs s r
  word_fails : ∀ s, (∀ vs r, ¬ K.word vs s r) → Fails G X wordE s
  op_shorter : ∀ {i : Nat} {lv o s r}, tab[i]? = some lv → o ∈ lv.ops → K.op o s r → r.length < s.length
  opening_shorter : ∀ {s r}, K.opening s r → r.length < s.length
  exclusive : ∀ {i j : Nat} {li lj o p s r q}, tab[i]? = some li → o ∈ li.ops → tab[j]? = some lj → p ∈ lj.ops → K.op o s r → K.op p s q → i = j ∧ o = p
  op_not_closing : ∀ {i : Nat} {lv o s r q}, tab[i]? = some lv → o ∈ lv.ops → K.op o s r → ¬ K.closing s q
  opening_not_word : ∀ {s r vs q}, K.opening s r → ¬ K.word vs s q

end Oak.Precedence
