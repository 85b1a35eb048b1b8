import Verif.Model.Ast
/-!
# Specification: the language of the calculator

The language of the tutorial (doc/src/learn-oak.md, doc/src/full-calc-grammar.md) and of `tests/grammars/calc.rs`, independently of parsing expression grammars: lexemes
separated by spaces, and an ordinary context-free grammar with left-recursive rules for the operators `+ - * /`, a right-recursive rule for `^`, and `let` expressions
that extend as far to the right as possible.
-/
set_option autoImplicit false

namespace Oak.Calculator
open Oak

/-- Operators. -/
inductive Op where
  | add | sub | mul | div | exp
deriving DecidableEq, Repr

/-- Expressions: `Expression` of calc.rs:79-85. -/
inductive Term where
  | var (x : List Char)
  | num (n : Nat)
  | bin (o : Op) (a b : Term)
  | letIn (x : List Char) (v b : Term)
deriving DecidableEq, Repr

/-! ## Lexemes -/

/-- Spaces. -/
def isSpace (c : Char) : Bool := c = ' ' || c = '\n' || c = '\r' || c = '\t'

/-- Digits. -/
def isDigit (c : Char) : Bool := '0' ≤ c && c ≤ '9'

/-- Characters of names. -/
def isWord (c : Char) : Bool := ('a' ≤ c && c ≤ 'z') || ('A' ≤ c && c ≤ 'Z') || isDigit c || c = '_'

/-- Lexemes. -/
inductive Lexeme where
  | num (ds : List Char)
  | name (x : List Char)
  | kwLet
  | kwIn
  | sym (c : Char)

/-- The text of a lexeme. -/
def Lexeme.chars : Lexeme → List Char
  | .num ds => ds
  | .name x => x
  | .kwLet => ['l', 'e', 't']
  | .kwIn => ['i', 'n']
  | .sym c => [c]

/-- The text does not start with a character of the set. -/
def NotStart (p : Char → Bool) : List Char → Prop
  | [] => True
  | c :: _ => p c = false

/-- Names: characters of names, the first is not a digit, and keywords are not names. -/
def IsName (x : List Char) : Prop := x ≠ [] ∧ (∀ c ∈ x, isWord c = true) ∧ NotStart isDigit x ∧ x ≠ ['l', 'e', 't'] ∧ x ≠ ['i', 'n']

/-- Well-formed lexemes. -/
def Lexeme.Valid : Lexeme → Prop
  | .num ds => ds ≠ [] ∧ ∀ c ∈ ds, isDigit c = true
  | .name x => IsName x
  | _ => True

/-- The characters that would be read with the lexeme if they came just after it. -/
def Lexeme.glues : Lexeme → Char → Bool
  | .num _ => isDigit
  | .name _ | .kwLet | .kwIn => isWord
  | .sym _ => fun _ => false

/-- The text `s` starts with the lexemes `ls`, each followed by spaces (at least one where the next character would be read with the lexeme), and `rest` remains. -/
inductive Lex : List Lexeme → List Char → List Char → Prop where
  | nil {s} : Lex [] s s
  | cons {l sp s ls rest} : l.Valid → (∀ c ∈ sp, isSpace c = true) → NotStart isSpace s → NotStart l.glues (sp ++ s) → Lex ls s rest →
      Lex (l :: ls) (l.chars ++ (sp ++ s)) rest

/-! ## Syntax -/

/-- The symbol of an operator. -/
def Op.sym : Op → Char
  | .add => '+'
  | .sub => '-'
  | .mul => '*'
  | .div => '/'
  | .exp => '^'

/-- The number written with digits. -/
def decimal (ds : List Char) : Nat := ds.foldl (fun n c => 10 * n + (c.toNat - '0'.toNat)) 0

mutual
/-- Numbers, names, `let` expressions and parentheses. The Boolean tells that the expression ends with the body of a `let`: the body extends as far as possible, so
that such an expression cannot be a left operand. -/
inductive Factor : Term → List Lexeme → Bool → Prop where
  | num {ds} : Factor (.num (decimal ds)) [.num ds] false
  | var {x} : Factor (.var x) [.name x] false
  | letIn {x v b lv lb o o'} : Sum v lv o → Sum b lb o' → Factor (.letIn x v b) (.kwLet :: .name x :: .sym '=' :: lv ++ .kwIn :: lb) true
  | paren {t ls o} : Sum t ls o → Factor t (.sym '(' :: ls ++ [.sym ')']) false
/-- `a ^ b`, grouped to the right. -/
inductive Power : Term → List Lexeme → Bool → Prop where
  | one {t ls o} : Factor t ls o → Power t ls o
  | exp {a b la lb o} : Factor a la false → Power b lb o → Power (.bin .exp a b) (la ++ .sym '^' :: lb) o
/-- `a * b` and `a / b`, grouped to the left. -/
inductive Product : Term → List Lexeme → Bool → Prop where
  | one {t ls o} : Power t ls o → Product t ls o
  | bin {op a b la lb o} : op = .mul ∨ op = .div → Product a la false → Power b lb o → Product (.bin op a b) (la ++ .sym op.sym :: lb) o
/-- `a + b` and `a - b`, grouped to the left. -/
inductive Sum : Term → List Lexeme → Bool → Prop where
  | one {t ls o} : Product t ls o → Sum t ls o
  | bin {op a b la lb o} : op = .add ∨ op = .sub → Sum a la false → Product b lb o → Sum (.bin op a b) (la ++ .sym op.sym :: lb) o
end

/-- The text `s` is a way to write the expression `t`. -/
def Written (t : Term) (s : List Char) : Prop :=
  ∃ sp s1 ls o, s = sp ++ s1 ∧ (∀ c ∈ sp, isSpace c = true) ∧ NotStart isSpace s1 ∧ Lex ls s1 [] ∧ Sum t ls o

/-! ## The functions of the user -/

/-- The operator functions, calc.rs:122-126. -/
def opName : Op → String
  | .add => "add_bin_op"
  | .sub => "sub_bin_op"
  | .mul => "mul_bin_op"
  | .div => "div_bin_op"
  | .exp => "exp_bin_op"

/-- The value of a call of an operator function. -/
def opVal (o : Op) : Val := .app [opName o] []

/-- `to_string` on characters, calc.rs:104-106. -/
def nameVal (x : List Char) : Val := .app ["to_string"] [.list (x.map .chr)]

/-- The value of type `PExpr` computed by the functions of calc.rs:92-126 when they are called as the term of calls `v` says is the expression `t`.
(Unless one of the calls panics: see `Panics`.) -/
inductive Denotes : Val → Term → Prop where
  /-- calc.rs:92-98 -/
  | number {ds} : Denotes (.app ["number_expr"] [.app ["to_number"] [.list (ds.map .chr)]]) (.num (decimal ds))
  /-- calc.rs:100-102 -/
  | var {x} : Denotes (.app ["variable_expr"] [nameVal x]) (.var x)
  /-- calc.rs:118-120 -/
  | letIn {x v b tv tb} : Denotes v tv → Denotes b tb → Denotes (.app ["let_in_expr"] [nameVal x, v, b]) (.letIn x tv tb)
  /-- calc.rs:108-111, no operator -/
  | leftNil {h t} : Denotes h t → Denotes (.app ["fold_left"] [h, .list []]) t
  /-- calc.rs:108-111, the last operator is applied last -/
  | leftSnoc {h vs op v a b} : Denotes (.app ["fold_left"] [h, .list vs]) a → Denotes v b →
      Denotes (.app ["fold_left"] [h, .list (vs ++ [.tup [opVal op, v]])]) (.bin op a b)
  /-- calc.rs:113-116, no operator -/
  | rightNil {l t} : Denotes l t → Denotes (.app ["fold_right"] [.list [], l]) t
  /-- calc.rs:113-116, the first operator is applied last -/
  | rightCons {vs l op v a b} : Denotes v a → Denotes (.app ["fold_right"] [.list vs, l]) b →
      Denotes (.app ["fold_right"] [.list (.tup [v, opVal op] :: vs), l]) (.bin op a b)

/-- Some of the calls that the term of calls `v` says panics: `to_number` (calc.rs:92-94) on a number that does not fit in 32 bits. -/
inductive Panics : Val → Prop where
  | number {ds} : 2 ^ 32 ≤ decimal ds → Panics (.app ["to_number"] [.list (ds.map .chr)])
  | app {f vs v} : v ∈ vs → Panics v → Panics (.app f vs)
  | tup {vs v} : v ∈ vs → Panics v → Panics (.tup vs)
  | list {vs v} : v ∈ vs → Panics v → Panics (.list vs)

/-- A call that panics: `to_number` (calc.rs:92-94) on digits whose number does not fit in 32 bits. -/
def PanickingCall (v : Val) : Prop := ∃ ds, v = .app ["to_number"] [.list (ds.map .chr)] ∧ 2 ^ 32 ≤ decimal ds

/-- The numbers of the expression fit in 32 bits. -/
def Term.Small : Term → Prop
  | .var _ => True
  | .num n => n < 2 ^ 32
  | .bin _ a b => a.Small ∧ b.Small
  | .letIn _ v b => v.Small ∧ b.Small

/-! ## Writing expressions -/

/-- The names of the expression are names. -/
def Term.Named : Term → Prop
  | .var x => IsName x
  | .num _ => True
  | .bin _ a b => a.Named ∧ b.Named
  | .letIn x v b => IsName x ∧ v.Named ∧ b.Named

/-- The last digit of a number. -/
def lastDigit (n : Nat) : Char := Char.ofNat ('0'.toNat + n % 10)

/-- Numbers in base 10. -/
def digits (n : Nat) : List Char := if n < 10 then [lastDigit n] else digits (n / 10) ++ [lastDigit n]
termination_by n

/-- A way to write an expression, with parentheses everywhere. -/
def Term.text : Term → List Char
  | .var x => x
  | .num n => digits n
  | .bin o a b => '(' :: a.text ++ o.sym :: b.text ++ [')']
  | .letIn x v b => '(' :: 'l' :: 'e' :: 't' :: ' ' :: x ++ '=' :: v.text ++ ' ' :: 'i' :: 'n' :: ' ' :: b.text ++ [')']

end Oak.Calculator
