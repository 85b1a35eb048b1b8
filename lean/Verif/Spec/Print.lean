import Verif.Spec.Front
/-!
# Specification: printing an expression

An expression is printed with parentheses only where an operator is applied to an operator that binds less tightly.
-/
set_option autoImplicit false

namespace Oak

/-- How tightly the outermost operator binds: 0 for a choice up to 7 for an atom. -/
def Expr.level : Expr → Nat
  | .choice .. => 0
  | .act .. => 1
  | .span .. | .range .. => 2
  | .seq .. => 3
  | .asc .. => 4
  | .not .. | .and .. => 5
  | .star .. | .plus .. | .opt .. => 6
  | .str .. | .any _ | .cls .. | .nt .. | .ext .. => 7

/-- The characters of an interval. -/
def Interval.text (iv : Interval) : List Char := if iv.lo = iv.hi then [iv.lo] else [iv.lo, '-', iv.hi]

/-- The type of an ascription. -/
def printType : IType → List Tok
  | .regular .unit => [.paren []]
  | .invisible => [.paren [.punct '^' false]]
  | .regular (.rust t) => [.rtype t]
  | _ => []

/-- Parentheses around what binds less tightly than required. -/
def guarded (required : Nat) (e : Expr) (ts : List Tok) : List Tok := if required ≤ e.level then ts else [.paren ts]

mutual
/-- The tokens of an expression. -/
def Expr.print (e : Expr) : List Tok :=
  match e with
  | .str _ s => [.lit s]
  | .any _ => [.punct '.' false]
  | .cls _ ivs => [.bracket [.lit (String.ofList (ivs.flatMap Interval.text))]]
  | .nt _ r => [.path [r]]
  | .ext _ p => [.path p]
  | .seq _ es => printSeq es
  | .choice _ es => printChoice es
  | .star _ e => guarded 7 e e.print ++ [.punct '*' false]
  | .plus _ e => guarded 7 e e.print ++ [.punct '+' false]
  | .opt _ e => guarded 7 e e.print ++ [.punct '?' false]
  | .not _ e => .punct '!' false :: guarded 6 e e.print
  | .and _ e => .punct '&' false :: guarded 6 e e.print
  | .act _ e boxed f => guarded 2 e e.print ++ .punct '>' false :: if boxed then [.box, .path f] else [.path f]
  | .asc _ e ty => guarded 5 e e.print ++ .punct ':' false :: printType ty
  | .span _ e => .punct '.' true :: .punct '.' false :: guarded 3 e e.print
  | .range _ e =>
    match e with
    | .asc _ e _ => .punct '.' true :: .punct '.' true :: .punct '.' false :: guarded 3 e e.print
    | _ => []
/-- The elements of a sequence. -/
def printSeq (es : List Expr) : List Tok :=
  match es with
  | [] => []
  | e :: es => guarded 4 e e.print ++ printSeq es
/-- The branches of a choice. -/
def printChoice (es : List Expr) : List Tok :=
  match es with
  | [] => []
  | [e] => guarded 1 e e.print
  | e :: es => guarded 1 e e.print ++ .punct '/' false :: printChoice es
end

mutual
/-- The expressions that can be written: calls are not resolved yet, sequences and choices have at least two elements, character classes can be written,
ascriptions are to `()`, `(^)` or a Rust type, and `... e` forgets the value of `e`. -/
def Expr.Writable (e : Expr) : Prop :=
  match e with
  | .str _ _ | .any _ | .ext _ _ => True
  | .nt _ _ => False
  | .cls _ ivs => ∃ K : ClassText, K.Valid ∧ K.intervals = ivs
  | .seq _ es | .choice _ es => 2 ≤ es.length ∧ WritableAll es
  | .star _ e | .plus _ e | .opt _ e | .not _ e | .and _ e | .act _ e _ _ | .span _ e => e.Writable
  | .asc _ e ty => e.Writable ∧ (ty = .regular .unit ∨ ty = .invisible ∨ ∃ t, ty = .regular (.rust t))
  | .range _ e =>
    match e with
    | .asc _ e ty => e.Writable ∧ ty = .regular .unit
    | _ => False
/-- The same for lists of expressions. -/
def WritableAll (es : List Expr) : Prop :=
  match es with
  | [] => True
  | e :: es => e.Writable ∧ WritableAll es
end

end Oak
