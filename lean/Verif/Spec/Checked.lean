import Verif.Spec.RustTyping
import Verif.Spec.Sized
import Verif.Spec.Typed
import Verif.Spec.Ownership
/-!
# Specification: a check of the inferred types

The inference gives a type to each expression; the types that matter for the generated code are those of the values that are put together.  `AGrammar.consistent` compares them:
it can be evaluated on a given grammar and on the types inferred for it, whatever the shape of the grammar (in particular with recursive rules).
-/
set_option autoImplicit false

namespace Oak

mutual
/-- Equality of types. -/
def RTy.same : RTy → RTy → Bool
  | .unit, .unit => true
  | .char, .char => true
  | .vec t, .vec u => t.same u
  | .option t, .option u => t.same u
  | .tuple ts, .tuple us => sameTypes ts us
  | .rust s, .rust s' => s == s'
  | _, _ => false
/-- The same for lists. -/
def sameTypes : List RTy → List RTy → Bool
  | [], [] => true
  | t :: ts, u :: us => t.same u && sameTypes ts us
  | _, _ => false
end

/-- The types of the `n` values of which a value of the type is made. -/
def RTy.unpack (t : RTy) : Nat → Option (List RTy)
  | 0 => match t with | .unit => some [] | _ => none
  | 1 => some [t]
  | n + 2 => match t with | .tuple ts => if ts.length = n + 2 then some ts else none | _ => none

/-- The type of the elements, if there is one type, of vectors. -/
def elemOf : List RTy → Option RTy
  | [.vec t] => some t
  | _ => none

/-- The type of the optional value, if there is one type, of options. -/
def someOf : List RTy → Option RTy
  | [.option t] => some t
  | _ => none

/-- The types after the first one, if it is the Rust type `s`. -/
def restOf (s : String) : List RTy → Option (List RTy)
  | t :: us => if t.same (.rust s) then some us else none
  | [] => none

/-- The type, if there is one. -/
def oneOf : List RTy → Option RTy
  | [t] => some t
  | _ => none

/-- The semantic action gives a value of this type: that of the function if it is declared, otherwise any type (any Rust type for a box).  `u` tells that there is no argument. -/
def actGives (A : AGrammar) (boxed : Bool) (f : Path) (u : Bool) (t : RTy) : Bool :=
  match actionType A boxed f with
  | .rust s => t.same (.rust s) && !(Spec.isVariant f && u)
  | .external => !boxed || match t with | .rust _ => true | _ => false
  | _ => false

/-- The types of the values of which those of the expression are made. -/
def partsOf (T : Nat → Ty) (n : Nat) (e : Expr) : Option (List RTy) :=
  match compileType T n e.id with
  | .ok t => t.unpack (T e.id).card
  | _ => none

mutual
/-- The expression gives values of the types `ts`: `p` tells that its value is built. -/
def checks (A : AGrammar) (T : Nat → Ty) (n : Nat) (p : Bool) (e : Expr) (ts : List RTy) : Bool :=
  match e with
  | .str _ _ => ts.isEmpty
  | .any i | .cls i _ => if p && T i ≠ .unit then sameTypes ts [.char] else ts.isEmpty
  | .nt i r =>
    if p && T i ≠ .unit then
      match A.grammar.find r with
      | some b => ts.length == (T i).card && match compileType T n b.id with | .ok t => t.same (.pack ts) | _ => false
      | none => false
    else ts.isEmpty
  -- nothing is known of an external rule
  | .ext i f => if p && T i ≠ .unit then f.length != 1 && ts.length == (T i).card else ts.isEmpty
  | .seq i es => checksSeq A T n (p && T i ≠ .unit) es ts
  | .choice i es => !es.isEmpty && checksAll A T n (p && T i ≠ .unit) es ts
  | .star i e | .plus i e =>
    if p && T i ≠ .unit then
      match (elemOf ts).bind (·.unpack (T e.id).card) with
      | some us => checks A T n true e us
      | none => false
    else ts.isEmpty
  | .opt i e =>
    if p && T i ≠ .unit then
      match (someOf ts).bind (·.unpack (T e.id).card) with
      | some us => checks A T n true e us
      | none => false
    else ts.isEmpty
  | .not i _ | .and i _ => !(p && T i ≠ .unit) && ts.isEmpty
  | .act i e b f =>
    if p && T i ≠ .unit then
      match oneOf ts, partsOf T n e with
      | some t, some us => checks A T n true e us && actGives A b f (T e.id = .unit) t
      | _, _ => false
    else ts.isEmpty
  | .asc i e _ => checks A T n (p && T i ≠ .unit) e ts
  | .span i e =>
    if p && T i ≠ .unit then
      match restOf "<Range<Stream> as StreamSpan>::Output" ts with
      | some us => us.length == (T e.id).card && checks A T n true e us
      | none => false
    else ts.isEmpty
  | .range i e =>
    if p && T i ≠ .unit then
      match restOf "Range<Stream>" ts with
      | some us => us.length == (T e.id).card && checks A T n true e us
      | none => false
    else ts.isEmpty
/-- A sequence gives the values of its elements. -/
def checksSeq (A : AGrammar) (T : Nat → Ty) (n : Nat) (p : Bool) (es : List Expr) (ts : List RTy) : Bool :=
  match es with
  | [] => ts.isEmpty
  | e :: es => checks A T n p e (ts.take (arity T p e)) && checksSeq A T n p es (ts.drop (arity T p e))
/-- The branches of a choice give values of the same types. -/
def checksAll (A : AGrammar) (T : Nat → Ty) (n : Nat) (p : Bool) (es : List Expr) (ts : List RTy) : Bool :=
  match es with
  | [] => true
  | e :: es => checks A T n p e ts && checksAll A T n p es ts
end

/-- The types of the expressions of a rule agree with each other, and with the type of the rule. -/
def ruleChecks (A : AGrammar) (T : Nat → Ty) (n : Nat) (e : Expr) : Bool :=
  T e.id == .unit || match partsOf T n e with | some ts => checks A T n true e ts | none => false

/-- The types inferred for a grammar agree with each other. -/
def AGrammar.consistent (A : AGrammar) (T : Nat → Ty) (n : Nat) : Bool := A.grammar.coherent T && A.grammar.rules.all fun r => ruleChecks A T n r.2

/-! ## Moves -/

mutual
/-- The values given by the expression are `Copy` (see `CopyValue`). -/
def copies (A : AGrammar) (T : Nat → Ty) (cp : String → Bool) (n : Nat) (e : Expr) : Bool :=
  match e with
  | .str _ _ | .not _ _ | .and _ _ | .any _ | .cls _ _ => true
  | .nt _ r => match A.grammar.find r with
    | some b => match compileType T n b.id with | .ok t => t.copy cp | _ => false
    | none => false
  | .act _ _ b f => match actionType A b f with | .rust s => cp s | _ => false
  | .ext _ _ | .star _ _ | .plus _ _ => false
  | .seq _ es | .choice _ es => copiesAll A T cp n es
  | .opt _ e | .asc _ e _ => copies A T cp n e
  | .span _ e => cp "<Range<Stream> as StreamSpan>::Output" && copies A T cp n e
  | .range _ e => cp "Range<Stream>" && copies A T cp n e
/-- The same for lists of expressions. -/
def copiesAll (A : AGrammar) (T : Nat → Ty) (cp : String → Bool) (n : Nat) (es : List Expr) : Bool :=
  match es with
  | [] => true
  | e :: es => copies A T cp n e && copiesAll A T cp n es
end

mutual
/-- There is no choice where values that are not `Copy` wait for what follows (see `Apart`). -/
def apart (T : Nat → Ty) (P : Expr → Bool) (p live : Bool) (e : Expr) : Bool :=
  match e with
  | .str _ _ | .any _ | .cls _ _ | .nt _ _ | .ext _ _ => true
  | .seq i es => apartSeq T P (p && T i ≠ .unit) live es
  | .choice i es => !live && apartAlts T P (p && T i ≠ .unit) es
  | .star i e | .plus i e | .opt i e => if p && T i ≠ .unit then apart T P true false e else apart T P false live e
  | .not _ e | .and _ e => apart T P false live e
  | .act i e _ _ | .asc i e _ | .span i e | .range i e => apart T P (p && T i ≠ .unit) live e
/-- The same for sequences. -/
def apartSeq (T : Nat → Ty) (P : Expr → Bool) (p live : Bool) (es : List Expr) : Bool :=
  match es with
  | [] => true
  | e :: es => apart T P p live e && apartSeq T P p (live || (p && !P e)) es
/-- The same for branches. -/
def apartAlts (T : Nat → Ty) (P : Expr → Bool) (p : Bool) (es : List Expr) : Bool :=
  match es with
  | [] => true
  | e :: es => apart T P p false e && apartAlts T P p es
end

/-- In no rule a choice follows, in a sequence, an expression whose values are not `Copy`. -/
def AGrammar.separate (A : AGrammar) (T : Nat → Ty) (cp : String → Bool) (n : Nat) : Bool :=
  A.grammar.rules.all fun r => T r.2.id == .unit || apart T (copies A T cp n) true false r.2

end Oak
