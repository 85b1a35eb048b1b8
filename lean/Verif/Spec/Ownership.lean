import Verif.Spec.RustTyping
/-!
# Specification: ownership in the generated code

What `rustc` checks about moves (errors E0382 and E0505) and about `&mut` arguments (E0499, E0502) in the fragment in which the functions are generated.  A variable whose
type is not `Copy` is moved when it is used by value and must not be used afterwards, unless it is assigned again.  The check is that of Rust: after a condition, a variable is
moved if it is moved on one of the branches; a loop may run twice.

The parse state is not checked: it is linear in the templates (see `Model/Code.lean`).  The type of streams, of which marks are made, is not assumed to be `Copy`.
-/
set_option autoImplicit false

namespace Oak

/-! ## Copy types -/

mutual
/-- Is the type `Copy`?  `cp` tells which of the types written in the grammar are. -/
def RTy.copy (cp : String → Bool) : RTy → Bool
  | .unit => true
  | .char => true
  | .vec _ => false
  | .option t => t.copy cp
  | .tuple ts => copyAll cp ts
  | .rust s => cp s
/-- The same for lists. -/
def copyAll (cp : String → Bool) : List RTy → Bool
  | [] => true
  | t :: ts => t.copy cp && copyAll cp ts
end

/-- The same for the local variables. -/
def VTy.copy (cp : String → Bool) : VTy → Bool
  | .stream => false
  | .bool => true
  | .int => true
  | .val t => t.copy cp
  | .mutRef _ => false

/-! ## Moves

`M` is the list of the variables that may have been moved; `κ x` tells that the type of `x` is `Copy`; the result is `none` for the use of a moved variable. -/

/-- Use of a variable by value. -/
def useVar (κ : Name → Bool) (x : Name) (M : List Name) : Option (List Name) :=
  if x ∈ M then none else some (if κ x then M else x :: M)

/-- Use of several variables by value, from left to right. -/
def useAll (κ : Name → Bool) : List Name → List Name → Option (List Name)
  | [], M => some M
  | x :: xs, M => (useVar κ x M).bind (useAll κ xs)

/-- Use of a variable by reference, or of a clone of it. -/
def readVar (x : Name) (M : List Name) : Option (List Name) := if x ∈ M then none else some M

/-- The same for several variables. -/
def readAll (xs M : List Name) : Option (List Name) := if ∃ x ∈ xs, x ∈ M then none else some M

/-- The variables are declared or assigned. -/
def assigned (xs M : List Name) : List Name := M.filter fun x => decide (x ∉ xs)

/-- At the end of a block that declares `xs`, which was entered with `M`: they get back their outer meaning. -/
def leave (xs M N : List Name) : List Name := assigned xs N ++ M.filter fun x => decide (x ∈ xs)

/-- Evaluation of a value. -/
def VEx.owns (κ : Name → Bool) : VEx → List Name → Option (List Name)
  | .tup vs, M => useAll κ vs M
  | .call _ vs, M => useAll κ vs M
  | .path _, M => some M
  | .box v, M => v.owns κ M
  | .range m, M => readVar m M
  | .span m, M => readVar m M

/-- Execution of a statement. -/
def Stmt.owns (κ : Name → Bool) : Stmt → List Name → Option (List Name)
  | .letMark m, M => some (assigned [m] M)
  | .setMark m, M => some (assigned [m] M)
  | .letVal r v, M => (v.owns κ M).map (assigned [r])
  | .letNone r, M => some (assigned [r] M)
  | .letVec r, M => some (assigned [r] M)
  | .letTrue b, M => some (assigned [b] M)
  | .letZero c, M => some (assigned [c] M)
  | .letIsSuccess, M => some (assigned [.isSuccess] M)
  | .setSome r v, M => (v.owns κ M).map (assigned [r])
  | .push r v, M => (v.owns κ M).bind (readVar r)
  | .setFalse b, M => some (assigned [b] M)
  | .restoreFailed true m, M => readVar m M
  | .restoreFailed false m, M => useVar κ m M
  | .restore m, M => useVar κ m M
  | .ifFailedRestore m, M => useVar κ m M
  | .error _, M => some M
  | .discard, M => some M
  | .call _, M => some M
  | .extract vs, M => some (assigned vs M)
  | .fail, M => some M

/-- Evaluation of a condition. -/
def Cond.owns : Cond → List Name → Option (List Name)
  | .isSuccessful, M => some M
  | .var b, M => readVar b M
  | .lt c _, M => readVar c M

/-- Evaluation of an expression. -/
def Ex.owns (κ : Name → Bool) : Ex → List Name → Option (List Name)
  | .st, M => some M
  | .success v, M => v.owns κ M
  | .failure, M => some M
  | .call _ muts vars marks, M =>
    -- the `&mut` arguments are distinct, and not used otherwise in the call
    if muts.Nodup ∧ ∀ x ∈ muts, x ∉ vars ++ marks then (useAll κ vars M).bind (readAll (muts ++ marks)) else none
  | .stmt s e, M => do
    let M1 ← s.owns κ M
    let M2 ← e.owns κ M1
    some (leave s.binds M M2)
  | .bind e k, M => do
    let M1 ← e.owns κ M
    k.owns κ M1
  | .loop body c m k, M => do
    let N ← body.owns κ M                                  -- the first turn
    let M' ← readAll c.toList N                            -- `c += 1`
    let N' ← body.owns κ (M ++ assigned [m] M')            -- the other ones
    let _ ← readAll c.toList N'
    k.owns κ (N ++ N')
  | .ite c a b, M => do
    let M ← c.owns M
    let A ← a.owns κ M
    let B ← b.owns κ M
    some (A ++ B)
  | .ifPrefix _ a b, M => do
    let A ← a.owns κ M
    let B ← b.owns κ M
    some (A ++ B)
  | .matchNext p a b, M => do
    let A ← a.owns κ (assigned p.toList M)
    let B ← b.owns κ M
    some (leave p.toList M A ++ B)
  | .matchClass p _ a b, M => do
    let A ← a.owns κ (assigned [p] M)
    let B ← b.owns κ M
    some (leave [p] M A ++ B)

/-- A closure owns its parameters, which have distinct names. -/
def Closure.owns (κ : Name → Bool) (c : Closure) : Bool := decide (c.muts ++ c.vars ++ c.marks).Nodup && (c.body.owns κ []).isSome

/-- No moved variable is used in the function. -/
def Fn.owns (κ : Name → Bool) (f : Fn) : Bool := f.closures.all (Closure.owns κ) && (f.body.owns κ []).isSome

/-- However its variables are typed, the function uses no moved variable. -/
def Fn.Owned (sg : Sigs) (cp : String → Bool) (f : Fn) : Prop :=
  ∀ (ty : Name → VTy) (t : RTy), FnTyped sg (fun x u => ty x = u) f t → f.owns (fun x => (ty x).copy cp) = true

/-! ## Grammars

In `x c y` where `c` contains a choice, the value of `x` is moved once in each branch of the choice. -/

/-- The values given by the expression are `Copy`: characters, results of functions declared with a `Copy` type, and combinations of them. -/
inductive CopyValue (A : AGrammar) (T : Nat → Ty) (cp : String → Bool) : Expr → Prop where
  | str {i l} : CopyValue A T cp (.str i l)
  | not {i e} : CopyValue A T cp (.not i e)
  | and {i e} : CopyValue A T cp (.and i e)
  | any {i} : CopyValue A T cp (.any i)
  | cls {i l} : CopyValue A T cp (.cls i l)
  /-- The type written in the signature of the parser is `Copy`. -/
  | nt {i r b n t} : A.grammar.find r = some b → compileType T n b.id = .ok t → t.copy cp = true → CopyValue A T cp (.nt i r)
  | act {i e b f s} : actionType A b f = .rust s → cp s = true → CopyValue A T cp (.act i e b f)
  | seq {i es} : (∀ e ∈ es, CopyValue A T cp e) → CopyValue A T cp (.seq i es)
  | choice {i es} : (∀ e ∈ es, CopyValue A T cp e) → CopyValue A T cp (.choice i es)
  | opt {i e} : CopyValue A T cp e → CopyValue A T cp (.opt i e)
  | asc {i e ty} : CopyValue A T cp e → CopyValue A T cp (.asc i e ty)
  | span {i e} : cp "<Range<Stream> as StreamSpan>::Output" = true → CopyValue A T cp e → CopyValue A T cp (.span i e)
  | range {i e} : cp "Range<Stream>" = true → CopyValue A T cp e → CopyValue A T cp (.range i e)

mutual
/-- There is no choice where values that are not `Copy` wait for what follows: `P e` tells that the values of `e` are `Copy`, `p` that the value of the expression is built,
`live` that values that are not `Copy` have been read before the expression and are used after it. -/
def Apart (T : Nat → Ty) (P : Expr → Prop) (p : Bool) (live : Prop) (e : Expr) : Prop :=
  match e with
  | .str _ _ | .any _ | .cls _ _ | .nt _ _ | .ext _ _ => True
  | .seq i es => ApartSeq T P (p && T i ≠ .unit) live es
  | .choice i es => ¬ live ∧ ApartAlts T P (p && T i ≠ .unit) es
  -- a repetition or an option whose value is built has its own variables
  | .star i e | .plus i e | .opt i e => if p && T i ≠ .unit then Apart T P true False e else Apart T P false live e
  | .not _ e | .and _ e => Apart T P false live e
  | .act i e _ _ | .asc i e _ | .span i e | .range i e => Apart T P (p && T i ≠ .unit) live e
/-- In a sequence, the values of an expression wait for those of the following ones. -/
def ApartSeq (T : Nat → Ty) (P : Expr → Prop) (p : Bool) (live : Prop) (es : List Expr) : Prop :=
  match es with
  | [] => True
  | e :: es => Apart T P p live e ∧ ApartSeq T P p (live ∨ (p = true ∧ ¬ P e)) es
/-- The branches of a choice. -/
def ApartAlts (T : Nat → Ty) (P : Expr → Prop) (p : Bool) (es : List Expr) : Prop :=
  match es with
  | [] => True
  | e :: es => Apart T P p False e ∧ ApartAlts T P p es
end

/-- In no rule a choice follows, in a sequence, an expression whose values are not `Copy`. -/
def AGrammar.Apart (A : AGrammar) (T : Nat → Ty) (cp : String → Bool) : Prop :=
  ∀ r ∈ A.grammar.rules, T r.2.id = .unit ∨ Oak.Apart T (CopyValue A T cp) true False r.2

end Oak
