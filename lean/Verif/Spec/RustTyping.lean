import Verif.Spec.Scope
import Verif.Spec.Typing
/-!
# Specification: typing of the generated code

The rules of Rust for the fragment in which the functions are generated: what `rustc` checks about the types of a generated function.  The type `ParseState<S, T>` of
the parse state is given by `T`; the variable that holds it is `state`, or `stateful` between a call of a parser and the test of its success.

Not checked here: ownership (see `Spec/Ownership.lean`) and lifetimes; the types of the arguments given to the functions of the user, and the type of the values built by functions that are not declared in
the grammar (Oak does not know them either).
-/
set_option autoImplicit false

namespace Oak

/-- Types of the local variables. -/
inductive VTy where
  | stream           -- `S`
  | bool
  | int
  | val (t : RTy)
  | mutRef (t : VTy) -- `&mut t`

/-- The type of `(v1, ..., vn)`: `()` and `(v)` are no tuples. -/
def RTy.pack : List RTy → RTy
  | [] => .unit
  | [t] => t
  | ts => .tuple ts

/-- The variable that holds the parse state, with the type `T` of `ParseState<S, T>`. -/
inductive SVar where
  | state (t : RTy)
  | stateful (t : RTy)

/-- What is known of the functions that are called. -/
structure Sigs where
  /-- `parse_p` returns a `ParseState<S, t>`. -/
  parser : Path → RTy → Prop
  /-- The return type of a function of the user; `none` if it is not declared in the grammar. -/
  function : Path → Option RTy

/-- Types of the variables in scope. -/
abbrev TEnv := Name → Option VTy

namespace TEnv

/-- No variable. -/
def empty : TEnv := fun _ => none

/-- Declaration of a variable. -/
def set (Γ : TEnv) (x : Name) (t : VTy) : TEnv := fun y => if y = x then some t else Γ y

/-- Declaration of several variables. -/
def setMany (Γ : TEnv) : List Name → List VTy → TEnv
  | x :: xs, t :: ts => (Γ.setMany xs ts).set x t
  | _, _ => Γ

/-- The variables have these types. -/
def Has (Γ : TEnv) (xs : List Name) (ts : List VTy) : Prop := xs.map Γ = ts.map some

end TEnv

/-- Typing of value expressions. -/
inductive ValOk (sg : Sigs) (Γ : TEnv) : VEx → RTy → Prop where
  | tup {vs} {ts : List RTy} : Γ.Has vs (ts.map .val) → ValOk sg Γ (.tup vs) (.pack ts)
  | call {f vs t} {ts : List RTy} : Γ.Has vs (ts.map .val) → sg.function f = some t → ValOk sg Γ (.call f vs) t
  | callUnknown {f vs t} {ts : List RTy} : Γ.Has vs (ts.map .val) → sg.function f = none → ValOk sg Γ (.call f vs) t
  | path {f t} : sg.function f = none → ValOk sg Γ (.path f) t
  | box {v s} : ValOk sg Γ v (.rust s) → ValOk sg Γ (.box v) (.rust ("Box<" ++ s ++ ">"))
  /-- A box of unknown content: the type is not one of those Oak builds. -/
  | boxUnknown {v s} : (∀ u, ValOk sg Γ v u) → ValOk sg Γ (.box v) (.rust s)
  | range {m} : Γ m = some .stream → ValOk sg Γ (.range m) (.rust "Range<Stream>")
  | span {m} : Γ m = some .stream → ValOk sg Γ (.span m) (.rust "<Range<Stream> as StreamSpan>::Output")

/-- The variables may be declared with these types. -/
def OkAll (ok : Name → VTy → Prop) (xs : List Name) (ts : List VTy) : Prop := ∀ p ∈ xs.zip ts, ok p.1 p.2

/-- Typing of statements, from the variables and the parse state before to those after; `ok x t` tells whether `x` may be declared with type `t`. -/
inductive StmtOk (sg : Sigs) (ok : Name → VTy → Prop) : TEnv → SVar → Stmt → TEnv → SVar → Prop where
  | letMark {Γ t m} : ok m .stream → StmtOk sg ok Γ (.state t) (.letMark m) (Γ.set m .stream) (.state t)
  | setMark {Γ t m} : Γ m = some .stream → StmtOk sg ok Γ (.state t) (.setMark m) Γ (.state t)
  | letVal {Γ t r v u} : ok r (.val u) → ValOk sg Γ v u → StmtOk sg ok Γ (.state t) (.letVal r v) (Γ.set r (.val u)) (.state t)
  | letNone {Γ t r u} : ok r (.val (.option u)) → StmtOk sg ok Γ (.state t) (.letNone r) (Γ.set r (.val (.option u))) (.state t)
  | letVec {Γ t r u} : ok r (.val (.vec u)) → StmtOk sg ok Γ (.state t) (.letVec r) (Γ.set r (.val (.vec u))) (.state t)
  | letTrue {Γ t b} : ok b .bool → StmtOk sg ok Γ (.state t) (.letTrue b) (Γ.set b .bool) (.state t)
  | letZero {Γ t c} : ok c .int → StmtOk sg ok Γ (.state t) (.letZero c) (Γ.set c .int) (.state t)
  | letIsSuccess {Γ t} : ok .isSuccess .bool → StmtOk sg ok Γ (.state t) .letIsSuccess (Γ.set .isSuccess .bool) (.state t)
  | setSome {Γ t r v u} : Γ r = some (.val (.option u)) → ValOk sg Γ v u → StmtOk sg ok Γ (.state t) (.setSome r v) Γ (.state t)
  /-- `r.push(v)`: the method is found on a vector and on a reference to a vector. -/
  | push {Γ t r v u} : Γ r = some (.val (.vec u)) ∨ Γ r = some (.mutRef (.val (.vec u))) → ValOk sg Γ v u → StmtOk sg ok Γ (.state t) (.push r v) Γ (.state t)
  | setFalse {Γ t b} : Γ b = some .bool → StmtOk sg ok Γ (.state t) (.setFalse b) Γ (.state t)
  | restoreFailed {Γ t cl m} : Γ m = some .stream → StmtOk sg ok Γ (.state t) (.restoreFailed cl m) Γ (.state .unit)
  | restore {Γ t m} : Γ m = some .stream → StmtOk sg ok Γ (.state t) (.restore m) Γ (.state .unit)
  | ifFailedRestore {Γ m} : Γ m = some .stream → StmtOk sg ok Γ (.state .unit) (.ifFailedRestore m) Γ (.state .unit)
  | error {Γ t s} : StmtOk sg ok Γ (.state t) (.error s) Γ (.state t)
  | discard {Γ} : StmtOk sg ok Γ (.state .unit) .discard Γ (.state .unit)
  | recognize {Γ p} : StmtOk sg ok Γ (.state .unit) (.call ⟨false, p⟩) Γ (.state .unit)
  | parse {Γ p t} : sg.parser p t → StmtOk sg ok Γ (.state .unit) (.call ⟨true, p⟩) Γ (.stateful t)
  | extract {Γ vs} {ts : List RTy} : OkAll ok vs (ts.map .val) → vs.length = ts.length → StmtOk sg ok Γ (.stateful (.pack ts)) (.extract vs) (Γ.setMany vs (ts.map .val)) (.state .unit)
  | fail {Γ t} : StmtOk sg ok Γ (.stateful t) .fail Γ (.state .unit)

/-- Typing of conditions. -/
inductive CondOk (Γ : TEnv) : Cond → Prop where
  | isSuccessful : CondOk Γ .isSuccessful
  | var {b} : Γ b = some .bool → CondOk Γ (.var b)
  | lt {c n} : Γ c = some .int → CondOk Γ (.lt c n)

/-- The type of a closure: `&mut` parameters, values, marks, and the `T` of the `ParseState<S, T>` it returns. -/
structure ClosureSig where
  muts : List VTy
  vars : List VTy
  marks : List VTy
  ret : RTy

/-- Typing of expressions of type `ParseState<S, t>`; `K` gives the types of the closures in scope. -/
inductive ExOk (sg : Sigs) (ok : Name → VTy → Prop) (K : Nat → Option ClosureSig) : TEnv → SVar → Ex → RTy → Prop where
  | st {Γ t} : ExOk sg ok K Γ (.state t) .st t
  | success {Γ t v u} : ValOk sg Γ v u → ExOk sg ok K Γ (.state t) (.success v) u
  | failure {Γ t u} : ExOk sg ok K Γ (.state t) .failure u
  /-- The arguments `&mut m` are those of variables of the function (or closure), not of its `&mut` parameters: these are not declared `mut`, and cannot be borrowed as mutable. -/
  | call {Γ k muts vars marks sig} : K k = some sig → Γ.Has muts sig.muts → (∀ m ∈ muts, ∀ t, Γ m ≠ some (.mutRef t)) → Γ.Has vars sig.vars → Γ.Has marks sig.marks →
      ExOk sg ok K Γ (.state .unit) (.call k muts vars marks) sig.ret
  | stmt {Γ Γ' D D' s e t} : StmtOk sg ok Γ D s Γ' D' → ExOk sg ok K Γ' D' e t → ExOk sg ok K Γ D (.stmt s e) t
  | bind {Γ D e k t u} : ExOk sg ok K Γ D e t → ExOk sg ok K Γ (.state t) k u → ExOk sg ok K Γ D (.bind e k) u
  | loop {Γ body c m k t} : ExOk sg ok K Γ (.state .unit) body .unit → (∀ x, c = some x → Γ x = some .int) → Γ m = some .stream →
      ExOk sg ok K Γ (.state .unit) k t → ExOk sg ok K Γ (.state .unit) (.loop body c m k) t
  | ite {Γ D c a b t} : CondOk Γ c → ExOk sg ok K Γ D a t → ExOk sg ok K Γ D b t → ExOk sg ok K Γ D (.ite c a b) t
  | ifPrefix {Γ u l a b t} : ExOk sg ok K Γ (.state u) a t → ExOk sg ok K Γ (.state u) b t → ExOk sg ok K Γ (.state u) (.ifPrefix l a b) t
  | matchNext {Γ u a b t} : ExOk sg ok K Γ (.state u) a t → ExOk sg ok K Γ (.state u) b t → ExOk sg ok K Γ (.state u) (.matchNext none a b) t
  | matchNextVar {Γ u x a b t} : ok x (.val .char) → ExOk sg ok K (Γ.set x (.val .char)) (.state u) a t → ExOk sg ok K Γ (.state u) b t →
      ExOk sg ok K Γ (.state u) (.matchNext (some x) a b) t
  | matchClass {Γ u x c a b t} : ok x (.val .char) → ExOk sg ok K (Γ.set x (.val .char)) (.state u) a t → ExOk sg ok K Γ (.state u) b t →
      ExOk sg ok K Γ (.state u) (.matchClass x c a b) t

/-- The variables that a closure of this type sees: its parameters. -/
def ClosureSig.env (sig : ClosureSig) (c : Closure) : TEnv :=
  ((TEnv.empty.setMany c.marks sig.marks).setMany c.vars sig.vars).setMany c.muts (sig.muts.map .mutRef)

/-- Typing of the closures declared at the beginning of a function: a closure calls only closures declared before it. -/
inductive ClosuresTyped (sg : Sigs) (ok : Name → VTy → Prop) : (Nat → Option ClosureSig) → List Closure → (Nat → Option ClosureSig) → Prop where
  | nil {K} : ClosuresTyped sg ok K [] K
  | cons {K K' c cs sig} : sig.muts.length = c.muts.length → sig.vars.length = c.vars.length → sig.marks = c.marks.map (fun _ => VTy.stream) →
      OkAll ok c.muts sig.muts → OkAll ok c.vars sig.vars → OkAll ok c.marks sig.marks →
      ExOk sg ok K (sig.env c) (.state .unit) c.body sig.ret →
      ClosuresTyped sg ok (fun k => if k = c.name then some sig else K k) cs K' → ClosuresTyped sg ok K (c :: cs) K'

/-- The function has type `fn(ParseState<S, ()>) -> ParseState<S, t>`, and the types of its variables are `ok`. -/
def FnTyped (sg : Sigs) (ok : Name → VTy → Prop) (f : Fn) (t : RTy) : Prop :=
  ∃ K, ClosuresTyped sg ok (fun _ => none) f.closures K ∧ ExOk sg ok K TEnv.empty (.state .unit) f.body t

/-- The function has type `fn(ParseState<S, ()>) -> ParseState<S, t>`. -/
def FnOk (sg : Sigs) (f : Fn) (t : RTy) : Prop := FnTyped sg (fun _ _ => True) f t

/-- What is known of the functions called by the code generated for a grammar: the parser of a rule has the type written in its signature (context.rs:66-85), an
external parser has any type, and the functions of the user have the type written in the grammar. -/
def AGrammar.sigs (A : AGrammar) (T : Nat → Ty) : Sigs where
  parser p t := ∀ r b, p = [r] → A.grammar.find r = some b → ∃ n, compileType T n b.id = .ok t
  function f :=
    match f with
    | [name] => (A.functions.find? (·.1 == name)).map fun fn => match fn.2.ret with | .default => .unit | .ty t => .rust t
    | _ => none

/-- The functions generated for a grammar have the types of their signatures (context.rs:66-85): the recognizer of a rule gives `()`, its parser the type of the body. -/
def AGrammar.WellTyped (A : AGrammar) (T : Nat → Ty) (fs : List (FnRef × Fn)) : Prop :=
  ∀ r b, A.grammar.find r = some b → (∃ f, (⟨false, [r]⟩, f) ∈ fs) ∧ (∃ f, (⟨true, [r]⟩, f) ∈ fs) ∧ (∀ f, (⟨false, [r]⟩, f) ∈ fs → FnOk (A.sigs T) f .unit) ∧
    ∀ f, (⟨true, [r]⟩, f) ∈ fs → ∃ t j, compileType T j b.id = .ok t ∧ FnOk (A.sigs T) f t

/-! ## What Oak leaves to the Rust compiler

The Rust types written in the grammar are not compared by Oak. -/

/-- The Rust types written in the grammar for the value of an expression. -/
inductive WrittenType (A : AGrammar) : Expr → String → Prop where
  | nt {i r b s} : A.grammar.find r = some b → HasType A b (.rust s) → WrittenType A (.nt i r) s
  | act {i e boxed f s} : actionType A boxed f = .rust s → WrittenType A (.act i e boxed f) s
  | asc {i e s} : WrittenType A (.asc i e (.regular (.rust s))) s
  | seq {i es e s} : e ∈ es → WrittenType A e s → WrittenType A (.seq i es) s
  | choice {i es e s} : e ∈ es → WrittenType A e s → WrittenType A (.choice i es) s

/-- The Rust types written in the grammar agree with each other. -/
structure AGrammar.Agrees (A : AGrammar) : Prop where
  /-- Branches of the same shape have the same type. -/
  branches : ∀ i es, Occurs A.grammar (.choice i es) → ∀ d ∈ es, ∀ e ∈ es, ∀ t u, HasType A d t → HasType A e u → Same t u → t = u
  /-- An expression has the Rust type that is ascribed to it, if it has one. -/
  ascribed : ∀ i e s, Occurs A.grammar (.asc i e (.regular (.rust s))) → ∀ s', WrittenType A e s' → s' = s
  /-- The result of an unknown function is not boxed. -/
  boxed : ∀ i e f, Occurs A.grammar (.act i e true f) → actionType A true f ≠ .external
  /-- Semantic actions give values (an error is reported otherwise). -/
  valued : ∀ i e b f, Occurs A.grammar (.act i e b f) → actionType A b f ≠ .unit
  /-- A name that begins with an upper case letter, applied to no value, is that of a variant and not of a declared function. -/
  variants : ∀ i e b f, Occurs A.grammar (.act i e b f) → Spec.isVariant f = true → HasType A e .unit ∨ HasType A e .hidden → actionType A b f = .external

/-! ## References

Closures take by reference the variables they assign, and use them as if they were not references. -/

/-- The variables of a statement, but the vector of `r.push(v)`. -/
def Stmt.direct : Stmt → List Name
  | .push _ v => v.fv
  | s => s.fv

/-- The free variables that are not only used by `r.push(v)`. -/
def Ex.direct : Ex → List Name
  | .st => []
  | .success v => v.fv
  | .failure => []
  | .call _ muts vars marks => muts ++ vars ++ marks
  | .stmt s e => s.direct ++ e.direct.filter (fun x => decide (x ∉ s.binds))
  | .bind e k => e.direct ++ k.direct
  | .loop body c m k => c.toList ++ m :: (body.direct ++ k.direct)
  | .ite c a b => c.fv ++ (a.direct ++ b.direct)
  | .ifPrefix _ a b => a.direct ++ b.direct
  | .matchNext p a b => a.direct.filter (fun x => decide (x ∉ p.toList)) ++ b.direct
  | .matchClass p _ a b => a.direct.filter (fun x => decide (x ≠ p)) ++ b.direct

/-- A closure uses its `&mut` parameters only to push values. -/
def Closure.refOk (c : Closure) : Bool := c.body.direct.all fun x => decide (x ∉ c.muts)

/-- The same for all the closures of a function. -/
def Fn.refOk (f : Fn) : Bool := f.closures.all Closure.refOk

end Oak
