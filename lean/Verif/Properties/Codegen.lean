import Verif.Proofs.ScopedMain
import Verif.Proofs.ScopesExact
import Verif.Properties.Samples
/-! # Code generation: C30 (scopes) and C34 (no panic) -/
set_option autoImplicit false
set_option linter.constructorNameAsVariable false

namespace Oak
open Spec

theorem Grammar.sized_iff {G : Grammar} {T : Nat → Ty} : G.sized T = true ↔
    ∀ r ∈ G.rules, T r.2.id = .unit ∨ (Oak.sized T true r.2 = true ∧ arity T true r.2 = (T r.2.id).card) := by
  simp [Grammar.sized, List.all_eq_true]

theorem Grammar.scopable_iff {G : Grammar} {T : Nat → Ty} : G.scopable T = true ↔
    ∀ r ∈ G.rules, T r.2.id = .unit ∨ Oak.scopable T true false r.2 = true := by
  simp [Grammar.scopable, List.all_eq_true]

/-- C34: the code generator does not panic on a grammar whose types tell how many values the expressions give. -/
theorem C34_no_panic {G : Grammar} {T : Nat → Ty} (hsh : G.shaped = true) (hsz : G.sized T = true) : ∃ fs, compileGrammar T G.rules = .ok fs :=
  compileGrammar_ok T G.rules (by simpa [Grammar.shaped, List.all_eq_true] using hsh) (Grammar.sized_iff.1 hsz)

example : ∃ fs, compileGrammar Sample.sumT Sample.sum.rules = .ok fs := C34_no_panic (by decide +kernel) (by decide +kernel)
example : ∃ fs, compileGrammar Sample.spansT Sample.spans.rules = .ok fs := C34_no_panic (by decide +kernel) (by decide +kernel)
example : ∃ fs, compileGrammar Sample.opsT Sample.ops.rules = .ok fs := C34_no_panic (by decide +kernel) (by decide +kernel)

/-- C34: recognizers need no condition on types. -/
theorem C34_recognizer (T : Nat → Ty) (e : Expr) (h : e.shaped = true) : ∃ f, compileRecognizer T e = .ok f := compileRecognizer_ok T e h

example : ∃ f, compileRecognizer (fun _ => .atom) (.seq 1 [.str 0 "a", .act 3 (.choice 2 [.any 5, .str 6 "b"]) false ["f"], .str 4 "b"]) = .ok f :=
  C34_recognizer _ _ (by decide)

/-- C34: a step of the code generator on a sized expression takes the last variables, as many as the arity of the expression, and leaves the others in
place: every variable is bound once. -/
theorem C34_variables {T : Nat → Ty} {p : Bool} {e : Expr} (hsz : sized T p e = true) {S F code : Ex} {c c' : Ctx}
    (h : compile T p e S F c = .ok (code, c')) : ∃ taken, c.fv = c'.fv ++ taken ∧ taken.length = arity T p e ∧ c'.muts = c.muts ∧ c'.marks = c.marks := by
  obtain ⟨⟨P, h1, h2⟩, h3, h4⟩ := compile_moves T e p hsz _ _ _ _ _ h
  exact ⟨P, h1, h2, h3, h4⟩

example : sized Sample.sumT true (.seq 5 [.nt 0 "num", .star 4 (.seq 3 [.str 1 "+", .nt 2 "num"])]) = true := by decide +kernel

/-- C34: conversely, when the code of a parser is generated and types are coherent, the rule gives as many values as its type tells. -/
theorem C34_arity {T : Nat → Ty} {R : String → Nat} {r : String} {e : Expr} {f : Fn} (h : compileParser T r e = .ok f) (hT : T e.id ≠ .unit)
    (hco : coherent T R true e = true) : arity T true e = (T e.id).card := parser_arity T R r e f h hT hco

/-- `r = "(" r r ")" / .`, all of type `Atom` except the literals: the type inference gives this type. -/
def Sample.twice : Grammar := ⟨[("r", .choice 6 [.seq 4 [.str 0 "(", .nt 1 "r", .nt 2 "r", .str 3 ")"], .any 5])]⟩

/-- Its types. -/
def Sample.twiceT : Nat → Ty
  | 0 | 3 => .unit
  | _ => .atom

/-- C34: the condition is needed: the code generator panics on `r = "(" r r ")" / .`, whose two recursive calls give two values where the type of
the rule, a character, tells one. -/
theorem C34_counterexample : Sample.twice.shaped = true ∧ compileGrammar Sample.twiceT Sample.twice.rules = .error "Free variables are all bound." :=
  ⟨by decide, by rfl⟩

/-- C30: the functions generated for a grammar pass the scope check of rustc when no semantic action that contains a choice followed by something
occurs where the code that follows the action needs outer variables. -/
theorem C30_scopes_partial {G : Grammar} {T : Nat → Ty} {fs : List (FnRef × Fn)} (h : compileGrammar T G.rules = .ok fs) (hsz : G.sized T = true)
    (hsc : G.scopable T = true) : (Program.mk fs).scopeOk = true := by
  simp only [Program.scopeOk, List.all_eq_true]
  exact compileGrammar_scopeOk h (Grammar.sized_iff.1 hsz) (Grammar.scopable_iff.1 hsc)

example : (Program.mk Sample.sumFs).scopeOk = true := C30_scopes_partial Sample.sum_generated.compiled (by decide +kernel) (by decide +kernel)
example : (Program.mk Sample.spansFs).scopeOk = true := C30_scopes_partial Sample.spans_generated.compiled (by decide +kernel) (by decide +kernel)

/-- C30: the recognizers pass the scope check, without condition. -/
theorem C30_recognizer {T : Nat → Ty} {e : Expr} {f : Fn} (h : compileRecognizer T e = .ok f) : f.scopeOk = true := recognizer_scopeOk h

mutual
/-- An expression without semantic action. -/
def Expr.actionless : Expr → Bool
  | .str _ _ | .any _ | .cls _ _ | .nt _ _ | .ext _ _ => true
  | .seq _ es | .choice _ es => actionlessAll es
  | .star _ e | .plus _ e | .opt _ e | .not _ e | .and _ e | .asc _ e _ | .span _ e | .range _ e => e.actionless
  | .act _ _ _ _ => false
/-- The same for a list. -/
def actionlessAll : List Expr → Bool
  | [] => true
  | e :: es => e.actionless && actionlessAll es
end

theorem actionlessAll_iff {es : List Expr} : actionlessAll es = true ↔ ∀ e ∈ es, e.actionless = true := by
  induction es with
  | nil => simp [actionlessAll]
  | cons e es ih => simp [actionlessAll, ih]

theorem scopable_actionless (T : Nat → Ty) (e : Expr) (h : e.actionless = true) : ∀ p u, scopable T p u e = true := by
  induction e using Expr.ind with
  | seq i es ih =>
    intro p u
    rw [Expr.actionless, actionlessAll_iff] at h
    rw [scopable]
    generalize (p && decide (T i ≠ .unit)) = q
    induction es generalizing u with
    | nil => rfl
    | cons e es ihe =>
      simp only [scopableSeq, Bool.and_eq_true]
      exact ⟨ih e (by simp) (h e (by simp)) q u, ihe (fun e he => ih e (by simp [he])) (fun e he => h e (by simp [he])) _⟩
  | choice i es ih =>
    intro p u
    rw [Expr.actionless, actionlessAll_iff] at h
    rw [scopable]
    generalize (p && decide (T i ≠ .unit)) = q
    induction es generalizing u with
    | nil => rfl
    | cons e es ihe =>
      simp only [scopableBranches, Bool.and_eq_true]
      exact ⟨ih e (by simp) (h e (by simp)) q _, ihe (fun e he => ih e (by simp [he])) (fun e he => h e (by simp [he])) _⟩
  | star i e ih => intro p u; rw [scopable]; exact ih h _ _
  | plus i e ih => intro p u; rw [scopable]; exact ih h _ _
  | opt i e ih => intro p u; rw [scopable]; exact ih h _ _
  | asc i e t ih => intro p u; rw [scopable]; exact ih h _ _
  | span i e ih => intro p u; rw [scopable]; exact ih h _ _
  | range i e ih => intro p u; rw [scopable]; exact ih h _ _
  | act i e b f ih => cases h
  | _ => intro p u; rfl

/-- C30: an action at the top of a rule is always fine when there is no action below it. -/
theorem C30_top_action {T : Nat → Ty} {i : Nat} {e : Expr} {b : Bool} {f : Path} (h : e.actionless = true) : scopable T true false (.act i e b f) = true := by
  rw [scopable, scopable_actionless T e h]; simp

/-- C30: so is a rule without action. -/
theorem C30_no_action {T : Nat → Ty} {e : Expr} (h : e.actionless = true) : scopable T true false e = true := scopable_actionless T e h _ _

/-- C30: a closure calls only closures declared before it, and the body only declared closures. -/
theorem C30_calls {T : Nat → Ty} {R : String → Nat} {r : String} {e : Expr} {f : Fn} (h : compileParser T r e = .ok f) (hT : T e.id ≠ .unit)
    (hco : coherent T R true e = true) : (f.closures.map (·.name) = (List.range f.closures.length).map (· + 1)) ∧
      (∀ cl ∈ f.closures, ∀ k ∈ cl.body.calls, k < cl.name) ∧ (∀ k ∈ f.body.calls, k ≤ f.closures.length) := by
  unfold compileParser at h
  rw [if_neg hT] at h
  obtain ⟨⟨code, c⟩, hc, h⟩ := except_bind_eq_ok h
  obtain ⟨c2, hc2, h⟩ := except_bind_eq_ok h
  cases h
  have hpc := openScope_preC (T e.id).card preC_new
  obtain ⟨P, post, hlen, hk, -⟩ := good_all (σ := StrStream) StrStream.ops (fun _ _ => .timeout) T R e true _ code _ c hc hco hpc
    ⟨fun x hx => hpc.fvOld x hx, by simp [Ex.calls]⟩
  obtain ⟨-, e2⟩ := closeScope_eq hc2
  have hcl : c2.closures = c.closures := by rw [e2]; rfl
  have hlen : c.closures.length = c.names.closureUid := by
    have := congrArg List.length post.ok.names
    simpa using this
  refine ⟨?_, ?_, ?_⟩
  · show c2.closures.map (·.name) = _
    rw [hcl, hlen]; exact post.ok.names
  · show ∀ cl ∈ c2.closures, _
    rw [hcl]; exact post.ok.calls
  · show ∀ k ∈ code.calls, k ≤ c2.closures.length
    rw [hcl, hlen]; exact hk.calls

/-- `r = . ((. / .) . > f)` -/
def Sample.outer : Grammar := ⟨[("r", .seq 7 [.any 0, .act 6 (.seq 5 [.choice 3 [.any 1, .any 2], .any 4]) false ["f"]])]⟩
/-- Its types. -/
def Sample.outerT : Nat → Ty
  | 5 => .tuple [3, 4]
  | 6 => .rust "F"
  | 7 => .tuple [0, 6]
  | _ => .atom

/-- `r = ("x" / "y") "z" > f / "w" > g` -/
def Sample.flags : Grammar := ⟨[("r", .choice 8 [.act 5 (.seq 4 [.choice 2 [.str 0 "x", .str 1 "y"], .str 3 "z"]) false ["f"], .act 7 (.str 6 "w") false ["g"]])]⟩
/-- Its types. -/
def Sample.flagsT : Nat → Ty
  | 5 | 7 | 8 => .rust "F"
  | _ => .unit

/-- `r = (("x" / "y") "z" > f)*` -/
def Sample.repeated : Grammar := ⟨[("r", .star 6 (.act 5 (.seq 4 [.choice 2 [.str 0 "x", .str 1 "y"], .str 3 "z"]) false ["f"]))]⟩
/-- Its types. -/
def Sample.repeatedT : Nat → Ty
  | 5 => .rust "F"
  | 6 => .list 5
  | _ => .unit

/-- A grammar that the back-end compiles without panic to code that rustc rejects for an undeclared variable. -/
def Unscoped (G : Grammar) (T : Nat → Ty) : Prop := G.shaped = true ∧ G.resolved = true ∧ G.coherent T = true ∧ G.sized T = true ∧
  ∃ fs, compileGrammar T G.rules = .ok fs ∧ (Program.mk fs).scopeOk = false

/-- C30: the condition is needed: the value of a previous expression, the flag of a choice or the result of a repetition is used in a closure that does not
declare it. -/
theorem C30_counterexample : Unscoped Sample.outer Sample.outerT ∧ Unscoped Sample.flags Sample.flagsT ∧ Unscoped Sample.repeated Sample.repeatedT := by
  refine ⟨⟨by decide, by decide +kernel, by decide +kernel, by decide +kernel, _, rfl, by decide +kernel⟩,
    ⟨by decide, by decide +kernel, by decide +kernel, by decide +kernel, _, rfl, by decide +kernel⟩,
    ⟨by decide, by decide +kernel, by decide +kernel, by decide +kernel, _, rfl, by decide +kernel⟩⟩

/-- C52: the condition of C30 is exact: the functions pass the scope check only if the grammar meets it. -/
theorem C52_scopes {G : Grammar} {T : Nat → Ty} {fs : List (FnRef × Fn)} (h : compileGrammar T G.rules = .ok fs) (hsz : G.sized T = true) :
    (Program.mk fs).scopeOk = true ↔ G.scopable T = true := by
  refine ⟨fun hs => ?_, C30_scopes_partial h hsz⟩
  rw [Program.scopeOk, List.all_eq_true] at hs
  exact Grammar.scopable_iff.2 (compileGrammar_unscoped h (fun r hr => (Grammar.sized_iff.1 hsz r hr).imp_right (·.1)) hs)

example : Sample.outer.scopable Sample.outerT = false := by
  obtain ⟨_, _, _, hz, fs, h, hs⟩ := C30_counterexample.1
  exact Bool.eq_false_iff.2 fun hc => by rw [(C52_scopes h hz).2 hc] at hs; cases hs

/-- C30, C34: the hypotheses of the theorems on generated parsers are met by every grammar of the right shape with resolved names, whose types are sized,
coherent and scopable. -/
theorem C34_generated {G : Grammar} {T : Nat → Ty} (hsh : G.shaped = true) (hre : G.resolved = true) (hsz : G.sized T = true) (hco : G.coherent T = true)
    (hsc : G.scopable T = true) : ∃ fs, Generated G T fs := by
  obtain ⟨fs, h⟩ := C34_no_panic hsh hsz
  exact ⟨fs, h, C30_scopes_partial h hsz hsc, hco, hre⟩

example : ∃ fs, Generated Sample.spans Sample.spansT fs :=
  C34_generated (by decide +kernel) (by decide +kernel) (by decide +kernel) (by decide +kernel) (by decide +kernel)

end Oak
