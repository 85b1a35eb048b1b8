import Verif.Proofs.CompileCorrect4
/-!
Whole programs: the functions generated for a grammar compute what the direct-style interpreter computes.
-/
set_option linter.constructorNameAsVariable false
set_option autoImplicit false

namespace Oak

section
variable {σ : Type} (ops : StreamOps σ) (fns : FnRef → PState σ Val → Res (PState σ Val))

theorem closuresEnv_notMem (n : Nat) (cs : List Closure) (K : Nat → Option (Denot σ)) (k : Nat)
    (h : k ∉ cs.map (·.name)) : closuresEnv ops fns n cs K k = K k := by
  induction cs generalizing K with
  | nil => rfl
  | cons c cs ih =>
    simp only [List.map_cons, List.mem_cons, not_or] at h
    simp only [closuresEnv]
    rw [ih _ h.2]
    simp [h.1]

theorem closuresEnv_KOk (n : Nat) (cs : List Closure) (K : Nat → Option (Denot σ))
    (hclosed : ∀ cl ∈ cs, cl.closed = true)
    (hs : (cs.map (·.name)).Pairwise (· < ·)) (hcalls : ∀ cl ∈ cs, ∀ k ∈ cl.body.calls, k < cl.name) :
    KOk ops fns n (closuresEnv ops fns n cs K) cs := by
  intro cl hcl
  refine ⟨hclosed cl hcl, ?_⟩
  induction cs generalizing K with
  | nil => cases hcl
  | cons c cs ih =>
    simp only [List.map_cons, List.pairwise_cons] at hs
    simp only [closuresEnv]
    cases hcl with
    | tail _ hm => exact ih _ (fun cl h => hclosed cl (by simp [h])) hs.2 (fun cl h => hcalls cl (by simp [h])) hm
    | head =>
      rw [closuresEnv_notMem]
      · simp only [if_true, Option.some.injEq]
        funext ms vs ks st
        simp only [closureDenot]
        rw [evalEx_calls ops fns n K _ cl.body]
        intro k hk
        have hlt := hcalls cl (by simp) k hk
        rw [closuresEnv_notMem]
        · rw [if_neg (by omega)]
        · intro hmem
          have := hs.1 k hmem
          omega
      · intro hmem
        have := hs.1 _ hmem
        omega

theorem range_pairwise (n : Nat) : ((List.range n).map (· + 1)).Pairwise (· < ·) := by
  rw [List.pairwise_map]
  exact List.pairwise_lt_range.imp (by omega)

theorem ClosuresOk.KOk {c : Ctx} (h : ClosuresOk c) (hcl : ∀ cl ∈ c.closures, cl.closed = true) (n : Nat)
    (K : Nat → Option (Denot σ)) : Oak.KOk ops fns n (closuresEnv ops fns n c.closures K) c.closures :=
  closuresEnv_KOk ops fns n c.closures K hcl (by rw [h.names]; exact range_pairwise _) h.calls

theorem coherent_false (T : Nat → Ty) (R : String → Nat) (e : Expr) : coherent T R false e = true := by
  induction e using Expr.ind with
  | seq i es ih => simp only [coherent, Bool.false_and]; exact coherentAll_iff.2 ih
  | choice i es ih =>
    simp only [coherent, Bool.false_and, Bool.and_eq_true]
    refine ⟨coherentAll_iff.2 ih, sameArity_iff.2 fun e _ => ?_⟩
    rw [arity_false]
    cases es <;> simp [arityHead, arity_false]
  | _ => simp_all [coherent]

theorem preC_new : PreC Ctx.new := by
  refine ⟨List.nodup_nil, ?_, ?_, ?_, ⟨rfl, ?_⟩⟩ <;> intro x hx <;> cases hx

/-- What a generated function does with the result of its expression. -/
def finish : Option (List Val) × PState σ Val → Res (PState σ Val)
  | (some vs, st) => .ok (st.success (tupleVal vs))
  | (none, st) => .ok st

theorem finish_eval (n : Nat) (K : Nat → Option (Denot σ)) (P : List Name) (hP : P.Nodup) (env : Env σ)
    (r : Option (List Val) × PState σ Val) (hr : ∀ vs, r.1 = some vs → vs.length = P.length) :
    (cont (evalEx ops fns n K (.success (.tup P))) P env r >>= fun x => Res.ok x.2) = finish r := by
  obtain ⟨o, st⟩ := r
  cases o with
  | none => rfl
  | some vs =>
    simp only [cont_some, evalEx, evalV, getVals_setMany env P vs (hr vs rfl) hP, Res.bind_ok, restoreRes_ok, finish, PState.called_tup]

theorem evalFn_eq (n : Nat) (f : Fn) (st : PState σ Val) : evalFn ops fns n f st =
    (evalEx ops fns n (closuresEnv ops fns n f.closures (fun _ => none)) f.body Env.empty st >>= fun x => Res.ok x.2) := rfl

theorem recognizer_correct (T : Nat → Ty) (e : Expr) (f : Fn) (h : compileRecognizer T e = .ok f) (hs : f.scopeOk = true)
    (n : Nat) (st : PState σ Val) : evalFn ops fns n f st = run ops fns T n false e st >>= finish := by
  unfold compileRecognizer at h
  obtain ⟨⟨code, c⟩, hc, h⟩ := except_bind_eq_ok h
  cases h
  obtain ⟨P, post, hlen, pk, sem⟩ := good_all ops fns T (fun _ => 0) e false _ code Ctx.new c hc (coherent_false _ _ _) preC_new
    ⟨by simp [Ex.fv, VEx.fv], by simp [Ex.calls]⟩
  simp only [Fn.scopeOk, Bool.and_eq_true, List.all_eq_true] at hs
  rw [arity_false] at hlen
  have hP : P = [] := List.length_eq_zero_iff.1 hlen
  subst hP
  rw [evalFn_eq, sem n _ (post.ok.KOk ops fns hs.1 n _), Res.bind_assoc]
  have hl : ∀ r, run ops fns T n false e st = .ok r → ∀ vs, r.1 = some vs → vs.length = ([] : List Name).length := by
    intro r hr vs hv
    obtain ⟨o, st'⟩ := r
    simp only at hv
    subst hv
    rw [run_length ops fns T (fun _ => 0) n e false st st' vs (coherent_false _ _ _) hr, arity_false]; rfl
  revert hl
  cases hr : run ops fns T n false e st with
  | ok r => intro hl; exact finish_eval ops fns n _ [] List.nodup_nil _ r (hl r rfl)
  | panic => intro; rfl
  | stuck => intro; rfl
  | timeout => intro; rfl

theorem parser_correct (T : Nat → Ty) (R : String → Nat) (r : String) (e : Expr) (f : Fn) (h : compileParser T r e = .ok f)
    (hT : T e.id ≠ .unit) (hco : coherent T R true e = true) (hs : f.scopeOk = true)
    (n : Nat) (st : PState σ Val) : evalFn ops fns n f st = run ops fns T n true e st >>= finish := by
  unfold compileParser at h
  rw [if_neg hT] at h
  obtain ⟨⟨code, c⟩, hc, h⟩ := except_bind_eq_ok h
  obtain ⟨c2, hc2, h⟩ := except_bind_eq_ok h
  cases h
  have hpc := openScope_preC (T e.id).card preC_new
  obtain ⟨P, post, hlen, pk, sem⟩ := good_all ops fns T R e true _ code _ c hc hco hpc
    ⟨fun x hx => hpc.fvOld x hx, by simp [Ex.calls]⟩
  obtain ⟨hfv, hceq⟩ := closeScope_eq hc2
  have hcl : c2.closures = c.closures := by rw [hceq]; rfl
  simp only [Fn.scopeOk, Bool.and_eq_true, List.all_eq_true, hcl] at hs
  have hP : (Ctx.new.openScope (T e.id).card).2.fv = P := by
    have := post.fv
    rw [hfv] at this
    exact this
  rw [evalFn_eq]
  simp only [hcl]
  rw [sem n _ (post.ok.KOk ops fns hs.1 n _), Res.bind_assoc]
  have hl : ∀ r, run ops fns T n true e st = .ok r → ∀ vs, r.1 = some vs → vs.length = P.length := by
    intro r hr vs hv
    obtain ⟨o, st'⟩ := r
    simp only at hv
    subst hv
    rw [run_length ops fns T R n e true st st' vs hco hr, hlen]
  have hnd := hpc.nodup
  subst hP
  revert hl
  cases hr : run ops fns T n true e st with
  | ok r => intro hl; exact finish_eval ops fns n _ _ hnd _ r (hl r rfl)
  | panic => intro; rfl
  | stuck => intro; rfl
  | timeout => intro; rfl

/-- A compiled rule whose type is not unit contributes as many values as its type tells. -/
theorem parser_arity (T : Nat → Ty) (R : String → Nat) (r : String) (e : Expr) (f : Fn) (h : compileParser T r e = .ok f)
    (hT : T e.id ≠ .unit) (hco : coherent T R true e = true) : arity T true e = (T e.id).card := by
  unfold compileParser at h
  rw [if_neg hT] at h
  obtain ⟨⟨code, c⟩, hc, h⟩ := except_bind_eq_ok h
  obtain ⟨c2, hc2, h⟩ := except_bind_eq_ok h
  cases h
  have hpc := openScope_preC (T e.id).card preC_new
  obtain ⟨P, post, hlen, -, -⟩ := good_all (σ := StrStream) StrStream.ops (fun _ _ => .timeout) T R e true _ code _ c hc hco hpc
    ⟨fun x hx => hpc.fvOld x hx, by simp [Ex.calls]⟩
  obtain ⟨hfv, -⟩ := closeScope_eq hc2
  have hP : (Ctx.new.openScope (T e.id).card).2.fv = P := by
    have := post.fv
    rw [hfv] at this
    exact this
  rw [← hlen, ← hP, openScope_fv]
  simp [freshNames]

end

/-- Running a grammar directly: calls of declared rules are interpreted, other calls are external. -/
def runProg {σ : Type} (ops : StreamOps σ) (ext : Nat → FnRef → PState σ Val → Res (PState σ Val)) (G : Grammar) (T : Nat → Ty) :
    Nat → FnRef → PState σ Val → Res (PState σ Val)
  | 0, _, _ => .timeout
  | n + 1, f, st =>
    match f.path with
    | [r] => match G.find r with
      | some e =>
        if f.parser && decide (T e.id = .unit) then runProg ops ext G T n ⟨false, [r]⟩ st
        else run ops (runProg ops ext G T n) T n f.parser e st >>= finish
      | none => ext n f st
    | _ => ext n f st

theorem compileGrammar_find (T : Nat → Ty) (rules : List (String × Expr)) (fs : List (FnRef × Fn))
    (h : compileGrammar T rules = .ok fs) (r : String) :
    match (Grammar.mk rules).find r with
    | some e => (∃ f, (Program.mk fs).find ⟨false, [r]⟩ = some f ∧ compileRecognizer T e = .ok f) ∧
        (∃ f, (Program.mk fs).find ⟨true, [r]⟩ = some f ∧ compileParser T r e = .ok f)
    | none => (Program.mk fs).find ⟨false, [r]⟩ = none ∧ (Program.mk fs).find ⟨true, [r]⟩ = none := by
  induction rules generalizing fs with
  | nil => cases h; simp [Grammar.find, Program.find]
  | cons x rules ih =>
    obtain ⟨r', e⟩ := x
    simp only [compileGrammar] at h
    obtain ⟨rc, h1, h⟩ := except_bind_eq_ok h
    obtain ⟨pa, h2, h⟩ := except_bind_eq_ok h
    obtain ⟨rest, h3, h⟩ := except_bind_eq_ok h
    cases h
    have ih := ih rest h3
    by_cases hr : r' = r
    · subst hr
      simp [Grammar.find, Program.find, h1, h2]
    · have e0 : (r' == r) = false := by rw [beq_eq_false_iff_ne]; exact hr
      have e1 : ∀ a b, (FnRef.mk a [r'] == FnRef.mk b [r]) = false := by
        intro a b; rw [beq_eq_false_iff_ne]; simp [hr]
      simp only [Grammar.find, Program.find, List.find?_cons, e0, e1] at ih ⊢
      exact ih

theorem compileGrammar_path (T : Nat → Ty) (rules : List (String × Expr)) (fs : List (FnRef × Fn))
    (h : compileGrammar T rules = .ok fs) (p : Bool) (path : Path) (hp : ∀ r, path ≠ [r]) :
    (Program.mk fs).find ⟨p, path⟩ = none := by
  induction rules generalizing fs with
  | nil => cases h; simp [Program.find]
  | cons x rules ih =>
    obtain ⟨r', e⟩ := x
    simp only [compileGrammar] at h
    obtain ⟨rc, h1, h⟩ := except_bind_eq_ok h
    obtain ⟨pa, h2, h⟩ := except_bind_eq_ok h
    obtain ⟨rest, h3, h⟩ := except_bind_eq_ok h
    cases h
    have ih := ih rest h3
    have hne : ¬ [r'] = path := fun h => hp r' h.symm
    have e1 : ∀ a, (FnRef.mk a [r'] == FnRef.mk p path) = false := by
      intro a; rw [beq_eq_false_iff_ne]; simp [hne]
    simp only [Program.find, List.find?_cons, e1] at ih ⊢
    exact ih

theorem find_mem {G : Grammar} {r : String} {e : Expr} (h : G.find r = some e) : (r, e) ∈ G.rules := by
  unfold Grammar.find at h
  cases hf : G.rules.find? (·.1 == r) with
  | none => rw [hf] at h; cases h
  | some x =>
    rw [hf] at h
    cases h
    have h1 := List.mem_of_find?_eq_some hf
    have h2 := List.find?_some hf
    simp only [beq_iff_eq] at h2
    rw [← h2]
    exact h1

theorem program_find_mem {P : Program} {f : FnRef} {fn : Fn} (h : P.find f = some fn) : (f, fn) ∈ P.fns := by
  unfold Program.find at h
  cases hf : P.fns.find? (·.1 == f) with
  | none => rw [hf] at h; cases h
  | some x =>
    rw [hf] at h
    cases h
    have h1 := List.mem_of_find?_eq_some hf
    have h2 := List.find?_some hf
    simp only [beq_iff_eq] at h2
    rw [← h2]
    exact h1

/-- Cardinality of the type of a rule. -/
def Grammar.ruleCard (G : Grammar) (T : Nat → Ty) (r : String) : Nat :=
  match G.find r with | some b => (T b.id).card | none => 0

theorem Grammar.coherent_find {G : Grammar} {T : Nat → Ty} (h : G.coherent T = true) {r : String} {e : Expr}
    (hr : G.find r = some e) : Oak.coherent T (G.ruleCard T) true e = true := by
  unfold Grammar.coherent at h
  rw [List.all_eq_true] at h
  exact h _ (find_mem hr)

/-- The generated program refines the direct-style interpreter. -/
theorem program_correct {σ : Type} (ops : StreamOps σ) (ext : Nat → FnRef → PState σ Val → Res (PState σ Val)) (G : Grammar)
    (T : Nat → Ty) (fs : List (FnRef × Fn)) (h : compileGrammar T G.rules = .ok fs) (hs : (Program.mk fs).scopeOk = true)
    (hco : G.coherent T = true) (n : Nat) (f : FnRef) (st : PState σ Val) :
    Program.run ops ext ⟨fs⟩ n f st = runProg ops ext G T n f st := by
  simp only [Program.scopeOk, List.all_eq_true] at hs
  induction n generalizing f st with
  | zero => rfl
  | succ n ih =>
    have hfns : Program.run ops ext ⟨fs⟩ n = runProg ops ext G T n := by funext f st; exact ih f st
    obtain ⟨p, path⟩ := f
    by_cases hp : ∃ r, path = [r]
    · obtain ⟨r, rfl⟩ := hp
      have hf := compileGrammar_find T G.rules fs h r
      simp only [Program.run, runProg, hfns]
      cases hg : G.find r with
      | none =>
        have : (Grammar.mk G.rules).find r = none := hg
        rw [this] at hf
        cases p <;> simp only [hf]
      | some e =>
        have : (Grammar.mk G.rules).find r = some e := hg
        rw [this] at hf
        obtain ⟨⟨f1, hf1, hc1⟩, ⟨f2, hf2, hc2⟩⟩ := hf
        cases p with
        | false =>
          simp only [hf1, Bool.false_and, Bool.false_eq_true, if_false]
          exact recognizer_correct ops _ T e f1 hc1 (hs _ (program_find_mem hf1)) n st
        | true =>
          simp only [hf2, Bool.true_and, decide_eq_true_eq]
          split
          · rename_i hu
            unfold compileParser at hc2
            rw [if_pos hu] at hc2
            cases hc2
            rw [evalFn_eq, evalEx_stmt]
            simp only [exec, Res.bind_assoc, Res.bind_ok, evalEx, Stmt.binds, restoreRes_nil, Res.bind_ok_right]
          · rename_i hu
            exact parser_correct ops _ T _ r e f2 hc2 hu (Grammar.coherent_find hco hg) (hs _ (program_find_mem hf2)) n st
    · have hp' : ∀ r, path ≠ [r] := fun r hr => hp ⟨r, hr⟩
      have := compileGrammar_path T G.rules fs h p path hp'
      simp only [Program.run, this, runProg]

end Oak
