import Verif.Proofs.ActionCall
import Verif.Proofs.CompileCorrect3
/-!
The generated code computes what the direct-style interpreter `run` computes: options, predicates, actions, spans and the
main induction.
-/
set_option linter.constructorNameAsVariable false
set_option linter.unusedSimpArgs false
set_option autoImplicit false

namespace Oak
section
variable {σ : Type} (ops : StreamOps σ) (fns : FnRef → PState σ Val → Res (PState σ Val))

theorem optionalCode_ctx (body k : Ex) (c : Ctx) (hp : PreC c) (hk : PreK c k) (hbody : PreK c body) :
    Post c (optionalCode body k c).2 [] ∧ PreK (optionalCode body k c).2 (optionalCode body k c).1 := by
  have pm := nextMark_post hp
  refine ⟨pm, ?_, ?_⟩
  · intro x hx
    simp only [optionalCode, Ex.fv, Stmt.fv, Stmt.binds, List.mem_append, List.mem_filter, List.mem_cons, List.not_mem_nil,
      or_false, List.nil_append, decide_eq_true_eq, false_or] at hx
    obtain ⟨hx, hne⟩ := hx
    rcases hx with hx | hx | hx
    · exact pm.le.old (hbody.old x hx)
    · exact absurd hx hne
    · exact pm.le.old (hk.old x hx.1)
  · intro j hj
    simp only [optionalCode, Ex.calls, List.mem_append] at hj
    rcases hj with hj | hj
    · exact Nat.le_trans (hbody.calls j hj) pm.le.k
    · exact Nat.le_trans (hk.calls j hj) pm.le.k

/-- Initial environment of an option. -/
def optInit (E : Env σ) (r : Option Name) : Env σ :=
  match r with
  | some r => E.set r (some (.val .none))
  | none => E

theorem optInit_off (E : Env σ) (r : Option Name) : ∀ x, x ∉ r.toList → optInit E r x = E x := by
  intro x hx
  cases r with
  | none => rfl
  | some y => exact Env.set_other _ _ (by simpa using hx)

/-- The body of an option. -/
def OptBody (n : Nat) (K : Nat → Option (Denot σ)) (r : Option Name) (body : Ex)
    (rbody : PState σ Val → Res (Option (List Val) × PState σ Val)) : Prop :=
  ∀ E st, evalEx ops fns n K body E st = rbody st >>= fun q =>
    match q.1, r with
    | some ws, some r => collect false r E ws q.2
    | _, _ => .ok (E, q.2)

theorem optionalCode_sem (r : Option Name) (body k : Ex) (c : Ctx) (hk : PreK c k)
    (hr : ∀ x, r = some x → c.names.old x) (rbody : PState σ Val → Res (Option (List Val) × PState σ Val))
    (n : Nat) (K : Nat → Option (Denot σ)) (hb : OptBody ops fns n K r body rbody) (E : Env σ) (st : PState σ Val) :
    restoreRes E r.toList (evalEx ops fns n K (optionalCode body k c).1 (optInit E r) st) =
      runOpt r.isSome rbody st >>= cont (evalEx ops fns n K k) r.toList E := by
  have hmf := nextMark_fresh c
  have hrm : r ≠ some c.nextMark.1 := fun h => hmf (hr _ h)
  have hmk : c.nextMark.1 ∉ k.fv := fun h => hmf (hk.old _ h)
  simp only [optionalCode, runOpt, Res.bind_assoc]
  generalize c.nextMark.1 = m at *
  rw [evalEx_letMark, restoreRes_bind]
  congr 1
  funext s
  rw [evalEx_bind, hb]
  simp only [Res.bind_assoc]
  rw [restoreRes_bind, restoreRes_bind]
  congr 1
  funext ⟨o, st1⟩
  -- the environment after the body
  have key : ∀ E1 : Env σ, E1 m = some (.mark s) →
      (∀ x, x ≠ m → E1 x = (E.setMany r.toList (wrap (if r.isSome then [match o with | some ws => .some (tupleVal ws) | none => .none] else []))) x) →
      restoreRes E r.toList (restoreRes (optInit E r) [m] (evalEx ops fns n K (.stmt (.ifFailedRestore m) k) E1 st1)) =
        restoreIf st1 s >>= fun st => cont (evalEx ops fns n K k) r.toList E
          (some (if r.isSome then [match o with | some ws => .some (tupleVal ws) | none => .none] else []), st) := by
    intro E1 hm1 hE1
    rw [evalEx_stmt]
    have hx : exec ops fns E1 st1 (.ifFailedRestore m) = restoreIf st1 s >>= fun st => .ok (E1, st) := by
      simp only [exec, Env.getMark, hm1, restoreIf, Res.bind_ok]
      split <;> simp
    rw [hx]
    simp only [Res.bind_assoc, Res.bind_ok]
    rw [restoreRes_bind, restoreRes_bind]
    congr 1
    funext st2
    simp only [Stmt.binds, restoreRes_nil, cont_some]
    rw [restoreRes_comp (optInit_off E r)]
    refine restore_frame ops fns n K k (X := [m]) (by simpa using hmk) ?_ (setMany_off E _ _) (by intro x; simp) _
    intro x hx
    exact hE1 x (by simpa using hx)
  cases r with
  | none =>
    have := key (E.set m (some (.mark s))) (Env.set_same _ _ _)
      (by intro x hx; simp [Env.set_apply, hx, Env.setMany])
    cases o with
    | none => exact this
    | some ws => exact this
  | some y =>
    have hym : y ≠ m := fun hh => hrm (by rw [hh])
    cases o with
    | none =>
      exact key ((optInit E (some y)).set m (some (.mark s))) (Env.set_same _ _ _)
        (by intro x hx; simp [Env.set_apply, hx, Env.setMany, optInit, wrap])
    | some ws =>
      simp only [collect, Bool.false_eq_true, if_false, Res.bind_ok]
      refine key _ ?_ ?_
      · rw [Env.set_other _ _ (fun h => hym h.symm)]; exact Env.set_same _ _ _
      · intro x hx; simp only [Env.set_apply, hx, Env.setMany, optInit, wrap]
        by_cases hxy : x = y <;> simp [hxy, Env.setMany, Env.set_apply]

theorem good_opt (T : Nat → Ty) (R : String → Nat) (i : Nat) (e : Expr) (ih : Good ops fns T R e) :
    Good ops fns T R (.opt i e) := by
  intro p k code c c' h hc hp hk
  simp only [compile] at h
  simp only [coherent] at hc
  simp only [run, arity]
  generalize (p && decide (T i ≠ .unit)) = q at *
  cases q with
  | true =>
    simp only [if_true] at h
    obtain ⟨⟨body, r, c1⟩, h1, h⟩ := except_bind_eq_ok h
    cases h
    obtain ⟨post1, pk1, sem1⟩ := good_valueConstructor ops fns T R e ih _ false body r c c1 h1 hc hp
    obtain ⟨post2, pk2⟩ := optionalCode_ctx body k c1 (hp.post post1) (hk.mono post1.le) pk1
    refine ⟨[r], by simpa using post1.trans post2, rfl, ⟨fv_stmt_old (by simp [Stmt.fv]) pk2.old, pk2.calls⟩, ?_⟩
    intro n K hK env st
    rw [evalEx_stmt]
    simp only [exec, Res.bind_ok, Stmt.binds]
    exact optionalCode_sem ops fns (some r) body k c1 (hk.mono post1.le)
      (fun x hx => by cases hx; exact post1.le.old (hp.fvOld _ (post1.sub _ (by simp)))) (run ops fns T n true e) n K
      (fun E st => by
        rw [sem1 n K (hK.post post2) E st]
        congr 1; funext ⟨o, st1⟩; cases o <;> rfl) env st
  | false =>
    simp only [Bool.false_eq_true, if_false] at h
    obtain ⟨⟨body, c1⟩, h1, h⟩ := except_bind_eq_ok h
    obtain ⟨post1, pk1, sem1⟩ := good_recognizer ops fns T R e ih body c c1 h1 hc hp
    have post1' := post1.incr
    obtain ⟨post2, pk2⟩ := optionalCode_ctx body k c1.incr (hp.post post1') (hk.mono post1'.le) ⟨pk1.old, pk1.calls⟩
    have h' : optionalCode body k c1.incr = (code, c') := by simpa using h
    rw [h'] at post2 pk2
    refine ⟨[], by simpa using post1'.trans post2, rfl, pk2, ?_⟩
    intro n K hK env st
    have hK1 : KOk ops fns n K c1.closures := KOk.post (c := c1.incr) hK post2
    have := optionalCode_sem ops fns none body k c1.incr (hk.mono post1'.le)
      (fun x hx => by cases hx) (run ops fns T n false e) n K
      (fun E st => by
        rw [sem1 n K hK1 E st]
        congr 1; funext ⟨o, st1⟩; cases o <;> rfl) env st
    rw [h'] at this
    simpa [restoreRes_nil, optInit] using this

/-- Both predicates. -/
theorem good_pred (T : Nat → Ty) (R : String → Nat) (neg : Bool) (e : Expr) (ih : Good ops fns T R e) (k code : Ex) (c c' : Ctx)
    (h : (do
        let (body, c1) ← compile T false e .st .failure c.nextMark.2
        .ok (.stmt (.letMark c.nextMark.1) (.bind body (.stmt .letIsSuccess (.stmt (.restore c.nextMark.1)
          (if neg then .ite (.var .isSuccess) .failure k else .ite (.var .isSuccess) k .failure)))), c1.incr) : Except String (Ex × Ctx)) = .ok (code, c'))
    (hc : coherent T R false e = true) (hp : PreC c) (hk : PreK c k) :
    ∃ P, Post c c' P ∧ P.length = 0 ∧ PreK c' code ∧
      ∀ n K, KOk ops fns n K c'.closures → ∀ env st,
        evalEx ops fns n K code env st = runPred neg (run ops fns T n false e) st >>= cont (evalEx ops fns n K k) P env := by
  obtain ⟨⟨body, c1⟩, h1, h⟩ := except_bind_eq_ok h
  cases h
  have pm := nextMark_post hp
  obtain ⟨post1, pk1, sem1⟩ := good_recognizer ops fns T R e ih body _ c1 h1 hc (hp.post pm)
  have post := (pm.trans post1).incr
  refine ⟨[], by simpa using post, rfl, ⟨?_, ?_⟩, ?_⟩
  · intro x hx
    have hx : ((x ∈ body.fv ∨ x ∈ k.fv ∨ x = .isSuccess ∧ x ≠ .isSuccess) ∨ x = c.nextMark.1) ∧ x ≠ c.nextMark.1 := by
      cases neg <;> simp [Ex.fv, Stmt.fv, Stmt.binds, Cond.fv] at hx ⊢ <;> grind
    obtain ⟨hx, hne⟩ := hx
    rcases hx with (hx | hx | hx) | hx
    · exact pk1.old x hx
    · exact post.le.old (hk.old x hx)
    · exact absurd hx.1 hx.2
    · exact absurd hx hne
  · intro j hj
    have hj : j ∈ body.calls ∨ j ∈ k.calls := by
      cases neg <;> simpa [Ex.calls] using hj
    rcases hj with hj | hj
    · exact pk1.calls j hj
    · exact Nat.le_trans (hk.calls j hj) post.le.k
  · intro n K hK env st
    have hmk : c.nextMark.1 ∉ k.fv := fun hh => nextMark_fresh c (hk.old _ hh)
    have hmi : c.nextMark.1 ≠ .isSuccess := by simp [Ctx.nextMark]
    generalize c.nextMark.1 = m at *
    rw [evalEx_letMark]
    simp only [runPred, Res.bind_assoc]
    congr 1
    funext s
    rw [evalEx_bind, sem1 n K hK]
    simp only [Res.bind_assoc, Res.bind_ok]
    rw [restoreRes_bind]
    congr 1
    funext ⟨o, st1⟩
    simp only
    rw [evalEx_stmt]
    simp only [exec, Res.bind_ok, Stmt.binds]
    rw [restoreRes_comp (fun x hx => Env.set_other _ _ (by simpa using hx)), evalEx_stmt]
    simp only [exec, Env.getMark]
    rw [Env.set_other _ _ hmi, Env.set_same]
    simp only [Res.bind_ok, Res.bind_assoc]
    rw [restoreRes_bind]
    congr 1
    funext st2
    simp only [Stmt.binds, restoreRes_nil]
    have hgood : restoreRes env ([m] ++ [.isSuccess]) (evalEx ops fns n K k
        ((env.set m (some (.mark s))).set .isSuccess (some (.bool st1.isSuccessful))) st2) =
        cont (evalEx ops fns n K k) [] env (some [], st2) := by
      simp only [cont_some]
      refine restore_frame ops fns n K k (X := [m, .isSuccess]) ?_ ?_ (setMany_off env _ _) (by intro x; simp) _
      · intro x hx
        simp only [List.mem_cons, List.not_mem_nil, or_false] at hx
        rcases hx with rfl | rfl
        · exact hmk
        · intro hh; exact hk.old _ hh
      · intro x hx
        simp only [List.mem_cons, List.not_mem_nil, or_false, not_or] at hx
        simp [Env.set_apply, hx.1, hx.2, Env.setMany]
    have hbad : restoreRes env ([m] ++ [.isSuccess]) (evalEx ops fns n K .failure
        ((env.set m (some (.mark s))).set .isSuccess (some (.bool st1.isSuccessful))) st2) =
        cont (evalEx ops fns n K k) [] env (none, st2.failure) := by
      simp only [evalEx, restoreRes_ok, cont_none]
      rw [restore_of_agree]
      intro x hx
      simp only [List.mem_append, List.mem_singleton, not_or] at hx
      simp [Env.set_apply, hx.1, hx.2]
    have hcond : ∀ a b : Ex, evalEx ops fns n K (.ite (.var .isSuccess) a b)
        ((env.set m (some (.mark s))).set .isSuccess (some (.bool st1.isSuccessful))) st2 =
        if st1.isSuccessful then evalEx ops fns n K a ((env.set m (some (.mark s))).set .isSuccess (some (.bool st1.isSuccessful))) st2
        else evalEx ops fns n K b ((env.set m (some (.mark s))).set .isSuccess (some (.bool st1.isSuccessful))) st2 := by
      intro a b
      rw [evalEx_ite]
      simp only [evalCond, Env.getBool, Env.set_same, Res.bind_ok]
    cases neg with
    | true =>
      simp only [if_true, hcond]
      cases hs : st1.isSuccessful with
      | true => rw [hs] at hbad; simpa using hbad
      | false => rw [hs] at hgood; simpa using hgood
    | false =>
      simp only [Bool.false_eq_true, if_false, hcond]
      cases hs : st1.isSuccessful with
      | true => rw [hs] at hgood; simpa using hgood
      | false => rw [hs] at hbad; simpa using hbad

theorem good_not (T : Nat → Ty) (R : String → Nat) (i : Nat) (e : Expr) (ih : Good ops fns T R e) :
    Good ops fns T R (.not i e) := by
  intro p k code c c' h hc hp hk
  simp only [compile] at h
  simp only [coherent] at hc
  split at h
  · cases h
  · simpa only [run, arity] using good_pred ops fns T R true e ih k code c c' h hc hp hk

theorem good_and (T : Nat → Ty) (R : String → Nat) (i : Nat) (e : Expr) (ih : Good ops fns T R e) :
    Good ops fns T R (.and i e) := by
  intro p k code c c' h hc hp hk
  simp only [compile] at h
  simp only [coherent] at hc
  split at h
  · cases h
  · simpa only [run, arity] using good_pred ops fns T R false e ih k code c c' h hc hp hk

/-- Without data, an expression is its sub-expression. -/
theorem good_transparent (T : Nat → Ty) (R : String → Nat) (e : Expr) (ih : Good ops fns T R e) (k code : Ex) (c c' : Ctx)
    (h : compile T false e k .failure c = .ok (code, c')) (hc : coherent T R false e = true) (hp : PreC c) (hk : PreK c k) :
    ∃ P, Post c c' P ∧ P.length = 0 ∧ PreK c' code ∧
      ∀ n K, KOk ops fns n K c'.closures → ∀ env st,
        evalEx ops fns n K code env st = run ops fns T n false e st >>= cont (evalEx ops fns n K k) P env := by
  simpa only [arity_false] using ih false k code c c' h hc hp hk

theorem evalV_action (E : Env σ) (st : PState σ Val) (P : List Name) (ws : List Val) (boxed : Bool) (f : Path) (u : Bool)
    (h : ws.length = P.length) (hn : P.Nodup) :
    evalV ops (E.setMany P (wrap ws)) st (actionCall boxed f u P) = .ok (actVal boxed f u ws) := by
  rw [actionCall_eq]; unfold actVal
  have := getVals_setMany E P ws h hn
  split <;> split <;> simp [evalV, this]

theorem calls_action (P : List Name) (ws : List Val) (boxed : Bool) (f : Path) (u : Bool) :
    (actionCall boxed f u P).calls (actVal boxed f u ws) = actCalls f u ws := by
  rw [actionCall_eq]; unfold actVal actCalls
  cases boxed <;> cases h : (Spec.isVariant f && u) <;> simp [VEx.calls]

theorem good_act (T : Nat → Ty) (R : String → Nat) (i : Nat) (e : Expr) (boxed : Bool) (f : Path) (ih : Good ops fns T R e) :
    Good ops fns T R (.act i e boxed f) := by
  intro p k code c c' h hc hp hk
  simp only [compile] at h
  simp only [coherent] at hc
  simp only [run, arity]
  generalize (p && decide (T i ≠ .unit)) = q at *
  cases q with
  | false =>
    simp only [Bool.false_eq_true, if_false] at h ⊢
    exact good_transparent ops fns T R e ih k code c c' h hc hp hk
  | true =>
    simp only [if_true] at h ⊢
    obtain ⟨⟨r, c1⟩, h1, h⟩ := except_bind_eq_ok h
    obtain ⟨⟨code1, c2⟩, h2, h⟩ := except_bind_eq_ok h
    obtain ⟨c3, h3, h⟩ := except_bind_eq_ok h
    cases h
    simp only at h2 h3
    generalize hu : decide (T e.id = .unit) = u at *
    have post1 := (nextFreeVar_post h1 hp).1
    have hp1 := hp.post post1
    have hk1 := hk.mono post1.le
    obtain ⟨hfv, hc3⟩ := closeScope_eq h3
    have hro : c1.names.old r := post1.le.old (hp.fvOld r (post1.sub r (by simp)))
    have hpo := openScope_preC (T e.id).card hp1
    have hle := openScope_le c1 (T e.id).card
    have hko : PreK (c1.openScope (T e.id).card).2
        (.stmt (.letVal r (actionCall boxed f u (freshNames c1 (T e.id).card))) k) := by
      refine ⟨?_, fun j hj => hk1.calls j hj⟩
      refine fv_stmt_old ?_ (fun x hx => hle.old (hk1.old x hx))
      intro x hx
      refine freshNames_old ?_
      have : ∀ b : Bool, (actionCall b f u (freshNames c1 (T e.id).card)).fv ⊆ freshNames c1 (T e.id).card := by
        intro b y hy
        rw [actionCall_eq] at hy
        split at hy <;> split at hy <;> simp [VEx.fv] at hy <;> exact hy
      exact this boxed hx
    obtain ⟨P, post2, len2, pk2, sem2⟩ := ih true
      (.stmt (.letVal r (actionCall boxed f u (freshNames c1 (T e.id).card))) k) code1
      (c1.openScope (T e.id).card).2 c2 h2 hc hpo hko
    have hP : P = freshNames c1 (T e.id).card := by
      have := post2.fv
      have hfv2 : c2.fv = [] := hfv
      rw [hfv2, List.nil_append] at this
      exact this.symm
    subst hP
    have post3 : Post c1 c' [] := by
      subst hc3
      refine ⟨?_, ?_, ?_, ?_, ?_, ?_⟩
      · simp [Ctx.restoreScope, Ctx.openScope, Ctx.saveScope]
      · simp [Ctx.restoreScope, Ctx.openScope, Ctx.saveScope]
      · exact post2.marks
      · exact hle.trans post2.le
      · exact post2.closures
      · exact ⟨post2.ok.names, post2.ok.calls⟩
    have hcls : c'.closures = c2.closures := by subst hc3; rfl
    have hnames : c'.names = c2.names := by subst hc3; rfl
    refine ⟨[r], post1.trans post3, rfl, ⟨by rw [hnames]; exact pk2.old, by rw [hnames]; exact pk2.calls⟩, ?_⟩
    intro n K hK env st
    rw [sem2 n K (by rw [← hcls]; exact hK)]
    cases hrun : run ops fns T n true e st with
    | panic => rfl
    | stuck => rfl
    | timeout => rfl
    | ok q =>
      obtain ⟨o, st1⟩ := q
      cases o with
      | none => rfl
      | some ws =>
        have hl := run_length ops fns T R n e true st st1 ws hc hrun
        have hlen : ws.length = (freshNames c1 (T e.id).card).length := hl.trans len2.symm
        simp only [Res.bind_ok, cont_some]
        rw [evalEx_stmt]
        simp only [exec, evalV_action ops env st1 _ ws boxed f u hlen (freshNames_nodup _ _), Res.bind_ok, Stmt.binds, PState.called,
          calls_action]
        rw [restoreRes_comp (setMany_off env _ _)]
        refine restore_frame ops fns n K k (X := freshNames c1 (T e.id).card) ?_ ?_ (setMany_off env _ _) (by intro x; simp [Or.comm]) _
        · intro x hx hh; exact freshNames_fresh hx (hk1.old x hh)
        · intro x hx
          simp only [Env.set_apply, wrap, Env.setMany, List.map_cons, List.map_nil]
          split
          · rfl
          · exact setMany_off env _ _ x hx

theorem good_asc (T : Nat → Ty) (R : String → Nat) (i : Nat) (e : Expr) (t : IType) (ih : Good ops fns T R e) :
    Good ops fns T R (.asc i e t) := by
  intro p k code c c' h hc hp hk
  simp only [compile] at h
  simp only [coherent] at hc
  simpa only [run, arity] using ih _ k code c c' h hc hp hk

/-- Both spanned expressions; `v` is the span as a value expression. -/
theorem good_spanned (T : Nat → Ty) (R : String → Nat) (e : Expr) (ih : Good ops fns T R e) (vx : Name → VEx) (mk : σ → σ → Val)
    (hvx : ∀ m, (vx m).fv = [m]) (hcalls : ∀ m w, (vx m).calls w = [])
    (heval : ∀ (E : Env σ) (st : PState σ Val) (m : Name) (s : σ), E m = some (.mark s) →
      evalV ops E st (vx m) = st.mark >>= fun hi => .ok (mk s hi))
    (k code : Ex) (c c' : Ctx)
    (h : (do
      let (r, c1) ← c.nextMark.2.nextFreeVarSkip (T e.id).card
      let (code, c2) ← compile T true e (.stmt (.letVal r (vx c.nextMark.1)) k) .failure (c1.pushMark c.nextMark.1)
      .ok (.stmt (.letMark c.nextMark.1) code, c2.incr.popMark) : Except String (Ex × Ctx)) = .ok (code, c'))
    (hc : coherent T R true e = true) (har : arity T true e = (T e.id).card) (hp : PreC c) (hk : PreK c k) :
    ∃ P, Post c c' P ∧ P.length = arity T true e + 1 ∧ PreK c' code ∧
      ∀ n K, KOk ops fns n K c'.closures → ∀ env st,
        evalEx ops fns n K code env st = (st.mark >>= fun lo => run ops fns T n true e st >>= fun q =>
          match q.1 with
          | some ws => q.2.mark >>= fun hi => .ok (some (mk lo hi :: ws), q.2)
          | none => .ok (none, q.2)) >>= cont (evalEx ops fns n K k) P env := by
  obtain ⟨⟨r, c1⟩, h1, h⟩ := except_bind_eq_ok h
  obtain ⟨⟨code1, c2⟩, h2, h⟩ := except_bind_eq_ok h
  cases h
  obtain ⟨A, B, hfv, hB, hc1⟩ := nextFreeVarSkip_eq h1
  have hfv : c.fv = A ++ r :: B := hfv
  have pm := nextMark_post hp
  have hp0 := hp.post pm
  have hmf := nextMark_fresh c
  have hmo := nextMark_old c
  have hnd : (A ++ r :: B).Nodup := hfv ▸ hp.nodup
  have hnames1 : c1.names = c.nextMark.2.names := by rw [hc1]
  have hfv1 : c1.fv = A ++ B := by rw [hc1]
  have hmuts1 : c1.muts = c.muts := by rw [hc1]; rfl
  have hmarks1 : c1.marks = c.marks := by rw [hc1]; rfl
  have hcl1 : c1.closures = c.closures := by rw [hc1]; rfl
  have hro : c.names.old r := hp.fvOld r (by rw [hfv]; simp)
  have hpre : PreC (c1.pushMark c.nextMark.1) := by
    refine ⟨?_, ?_, ?_, ?_, ⟨?_, ?_⟩⟩
    · show c1.fv.Nodup
      rw [hfv1]
      have := List.nodup_append.1 hnd
      refine List.nodup_append.2 ⟨this.1, (List.nodup_cons.1 this.2.1).2, ?_⟩
      intro a ha b hb
      exact this.2.2 a ha b (by simp [hb])
    · intro x hx
      have hx : x ∈ A ++ B := hfv1 ▸ hx
      show c1.names.old x
      rw [hnames1]
      refine pm.le.old (hp.fvOld x ?_)
      rw [hfv]
      simp only [List.mem_append, List.mem_cons] at hx ⊢
      rcases hx with hx | hx
      · exact .inl hx
      · exact .inr (.inr hx)
    · intro x hx
      show c1.names.old x
      rw [hnames1]
      exact pm.le.old (hp.mutsOld x (hmuts1 ▸ hx))
    · intro x hx
      show c1.names.old x
      rw [hnames1]
      simp only [Ctx.pushMark, List.mem_append, List.mem_singleton, hmarks1] at hx
      rcases hx with hx | rfl
      · exact pm.le.old (hp.marksOld x hx)
      · exact hmo
    · show c1.closures.map _ = (List.range c1.names.closureUid).map _
      rw [hcl1, hnames1]; exact hp0.closures.names
    · show ∀ cl ∈ c1.closures, _
      rw [hcl1]; exact hp0.closures.calls
  have hkk : PreK (c1.pushMark c.nextMark.1) (.stmt (.letVal r (vx c.nextMark.1)) k) := by
    refine ⟨?_, ?_⟩
    · show ∀ x ∈ _, c1.names.old x
      rw [hnames1]
      refine fv_stmt_old ?_ (fun x hx => pm.le.old (hk.old x hx))
      intro x hx
      simp only [Stmt.fv, hvx, List.mem_singleton] at hx
      subst hx
      exact hmo
    · show ∀ x ∈ _, x ≤ c1.names.closureUid
      rw [hnames1]
      exact fun j hj => Nat.le_trans (hk.calls j hj) pm.le.k
  obtain ⟨P, post2, len2, pk2, sem2⟩ := ih true _ code1 _ c2 h2 hc hpre hkk
  have hsplit : A ++ B = c2.fv ++ P := hfv1 ▸ post2.fv
  have hPB : c2.fv = A ∧ P = B := by
    have := List.append_inj' hsplit (by rw [hB, len2, har])
    exact ⟨this.1.symm, this.2.symm⟩
  obtain ⟨hfv2, rfl⟩ := hPB
  have hle2 : c.names.le c2.names := by
    have := post2.le
    have h3 : c1.names.le c2.names := this
    rw [hnames1] at h3
    exact pm.le.trans h3
  have hrB : r ∉ P := by
    have := List.nodup_append.1 hnd
    exact (List.nodup_cons.1 this.2.1).1
  refine ⟨r :: P, ⟨?_, ?_, ?_, hle2, ?_, ⟨post2.ok.names, post2.ok.calls⟩⟩, by simp [len2], ⟨?_, ?_⟩, ?_⟩
  · show c.fv = c2.fv ++ _; rw [hfv, hfv2]
  · show c2.muts = _; rw [post2.muts]; exact hmuts1
  · show c2.marks.dropLast = _; rw [post2.marks]; simp [Ctx.pushMark, hmarks1]
  · obtain ⟨l, hl⟩ := post2.closures
    exact ⟨l, by show c2.closures = _; rw [hl]; show c1.closures ++ l = _; rw [hcl1]⟩
  · exact fv_stmt_old (by simp [Stmt.fv]) pk2.old
  · exact pk2.calls
  · intro n K hK env st
    have hK2 : KOk ops fns n K c2.closures := hK
    have hmk : c.nextMark.1 ∉ k.fv := fun hh => hmf (hk.old _ hh)
    have hmP : c.nextMark.1 ∉ P := fun hh => hmf (hp.fvOld _ (by rw [hfv]; simp [hh]))
    have hmr : c.nextMark.1 ≠ r := fun hh => hmf (hh ▸ hro)
    generalize c.nextMark.1 = m at *
    rw [evalEx_letMark]
    simp only [Res.bind_assoc]
    congr 1
    funext s
    rw [sem2 n K hK2, restoreRes_bind]
    congr 1
    funext ⟨o, st1⟩
    cases o with
    | none =>
      simp only [cont_none, restoreRes_ok, Res.bind_ok]
      rw [restore_of_agree]
      intro x hx; exact Env.set_other _ _ (by simpa using hx)
    | some ws =>
      simp only [cont_some]
      have hm1 : ((env.set m (some (.mark s))).setMany P (wrap ws)) m = some (.mark s) := by
        rw [setMany_off _ _ _ _ hmP]; exact Env.set_same _ _ _
      rw [evalEx_stmt]
      simp only [exec, heval _ _ _ _ hm1, Res.bind_assoc, Res.bind_ok]
      rw [restoreRes_bind, restoreRes_bind]
      congr 1
      funext hi
      simp only [Stmt.binds, cont_some, PState.called_nil _ (hcalls _ _)]
      rw [restoreRes_comp (setMany_off _ _ _), restoreRes_comp (fun x hx => Env.set_other _ _ (by simpa using hx))]
      refine restore_frame ops fns n K k (X := [m]) (by simpa using hmk) ?_ (setMany_off env _ _) (by intro x; simp; grind) _
      intro x hx
      have hxm : x ≠ m := by simpa using hx
      simp only [Env.set_apply, wrap, List.map_cons, Env.setMany]
      split
      · rename_i hxr
        subst hxr
        rw [setMany_off _ _ _ _ hrB]; simp
      · rename_i hxr
        refine Env.Agree.setMany (A := fun y => y ≠ m ∧ y ≠ r) ?_ P _ x ⟨hxm, hxr⟩
        intro y hy
        rw [Env.set_other _ _ hy.1, Env.set_other _ _ hy.2]

theorem good_span (T : Nat → Ty) (R : String → Nat) (i : Nat) (e : Expr) (ih : Good ops fns T R e) :
    Good ops fns T R (.span i e) := by
  intro p k code c c' h hc hp hk
  simp only [compile] at h
  simp only [coherent, Bool.and_eq_true] at hc
  simp only [run, arity]
  generalize (p && decide (T i ≠ .unit)) = q at *
  cases q with
  | false =>
    simp only [Bool.false_eq_true, if_false] at h ⊢
    exact good_transparent ops fns T R e ih k code c c' h hc.1 hp hk
  | true =>
    simp only [if_true] at h ⊢
    exact good_spanned ops fns T R e ih .span (fun lo hi => .span (ops.span lo hi).1 (ops.span lo hi).2)
      (fun _ => rfl) (fun _ _ => rfl) (fun E st m s hm => by simp [evalV, Env.getMark, hm]) k code c c' h hc.1 (by simpa using hc.2) hp hk

theorem good_range (T : Nat → Ty) (R : String → Nat) (i : Nat) (e : Expr) (ih : Good ops fns T R e) :
    Good ops fns T R (.range i e) := by
  intro p k code c c' h hc hp hk
  simp only [compile] at h
  simp only [coherent, Bool.and_eq_true] at hc
  simp only [run, arity]
  generalize (p && decide (T i ≠ .unit)) = q at *
  cases q with
  | false =>
    simp only [Bool.false_eq_true, if_false] at h ⊢
    exact good_transparent ops fns T R e ih k code c c' h hc.1 hp hk
  | true =>
    simp only [if_true] at h ⊢
    exact good_spanned ops fns T R e ih .range (fun lo hi => .range (ops.pos lo) (ops.pos hi))
      (fun _ => rfl) (fun _ _ => rfl) (fun E st m s hm => by simp [evalV, Env.getMark, hm]) k code c c' h hc.1 (by simpa using hc.2) hp hk

/-- Every expression is compiled to code that behaves as its direct-style run. -/
theorem good_all (T : Nat → Ty) (R : String → Nat) (e : Expr) : Good ops fns T R e := by
  induction e using Expr.ind with
  | str i l => exact good_str ops fns T R i l
  | any i => exact good_any ops fns T R i
  | cls i k => exact good_cls ops fns T R i k
  | nt i r => exact good_nt ops fns T R i r
  | ext i p => exact good_ext ops fns T R i p
  | seq i es ih => exact good_seq ops fns T R i es ih
  | choice i es ih => exact good_choice ops fns T R i es ih
  | star i e ih => exact good_star ops fns T R i e ih
  | plus i e ih => exact good_plus ops fns T R i e ih
  | opt i e ih => exact good_opt ops fns T R i e ih
  | not i e ih => exact good_not ops fns T R i e ih
  | and i e ih => exact good_and ops fns T R i e ih
  | act i e b f ih => exact good_act ops fns T R i e b f ih
  | asc i e t ih => exact good_asc ops fns T R i e t ih
  | span i e ih => exact good_span ops fns T R i e ih
  | range i e ih => exact good_range ops fns T R i e ih

end
end Oak
