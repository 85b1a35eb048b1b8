import Verif.Proofs.CompileCorrect2
/-!
The generated code computes what the direct-style interpreter `run` computes: repetitions, options, predicates, actions, spans.
-/
set_option linter.constructorNameAsVariable false
set_option linter.unusedSimpArgs false
set_option autoImplicit false

namespace Oak
section
variable {σ : Type} (ops : StreamOps σ) (fns : FnRef → PState σ Val → Res (PState σ Val))

/-- Effect of the body of a value constructor on its result variable. -/
def collect (vec : Bool) (r : Name) (env : Env σ) (ws : List Val) (st : PState σ Val) : Res (Env σ × PState σ Val) :=
  if vec then
    match env r with
    | some (.val (.list vs)) => .ok (env.set r (some (.val (.list (vs ++ [tupleVal ws])))), st)
    | _ => .stuck
  else .ok (env.set r (some (.val (.some (tupleVal ws)))), st)

theorem good_valueConstructor (T : Nat → Ty) (R : String → Nat) (e : Expr) (ih : Good ops fns T R e) (card : Nat) (vec : Bool)
    (body : Ex) (r : Name) (c c' : Ctx) (h : valueConstructor (compile T true e) card vec c = .ok (body, r, c'))
    (hc : coherent T R true e = true) (hp : PreC c) :
    Post c c' [r] ∧ PreK c' body ∧
      ∀ n K, KOk ops fns n K c'.closures → ∀ env st,
        evalEx ops fns n K body env st = run ops fns T n true e st >>= fun q =>
          match q.1 with
          | some ws => collect vec r env ws q.2
          | none => .ok (env, q.2) := by
  unfold valueConstructor at h
  obtain ⟨⟨r1, c1⟩, h1, h⟩ := except_bind_eq_ok h
  obtain ⟨⟨body1, c2⟩, h2, h⟩ := except_bind_eq_ok h
  obtain ⟨c3, h3, h⟩ := except_bind_eq_ok h
  cases h
  simp only at h2 h3
  have post1 := (nextFreeVar_post h1 hp).1
  have hp1 := hp.post post1
  obtain ⟨hfv, hc3⟩ := closeScope_eq h3
  have hro : c1.names.old r := post1.le.old (hp.fvOld r (post1.sub r (by simp)))
  have hpo := openScope_preC card hp1
  have hpre : PreC ((c1.openScope card).2.pushMut r) :=
    ⟨hpo.nodup, hpo.fvOld, fun x hx => by
      simp only [Ctx.pushMut, openScope_muts, List.nil_append, List.mem_singleton] at hx
      subst hx; exact (openScope_le c1 card).old hro, hpo.marksOld, ⟨hpo.closures.names, hpo.closures.calls⟩⟩
  have hkfv : PreK ((c1.openScope card).2.pushMut r)
      (.stmt (if vec then .push r (.tup (freshNames c1 card)) else .setSome r (.tup (freshNames c1 card))) .st) := by
    refine ⟨?_, by simp [Ex.calls]⟩
    intro x hx
    have : x = r ∨ x ∈ freshNames c1 card := by
      cases vec <;> simpa [Ex.fv, Stmt.fv, VEx.fv] using hx
    rcases this with rfl | hx
    · exact (openScope_le c1 card).old hro
    · exact freshNames_old hx
  obtain ⟨P, post2, len2, pk2, sem2⟩ := ih true
    (.stmt (if vec then .push r (.tup (freshNames c1 card)) else .setSome r (.tup (freshNames c1 card))) .st) body
    ((c1.openScope card).2.pushMut r) c2 h2 hc hpre hkfv
  have hP : P = freshNames c1 card := by
    have := post2.fv
    have hfv2 : c2.fv = [] := hfv
    rw [hfv2, List.nil_append] at this
    exact this.symm
  subst hP
  have hle : c1.names.le c2.names := (openScope_le c1 card).trans post2.le
  have post3 : Post c1 c' [] := by
    subst hc3
    refine ⟨?_, ?_, ?_, ?_, ?_, ?_⟩
    · simp [Ctx.restoreScope, Ctx.openScope, Ctx.saveScope]
    · simp [Ctx.restoreScope, Ctx.openScope, Ctx.saveScope]
    · exact post2.marks
    · exact hle
    · exact post2.closures
    · exact ⟨post2.ok.names, post2.ok.calls⟩
  have hcls : c'.closures = c2.closures := by subst hc3; rfl
  have hnames : c'.names = c2.names := by subst hc3; rfl
  refine ⟨post1.trans post3, ⟨by rw [hnames]; exact pk2.old, by rw [hnames]; exact pk2.calls⟩, ?_⟩
  intro n K hK env st
  rw [sem2 n K (by rw [← hcls]; exact hK)]
  cases hrun : run ops fns T n true e st with
  | panic => rfl
  | stuck => rfl
  | timeout => rfl
  | ok q =>
    obtain ⟨o, st1⟩ := q
    cases o with
    | none => rfl
    | some ws =>
      have hl := run_length ops fns T R n e true st st1 ws hc hrun
      have hlen : ws.length = (freshNames c1 card).length := hl.trans len2.symm
      have hrP : r ∉ freshNames c1 card := fun hx => freshNames_fresh hx hro
      simp only [Res.bind_ok, cont_some]
      rw [evalEx_stmt]
      have hrestore : ∀ v : EV σ, (((env.setMany (freshNames c1 card) (wrap ws)).set r (some v)).restore env (freshNames c1 card)) =
          env.set r (some v) := by
        intro v
        funext x
        simp only [Env.restore]
        split
        · rename_i hx
          rw [Env.set_other _ _ (fun h : x = r => hrP (h ▸ hx))]
        · rename_i hx
          simp only [Env.set_apply]
          split
          · rfl
          · exact setMany_off _ _ _ _ hx
      have hevalV : ∀ st : PState σ Val, evalV ops (env.setMany (freshNames c1 card) (wrap ws)) st (.tup (freshNames c1 card)) =
          .ok (tupleVal ws) := by
        intro st
        simp only [evalV, getVals_setMany env _ ws hlen (freshNames_nodup c1 card)]
        rfl
      cases vec with
      | false =>
        simp only [Bool.false_eq_true, if_false, exec, hevalV, Res.bind_ok, Stmt.binds, restoreRes_nil, evalEx, restoreRes_ok, collect, PState.called_tup]
        rw [restore_nil, hrestore]
      | true =>
        simp only [if_true, exec, hevalV, Res.bind_ok, Env.getVal, setMany_off _ _ _ _ hrP, collect]
        cases hr : env r with
        | none => rfl
        | some v =>
          cases v with
          | val w =>
            cases w with
            | list vs =>
              simp only [Res.bind_ok, Stmt.binds, restoreRes_nil, evalEx, restoreRes_ok, PState.called_tup]
              rw [restore_nil, hrestore]
            | _ => rfl
          | _ => rfl

/-- A recognizer body. -/
theorem good_recognizer (T : Nat → Ty) (R : String → Nat) (e : Expr) (ih : Good ops fns T R e) (body : Ex) (c c' : Ctx)
    (h : compile T false e .st .failure c = .ok (body, c')) (hc : coherent T R false e = true) (hp : PreC c) :
    Post c c' [] ∧ PreK c' body ∧
      ∀ n K, KOk ops fns n K c'.closures → ∀ env st,
        evalEx ops fns n K body env st = run ops fns T n false e st >>= fun q => .ok (env, q.2) := by
  obtain ⟨P, post, len, pk, sem⟩ := ih false .st body c c' h hc hp ⟨by simp [Ex.fv], by simp [Ex.calls]⟩
  rw [arity_false] at len
  have hP : P = [] := List.length_eq_zero_iff.1 len
  subst hP
  refine ⟨post, pk, ?_⟩
  intro n K hK env st
  rw [sem n K hK]
  congr 1
  funext ⟨o, st1⟩
  cases o with
  | none => rfl
  | some ws => simp [restoreRes_nil, Env.setMany, evalEx]

/-! ### Loops -/

/-- Environment of a loop: counter, mark and result variable. -/
def loopEnv (E : Env σ) (r c : Option Name) (m : Name) (vs : List Val) (k : Nat) (s : σ) : Env σ := fun x =>
  if some x = c then some (.nat k) else if x = m then some (.mark s) else if some x = r then some (.val (.list vs)) else E x

theorem iterate_loop (E : Env σ) (r c : Option Name) (m : Name) (hcm : c ≠ some m) (hrm : r ≠ some m)
    (hcr : ∀ x, c = some x → r ≠ some x)
    (body : Env σ → PState σ Val → Res (Env σ × PState σ Val)) (rbody : PState σ Val → Res (Option (List Val) × PState σ Val))
    (hb : ∀ vs k s st, body (loopEnv E r c m vs k s) st = rbody st >>= fun q =>
      match q.1 with
      | some ws => .ok (loopEnv E r c m (vs ++ [tupleVal ws]) k s, q.2)
      | none => .ok (loopEnv E r c m vs k s, q.2))
    (n : Nat) (vs : List Val) (k : Nat) (s : σ) (st : PState σ Val) :
    iterate body c m n (loopEnv E r c m vs k s) st =
      runLoop rbody n k s vs st >>= fun q => .ok (loopEnv E r c m q.2.2.1 q.1 q.2.1, q.2.2.2) := by
  induction n generalizing vs k s st with
  | zero => rfl
  | succ n ih =>
    simp only [iterate, runLoop, hb, Res.bind_assoc]
    congr 1
    funext ⟨o, st1⟩
    have hstep : ∀ vs, (bump (loopEnv E r c m vs k s) c >>= fun env => (st1.mark) >>= fun s' =>
        iterate body c m n (env.set m (some (.mark s'))) st1) =
        (st1.mark >>= fun s' => runLoop rbody n (k + 1) s' vs st1) >>= fun q => .ok (loopEnv E r c m q.2.2.1 q.1 q.2.1, q.2.2.2) := by
      intro vs
      have hbump : ∃ E', bump (loopEnv E r c m vs k s) c = .ok E' ∧ ∀ s', E'.set m (some (.mark s')) = loopEnv E r c m vs (k + 1) s' := by
        cases c with
        | none =>
          refine ⟨_, rfl, ?_⟩
          intro s'
          funext x
          simp only [Env.set_apply, loopEnv]
          by_cases h1 : x = m <;> simp [h1]
        | some y =>
          refine ⟨_, by simp only [bump, Env.getNat, loopEnv, if_true, Res.bind_ok]; rfl, ?_⟩
          intro s'
          have hym : m ≠ y := fun h => hcm (by rw [h])
          funext x
          simp only [Env.set_apply]
          by_cases h1 : x = m
          · subst h1; simp [loopEnv, hym]
          · by_cases h2 : x = y
            · subst h2; simp [loopEnv, h1]
            · simp [loopEnv, h1, h2]
      obtain ⟨E', hE, hset⟩ := hbump
      rw [hE]
      simp only [Res.bind_ok, Res.bind_assoc]
      congr 1
      funext s'
      rw [hset, ih]
    cases o with
    | none =>
      simp only [Res.bind_ok]
      split
      · rw [hstep]
      · rfl
    | some ws =>
      simp only [Res.bind_ok]
      split
      · rw [hstep]
      · rfl

/-- Initial environment of a loop. -/
def loopInit (E : Env σ) (r : Option Name) : Env σ :=
  match r with
  | some r => E.set r (some (.val (.list [])))
  | none => E

theorem loopInit_off (E : Env σ) (r : Option Name) : ∀ x, x ∉ r.toList → loopInit E r x = E x := by
  intro x hx
  cases r with
  | none => rfl
  | some y => exact Env.set_other _ _ (by simpa using hx)

/-- The body of a repetition. -/
def LoopBody (n : Nat) (K : Nat → Option (Denot σ)) (r : Option Name) (body : Ex)
    (rbody : PState σ Val → Res (Option (List Val) × PState σ Val)) : Prop :=
  ∀ E st, evalEx ops fns n K body E st = rbody st >>= fun q =>
    match q.1, r with
    | some ws, some r => collect true r E ws q.2
    | _, _ => .ok (E, q.2)

theorem loopBody_loopEnv {n : Nat} {K : Nat → Option (Denot σ)} {r c : Option Name} {m : Name} {body : Ex}
    {rbody : PState σ Val → Res (Option (List Val) × PState σ Val)} (h : LoopBody ops fns n K r body rbody)
    (hrm : r ≠ some m) (hcr : ∀ x, c = some x → r ≠ some x) (E : Env σ) (vs : List Val) (k : Nat) (s : σ) (st : PState σ Val) :
    evalEx ops fns n K body (loopEnv E r c m vs k s) st = rbody st >>= fun q =>
      match q.1 with
      | some ws => .ok (loopEnv E r c m (vs ++ [tupleVal ws]) k s, q.2)
      | none => .ok (loopEnv E r c m vs k s, q.2) := by
  rw [h]
  congr 1
  funext ⟨o, st1⟩
  cases o with
  | none => rfl
  | some ws =>
    cases r with
    | none => rfl
    | some y =>
      have hyc : some y ≠ c := fun hh => hcr y hh.symm rfl
      have hym : y ≠ m := fun hh => hrm (by rw [hh])
      have hy : loopEnv E (some y) c m vs k s y = some (.val (.list vs)) := by simp [loopEnv, hyc, hym]
      simp only [collect, hy, if_true, Res.ok.injEq, Prod.mk.injEq, and_true]
      funext x
      simp only [Env.set_apply]
      by_cases hx : x = y
      · subst hx; simp [loopEnv, hyc, hym]
      · simp [loopEnv, hx]

theorem repeatCode_ctx (plus : Bool) (body k : Ex) (c : Ctx) (hp : PreC c) (hk : PreK c k) (hbody : PreK c body) :
    Post c (repeatCode plus body k .failure c).2 [] ∧
      PreK (repeatCode plus body k .failure c).2 (repeatCode plus body k .failure c).1 := by
  have pm := nextMark_post hp
  have pc := nextCounter_post (hp.post pm)
  cases plus with
  | false =>
    refine ⟨pm, ?_, ?_⟩
    · intro x hx
      simp only [repeatCode, Bool.false_eq_true, if_false, Ex.fv, Stmt.fv, Stmt.binds, List.mem_append, List.mem_filter, List.mem_cons, List.not_mem_nil,
        or_false, Option.toList, List.nil_append, decide_eq_true_eq, false_or] at hx
      obtain ⟨hx, hne⟩ := hx
      rcases hx with hx | hx | hx | hx
      · exact absurd hx hne
      · exact pm.le.old (hbody.old x hx)
      · exact absurd hx hne
      · exact pm.le.old (hk.old x hx.1)
    · intro j hj
      simp only [repeatCode, Bool.false_eq_true, if_false, Ex.calls, List.mem_append] at hj
      rcases hj with hj | hj
      · exact Nat.le_trans (hbody.calls j hj) pm.le.k
      · exact Nat.le_trans (hk.calls j hj) pm.le.k
  | true =>
    have post := pm.trans pc
    refine ⟨post, ?_, ?_⟩
    · intro x hx
      simp only [repeatCode, if_true, Ex.fv, Stmt.fv, Stmt.binds, Cond.fv, List.mem_append, List.mem_filter, List.mem_cons, List.not_mem_nil,
        or_false, Option.toList, List.nil_append, decide_eq_true_eq, false_or] at hx
      obtain ⟨⟨hx, hnc⟩, hnm⟩ := hx
      rcases hx with hx | hx | hx | hx | hx | hx
      · exact absurd hx hnc
      · exact absurd hx hnm
      · exact post.le.old (hbody.old x hx)
      · exact absurd hx hnc
      · exact absurd hx hnm
      · exact post.le.old (hk.old x hx.1)
    · intro j hj
      simp only [repeatCode, if_true, Ex.calls, List.mem_append, List.not_mem_nil, false_or] at hj
      rcases hj with hj | hj
      · exact Nat.le_trans (hbody.calls j hj) post.le.k
      · exact Nat.le_trans (hk.calls j hj) post.le.k

/-- The code of a repetition, around a body that collects in `r` (or recognizes). -/
theorem repeatCode_sem (r : Option Name) (plus : Bool) (body k : Ex) (c : Ctx) (hk : PreK c k)
    (hr : ∀ x, r = some x → c.names.old x) (rbody : PState σ Val → Res (Option (List Val) × PState σ Val))
    (n : Nat) (K : Nat → Option (Denot σ)) (hb : LoopBody ops fns n K r body rbody) (E : Env σ) (st : PState σ Val) :
    restoreRes E r.toList (evalEx ops fns n K (repeatCode plus body k .failure c).1 (loopInit E r) st) =
      runRepeat n plus r.isSome rbody st >>= cont (evalEx ops fns n K k) r.toList E := by
  have hmf := nextMark_fresh c
  have hrm : r ≠ some c.nextMark.1 := fun h => hmf (hr _ h)
  have hmk : c.nextMark.1 ∉ k.fv := fun h => hmf (hk.old _ h)
  cases plus with
  | false =>
    simp only [repeatCode, Bool.false_eq_true, if_false, runRepeat, Bool.false_and, Res.bind_assoc]
    generalize c.nextMark.1 = m at *
    rw [evalEx_letMark, restoreRes_bind]
    congr 1
    funext s
    rw [evalEx_loop]
    have hinit : (loopInit E r).set m (some (.mark s)) = loopEnv E r none m [] 0 s := by
      funext x
      cases r with
      | none => simp [loopInit, loopEnv, Env.set_apply]
      | some y => simp [loopInit, loopEnv, Env.set_apply]
    rw [hinit, iterate_loop E r none m (by simp) hrm (by simp) _ rbody
      (fun vs k s st => loopBody_loopEnv ops fns hb hrm (by simp) E vs k s st)]
    simp only [Res.bind_assoc, Res.bind_ok]
    rw [restoreRes_bind, restoreRes_bind]
    congr 1
    funext ⟨cnt, s', vs, st1⟩
    simp only
    rw [evalEx_stmt]
    simp only [exec, Env.getMark, Res.bind_assoc]
    have hm : loopEnv E r none m vs cnt s' m = some (.mark s') := by simp [loopEnv]
    simp only [hm, Res.bind_ok]
    rw [restoreRes_bind, restoreRes_bind]
    congr 1
    funext st2
    simp only [Stmt.binds, restoreRes_nil, cont_some]
    rw [restoreRes_comp (loopInit_off E r)]
    refine restore_frame ops fns n K k (X := [m]) (by simpa using hmk) ?_ (setMany_off E _ _) (by intro x; simp) _
    intro x hx
    have hxm : x ≠ m := by simpa using hx
    cases r with
    | none => simp [loopEnv, hxm, Env.setMany]
    | some y => simp [loopEnv, hxm, Env.setMany, wrap, Env.set_apply]
  | true =>
    have hcf := nextCounter_fresh c.nextMark.2
    have hle : c.names.le c.nextMark.2.names := ⟨Nat.le_refl _, Nat.le_succ _, Nat.le_refl _, Nat.le_refl _, Nat.le_refl _⟩
    have hck : c.nextMark.2.nextCounter.1 ∉ k.fv := fun h => hcf (hle.old (hk.old _ h))
    have hrc : r ≠ some c.nextMark.2.nextCounter.1 := fun h => hcf (hle.old (hr _ h))
    have hcm : c.nextMark.2.nextCounter.1 ≠ c.nextMark.1 := by simp [Ctx.nextMark, Ctx.nextCounter]
    simp only [repeatCode, if_true, runRepeat, Bool.true_and, Res.bind_assoc]
    generalize c.nextMark.2.nextCounter.1 = y at *
    generalize c.nextMark.1 = m at *
    rw [evalEx_letMark, restoreRes_bind]
    congr 1
    funext s
    rw [evalEx_stmt]
    simp only [exec, Res.bind_ok, Stmt.binds]
    rw [evalEx_loop]
    have hinit : ((loopInit E r).set m (some (.mark s))).set y (some (.nat 0)) = loopEnv E r (some y) m [] 0 s := by
      funext x
      cases r with
      | none => simp [loopInit, loopEnv, Env.set_apply]
      | some y => simp [loopInit, loopEnv, Env.set_apply]
    rw [hinit, iterate_loop E r (some y) m (by simpa using hcm) hrm (by intro x hx; cases hx; exact hrc) _ rbody
      (fun vs k s st => loopBody_loopEnv ops fns hb hrm (by intro x hx; cases hx; exact hrc) E vs k s st)]
    simp only [Res.bind_assoc, Res.bind_ok]
    rw [restoreRes_bind, restoreRes_bind, restoreRes_bind]
    congr 1
    funext ⟨cnt, s', vs, st1⟩
    simp only
    rw [restoreRes_comp (env := loopInit E r) (fun x hx => Env.set_other _ _ (by simpa using hx)),
      restoreRes_comp (loopInit_off E r), evalEx_ite]
    have hy : loopEnv E r (some y) m vs cnt s' y = some (.nat cnt) := by simp [loopEnv]
    have hm : loopEnv E r (some y) m vs cnt s' m = some (.mark s') := by
      have : m ≠ y := fun h => hcm h.symm
      simp [loopEnv, this]
    simp only [evalCond, Env.getNat, hy, Res.bind_ok]
    by_cases hcnt : cnt < 1
    · simp only [hcnt, decide_true, if_true, evalEx, restoreRes_ok, Res.bind_ok, cont_none]
      rw [restore_of_agree]
      intro x hx
      simp only [List.mem_append, List.mem_singleton, not_or] at hx
      cases r with
      | none => simp [loopEnv, hx.2.1, hx.2.2]
      | some z =>
        have hxz : x ≠ z := by simpa using hx.1
        simp [loopEnv, hx.2.1, hx.2.2, hxz]
    · simp only [hcnt, decide_false, Bool.false_eq_true, if_false]
      rw [evalEx_stmt]
      simp only [exec, Env.getMark, Res.bind_assoc, hm, Res.bind_ok]
      rw [restoreRes_bind]
      congr 1
      funext st2
      simp only [Stmt.binds, restoreRes_nil, cont_some]
      refine restore_frame ops fns n K k (X := [m, y]) ?_ ?_ (setMany_off E _ _) (by intro x; simp) _
      · intro x hx
        simp only [List.mem_cons, List.not_mem_nil, or_false] at hx
        rcases hx with rfl | rfl
        · exact hmk
        · exact hck
      · intro x hx
        simp only [List.mem_cons, List.not_mem_nil, or_false, not_or] at hx
        cases r with
        | none => simp [loopEnv, hx.1, hx.2, Env.setMany]
        | some z => simp [loopEnv, hx.1, hx.2, Env.setMany, wrap, Env.set_apply]

theorem fv_stmt_old {s : Stmt} {e : Ex} {A : Name → Prop} (hs : ∀ x ∈ s.fv, A x) (he : ∀ x ∈ e.fv, A x) :
    ∀ x ∈ (Ex.stmt s e).fv, A x := by
  intro x hx
  simp only [Ex.fv, List.mem_append, List.mem_filter] at hx
  rcases hx with hx | hx
  · exact hs x hx
  · exact he x hx.1

/-- Both repetitions. -/
theorem good_rep (T : Nat → Ty) (R : String → Nat) (plus p : Bool) (e : Expr) (ih : Good ops fns T R e) (k code : Ex) (c c' : Ctx)
    (h : (if p then do
        let (body, r, c) ← valueConstructor (compile T true e) (T e.id).card true c
        let (code, c) := repeatCode plus body k .failure c
        .ok (.stmt (.letVec r) code, c)
      else do
        let (body, c) ← compile T false e .st .failure c
        .ok (repeatCode plus body k .failure c.incr) : Except String (Ex × Ctx)) = .ok (code, c'))
    (hc : coherent T R p e = true) (hp : PreC c) (hk : PreK c k) :
    ∃ P, Post c c' P ∧ P.length = (if p then 1 else 0) ∧ PreK c' code ∧
      ∀ n K, KOk ops fns n K c'.closures → ∀ env st,
        evalEx ops fns n K code env st = runRepeat n plus p (run ops fns T n p e) st >>= cont (evalEx ops fns n K k) P env := by
  cases p with
  | true =>
    simp only [if_true] at h
    obtain ⟨⟨body, r, c1⟩, h1, h⟩ := except_bind_eq_ok h
    cases h
    obtain ⟨post1, pk1, sem1⟩ := good_valueConstructor ops fns T R e ih _ true body r c c1 h1 hc hp
    obtain ⟨post2, pk2⟩ := repeatCode_ctx plus body k c1 (hp.post post1) (hk.mono post1.le) pk1
    refine ⟨[r], by simpa using post1.trans post2, rfl, ⟨fv_stmt_old (by simp [Stmt.fv]) pk2.old, pk2.calls⟩, ?_⟩
    intro n K hK env st
    rw [evalEx_stmt]
    simp only [exec, Res.bind_ok, Stmt.binds]
    exact repeatCode_sem ops fns (some r) plus body k c1 (hk.mono post1.le)
      (fun x hx => by cases hx; exact post1.le.old (hp.fvOld _ (post1.sub _ (by simp)))) (run ops fns T n true e) n K
      (fun E st => by
        rw [sem1 n K (hK.post post2) E st]
        congr 1; funext ⟨o, st1⟩; cases o <;> rfl) env st
  | false =>
    simp only [Bool.false_eq_true, if_false] at h
    obtain ⟨⟨body, c1⟩, h1, h⟩ := except_bind_eq_ok h
    obtain ⟨post1, pk1, sem1⟩ := good_recognizer ops fns T R e ih body c c1 h1 hc hp
    have post1' := post1.incr
    obtain ⟨post2, pk2⟩ := repeatCode_ctx plus body k c1.incr (hp.post post1') (hk.mono post1'.le) ⟨pk1.old, pk1.calls⟩
    have h' : repeatCode plus body k .failure c1.incr = (code, c') := by simpa using h
    rw [h'] at post2 pk2
    refine ⟨[], by simpa using post1'.trans post2, rfl, pk2, ?_⟩
    intro n K hK env st
    have hK1 : KOk ops fns n K c1.closures := KOk.post (c := c1.incr) hK post2
    have := repeatCode_sem ops fns none plus body k c1.incr (hk.mono post1'.le)
      (fun x hx => by cases hx) (run ops fns T n false e) n K
      (fun E st => by
        rw [sem1 n K hK1 E st]
        congr 1; funext ⟨o, st1⟩; cases o <;> rfl) env st
    rw [h'] at this
    simpa [restoreRes_nil, loopInit] using this

theorem good_star (T : Nat → Ty) (R : String → Nat) (i : Nat) (e : Expr) (ih : Good ops fns T R e) :
    Good ops fns T R (.star i e) := by
  intro p k code c c' h hc hp hk
  simp only [compile] at h
  simp only [coherent] at hc
  simpa only [run, arity] using good_rep ops fns T R false _ e ih k code c c' h hc hp hk

theorem good_plus (T : Nat → Ty) (R : String → Nat) (i : Nat) (e : Expr) (ih : Good ops fns T R e) :
    Good ops fns T R (.plus i e) := by
  intro p k code c c' h hc hp hk
  simp only [compile] at h
  simp only [coherent] at hc
  simpa only [run, arity] using good_rep ops fns T R true _ e ih k code c c' h hc hp hk

end
end Oak
