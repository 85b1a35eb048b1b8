import Verif.Proofs.CompileCorrect
/-!
The generated code computes what the direct-style interpreter `run` computes: calls, sequences, choices.
-/
set_option linter.constructorNameAsVariable false
set_option linter.unusedSimpArgs false
set_option autoImplicit false

namespace Oak
section
variable {σ : Type} (ops : StreamOps σ) (fns : FnRef → PState σ Val → Res (PState σ Val))

theorem good_call (T : Nat → Ty) (i : Nat) (path : Path) (p : Bool) (k code : Ex) (c c' : Ctx)
    (h : compileCall T p i path k .failure c = .ok (code, c')) (hp : PreC c) (hk : PreK c k) :
    ∃ P, Post c c' P ∧ P.length = (if p && T i ≠ .unit then (T i).card else 0) ∧ PreK c' code ∧
      ∀ n K, KOk ops fns n K c'.closures → ∀ env st,
        evalEx ops fns n K code env st = runCall fns T p i path st >>= cont (evalEx ops fns n K k) P env := by
  unfold compileCall at h
  split at h
  · rename_i hq
    obtain ⟨⟨vs, c1⟩, h1, h⟩ := except_bind_eq_ok h
    cases h
    have p1 := nextFreeVars_post h1 hp
    refine ⟨vs, p1.1, by simp only [hq, if_true, p1.2], ⟨?_, ?_⟩, ?_⟩
    · intro x hx
      simp only [Ex.fv, Stmt.fv, Cond.fv, List.mem_append, List.mem_filter, List.not_mem_nil, or_false, false_and, false_or] at hx
      exact p1.1.le.old (hk.old x hx.1.1)
    · intro j hj
      simp only [Ex.calls, List.append_nil] at hj
      exact Nat.le_trans (hk.calls j hj) p1.1.le.k
    · intro n K hK env st
      rw [evalEx_stmt]
      simp only [exec, Res.bind_assoc, Res.bind_ok, Stmt.binds, restoreRes_nil, runCall, hq, if_true]
      congr 1
      funext st1
      rw [evalEx_ite]
      simp only [evalCond, Res.bind_ok]
      by_cases hs : st1.isSuccessful = true
      · simp only [hs, if_true, Res.bind_assoc]
        rw [evalEx_stmt]
        simp only [exec, Res.bind_assoc, p1.2]
        congr 1
      · simp only [hs]
        rfl
  · rename_i hq
    replace hq := Bool.eq_false_iff.2 hq
    cases h
    refine ⟨[], Post.refl hp.closures, by simp only [hq]; rfl, ⟨?_, ?_⟩, ?_⟩
    · intro x hx
      simp only [Ex.fv, Stmt.fv, Cond.fv, List.mem_append, List.mem_filter, List.not_mem_nil, or_false, false_and, false_or] at hx
      exact hk.old x hx.1.1
    · intro j hj
      simp only [Ex.calls, List.append_nil] at hj
      exact hk.calls j hj
    · intro n K hK env st
      rw [evalEx_stmt]
      simp only [exec, Res.bind_assoc, Res.bind_ok, Stmt.binds, restoreRes_nil, runCall, hq, Bool.false_eq_true, if_false]
      congr 1
      funext st1
      rw [evalEx_ite]
      simp only [evalCond, Res.bind_ok]
      by_cases hs : st1.isSuccessful = true
      · simp only [hs, if_true, Res.bind_ok, cont_some, restoreRes_nil]
        rw [evalEx_stmt]
        simp only [exec, Res.bind_ok, Stmt.binds, restoreRes_nil]
        rfl
      · simp only [hs]
        rfl

theorem good_nt (T : Nat → Ty) (R : String → Nat) (i : Nat) (r : String) : Good ops fns T R (.nt i r) := by
  intro p k code c c' h _ hp hk
  simp only [compile] at h
  simpa only [run, arity] using good_call ops fns T i [r] p k code c c' h hp hk

theorem good_ext (T : Nat → Ty) (R : String → Nat) (i : Nat) (r : Path) : Good ops fns T R (.ext i r) := by
  intro p k code c c' h _ hp hk
  simp only [compile] at h
  simpa only [run, arity] using good_call ops fns T i r p k code c c' h hp hk

/-- Binding variables in two steps. -/
theorem cont_append (k : Env σ → PState σ Val → Res (Env σ × PState σ Val)) (env : Env σ) (P Q : List Name) (vs ws : List Val)
    (h : vs.length = P.length) (st : PState σ Val) :
    restoreRes env P (restoreRes (env.setMany P (wrap vs)) Q (k ((env.setMany P (wrap vs)).setMany Q (wrap ws)) st)) =
      cont k (P ++ Q) env (some (vs ++ ws), st) := by
  rw [restoreRes_comp (setMany_off env P _), cont_some, setMany_append env P Q vs ws h]

theorem good_seqs (T : Nat → Ty) (R : String → Nat) (p : Bool) (es : List Expr) (ih : ∀ e ∈ es, Good ops fns T R e)
    (hc : coherentAll T R p es = true) (k code : Ex) (c c' : Ctx)
    (h : compileSeq T p es k .failure c = .ok (code, c')) (hp : PreC c) (hk : PreK c k) :
    ∃ P, Post c c' P ∧ P.length = aritySeq T p es ∧ PreK c' code ∧
      ∀ n K, KOk ops fns n K c'.closures → ∀ env st,
        evalEx ops fns n K code env st = runSeq ops fns T n p es st >>= cont (evalEx ops fns n K k) P env := by
  induction es generalizing code c' with
  | nil =>
    simp only [compileSeq] at h
    cases h
    refine ⟨[], Post.refl hp.closures, rfl, hk, ?_⟩
    intro n K hK env st
    simp [runSeq, restoreRes_nil, Env.setMany, wrap]
  | cons e es ihes =>
    simp only [compileSeq] at h
    obtain ⟨⟨k1, c1⟩, h1, h⟩ := except_bind_eq_ok h
    obtain ⟨⟨code2, c2⟩, h2, h⟩ := except_bind_eq_ok h
    cases h
    simp only [coherentAll, Bool.and_eq_true] at hc
    obtain ⟨P2, post2, len2, pk2, sem2⟩ := ihes (fun e he => ih e (by simp [he])) hc.2 k1 c1 h1
    obtain ⟨P1, post1, len1, pk1, sem1⟩ := ih e (by simp) p k1 code2 c1 c2 h2 hc.1 (hp.post post2) pk2
    refine ⟨P1 ++ P2, (post2.trans post1).incr, by simp [aritySeq, len1, len2], ⟨pk1.old, pk1.calls⟩, ?_⟩
    intro n K hK env st
    have hK2 : KOk ops fns n K c2.closures := hK
    rw [sem1 n K hK2]
    simp only [runSeq]
    cases hrun : run ops fns T n p e st with
    | panic => rfl
    | stuck => rfl
    | timeout => rfl
    | ok a =>
      obtain ⟨o, st1⟩ := a
      cases o with
      | none => rfl
      | some vs =>
        have hl := run_length ops fns T R n e p st st1 vs hc.1 hrun
        simp only [Res.bind_ok, cont_some]
        rw [sem2 n K (hK2.post post1)]
        cases hrs : runSeq ops fns T n p es st1 with
        | panic => rfl
        | stuck => rfl
        | timeout => rfl
        | ok b =>
          obtain ⟨o2, st2⟩ := b
          cases o2 with
          | none =>
            simp only [Res.bind_ok, cont_none, restoreRes_ok]
            rw [restore_of_agree (setMany_off env P1 _)]
          | some ws =>
            simp only [Res.bind_ok]
            rw [← cont_append _ _ _ _ _ _ (hl.trans len1.symm)]
            rfl

theorem good_seq (T : Nat → Ty) (R : String → Nat) (i : Nat) (es : List Expr) (ih : ∀ e ∈ es, Good ops fns T R e) :
    Good ops fns T R (.seq i es) := by
  intro p k code c c' h hc hp hk
  simp only [compile] at h
  simp only [coherent] at hc
  simpa only [run, arity] using good_seqs ops fns T R _ es ih hc k code c c' h hp hk

/-! ### Choices -/

theorem choiceCode_false (n : Nat) (K : Nat → Option (Denot σ)) (m b : Name) (l : List Ex) (env : Env σ) (st : PState σ Val)
    (h : env b = some (.bool false)) : evalEx ops fns n K (choiceCode m b l) env st = .ok (env, st) := by
  cases l with
  | nil => rfl
  | cons e l =>
    rw [choiceCode, evalEx_ite]
    simp [evalCond, Env.getBool, h, evalEx]

theorem choiceCode_true (n : Nat) (K : Nat → Option (Denot σ)) (m b : Name) (e : Ex) (l : List Ex) (env : Env σ)
    (st : PState σ Val) (s : σ) (h : env b = some (.bool true)) (hm : env m = some (.mark s)) :
    evalEx ops fns n K (choiceCode m b (e :: l)) env st =
      (st.restoreFromFailure s : Res (PState σ Val)) >>= fun st => evalEx ops fns n K (.bind e (choiceCode m b l)) env st := by
  rw [choiceCode, evalEx_ite]
  simp only [evalCond, Env.getBool, h, Res.bind_ok, if_true]
  rw [evalEx_stmt]
  simp only [exec, Env.getMark, hm, Res.bind_ok, Res.bind_assoc, Stmt.binds, restoreRes_nil]

theorem choiceCode_fv (m b : Name) (l : List Ex) (A : Name → Prop) (hm : A m) (hb : A b) (h : ∀ e ∈ l, ∀ x ∈ e.fv, A x) :
    ∀ x ∈ (choiceCode m b l).fv, A x := by
  induction l with
  | nil => simp [choiceCode, Ex.fv]
  | cons e l ih =>
    intro x hx
    simp only [choiceCode, Ex.fv, Cond.fv, Stmt.fv, List.mem_append, List.mem_filter, List.mem_cons, List.not_mem_nil,
      or_false] at hx
    rcases hx with rfl | rfl | ⟨hx | hx, _⟩
    · exact hb
    · exact hm
    · exact h e (by simp) x hx
    · exact ih (fun e he => h e (by simp [he])) x hx

theorem choiceCode_calls (m b : Name) (l : List Ex) (A : Nat → Prop) (h : ∀ e ∈ l, ∀ x ∈ e.calls, A x) :
    ∀ x ∈ (choiceCode m b l).calls, A x := by
  induction l with
  | nil => simp [choiceCode, Ex.calls]
  | cons e l ih =>
    intro x hx
    simp only [choiceCode, Ex.calls, List.mem_append, List.not_mem_nil, or_false] at hx
    rcases hx with hx | hx
    · exact h e (by simp) x hx
    · exact ih (fun e he => h e (by simp [he])) x hx

/-- Same context up to the scope. -/
theorem restoreScope_preC {c : Ctx} {s : Ctx.Scope} (h : ClosuresOk c) (hn : s.fv.Nodup) (hf : ∀ x ∈ s.fv, c.names.old x)
    (hm : ∀ x ∈ s.muts, c.names.old x) (hk : ∀ x ∈ c.marks, c.names.old x) : PreC (c.restoreScope s) :=
  ⟨hn, hf, hm, hk, ⟨h.names, h.calls⟩⟩

theorem good_branches (T : Nat → Ty) (R : String → Nat) (p : Bool) (a : Nat) (es : List Expr) (ih : ∀ e ∈ es, Good ops fns T R e)
    (hc : coherentAll T R p es = true) (ha : sameArity T p a es = true) (m b : Name) (k : Ex) (codes : List Ex)
    (s : Ctx.Scope) (c c' : Ctx) (h : compileBranches T p es b k .failure s c = .ok (codes, c'))
    (hcl : ClosuresOk c) (hsn : s.fv.Nodup) (hsf : ∀ x ∈ s.fv, c.names.old x) (hsm : ∀ x ∈ s.muts, c.names.old x)
    (hmk : ∀ x ∈ c.marks, c.names.old x) (hk : PreK c k) (hb : b ∉ k.fv) (hbo : c.names.old b) (hbs : b ∉ s.fv) (hbm : b ≠ m) :
    ∃ P first rest, codes = first :: rest ∧ s.fv = c'.fv ++ P ∧ c'.muts = s.muts.dropLast ∧ c'.marks = c.marks ∧
      c.names.le c'.names ∧ (∃ l, c'.closures = c.closures ++ l) ∧ ClosuresOk c' ∧ P.length = a ∧
      (∀ e ∈ codes, PreK c' e) ∧
      ∀ n K, KOk ops fns n K c'.closures → ∀ env0 st s, env0 m = some (.mark s) →
        restoreRes env0 [b] (evalEx ops fns n K (.bind first (choiceCode m b rest)) (env0.set b (some (.bool true))) st) =
          runBranches ops fns T n p s es st >>= cont (evalEx ops fns n K k) P env0 := by
  induction es generalizing codes c c' with
  | nil => simp only [compileBranches] at h; cases h
  | cons e es ihes =>
    simp only [coherentAll, Bool.and_eq_true] at hc
    have hae := sameArity_iff.1 ha e (by simp)
    simp only [compileBranches] at h
    split at h
    · rename_i hemp
      have hnil : es = [] := by simpa using hemp
      obtain ⟨c1, h1, h⟩ := except_bind_eq_ok h
      obtain ⟨⟨code, c2⟩, h2, h⟩ := except_bind_eq_ok h
      cases h
      unfold Ctx.popMut at h1
      split at h1
      · cases h1
      · cases h1
        have hpre : PreC { c.restoreScope s with muts := (c.restoreScope s).muts.dropLast } :=
          ⟨hsn, hsf, fun x hx => hsm x (List.dropLast_subset _ hx), hmk, ⟨hcl.names, hcl.calls⟩⟩
        obtain ⟨P, post, len, pk, sem⟩ := ih e (by simp) p k code _ c2 h2 hc.1 hpre ⟨hk.old, hk.calls⟩
        refine ⟨P, code, [], rfl, post.fv, post.muts, post.marks, post.le, post.closures, post.ok, len.trans hae, ?_, ?_⟩
        · intro x hx; simp only [List.mem_singleton] at hx; subst hx; exact pk
        · intro n K hK env0 st sm hm
          rw [evalEx_bind, sem n K hK]
          simp only [choiceCode, evalEx, runBranches, hnil, List.isEmpty_nil, if_true]
          rw [show (fun p : Env σ × PState σ Val => Res.ok (p.1, p.2)) = Res.ok from rfl, Res.bind_ok_right]
          rw [restoreRes_bind]
          simp only [Res.bind_assoc]
          congr 1
          funext ⟨o, st1⟩
          rw [cont_frame ops fns n K k (X := [b]) (by simpa using hb)]
          · cases o <;> rfl
          · intro x hx; exact Env.set_other _ _ (by simpa using hx)
    · rename_i hemp
      obtain ⟨⟨code, c1⟩, h1, h⟩ := except_bind_eq_ok h
      obtain ⟨⟨codes2, c2⟩, h2, h⟩ := except_bind_eq_ok h
      cases h
      have hpre := restoreScope_preC hcl hsn hsf hsm hmk
      have hkb : PreK (c.restoreScope s) (.stmt (.setFalse b) k) := by
        refine ⟨?_, hk.calls⟩
        intro x hx
        simp only [Ex.fv, Stmt.fv, List.mem_append, List.mem_filter, List.mem_singleton] at hx
        rcases hx with rfl | hx
        · exact hbo
        · exact hk.old x hx.1
      obtain ⟨P, post, len, pk, sem⟩ := ih e (by simp) p _ code _ c1 h1 hc.1 hpre hkb
      have hle : c.names.le c1.names := post.le
      obtain ⟨P2, first, rest, hcodes, fv2, muts2, marks2, le2, cl2, ok2, len2, pk2, sem2⟩ :=
        ihes (fun e he => ih e (by simp [he])) hc.2 (sameArity_iff.2 fun e he => sameArity_iff.1 ha e (by simp [he]))
          codes2 c1.incr c2 h2 post.incr.ok (fun x hx => hle.old (hsf x hx)) (fun x hx => hle.old (hsm x hx))
          (by
            intro x hx
            have : x ∈ c.marks := by
              have := post.marks
              simp only [Ctx.restoreScope] at this
              rw [← this]; exact hx
            exact hle.old (hmk x this))
          (hk.mono hle) (hle.old hbo)
      have hPP : P = P2 := by
        have h1 : s.fv = c1.fv ++ P := post.fv
        have h2 : s.fv = c2.fv ++ P2 := fv2
        have hlen : P.length = P2.length := by rw [len, len2, hae]
        exact (List.append_inj' (h1.symm.trans h2) hlen).2
      subst hPP
      obtain ⟨l1, hl1⟩ := post.closures
      obtain ⟨l2, hl2⟩ := cl2
      refine ⟨P, code, codes2, rfl, fv2, muts2, ?_, hle.trans le2, ⟨l1 ++ l2, ?_⟩, ok2, len2, ?_, ?_⟩
      · rw [marks2]; exact post.marks
      · rw [hl2]; show c1.closures ++ l2 = _; rw [hl1]; simp [Ctx.restoreScope]
      · intro x hx
        simp only [List.mem_cons] at hx
        rcases hx with rfl | hx
        · exact pk.mono le2
        · exact pk2 x hx
      · intro n K hK env0 st sm hm
        have hK1 : KOk ops fns n K c1.closures := by
          intro cl hcl'; exact hK cl (by rw [hl2]; exact List.mem_append_left _ hcl')
        have hbP : b ∉ P := fun hx => hbs (by have := post.fv; simp only [Ctx.restoreScope] at this; rw [this]; simp [hx])
        rw [evalEx_bind, sem n K hK1]
        simp only [runBranches]
        have hes : es.isEmpty = false := by simpa using hemp
        cases hrun : run ops fns T n p e st with
        | panic => rfl
        | stuck => rfl
        | timeout => rfl
        | ok r =>
          obtain ⟨o, st1⟩ := r
          cases o with
          | none =>
            simp only [Res.bind_ok, cont_none, hes, Bool.false_eq_true, if_false, Res.bind_assoc]
            rw [hcodes, choiceCode_true ops fns n K m b first rest _ _ sm (Env.set_same _ _ _)
              (by rw [Env.set_other _ _ hbm.symm]; exact hm)]
            rw [restoreRes_bind]
            congr 1
            funext st2
            exact sem2 n K hK env0 st2 sm hm
          | some vs =>
            simp only [Res.bind_ok, cont_some]
            rw [evalEx_stmt]
            simp only [exec, Res.bind_ok, Stmt.binds, restoreRes_nil]
            -- the continuation leaves `b` false, so the other branches are skipped
            have hskip : ∀ r : Res (Env σ × PState σ Val),
                (∀ e1 s1, r = .ok (e1, s1) → e1 b = some (.bool false)) →
                (restoreRes (env0.set b (some (.bool true))) P r >>= fun q => evalEx ops fns n K (choiceCode m b codes2) q.1 q.2) =
                  restoreRes (env0.set b (some (.bool true))) P r := by
              intro r hr
              cases r with
              | panic => rfl
              | stuck => rfl
              | timeout => rfl
              | ok q =>
                obtain ⟨e1, s1⟩ := q
                simp only [restoreRes_ok, Res.bind_ok]
                refine choiceCode_false ops fns n K m b _ _ _ ?_
                simp only [Env.restore, hbP, if_false]
                exact hr e1 s1 rfl
            rw [hskip]
            · rw [restoreRes_comp (fun x hx => Env.set_other _ _ (by simpa using hx))]
              refine restore_frame ops fns n K k (X := [b]) (by simpa using hb) ?_ (setMany_off env0 P _) (by intro x; simp [Or.comm]) _
              intro x hx
              have hxb : x ≠ b := by simpa using hx
              rw [Env.set_other _ _ hxb]
              exact Env.Agree.setMany (A := fun x => x ≠ b) (fun y hy => Env.set_other _ _ hy) P (wrap vs) x hxb
            · intro e1 s1 he1
              rw [evalEx_unchanged ops fns n K k he1 (fun hh => hb (mem_fv_of_mem_asg k hh))]
              simp

theorem successAsClosure_spec {c : Ctx} {k : Ex} (hp : PreC c) (hk : PreK c k) :
    Post c (c.successAsClosure k).2 [] ∧ PreK (c.successAsClosure k).2 (c.successAsClosure k).1 ∧
      (∀ x ∈ (c.successAsClosure k).1.fv, c.names.old x) ∧
      ∀ n K, KOk ops fns n K (c.successAsClosure k).2.closures →
        evalEx ops fns n K (c.successAsClosure k).1 = evalEx ops fns n K k := by
  unfold Ctx.successAsClosure
  split
  · have hold : ∀ x ∈ c.muts ++ c.fv ++ c.marks, c.names.old x := by
      intro x hx
      simp only [List.mem_append] at hx
      rcases hx with (hx | hx) | hx
      · exact hp.mutsOld x hx
      · exact hp.fvOld x hx
      · exact hp.marksOld x hx
    refine ⟨⟨by simp, rfl, rfl, ⟨Nat.le_refl _, Nat.le_refl _, Nat.le_refl _, Nat.le_refl _, Nat.le_succ _⟩, ⟨_, rfl⟩, ?_⟩, ⟨?_, ?_⟩, ?_, ?_⟩
    · refine ⟨?_, ?_⟩
      · simp only [List.map_append, hp.closures.names, List.range_succ, List.map_cons, List.map_nil]
      · intro cl hcl j hj
        simp only [List.mem_append, List.mem_singleton] at hcl
        rcases hcl with hcl | rfl
        · exact hp.closures.calls cl hcl j hj
        · exact Nat.lt_succ_of_le (hk.calls j hj)
    · intro x hx; exact hold x hx
    · intro j hj; simp only [Ex.calls, List.mem_singleton] at hj; subst hj; exact Nat.le_refl _
    · intro x hx; exact hold x hx
    · intro n K hK
      funext env st
      obtain ⟨h1, h2⟩ := hK _ (List.mem_append_right _ (List.mem_singleton.2 rfl))
      exact call_closed ops fns n K _ h1 h2 env st
  · exact ⟨Post.refl hp.closures, hk, hk.old, fun _ _ _ => rfl⟩

theorem good_choice (T : Nat → Ty) (R : String → Nat) (i : Nat) (es : List Expr) (ih : ∀ e ∈ es, Good ops fns T R e) :
    Good ops fns T R (.choice i es) := by
  intro p k code c c' h hc hp hk
  simp only [compile] at h
  simp only [coherent, Bool.and_eq_true] at hc
  simp only [run, arity]
  generalize (p && decide (T i ≠ .unit)) = q at *
  obtain ⟨post1, pk1, old1, sem1⟩ := successAsClosure_spec ops fns hp hk
  generalize hcl1 : (c.successAsClosure k).2 = c1 at *
  generalize hkk : (c.successAsClosure k).1 = k1 at *
  obtain ⟨⟨brs, c2⟩, h2, h⟩ := except_bind_eq_ok h
  have hp1 := hp.post post1
  have pm := nextMark_post hp1
  have hp2 := hp1.post pm
  have pb := nextBranchFailed_post hp2
  have hp3 := hp2.post pb
  have hmb : c1.nextMark.2.nextBranchFailed.1 ≠ c1.nextMark.1 := by simp [Ctx.nextMark, Ctx.nextBranchFailed]
  have hbfresh := nextBranchFailed_fresh c1.nextMark.2
  have hmfresh := nextMark_fresh c1
  obtain ⟨P, first, rest, hcodes, fv2, muts2, marks2, le2, cl2, ok2, len2, pk2, sem2⟩ :=
    good_branches ops fns T R q _ es ih hc.1 hc.2 c1.nextMark.1 c1.nextMark.2.nextBranchFailed.1 k1 brs _ _ c2 h2
      ⟨hp3.closures.names, hp3.closures.calls⟩ hp3.nodup hp3.fvOld
      (by
        intro x hx
        simp only [Ctx.saveScope, Ctx.pushMut, List.mem_append, List.mem_singleton] at hx
        rcases hx with hx | rfl
        · exact hp3.mutsOld x hx
        · exact nextBranchFailed_old _)
      hp3.marksOld ((pk1.mono pm.le).mono pb.le)
      (fun hx => hbfresh (pm.le.old (post1.le.old (old1 _ hx))))
      (nextBranchFailed_old _)
      (fun hx => hbfresh (hp2.fvOld _ hx))
      hmb
  subst hcodes
  cases h
  generalize hmn : c1.nextMark.1 = m at *
  generalize hbn : c1.nextMark.2.nextBranchFailed.1 = b at *
  have postall : Post c c2 P := by
    refine ⟨?_, ?_, ?_, ?_, ?_, ok2⟩
    · have := fv2
      simp only [Ctx.saveScope, Ctx.pushMut, Ctx.nextBranchFailed, Ctx.nextMark] at this
      rw [← this]
      have h := post1.fv
      simpa using h
    · rw [muts2]
      simp only [Ctx.saveScope, Ctx.pushMut, List.dropLast_concat]
      exact pb.muts.trans (pm.muts.trans post1.muts)
    · rw [marks2]; exact pb.marks.trans (pm.marks.trans post1.marks)
    · exact ((post1.le.trans pm.le).trans pb.le).trans le2
    · obtain ⟨l1, hl1⟩ := post1.closures
      obtain ⟨l2, hl2⟩ := cl2
      exact ⟨l1 ++ l2, by rw [hl2]; show c1.closures ++ l2 = _; rw [hl1]; simp⟩
  have hold_m : c2.names.old m := (pb.le.trans le2).old (hmn ▸ nextMark_old c1)
  have hold_b : c2.names.old b := NameFactory.le.old le2 (by
    rw [← hbn]; exact nextBranchFailed_old c1.nextMark.2)
  refine ⟨P, postall, len2, ⟨?_, ?_⟩, ?_⟩
  · intro x hx
    simp only [Ex.fv, Stmt.fv, List.mem_append, List.mem_filter, List.nil_append] at hx
    rcases hx.1.1 with hx | hx
    · exact (pk2 first (by simp)).old x hx
    · exact choiceCode_fv m b rest _ hold_m hold_b (fun e he => (pk2 e (by simp [he])).old) x hx
  · intro j hj
    simp only [Ex.calls, List.mem_append] at hj
    rcases hj with hj | hj
    · exact (pk2 first (by simp)).calls j hj
    · exact choiceCode_calls m b rest _ (fun e he => (pk2 e (by simp [he])).calls) j hj
  · intro n K hK env st
    rw [evalEx_letMark]
    simp only [Res.bind_assoc]
    congr 1
    funext s
    rw [evalEx_stmt]
    simp only [exec, Res.bind_ok, Stmt.binds]
    rw [sem2 n K hK _ st s (Env.set_same _ _ _), restoreRes_bind]
    congr 1
    funext r
    rw [cont_frame ops fns n K k1 (X := [m])]
    · rw [sem1 n K]
      intro cl hcl'
      obtain ⟨l2, hl2⟩ := cl2
      exact hK cl (by rw [hl2]; exact List.mem_append_left _ hcl')
    · intro x hx
      simp only [List.mem_singleton] at hx
      subst hx
      exact fun hh => hmfresh (post1.le.old (old1 _ hh))
    · intro x hx; exact Env.set_other _ _ (by simpa using hx)

end
end Oak
