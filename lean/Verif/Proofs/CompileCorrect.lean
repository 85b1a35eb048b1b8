import Verif.Proofs.Correct
/-!
The generated code computes what the direct-style interpreter `run` computes: the main induction.
-/
set_option linter.constructorNameAsVariable false
set_option linter.unusedSimpArgs false
set_option autoImplicit false

namespace Oak

theorem except_bind_eq_ok {ε α β : Type} {x : Except ε α} {f : α → Except ε β} {b : β} (h : (x >>= f) = .ok b) :
    ∃ a, x = .ok a ∧ f a = .ok b := by
  cases x with
  | ok a => exact ⟨a, rfl, h⟩
  | error e => cases h

/-! ### The ghost record of calls -/

theorem PState.called_nil {S D : Type} (st : PState S D) {v : VEx} {w : Val} (h : v.calls w = []) : st.called v w = st := by
  simp [PState.called, h]
theorem PState.called_tup {S D : Type} (st : PState S D) (vs : List Name) (w : Val) : st.called (.tup vs) w = st := st.called_nil rfl
theorem PState.called_span {S D : Type} (st : PState S D) (m : Name) (w : Val) : st.called (.span m) w = st := st.called_nil rfl
theorem PState.called_range {S D : Type} (st : PState S D) (m : Name) (w : Val) : st.called (.range m) w = st := st.called_nil rfl

/-! ### Effects on the context -/

theorem nextFreeVar_post {c c1 : Ctx} {v : Name} (h : c.nextFreeVar = .ok (v, c1)) (hp : PreC c) :
    Post c c1 [v] ∧ c1.names = c.names := by
  unfold Ctx.nextFreeVar at h
  split at h
  · rename_i w hw
    cases h
    refine ⟨⟨?_, rfl, rfl, .refl _, ⟨[], by simp⟩, ⟨hp.closures.names, hp.closures.calls⟩⟩, rfl⟩
    simp only
    have := List.getLast?_eq_some_iff.1 hw
    obtain ⟨ys, hys⟩ := this
    simp [hys]
  · cases h

theorem nextFreeVars_post {n : Nat} {c c1 : Ctx} {vs : List Name} (h : c.nextFreeVars n = .ok (vs, c1)) (hp : PreC c) :
    Post c c1 vs ∧ vs.length = n := by
  induction n generalizing c vs with
  | zero => cases h; exact ⟨Post.refl hp.closures, rfl⟩
  | succ n ih =>
    simp only [Ctx.nextFreeVars] at h
    obtain ⟨⟨v, c2⟩, h1, h⟩ := except_bind_eq_ok h
    obtain ⟨⟨ws, c3⟩, h2, h⟩ := except_bind_eq_ok h
    cases h
    have p1 := (nextFreeVar_post h1 hp).1
    have p2 := ih h2 (hp.post p1)
    exact ⟨p1.trans p2.1, by simp [p2.2]⟩

theorem nextFreeVarSkip_eq {n : Nat} {c c1 : Ctx} {r : Name} (h : c.nextFreeVarSkip n = .ok (r, c1)) :
    ∃ A B, c.fv = A ++ r :: B ∧ B.length = n ∧ c1 = { c with fv := A ++ B } := by
  unfold Ctx.nextFreeVarSkip at h
  split at h
  · rename_i hl
    split at h
    · rename_i v hv
      cases h
      obtain ⟨hlt, hv⟩ := List.getElem?_eq_some_iff.1 hv
      refine ⟨c.fv.take (c.fv.length - 1 - n), c.fv.drop (c.fv.length - 1 - n + 1), ?_, ?_, ?_⟩
      · rw [← hv]; simp
      · simp; omega
      · simp [List.eraseIdx_eq_take_drop_succ]
    · cases h
  · cases h

theorem nextMark_post {c : Ctx} (hp : PreC c) : Post c c.nextMark.2 [] :=
  ⟨by simp [Ctx.nextMark], rfl, rfl, ⟨Nat.le_refl _, Nat.le_succ _, Nat.le_refl _, Nat.le_refl _, Nat.le_refl _⟩,
    ⟨[], by simp [Ctx.nextMark]⟩, ⟨hp.closures.names, hp.closures.calls⟩⟩

theorem nextMark_fresh (c : Ctx) : ¬ c.names.old c.nextMark.1 := by simp [Ctx.nextMark, NameFactory.old]
theorem nextMark_old (c : Ctx) : c.nextMark.2.names.old c.nextMark.1 := by simp [Ctx.nextMark, NameFactory.old]

theorem nextCounter_post {c : Ctx} (hp : PreC c) : Post c c.nextCounter.2 [] :=
  ⟨by simp [Ctx.nextCounter], rfl, rfl, ⟨Nat.le_refl _, Nat.le_refl _, Nat.le_refl _, Nat.le_succ _, Nat.le_refl _⟩,
    ⟨[], by simp [Ctx.nextCounter]⟩, ⟨hp.closures.names, hp.closures.calls⟩⟩

theorem nextCounter_fresh (c : Ctx) : ¬ c.names.old c.nextCounter.1 := by simp [Ctx.nextCounter, NameFactory.old]
theorem nextCounter_old (c : Ctx) : c.nextCounter.2.names.old c.nextCounter.1 := by simp [Ctx.nextCounter, NameFactory.old]

theorem nextBranchFailed_post {c : Ctx} (hp : PreC c) : Post c c.nextBranchFailed.2 [] :=
  ⟨by simp [Ctx.nextBranchFailed], rfl, rfl, ⟨Nat.le_refl _, Nat.le_refl _, Nat.le_succ _, Nat.le_refl _, Nat.le_refl _⟩,
    ⟨[], by simp [Ctx.nextBranchFailed]⟩, ⟨hp.closures.names, hp.closures.calls⟩⟩

theorem nextBranchFailed_fresh (c : Ctx) : ¬ c.names.old c.nextBranchFailed.1 := by
  simp [Ctx.nextBranchFailed, NameFactory.old]
theorem nextBranchFailed_old (c : Ctx) : c.nextBranchFailed.2.names.old c.nextBranchFailed.1 := by
  simp [Ctx.nextBranchFailed, NameFactory.old]

theorem PreC.incr {c : Ctx} (h : PreC c) : PreC c.incr :=
  ⟨h.nodup, h.fvOld, h.mutsOld, h.marksOld, ⟨h.closures.names, h.closures.calls⟩⟩

/-- Fresh variables. -/
def freshNames (c : Ctx) (n : Nat) : List Name := (List.range n).map (Name.var c.names.prefixUid)

theorem freshNames_nodup (c : Ctx) (n : Nat) : (freshNames c n).Nodup := by
  unfold freshNames
  simp only [List.Nodup, List.pairwise_map]
  exact List.nodup_range.imp (fun h => by simpa using h)

theorem freshNames_fresh {c : Ctx} {n : Nat} {x : Name} (h : x ∈ freshNames c n) : ¬ c.names.old x := by
  simp only [freshNames, List.mem_map] at h
  obtain ⟨i, _, rfl⟩ := h
  simp [NameFactory.old]

theorem openScope_fv (c : Ctx) (n : Nat) : (c.openScope n).2.fv = freshNames c n := rfl
theorem openScope_muts (c : Ctx) (n : Nat) : (c.openScope n).2.muts = [] := rfl
theorem openScope_marks (c : Ctx) (n : Nat) : (c.openScope n).2.marks = c.marks := rfl
theorem openScope_closures (c : Ctx) (n : Nat) : (c.openScope n).2.closures = c.closures := rfl
theorem openScope_le (c : Ctx) (n : Nat) : c.names.le (c.openScope n).2.names :=
  ⟨Nat.le_succ _, Nat.le_refl _, Nat.le_refl _, Nat.le_refl _, Nat.le_refl _⟩
theorem freshNames_old {c : Ctx} {n : Nat} {x : Name} (h : x ∈ freshNames c n) : (c.openScope n).2.names.old x := by
  simp only [freshNames, List.mem_map] at h
  obtain ⟨i, _, rfl⟩ := h
  simp [NameFactory.old, Ctx.openScope, Ctx.freshVars]

theorem openScope_preC {c : Ctx} (n : Nat) (h : PreC c) : PreC (c.openScope n).2 :=
  ⟨freshNames_nodup c n, fun _ hx => freshNames_old hx, fun x hx => by simp [openScope_muts] at hx,
    fun x hx => (openScope_le c n).old (h.marksOld x hx), ⟨h.closures.names, h.closures.calls⟩⟩

theorem closeScope_eq {c c' : Ctx} {s : Ctx.Scope} (h : c.closeScope s = .ok c') :
    c.fv = [] ∧ c' = c.restoreScope s := by
  unfold Ctx.closeScope at h
  split at h
  · rename_i hf; cases h; exact ⟨hf, rfl⟩
  · cases h

section
variable {σ : Type} (ops : StreamOps σ) (fns : FnRef → PState σ Val → Res (PState σ Val))

theorem KOk.post {ops : StreamOps σ} {fns : FnRef → PState σ Val → Res (PState σ Val)} {n : Nat}
    {K : Nat → Option (Denot σ)} {c c' : Ctx} {P : List Name} (h : KOk ops fns n K c'.closures) (p : Post c c' P) :
    KOk ops fns n K c.closures := fun cl hcl => h cl (p.mem hcl)

theorem evalEx_stmt (n : Nat) (K : Nat → Option (Denot σ)) (s : Stmt) (e : Ex) (env : Env σ) (st : PState σ Val) :
    evalEx ops fns n K (.stmt s e) env st =
      exec ops fns env st s >>= fun p => restoreRes env s.binds (evalEx ops fns n K e p.1 p.2) := rfl

theorem evalEx_letMark (n : Nat) (K : Nat → Option (Denot σ)) (m : Name) (e : Ex) (env : Env σ) (st : PState σ Val) :
    evalEx ops fns n K (.stmt (.letMark m) e) env st =
      st.mark >>= fun s => restoreRes env [m] (evalEx ops fns n K e (env.set m (some (.mark s))) st) := by
  rw [evalEx_stmt]; simp [exec, Stmt.binds]

theorem evalEx_bind (n : Nat) (K : Nat → Option (Denot σ)) (e k : Ex) (env : Env σ) (st : PState σ Val) :
    evalEx ops fns n K (.bind e k) env st = evalEx ops fns n K e env st >>= fun p => evalEx ops fns n K k p.1 p.2 := rfl

theorem evalEx_loop (n : Nat) (K : Nat → Option (Denot σ)) (e : Ex) (c : Option Name) (m : Name) (k : Ex) (env : Env σ)
    (st : PState σ Val) : evalEx ops fns n K (.loop e c m k) env st =
      iterate (evalEx ops fns n K e) c m n env st >>= fun p => evalEx ops fns n K k p.1 p.2 := rfl

theorem evalEx_ite (n : Nat) (K : Nat → Option (Denot σ)) (c : Cond) (a b : Ex) (env : Env σ) (st : PState σ Val) :
    evalEx ops fns n K (.ite c a b) env st = evalCond env st c >>= fun r =>
      if r then evalEx ops fns n K a env st else evalEx ops fns n K b env st := rfl

theorem evalEx_ifPrefix (n : Nat) (K : Nat → Option (Denot σ)) (l : String) (a b : Ex) (env : Env σ) (st : PState σ Val) :
    evalEx ops fns n K (.ifPrefix l a b) env st = st.consumePrefix ops l >>= fun r =>
      if r.1 then evalEx ops fns n K a env r.2 else evalEx ops fns n K b env r.2 := rfl

theorem evalEx_matchNone (n : Nat) (K : Nat → Option (Denot σ)) (a b : Ex) (env : Env σ) (st : PState σ Val) :
    evalEx ops fns n K (.matchNext none a b) env st = st.next ops >>= fun r =>
      match r.1 with
      | some _ => evalEx ops fns n K a env r.2
      | none => evalEx ops fns n K b env r.2 := by
  simp only [evalEx]; rfl

theorem evalEx_matchSome (n : Nat) (K : Nat → Option (Denot σ)) (x : Name) (a b : Ex) (env : Env σ) (st : PState σ Val) :
    evalEx ops fns n K (.matchNext (some x) a b) env st = st.next ops >>= fun r =>
      match r.1 with
      | some c => restoreRes env [x] (evalEx ops fns n K a (env.set x (some (.val (.chr c)))) r.2)
      | none => evalEx ops fns n K b env r.2 := by
  simp only [evalEx]; rfl

theorem evalEx_matchClass (n : Nat) (K : Nat → Option (Denot σ)) (x : Name) (cond : CharCond) (a b : Ex) (env : Env σ)
    (st : PState σ Val) : evalEx ops fns n K (.matchClass x cond a b) env st = st.next ops >>= fun r =>
      match r.1 with
      | some c => if cond.eval c then restoreRes env [x] (evalEx ops fns n K a (env.set x (some (.val (.chr c)))) r.2)
        else evalEx ops fns n K b env r.2
      | none => evalEx ops fns n K b env r.2 := by
  simp only [evalEx]; rfl

/-- What is proved of every expression. -/
def Good (T : Nat → Ty) (R : String → Nat) (e : Expr) : Prop :=
  ∀ (p : Bool) (k code : Ex) (c c' : Ctx), compile T p e k .failure c = .ok (code, c') → coherent T R p e = true →
    PreC c → PreK c k →
    ∃ P, Post c c' P ∧ P.length = arity T p e ∧ PreK c' code ∧
      ∀ n K, KOk ops fns n K c'.closures → ∀ env st,
        evalEx ops fns n K code env st = run ops fns T n p e st >>= cont (evalEx ops fns n K k) P env

theorem errorFail (n : Nat) (K : Nat → Option (Denot σ)) (s : String) (env : Env σ) (st : PState σ Val) :
    evalEx ops fns n K (.stmt (.error s) .failure) env st =
      (st.error ops s : Res (PState σ Val)) >>= fun st => .ok (env, st.failure) := by
  rw [evalEx_stmt]
  simp only [exec, Res.bind_assoc, Res.bind_ok, Stmt.binds, restoreRes_nil, evalEx]

theorem good_str (T : Nat → Ty) (R : String → Nat) (i : Nat) (l : String) : Good ops fns T R (.str i l) := by
  intro p k code c c' h hc hp hk
  simp only [compile] at h
  cases h
  refine ⟨[], Post.refl hp.closures, rfl, ⟨?_, ?_⟩, ?_⟩
  · simpa [Ex.fv, Stmt.fv] using hk.old
  · simpa [Ex.calls] using hk.calls
  · intro n K hK env st
    rw [evalEx_ifPrefix]
    simp only [run, Res.bind_assoc]
    congr 1
    funext ⟨r, st1⟩
    cases r
    · simp [errorFail]
    · simp [restoreRes_nil, Env.setMany]

theorem good_any (T : Nat → Ty) (R : String → Nat) (i : Nat) : Good ops fns T R (.any i) := by
  intro p k code c c' h hc hp hk
  simp only [compile] at h
  split at h
  · rename_i hq
    obtain ⟨⟨v, c1⟩, h1, h⟩ := except_bind_eq_ok h
    cases h
    have p1 := (nextFreeVar_post h1 hp)
    refine ⟨[v], p1.1, by simp only [arity, hq, if_true]; rfl, ⟨?_, ?_⟩, ?_⟩
    · intro x hx
      simp only [Ex.fv, Stmt.fv, List.mem_append, List.mem_filter, List.not_mem_nil, or_false, false_and] at hx
      exact p1.1.le.old (hk.old x hx.1)
    · intro j hj
      simp only [Ex.calls, List.append_nil] at hj
      exact Nat.le_trans (hk.calls j hj) p1.1.le.k
    · intro n K hK env st
      rw [evalEx_matchSome]
      simp only [run, Res.bind_assoc, hq, if_true]
      congr 1
      funext ⟨r, st1⟩
      cases r
      · simp [errorFail]
      · simp [restoreRes, Env.setMany, wrap]
  · rename_i hq
    replace hq := Bool.eq_false_iff.2 hq
    cases h
    refine ⟨[], Post.refl hp.closures, by simp only [arity, hq]; rfl, ⟨?_, ?_⟩, ?_⟩
    · intro x hx
      simp only [Ex.fv, Stmt.fv, List.mem_append, List.mem_filter, List.not_mem_nil, or_false, false_and] at hx
      exact (hk.old x hx.1)
    · simpa [Ex.calls] using hk.calls
    · intro n K hK env st
      rw [evalEx_matchNone]
      simp only [run, Res.bind_assoc, hq, Bool.false_eq_true, if_false]
      congr 1
      funext ⟨r, st1⟩
      cases r
      · simp [errorFail]
      · simp [restoreRes_nil, Env.setMany, wrap]

theorem compileCondition_eval {ivs : List Interval} {cond : CharCond} (h : compileCondition ivs = .ok cond) (ch : Char) :
    cond.eval ch = ivs.any fun iv => decide (iv.lo ≤ ch ∧ ch ≤ iv.hi) := by
  have hi : ∀ iv : Interval, (compileInterval iv).eval ch = decide (iv.lo ≤ ch ∧ ch ≤ iv.hi) := by
    intro iv
    unfold compileInterval
    split
    · rename_i he
      simp only [CharCond.eval, he]
      rw [Bool.eq_iff_iff]
      simp only [beq_iff_eq, decide_eq_true_eq]
      constructor
      · rintro rfl; exact ⟨Char.le_refl _, Char.le_refl _⟩
      · rintro ⟨a, b⟩; exact Char.le_antisymm b a
    · simp [CharCond.eval]
  cases ivs with
  | nil => cases h
  | cons iv ivs =>
    cases h
    have : ∀ (ivs : List Interval) (a : CharCond), (ivs.foldl (fun accu i => .or accu (compileInterval i)) a).eval ch =
        (a.eval ch || ivs.any fun iv => decide (iv.lo ≤ ch ∧ ch ≤ iv.hi)) := by
      intro ivs
      induction ivs with
      | nil => simp
      | cons j ivs ih => intro a; simp only [List.foldl_cons, ih, List.any_cons, CharCond.eval, hi, Bool.or_assoc]
    rw [this, hi, List.any_cons]

theorem good_cls (T : Nat → Ty) (R : String → Nat) (i : Nat) (ivs : List Interval) : Good ops fns T R (.cls i ivs) := by
  intro p k code c c' h hc hp hk
  simp only [compile] at h
  -- common part: `v` is the pattern variable, `P` the consumed variables, `c1` the context after consuming them
  have main : ∀ (v : Name) (c1 : Ctx) (P : List Name) (cond : CharCond), Post c c1 P →
      compileCondition ivs = .ok cond →
      code = .stmt (.letMark c1.nextMark.1) (.matchClass v cond k (.stmt (.restore c1.nextMark.1) (.stmt (.error (classDesc ivs)) .failure))) →
      c' = c1.nextMark.2 →
      ((P = [v] ∧ (p && decide (T i ≠ .unit)) = true) ∨ (P = [] ∧ v = .x ∧ (p && decide (T i ≠ .unit)) = false)) →
      ∃ P, Post c c' P ∧ P.length = arity T p (.cls i ivs) ∧ PreK c' code ∧
      ∀ n K, KOk ops fns n K c'.closures → ∀ env st,
        evalEx ops fns n K code env st = run ops fns T n p (.cls i ivs) st >>= cont (evalEx ops fns n K k) P env := by
    intro v c1 P cond p1 hcond hcode hc' hP
    subst hcode hc'
    have pm := nextMark_post (hp.post p1)
    have post := p1.trans pm
    refine ⟨P, by simpa using post, ?_, ⟨?_, ?_⟩, ?_⟩
    · rcases hP with ⟨rfl, hq⟩ | ⟨rfl, _, hq⟩ <;> simp [arity, hq]
      · simpa using hq
      · simpa using hq
    · intro x hx
      simp only [Ex.fv, Stmt.fv, Stmt.binds, List.mem_append, List.mem_filter, List.not_mem_nil, or_false, false_and,
        List.nil_append, List.mem_cons, decide_eq_true_eq, List.filter_nil] at hx
      rcases hx with ⟨hx | hx, hne⟩
      · exact post.le.old (hk.old x hx.1)
      · exact absurd hx hne
    · intro j hj
      simp only [Ex.calls, List.append_nil] at hj
      exact Nat.le_trans (hk.calls j hj) post.le.k
    · intro n K hK env st
      have hmfresh : c1.nextMark.1 ∉ k.fv := fun hx => nextMark_fresh c1 (p1.le.old (hk.old _ hx))
      rw [evalEx_letMark]
      simp only [run, Res.bind_assoc]
      congr 1
      funext m
      rw [evalEx_matchClass, restoreRes_bind]
      congr 1
      funext ⟨r, st1⟩
      have hfail : restoreRes env [c1.nextMark.1] (evalEx ops fns n K (.stmt (.restore c1.nextMark.1)
            (.stmt (.error (classDesc ivs)) .failure)) (env.set c1.nextMark.1 (some (.mark m))) st1) =
          ((st1.restore m : Res (PState σ Val)) >>= fun st => (st.error ops (classDesc ivs) : Res (PState σ Val)) >>=
            fun st => cont (evalEx ops fns n K k) P env (none, st.failure)) := by
        rw [evalEx_stmt]
        simp only [exec, Env.getMark, Env.set_same, Res.bind_ok, Res.bind_assoc, restoreRes_bind, Stmt.binds, restoreRes_nil]
        congr 1
        funext st2
        rw [errorFail, restoreRes_bind]
        congr 1
        funext st3
        simp only [restoreRes_ok, cont_none]
        rw [restore_of_agree]
        intro x hx
        exact Env.set_other _ _ (by simpa using hx)
      cases r with
      | none =>
        simp only [hfail, Option.filter]
        simp
      | some ch =>
        simp only [compileCondition_eval hcond, Option.filter]
        by_cases hin : (ivs.any fun iv => decide (iv.lo ≤ ch ∧ ch ≤ iv.hi)) = true
        · simp only [hin, if_true, Res.bind_ok, cont_some]
          rw [restoreRes_comp (fun x hx => Env.set_other _ _ (by simpa using hx))]
          rcases hP with ⟨rfl, hq⟩ | ⟨rfl, rfl, hq⟩
          · simp only [hq, if_true]
            refine restore_frame ops fns n K k (X := [c1.nextMark.1]) ?_ ?_ (setMany_off env _ _) ?_ st1
            · intro x hx; simp only [List.mem_singleton] at hx; subst hx; exact hmfresh
            · intro x hx
              simp only [List.mem_singleton] at hx
              simp [wrap, Env.setMany, Env.set_apply, hx]
            · intro x; simp [Or.comm]
          · simp only [hq]
            refine restore_frame ops fns n K k (X := [c1.nextMark.1, .x]) ?_ ?_ (setMany_off env _ _) ?_ st1
            · intro x hx; simp only [List.mem_cons, List.not_mem_nil, or_false] at hx
              rcases hx with rfl | rfl
              · exact hmfresh
              · intro hh; exact hk.old _ hh
            · intro x hx
              simp only [List.mem_cons, List.not_mem_nil, or_false, not_or] at hx
              simp [wrap, Env.setMany, Env.set_apply, hx.1, hx.2]
            · intro x; simp
        · simp only [hin]
          simp only [Bool.false_eq_true, if_false, hfail, Res.bind_assoc, Res.bind_ok]
  split at h
  · rename_i hq
    obtain ⟨⟨v, c1⟩, h1, h⟩ := except_bind_eq_ok h
    obtain ⟨cond, hcond, h⟩ := except_bind_eq_ok h
    cases h
    exact main v c1 [v] cond (nextFreeVar_post h1 hp).1 hcond rfl rfl (.inl ⟨rfl, hq⟩)
  · rename_i hq
    obtain ⟨⟨v, c1⟩, h1, h⟩ := except_bind_eq_ok h
    obtain ⟨cond, hcond, h⟩ := except_bind_eq_ok h
    cases h1
    cases h
    exact main .x c [] cond (Post.refl hp.closures) hcond rfl rfl (.inr ⟨rfl, rfl, by simpa using hq⟩)

end
end Oak
