import Verif.Proofs.RustScopes
/-! The generated code is well typed: the main induction. -/
set_option autoImplicit false
set_option linter.constructorNameAsVariable false

namespace Oak

section
variable {sg : Sigs} {T : Nat → Ty}

/-- From well typed closures and continuation to well typed closures and code. -/
structure Keeps (sg : Sigs) (a : Asg) (cs cs' : List Closure) (code : Ex) (R : RTy) : Prop where
  clo : CloTyped sg a cs'
  code : CodeOk sg a cs' code R
  sub : ∀ c ∈ cs, c ∈ cs'

/-- What is proved of every expression. -/
def TypesOf (sg : Sigs) (T : Nat → Ty) (e : Expr) : Prop :=
  ∀ p S c code c' ts R, compile T p e S .failure c = .ok (code, c') → Gives sg T p e ts →
    Extends c c' fun a => Asgd sg T a p e c.names.prefixUid ∧
      (FvTyped a c.fv ts → CloTyped sg a c.closures → CodeOk sg a c.closures S R → Keeps sg a c.closures c'.closures code R)

theorem Keeps.refl {a : Asg} {cs : List Closure} {S : Ex} {R : RTy} (h : CloTyped sg a cs) (h' : CodeOk sg a cs S R) : Keeps sg a cs cs S R := ⟨h, h', fun _ h => h⟩

theorem FvTyped.last {a : Asg} {fv A P : List Name} {ts : List RTy} (h : FvTyped a fv ts) (he : fv = A ++ P) (hl : P.length = ts.length) :
    P.map a.ty = ts.map .val := by
  obtain ⟨B, Q, h1, h2⟩ := h
  have hq : Q.length = ts.length := by simpa using congrArg List.length h2
  have hl' := congrArg List.length (he.symm.trans h1)
  simp only [List.length_append] at hl'
  obtain ⟨_, rfl⟩ := List.append_inj (he.symm.trans h1) (by omega)
  exact h2

theorem failure_ok {a : Asg} {cs : List Closure} {R : RTy} {t : RTy} : ExOk sg (fun x t => a.ty x = t) (a.closures cs) a.env (.state t) .failure R := .failure

/-- `state.error(s); state.failure()`. -/
theorem error_ok {a : Asg} {cs : List Closure} {R : RTy} {s : String} {t : RTy} : ExOk sg (fun x t => a.ty x = t) (a.closures cs) a.env (.state t) (.stmt (.error s) .failure) R :=
  .stmt .error .failure

theorem set_ok {a : Asg} {K : Nat → Option ClosureSig} {R : RTy} {e : Ex} {D : SVar} {x : Name} {t : VTy} (h : a.ty x = t) (he : ExOk sg (fun x t => a.ty x = t) K a.env D e R) :
    ExOk sg (fun x t => a.ty x = t) K (a.env.set x t) D e R := by rw [a.set_env h]; exact he

theorem letMark_ok {a : Asg} {K : Nat → Option ClosureSig} {R : RTy} {e : Ex} {t : RTy} {c : Ctx} (h : ExOk sg (fun x t => a.ty x = t) K a.env (.state t) e R) :
    ExOk sg (fun x t => a.ty x = t) K a.env (.state t) (.stmt (.letMark c.nextMark.1) e) R := by
  refine .stmt (.letMark (Γ := a.env) rfl) ?_
  refine set_ok rfl ?_; exact h

theorem call_types {p : Bool} {i : Nat} {path : Path} {S code : Ex} {c c' : Ctx} {ts : List RTy} {R : RTy}
    (h : compileCall T p i path S .failure c = .ok (code, c'))
    (hg : if p && T i ≠ .unit then sg.parser path (.pack ts) ∧ ts.length = (T i).card else ts = []) :
    Extends c c' fun a => FvTyped a c.fv ts → CloTyped sg a c.closures → CodeOk sg a c.closures S R → Keeps sg a c.closures c'.closures code R := by
  unfold compileCall at h
  split at h
  · rename_i hp
    rw [if_pos hp] at hg
    obtain ⟨⟨vs, c1⟩, h1, h⟩ := except_bind_eq_ok h
    cases h
    obtain ⟨e1, e2, e3⟩ := nextFreeVars_eq h1
    refine .refl (by rw [e2]) (by rw [e2]) fun a hf hc hS => ?_
    have ht := hf.last e1 (by omega)
    rw [e2]
    refine ⟨hc, ?_, fun _ h => h⟩
    refine .stmt (.parse hg.1) (.ite .isSuccessful (.stmt (.extract (ht ▸ a.okAll vs) (by omega)) ?_) (.stmt .fail .failure))
    rw [a.setMany_env ht]
    exact hS
  · rename_i hp
    rw [if_neg hp] at hg
    cases h
    refine .refl rfl rfl fun a hf hc hS => ⟨hc, ?_, fun _ h => h⟩
    exact .stmt .recognize (.ite .isSuccessful (.stmt .discard hS) .failure)

theorem repeatCode_types {plus : Bool} {body S : Ex} {c : Ctx} {a : Asg} {K : Nat → Option ClosureSig} {R : RTy}
    (hb : ExOk sg (fun x t => a.ty x = t) K a.env (.state .unit) body .unit) (hS : ExOk sg (fun x t => a.ty x = t) K a.env (.state .unit) S R) :
    ExOk sg (fun x t => a.ty x = t) K a.env (.state .unit) (repeatCode plus body S .failure c).1 R := by
  cases plus
  · simp only [repeatCode, Bool.false_eq_true, if_false]
    exact letMark_ok (.loop hb (by simp) rfl (.stmt (.restoreFailed rfl) hS))
  · simp only [repeatCode, if_true]
    refine letMark_ok (.stmt (.letZero rfl) ?_)
    refine set_ok rfl ?_
    exact .loop hb (by rintro x hx; cases hx; rfl) rfl (.ite (.lt rfl) .failure (.stmt (.restoreFailed rfl) hS))

theorem repeatCode_names (plus : Bool) (body S F : Ex) (c : Ctx) : (repeatCode plus body S F c).2.names.prefixUid = c.names.prefixUid ∧
    (repeatCode plus body S F c).2.names.closureUid = c.names.closureUid ∧ (repeatCode plus body S F c).2.closures = c.closures := by
  cases plus <;> exact ⟨rfl, rfl, rfl⟩

theorem optionalCode_types {body S : Ex} {c : Ctx} {a : Asg} {K : Nat → Option ClosureSig} {R : RTy}
    (hb : ExOk sg (fun x t => a.ty x = t) K a.env (.state .unit) body .unit) (hS : ExOk sg (fun x t => a.ty x = t) K a.env (.state .unit) S R) :
    ExOk sg (fun x t => a.ty x = t) K a.env (.state .unit) (optionalCode body S c).1 R := by
  simp only [optionalCode]
  exact letMark_ok (.bind hb (.stmt (.ifFailedRestore rfl) hS))

/-- The variables of a new scope. -/
theorem openScope_types (c : Ctx) {us : List RTy} {n : Nat} (hn : us.length = n) :
    Extends c (c.openScope n).2 fun a => (c.openScope n).2.fv.map a.ty = us.map .val := by
  refine ⟨by simp [Ctx.openScope, Ctx.freshVars], by simp [Ctx.openScope, Ctx.freshVars],
    ⟨fun _ i => (us[i]?).getD .unit, fun _ => (([], [], []), .unit)⟩, fun a ha => ?_⟩
  have h := ha.1 c.names.prefixUid (Nat.le_refl _) (by simp [Ctx.openScope, Ctx.freshVars])
  apply List.ext_getElem
  · simp [Ctx.openScope, Ctx.freshVars, hn]
  · intro i h1 h2
    have hi : i < us.length := by simpa using h2
    simp [Ctx.openScope, Ctx.freshVars, Asg.ty, h, hi]

theorem recognizer_types {e : Expr} (ih : TypesOf sg T e) {body : Ex} {c c' : Ctx} (h : compile T false e .st .failure c = .ok (body, c')) :
    Extends c c' fun a => Asgd sg T a false e c.names.prefixUid ∧ (CloTyped sg a c.closures → Keeps sg a c.closures c'.closures body .unit) :=
  (ih false .st c body c' [] .unit h (gives_false e)).mono fun a ha => ⟨ha.1, fun hc => ha.2 ⟨c.fv, [], by simp, rfl⟩ hc .st⟩

theorem valueConstructor_types {e : Expr} (ih : TypesOf sg T e) {vec : Bool} {c c' : Ctx} {body : Ex} {r : Name} {us : List RTy}
    (h : valueConstructor (compile T true e) (T e.id).card vec c = .ok (body, r, c')) (hg : Gives sg T true e us) (hn : us.length = (T e.id).card) :
    Extends c c' fun a => (ScopeTyped sg T a e c.names.prefixUid ∧ Asgd sg T a true e (c.names.prefixUid + 1)) ∧
      (FvTyped a c.fv [if vec then .vec (.pack us) else .option (.pack us)] → CloTyped sg a c.closures →
        a.ty r = .val (if vec then .vec (.pack us) else .option (.pack us)) ∧ Keeps sg a c.closures c'.closures body .unit) := by
  unfold valueConstructor at h
  obtain ⟨⟨r1, c1⟩, h1, h⟩ := except_bind_eq_ok h
  obtain ⟨⟨body1, c2⟩, h2, h⟩ := except_bind_eq_ok h
  obtain ⟨c3, h3, h⟩ := except_bind_eq_ok h
  cases h
  obtain ⟨e1, e2⟩ := nextFreeVar_eq h1
  obtain ⟨e3, e4⟩ := closeScope_eq h3
  subst e4
  have hopen := openScope_types c1 hn
  have hbody := ih true _ _ _ _ us .unit h2 hg
  have := hopen.trans (hbody.congr rfl rfl rfl rfl)
  refine (this.congr (by rw [e2]) (by rw [e2]) rfl rfl).mono ?_
  rintro a ⟨ho, hb0, hb⟩
  have hn1 : c1.names = c.names := by rw [e2]
  refine ⟨⟨⟨us, hg, hn, ?_⟩, ?_⟩, fun hf hc => ?_⟩
  · rw [← hn1]; exact ho
  · rw [← hn1]; exact hb0
  have hr : a.ty r = .val (if vec then .vec (.pack us) else .option (.pack us)) := by
    have := hf.last e1 (by simp)
    simpa using this
  have hcl : c1.closures = c.closures := by rw [e2]
  refine ⟨hr, ?_⟩
  have key := hb ⟨[], _, rfl, ho⟩ (by show CloTyped sg a c1.closures; rw [hcl]; exact hc) (by
    show ExOk sg _ _ a.env _ _ _
    have hv : ValOk sg a.env (.tup (c1.openScope (T e.id).card).2.fv) (.pack us) := by
      refine .tup ?_
      rw [← ho]; exact a.has _
    cases vec
    · exact .stmt (.setSome (by rw [Asg.env, hr]; rfl) hv) .st
    · exact .stmt (.push (.inl (by rw [Asg.env, hr]; rfl)) hv) .st)
  refine ⟨key.clo, key.code, fun x hx => key.sub x ?_⟩
  show x ∈ c1.closures
  rw [hcl]; exact hx

theorem successAsClosure_types (c : Ctx) (S : Ex) (R : RTy) :
    Extends c (c.successAsClosure S).2 fun a => CloTyped sg a c.closures → CodeOk sg a c.closures S R →
      Keeps sg a c.closures (c.successAsClosure S).2.closures (c.successAsClosure S).1 R := by
  unfold Ctx.successAsClosure
  by_cases hn : c.ncomb > 0
  · simp only [hn, if_true]
    refine ⟨Nat.le_refl _, Nat.le_succ _, ⟨fun _ _ => .unit, fun _ => ((c.muts, c.fv, c.marks), R)⟩, fun a ha hc hS => ?_⟩
    have hk := ha.2 (c.names.closureUid + 1) (by simp) (by simp)
    dsimp only at hk
    refine ⟨?_, ?_, fun x hx => by simp [hx]⟩
    · intro pre cl post he
      rcases List.append_eq_append_iff.1 he with ⟨X, h1, h2⟩ | ⟨X, h1, h2⟩
      · cases X with
        | nil =>
          simp only [List.nil_append, List.cons.injEq] at h2
          obtain ⟨rfl, _⟩ := h2
          rw [List.append_nil] at h1
          subst h1
          simp only [hk, true_and]
          exact hS
        | cons x X => simp at h2
      · cases X with
        | nil =>
          simp only [List.nil_append, List.cons.injEq] at h2
          obtain ⟨rfl, _⟩ := h2
          rw [List.append_nil] at h1
          subst h1
          simp only [hk, true_and]
          exact hS
        | cons x X =>
          simp only [List.cons_append, List.cons.injEq] at h2
          obtain ⟨rfl, _⟩ := h2
          exact hc pre cl X h1
    · have hs : a.sig (c.names.closureUid + 1) = ⟨c.muts.map a.ty, c.fv.map a.ty, c.marks.map a.ty, R⟩ := by rw [Asg.sig, hk]
      have hret : R = (a.sig (c.names.closureUid + 1)).ret := by rw [hs]
      show ExOk sg _ _ a.env _ _ R
      rw [hret]
      refine .call (sig := a.sig (c.names.closureUid + 1)) ?_ ?_ (fun m _ t h => a.ty_not_ref m t (Option.some.inj h)) ?_ ?_
      · unfold Asg.closures; simp
      · rw [hs]; exact a.has _
      · rw [hs]; exact a.has _
      · rw [hs]; exact a.has _
  · simp only [hn, if_false]
    exact .refl rfl rfl fun a hc hS => .refl hc hS

theorem seq_types {es : List Expr} (ih : ∀ e ∈ es, TypesOf sg T e) {p : Bool} {S code : Ex} {c c' : Ctx} {ts : List RTy} {R : RTy}
    (h : compileSeq T p es S .failure c = .ok (code, c')) (hg : GivesSeq sg T p es ts) :
    Extends c c' fun a => AsgdSeq sg T a p es c.names.prefixUid ∧
      (FvTyped a c.fv ts → CloTyped sg a c.closures → CodeOk sg a c.closures S R → Keeps sg a c.closures c'.closures code R) := by
  induction es generalizing code c' ts with
  | nil => simp only [compileSeq] at h; cases h; exact .refl rfl rfl fun a => ⟨trivial, fun _ hc hS => .refl hc hS⟩
  | cons e es ihe =>
    rw [compileSeq] at h
    obtain ⟨⟨S1, c1⟩, h1, h⟩ := except_bind_eq_ok h
    obtain ⟨⟨code2, c2⟩, h2, h⟩ := except_bind_eq_ok h
    cases h
    rw [GivesSeq] at hg
    obtain ⟨us, vs, g1, g2, rfl⟩ := hg
    rw [List.forall_mem_cons] at ih
    have k1 := ihe ih.2 h1 g2
    have k2 := ih.1 p S1 c1 code c2 us R h2 g1
    have hsz : ∀ (es : List Expr) (vs : List RTy), GivesSeq sg T p es vs → (∀ e ∈ es, sized T p e = true) ∧ aritySeq T p es = vs.length := by
      intro es
      induction es with
      | nil => intro vs h; rw [GivesSeq] at h; subst h; simp [aritySeq]
      | cons e es ih =>
        intro vs h
        rw [GivesSeq] at h
        obtain ⟨us, ws, h1, h2, rfl⟩ := h
        obtain ⟨a1, a2⟩ := gives_sized e _ _ h1
        obtain ⟨b1, b2⟩ := ih _ h2
        exact ⟨List.forall_mem_cons.2 ⟨a1, b1⟩, by simp [aritySeq, a2, b2]⟩
    have m1 := seq_moves (fun e he => compile_moves T e p ((hsz es vs g2).1 e he)) h1
    refine ((k1.trans k2).congr rfl rfl rfl rfl).mono ?_
    rintro a ⟨⟨w1, q1⟩, w2, q2⟩
    refine ⟨⟨w1, by rw [← seq_prefix (fun e _ => compile_prefix e) h1]; exact w2⟩, fun hf hc hS => ?_⟩
    obtain ⟨P, p1, p2⟩ := m1.fv
    rw [(hsz es vs g2).2] at p2
    obtain ⟨A, Q, f1, f2⟩ := hf
    -- the last variables are those of the tail
    obtain ⟨Q1, Q2, rfl, q3, q4⟩ : ∃ Q1 Q2, Q = Q1 ++ Q2 ∧ Q1.map a.ty = us.map .val ∧ Q2.map a.ty = vs.map .val := by
      rw [List.map_append] at f2
      exact List.map_eq_append_iff.1 f2
    have hl2 : Q2.length = vs.length := by simpa using congrArg List.length q4
    have happ : c.fv = (A ++ Q1) ++ Q2 := by rw [f1, List.append_assoc]
    have hl := congrArg List.length (p1.symm.trans happ)
    simp only [List.length_append] at hl
    obtain ⟨r1, r2⟩ := List.append_inj (p1.symm.trans happ) (by simp only [List.length_append]; omega)
    have s1 := q1 ⟨A ++ Q1, Q2, happ, q4⟩ hc hS
    have s2 := q2 ⟨A, Q1, r1, q3⟩ s1.clo s1.code
    exact ⟨s2.clo, s2.code, fun x hx => s2.sub x (s1.sub x hx)⟩

theorem choiceCode_types {a : Asg} {K : Nat → Option ClosureSig} {R : RTy} {m b : Name} (hm : a.ty m = .stream) (hb : a.ty b = .bool) {codes : List Ex}
    (h : ∀ c ∈ codes, ExOk sg (fun x t => a.ty x = t) K a.env (.state .unit) c R) : ExOk sg (fun x t => a.ty x = t) K a.env (.state R) (choiceCode m b codes) R := by
  induction codes with
  | nil => exact .st
  | cons c codes ih =>
    rw [List.forall_mem_cons] at h
    rw [choiceCode]
    exact .ite (.var (by rw [Asg.env, hb])) (.stmt (.restoreFailed (by rw [Asg.env, hm])) (.bind h.1 (ih h.2))) .st

theorem branches_types {es : List Expr} (ih : ∀ e ∈ es, TypesOf sg T e) {p : Bool} {S : Ex} {codes : List Ex} {c c' : Ctx} {ts : List RTy} {R : RTy} {n : Nat}
    {scope : Ctx.Scope} (h : compileBranches T p es (.branchFailed n) S .failure scope c = .ok (codes, c')) (hg : ∀ e ∈ es, Gives sg T p e ts) :
    Extends c c' fun a => AsgdAlts sg T a p es c.names.prefixUid ∧ (FvTyped a scope.fv ts → CloTyped sg a c.closures → CodeOk sg a c.closures S R →
      CloTyped sg a c'.closures ∧ (∀ code ∈ codes, CodeOk sg a c'.closures code R) ∧ ∀ x ∈ c.closures, x ∈ c'.closures) := by
  induction es generalizing c codes with
  | nil => simp [compileBranches] at h
  | cons e es ihe =>
    rw [compileBranches] at h
    rw [List.forall_mem_cons] at hg ih
    split at h
    · rename_i hem
      obtain ⟨c1, h1, h⟩ := except_bind_eq_ok h
      obtain ⟨⟨code, c2⟩, h2, h⟩ := except_bind_eq_ok h
      cases h
      have := popMut_eq h1
      subst this
      have k := ih.1 p S _ _ _ ts R h2 hg.1
      refine (k.congr rfl rfl rfl rfl).mono ?_
      rintro a ⟨w, ha⟩
      have : es = [] := by simpa using hem
      subst this
      refine ⟨⟨w, trivial⟩, fun hf hc hS => ?_⟩
      have s := ha hf hc hS
      exact ⟨s.clo, by simpa using s.code, s.sub⟩
    · obtain ⟨⟨code, c1⟩, h1, h⟩ := except_bind_eq_ok h
      obtain ⟨⟨codes', c2⟩, h2, h⟩ := except_bind_eq_ok h
      cases h
      have k := ih.1 p _ _ _ _ ts R h1 hg.1
      have k' := ihe ih.2 h2 hg.2
      refine ((k.trans (k'.congr rfl rfl rfl rfl)).congr rfl rfl rfl rfl).mono ?_
      rintro a ⟨⟨w1, q1⟩, w2, q2⟩
      refine ⟨⟨w1, ?_⟩, fun hf hc hS => ?_⟩
      · have := compile_prefix _ _ _ _ _ _ _ h1
        simp only [Ctx.restoreScope] at this
        rw [← this]; exact w2
      have s1 := q1 hf hc (.stmt (.setFalse rfl) hS)
      have s2 := q2 hf s1.clo (CodeOk.mono hS s1.sub)
      refine ⟨s2.1, List.forall_mem_cons.2 ⟨CodeOk.mono s1.code s2.2.2, s2.2.1⟩, fun x hx => s2.2.2 x (s1.sub x hx)⟩

theorem rep_types {e : Expr} (ih : TypesOf sg T e) (plus : Bool) {S : Ex} {c : Ctx} {ts : List RTy} {R : RTy} :
    (∀ {body r c1 us}, valueConstructor (compile T true e) (T e.id).card true c = .ok (body, r, c1) → Gives sg T true e us → us.length = (T e.id).card →
      ts = [.vec (.pack us)] →
      Extends c (repeatCode plus body S .failure c1).2 fun a => (ScopeTyped sg T a e c.names.prefixUid ∧ Asgd sg T a true e (c.names.prefixUid + 1)) ∧
        (FvTyped a c.fv ts → CloTyped sg a c.closures → CodeOk sg a c.closures S R →
          Keeps sg a c.closures (repeatCode plus body S .failure c1).2.closures (.stmt (.letVec r) (repeatCode plus body S .failure c1).1) R)) ∧
    (∀ {body c1}, compile T false e .st .failure c = .ok (body, c1) →
      Extends c (repeatCode plus body S .failure c1.incr).2 fun a => Asgd sg T a false e c.names.prefixUid ∧ (CloTyped sg a c.closures → CodeOk sg a c.closures S R →
        Keeps sg a c.closures (repeatCode plus body S .failure c1.incr).2.closures (repeatCode plus body S .failure c1.incr).1 R)) := by
  constructor
  · intro body r c1 us h1 g1 g2 g3
    obtain ⟨n1, n2, n3⟩ := repeatCode_names plus body S .failure c1
    refine ((valueConstructor_types ih h1 g1 g2).congr rfl rfl n1 n2).mono ?_
    rintro a ⟨w, ha⟩
    refine ⟨w, fun hf hc hS => ?_⟩
    obtain ⟨k1, k2⟩ := ha (by rw [g3] at hf; exact hf) hc
    rw [n3]
    refine ⟨k2.clo, .stmt (.letVec (u := .pack us) k1) ?_, k2.sub⟩
    refine set_ok k1 ?_
    exact repeatCode_types k2.code (CodeOk.mono hS k2.sub)
  · intro body c1 h1
    obtain ⟨n1, n2, n3⟩ := repeatCode_names plus body S .failure c1.incr
    refine ((recognizer_types ih h1).congr rfl rfl n1 n2).mono ?_
    rintro a ⟨w, ha⟩
    refine ⟨w, fun hc hS => ?_⟩
    have k2 := ha hc
    rw [n3]
    exact ⟨k2.clo, repeatCode_types k2.code (CodeOk.mono hS k2.sub), k2.sub⟩

theorem opt_types {e : Expr} (ih : TypesOf sg T e) {S : Ex} {c : Ctx} {ts : List RTy} {R : RTy} :
    (∀ {body r c1 us}, valueConstructor (compile T true e) (T e.id).card false c = .ok (body, r, c1) → Gives sg T true e us → us.length = (T e.id).card →
      ts = [.option (.pack us)] →
      Extends c (optionalCode body S c1).2 fun a => (ScopeTyped sg T a e c.names.prefixUid ∧ Asgd sg T a true e (c.names.prefixUid + 1)) ∧
        (FvTyped a c.fv ts → CloTyped sg a c.closures → CodeOk sg a c.closures S R →
          Keeps sg a c.closures (optionalCode body S c1).2.closures (.stmt (.letNone r) (optionalCode body S c1).1) R)) ∧
    (∀ {body c1}, compile T false e .st .failure c = .ok (body, c1) →
      Extends c (optionalCode body S c1.incr).2 fun a => Asgd sg T a false e c.names.prefixUid ∧ (CloTyped sg a c.closures → CodeOk sg a c.closures S R →
        Keeps sg a c.closures (optionalCode body S c1.incr).2.closures (optionalCode body S c1.incr).1 R)) := by
  constructor
  · intro body r c1 us h1 g1 g2 g3
    refine ((valueConstructor_types ih h1 g1 g2).congr rfl rfl rfl rfl).mono ?_
    rintro a ⟨w, ha⟩
    refine ⟨w, fun hf hc hS => ?_⟩
    obtain ⟨k1, k2⟩ := ha (by rw [g3] at hf; exact hf) hc
    refine ⟨k2.clo, .stmt (.letNone (u := .pack us) k1) ?_, k2.sub⟩
    refine set_ok k1 ?_
    exact optionalCode_types k2.code (CodeOk.mono hS k2.sub)
  · intro body c1 h1
    refine ((recognizer_types ih h1).congr rfl rfl rfl rfl).mono ?_
    rintro a ⟨w, ha⟩
    refine ⟨w, fun hc hS => ?_⟩
    have k2 := ha hc
    exact ⟨k2.clo, optionalCode_types k2.code (CodeOk.mono hS k2.sub), k2.sub⟩

theorem pred_types {e : Expr} (ih : TypesOf sg T e) (neg : Bool) {S : Ex} {c : Ctx} {R : RTy} {body : Ex} {c1 : Ctx}
    (h : compile T false e .st .failure c.nextMark.2 = .ok (body, c1)) :
    Extends c c1.incr fun a => Asgd sg T a false e c.names.prefixUid ∧ (CloTyped sg a c.closures → CodeOk sg a c.closures S R →
      Keeps sg a c.closures c1.incr.closures (.stmt (.letMark c.nextMark.1) (.bind body (.stmt .letIsSuccess (.stmt (.restore c.nextMark.1)
        (if neg then .ite (.var .isSuccess) .failure S else .ite (.var .isSuccess) S .failure))))) R) := by
  refine ((recognizer_types ih h).congr rfl rfl rfl rfl).mono ?_
  rintro a ⟨w, ha⟩
  refine ⟨w, fun hc hS => ?_⟩
  have k := ha hc
  have hS' := CodeOk.mono hS k.sub
  refine ⟨k.clo, letMark_ok (.bind k.code (.stmt (.letIsSuccess rfl) ?_)), k.sub⟩
  refine set_ok rfl ?_
  refine .stmt (.restore rfl) ?_
  cases neg
  · simp only [Bool.false_eq_true, if_false]; exact .ite (.var rfl) hS' .failure
  · simp only [if_true]; exact .ite (.var rfl) .failure hS'

theorem spanned_types {e : Expr} (ih : TypesOf sg T e) {v : Name → VEx} {t : RTy} (hv : ∀ (a : Asg) (c : Ctx), ValOk sg a.env (v c.nextMark.1) t) {S code : Ex}
    {c c1 c2 : Ctx} {r : Name} {us : List RTy} {R : RTy} (h1 : c.nextMark.2.nextFreeVarSkip (T e.id).card = .ok (r, c1))
    (h2 : compile T true e (.stmt (.letVal r (v c.nextMark.1)) S) .failure (c1.pushMark c.nextMark.1) = .ok (code, c2))
    (hg : Gives sg T true e us) (hn : us.length = (T e.id).card) :
    Extends c c2.incr.popMark fun a => Asgd sg T a true e c.names.prefixUid ∧ (FvTyped a c.fv (t :: us) → CloTyped sg a c.closures → CodeOk sg a c.closures S R →
      Keeps sg a c.closures c2.incr.popMark.closures (.stmt (.letMark c.nextMark.1) code) R) := by
  obtain ⟨A, B, e1, e2, e3⟩ := nextFreeVarSkip_eq h1
  have e1' : c.fv = A ++ r :: B := e1
  have hcl : c1.closures = c.closures := by rw [e3]; rfl
  have k := ih true _ _ _ _ us R h2 hg
  refine (k.congr (by rw [e3]; rfl) (by rw [e3]; rfl) rfl rfl).mono ?_
  rintro a ⟨w, ha⟩
  refine ⟨by have := w; rw [e3] at this; exact this, fun hf hc hS => ?_⟩
  have ht := hf.last e1' (by simp; omega)
  simp only [List.map_cons, List.cons.injEq] at ht
  have s := ha ⟨A, B, by rw [Ctx.pushMark, e3], ht.2⟩ (by show CloTyped sg a c1.closures; rw [hcl]; exact hc) (by
    refine .stmt (.letVal ht.1 (hv a c)) ?_
    refine set_ok ht.1 ?_
    show CodeOk sg a c1.closures S R
    rw [hcl]; exact hS)
  exact ⟨s.clo, letMark_ok s.code, fun x hx => s.sub x (by show x ∈ c1.closures; rw [hcl]; exact hx)⟩

/-- The code of every expression is well typed. -/
theorem types_all (e : Expr) : TypesOf sg T e := by
  induction e using Expr.ind with
  | str i l =>
    intro p S c code c' ts R h hg
    rw [compile] at h
    cases h
    exact .refl rfl rfl fun a => ⟨trivial, fun _ hc hS => ⟨hc, .ifPrefix hS error_ok, fun _ h => h⟩⟩
  | any i =>
    intro p S c code c' ts R h hg
    rw [compile] at h
    rw [Gives] at hg
    split at h
    · rename_i hp
      rw [if_pos hp] at hg
      obtain ⟨⟨v, c1⟩, h1, h⟩ := except_bind_eq_ok h
      cases h
      obtain ⟨e1, e2⟩ := nextFreeVar_eq h1
      refine .refl (by rw [e2]) (by rw [e2]) fun a => ⟨trivial, fun hf hc hS => ?_⟩
      have ht := hf.last e1 (by simp [hg])
      have ht : a.ty v = .val .char := by simpa [hg] using ht
      rw [e2]
      refine ⟨hc, .matchNextVar ht ?_ error_ok, fun _ h => h⟩
      refine set_ok ht ?_; exact hS
    · cases h
      exact .refl rfl rfl fun a => ⟨trivial, fun _ hc hS => ⟨hc, .matchNext hS error_ok, fun _ h => h⟩⟩
  | cls i ivs =>
    intro p S c code c' ts R h hg
    rw [compile] at h
    rw [Gives] at hg
    split at h
    · rename_i hp
      rw [if_pos hp] at hg
      obtain ⟨⟨v, c1⟩, h1, h⟩ := except_bind_eq_ok h
      obtain ⟨cond, h2, h⟩ := except_bind_eq_ok h
      cases h
      obtain ⟨e1, e2⟩ := nextFreeVar_eq h1
      refine .refl (by rw [e2]) (by rw [e2]) fun a => ⟨trivial, fun hf hc hS => ?_⟩
      have ht := hf.last e1 (by simp [hg])
      have ht : a.ty v = .val .char := by simpa [hg] using ht
      have hcl : c1.closures = c.closures := by rw [e2]
      refine ⟨?_, ?_, ?_⟩
      · show CloTyped sg a c1.closures; rw [hcl]; exact hc
      · refine letMark_ok (.matchClass ht ?_ (.stmt (.restore rfl) error_ok))
        refine set_ok ht ?_
        show CodeOk sg a c1.closures S R
        rw [hcl]; exact hS
      · show ∀ x ∈ c.closures, x ∈ c1.closures
        rw [hcl]; exact fun _ h => h
    · obtain ⟨⟨v, c1⟩, h1, h⟩ := except_bind_eq_ok h
      cases h1
      obtain ⟨cond, h2, h⟩ := except_bind_eq_ok h
      cases h
      refine .refl rfl rfl fun a => ⟨trivial, fun hf hc hS => ⟨hc, letMark_ok (.matchClass rfl ?_ (.stmt (.restore rfl) error_ok)), fun _ h => h⟩⟩
      refine set_ok rfl ?_; exact hS
  | nt i r =>
    intro p S c code c' ts R h hg
    rw [compile] at h
    rw [Gives] at hg
    exact (call_types h hg).mono fun a ha => ⟨trivial, ha⟩
  | ext i r =>
    intro p S c code c' ts R h hg
    rw [compile] at h
    rw [Gives] at hg
    exact (call_types h hg).mono fun a ha => ⟨trivial, ha⟩
  | seq i es ih =>
    intro p S c code c' ts R h hg
    rw [compile] at h
    rw [Gives] at hg
    exact (seq_types ih h hg).mono fun a ha => ⟨by rw [Asgd]; exact ha.1, ha.2⟩
  | choice i es ih =>
    intro p S c code c' ts R h hg
    rw [compile] at h
    rw [Gives, givesAll_iff] at hg
    obtain ⟨⟨brs, c1⟩, h1, h⟩ := except_bind_eq_ok h
    cases brs with
    | nil => cases h
    | cons b brs =>
      cases h
      have k1 := successAsClosure_types (sg := sg) c S R
      have k2 := branches_types (R := R) ih h1 hg.2
      refine ((k1.trans (k2.congr rfl rfl rfl rfl)).congr rfl rfl rfl rfl).mono ?_
      rintro a ⟨q1, w, q2⟩
      refine ⟨?_, fun hf hc hS => ?_⟩
      · rw [Asgd, ← successAsClosure_prefix c S]; exact w
      have s1 := q1 hc hS
      obtain ⟨s2, s3, s4⟩ := q2 (by
        show FvTyped a (c.successAsClosure S).2.fv ts
        rw [(successAsClosure_ctx c S).1]; exact hf) s1.clo s1.code
      rw [List.forall_mem_cons] at s3
      refine ⟨s2, letMark_ok (.stmt (.letTrue rfl) ?_), fun x hx => s4 x (s1.sub x hx)⟩
      refine set_ok rfl ?_
      exact .bind s3.1 (choiceCode_types rfl rfl s3.2)
  | star i e ih =>
    intro p S c code c' ts R h hg
    rw [compile] at h
    rw [Gives] at hg
    obtain ⟨k1, k2⟩ := rep_types ih false (S := S) (c := c) (ts := ts) (R := R)
    split at h
    · rename_i hp
      rw [if_pos hp] at hg
      obtain ⟨us, g1, g2, g3⟩ := hg
      obtain ⟨⟨body, r, c1⟩, h1, h⟩ := except_bind_eq_ok h
      cases h
      exact (k1 h1 g1 g2 g3).mono fun a ha => ⟨by rw [Asgd, if_pos hp]; exact ha.1, ha.2⟩
    · rename_i hp
      obtain ⟨⟨body, c1⟩, h1, h⟩ := except_bind_eq_ok h
      cases h
      exact (k2 h1).mono fun a ha => ⟨by rw [Asgd, if_neg hp]; exact ha.1, fun _ => ha.2⟩
  | plus i e ih =>
    intro p S c code c' ts R h hg
    rw [compile] at h
    rw [Gives] at hg
    obtain ⟨k1, k2⟩ := rep_types ih true (S := S) (c := c) (ts := ts) (R := R)
    split at h
    · rename_i hp
      rw [if_pos hp] at hg
      obtain ⟨us, g1, g2, g3⟩ := hg
      obtain ⟨⟨body, r, c1⟩, h1, h⟩ := except_bind_eq_ok h
      cases h
      exact (k1 h1 g1 g2 g3).mono fun a ha => ⟨by rw [Asgd, if_pos hp]; exact ha.1, ha.2⟩
    · rename_i hp
      obtain ⟨⟨body, c1⟩, h1, h⟩ := except_bind_eq_ok h
      cases h
      exact (k2 h1).mono fun a ha => ⟨by rw [Asgd, if_neg hp]; exact ha.1, fun _ => ha.2⟩
  | opt i e ih =>
    intro p S c code c' ts R h hg
    rw [compile] at h
    rw [Gives] at hg
    obtain ⟨k1, k2⟩ := opt_types ih (S := S) (c := c) (ts := ts) (R := R)
    split at h
    · rename_i hp
      rw [if_pos hp] at hg
      obtain ⟨us, g1, g2, g3⟩ := hg
      obtain ⟨⟨body, r, c1⟩, h1, h⟩ := except_bind_eq_ok h
      cases h
      exact (k1 h1 g1 g2 g3).mono fun a ha => ⟨by rw [Asgd, if_pos hp]; exact ha.1, ha.2⟩
    · rename_i hp
      obtain ⟨⟨body, c1⟩, h1, h⟩ := except_bind_eq_ok h
      cases h
      exact (k2 h1).mono fun a ha => ⟨by rw [Asgd, if_neg hp]; exact ha.1, fun _ => ha.2⟩
  | not i e ih =>
    intro p S c code c' ts R h hg
    rw [compile] at h
    split at h
    · cases h
    · obtain ⟨⟨body, c1⟩, h1, h⟩ := except_bind_eq_ok h
      cases h
      exact (pred_types ih true h1).mono fun a ha => ⟨by rw [Asgd]; exact ha.1, fun _ => ha.2⟩
  | and i e ih =>
    intro p S c code c' ts R h hg
    rw [compile] at h
    split at h
    · cases h
    · obtain ⟨⟨body, c1⟩, h1, h⟩ := except_bind_eq_ok h
      cases h
      exact (pred_types ih false h1).mono fun a ha => ⟨by rw [Asgd]; exact ha.1, fun _ => ha.2⟩
  | act i e boxed f ih =>
    intro p S c code c' ts R h hg
    rw [compile] at h
    rw [Gives] at hg
    split at h
    · rename_i hp
      rw [if_pos hp] at hg
      obtain ⟨us, u, g1, g2, rfl, g3⟩ := hg
      obtain ⟨⟨r, c1⟩, h1, h⟩ := except_bind_eq_ok h
      obtain ⟨⟨code1, c2⟩, h2, h⟩ := except_bind_eq_ok h
      obtain ⟨c3, h3, h⟩ := except_bind_eq_ok h
      cases h
      obtain ⟨e1, e2⟩ := nextFreeVar_eq h1
      obtain ⟨e3, e4⟩ := closeScope_eq h3
      subst e4
      have hcl : c1.closures = c.closures := by rw [e2]
      have hopen := openScope_types c1 g2
      have k := ih true _ _ _ _ us R h2 g1
      refine ((hopen.trans (k.congr rfl rfl rfl rfl)).congr (by rw [e2]) (by rw [e2]) rfl rfl).mono ?_
      rintro a ⟨ho, w, hb⟩
      have hn1 : c1.names = c.names := by rw [e2]
      refine ⟨?_, fun hf hc hS => ?_⟩
      · rw [Asgd, if_pos hp]
        refine ⟨⟨us, g1, g2, ?_⟩, ?_⟩
        · rw [← hn1]; exact ho
        · rw [← hn1]; exact w
      have ht := hf.last e1 (by simp)
      have ht : a.ty r = .val u := by simpa using ht
      have s := hb ⟨[], _, rfl, ho⟩ (by show CloTyped sg a c1.closures; rw [hcl]; exact hc) (by
        refine .stmt (.letVal (u := u) ht (g3 a.env _ us ?_)) ?_
        · rw [← ho]; exact a.has _
        · refine set_ok ht ?_
          show CodeOk sg a c1.closures S R
          rw [hcl]; exact hS)
      exact ⟨s.clo, s.code, fun x hx => s.sub x (by show x ∈ c1.closures; rw [hcl]; exact hx)⟩
    · rename_i hp
      rw [if_neg hp] at hg
      subst hg
      exact (ih false S c code c' [] R h (gives_false e)).mono fun a ha => ⟨by rw [Asgd, if_neg hp]; exact ha.1, ha.2⟩
  | asc i e t ih =>
    intro p S c code c' ts R h hg
    rw [compile] at h
    rw [Gives] at hg
    exact (ih _ S c code c' ts R h hg).mono fun a ha => ⟨by rw [Asgd]; exact ha.1, ha.2⟩
  | span i e ih =>
    intro p S c code c' ts R h hg
    rw [compile] at h
    rw [Gives] at hg
    split at h
    · rename_i hp
      rw [if_pos hp] at hg
      obtain ⟨us, g1, g2, rfl⟩ := hg
      obtain ⟨⟨r, c1⟩, h1, h⟩ := except_bind_eq_ok h
      obtain ⟨⟨code1, c2⟩, h2, h⟩ := except_bind_eq_ok h
      cases h
      exact (spanned_types ih (v := .span) (fun a c => .span rfl) h1 h2 g1 g2).mono fun a ha => ⟨by rw [Asgd, hp]; exact ha.1, ha.2⟩
    · rename_i hp
      rw [if_neg hp] at hg
      subst hg
      exact (ih false S c code c' [] R h (gives_false e)).mono fun a ha => ⟨by rw [Bool.not_eq_true] at hp; rw [Asgd, hp]; exact ha.1, ha.2⟩
  | range i e ih =>
    intro p S c code c' ts R h hg
    rw [compile] at h
    rw [Gives] at hg
    split at h
    · rename_i hp
      rw [if_pos hp] at hg
      obtain ⟨us, g1, g2, rfl⟩ := hg
      obtain ⟨⟨r, c1⟩, h1, h⟩ := except_bind_eq_ok h
      obtain ⟨⟨code1, c2⟩, h2, h⟩ := except_bind_eq_ok h
      cases h
      exact (spanned_types ih (v := .range) (fun a c => .range rfl) h1 h2 g1 g2).mono fun a ha => ⟨by rw [Asgd, hp]; exact ha.1, ha.2⟩
    · rename_i hp
      rw [if_neg hp] at hg
      subst hg
      exact (ih false S c code c' [] R h (gives_false e)).mono fun a ha => ⟨by rw [Bool.not_eq_true] at hp; rw [Asgd, hp]; exact ha.1, ha.2⟩

end

end Oak
