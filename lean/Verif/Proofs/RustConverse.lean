import Verif.Proofs.ScopesExact
import Verif.Proofs.RustScope
/-! A function that is well typed in Rust declares its variables, and uses its references rightly. -/
set_option autoImplicit false
set_option linter.constructorNameAsVariable false

namespace Oak

section
variable {sg : Sigs} {ok : Name → VTy → Prop}

/-- The variable is declared, and is no reference. -/
def TEnv.Plain (Γ : TEnv) (x : Name) : Prop := ∃ t, Γ x = some t ∧ ∀ u, t ≠ .mutRef u

theorem has_get {Γ : TEnv} : ∀ {xs : List Name} {ts : List VTy}, Γ.Has xs ts → ∀ x ∈ xs, ∃ t ∈ ts, Γ x = some t
  | [], ts, h, x, hx => by cases hx
  | y :: xs, [], h, x, hx => by simp [TEnv.Has] at h
  | y :: xs, t :: ts, h, x, hx => by
    simp only [TEnv.Has, List.map_cons, List.cons.injEq] at h
    rcases List.mem_cons.1 hx with rfl | hx
    · exact ⟨t, by simp, h.1⟩
    · obtain ⟨u, h1, h2⟩ := has_get (ts := ts) h.2 x hx
      exact ⟨u, by simp [h1], h2⟩

theorem has_vals {Γ : TEnv} {xs : List Name} {ts : List RTy} (h : Γ.Has xs (ts.map .val)) : ∀ x ∈ xs, Γ.Plain x := by
  intro x hx
  obtain ⟨t, h1, h2⟩ := has_get h x hx
  obtain ⟨u, _, rfl⟩ := List.mem_map.1 h1
  exact ⟨_, h2, by simp⟩

theorem val_plain {Γ : TEnv} {v : VEx} {t : RTy} (h : ValOk sg Γ v t) : ∀ x ∈ v.fv, Γ.Plain x := by
  induction h with
  | tup h => exact has_vals h
  | call h _ => exact has_vals h
  | callUnknown h _ => exact has_vals h
  | path _ => simp [VEx.fv]
  | box _ ih => exact ih
  | boxUnknown _ ih => exact ih .unit
  | range h => simp only [VEx.fv, List.mem_singleton]; rintro _ rfl; exact ⟨_, h, by simp⟩
  | span h => simp only [VEx.fv, List.mem_singleton]; rintro _ rfl; exact ⟨_, h, by simp⟩

theorem stmt_plain {Γ Γ' : TEnv} {D D' : SVar} {s : Stmt} (h : StmtOk sg ok Γ D s Γ' D') : (∀ x ∈ s.direct, Γ.Plain x) ∧ (∀ x ∈ s.fv, Γ x ≠ none) ∧ ∀ x, x ∉ s.binds → Γ' x = Γ x := by
  have one : ∀ {x : Name} {t : VTy}, Γ x = some t → (∀ u, t ≠ .mutRef u) → (∀ y ∈ [x], Γ.Plain y) ∧ ∀ y ∈ [x], Γ y ≠ none := by
    intro x t h1 h2
    constructor <;> simp only [List.mem_singleton]
    · rintro _ rfl; exact ⟨t, h1, h2⟩
    · rintro _ rfl; rw [h1]; simp
  have plain : ∀ {l : List Name}, (∀ x ∈ l, Γ.Plain x) → ∀ x ∈ l, Γ x ≠ none := fun h x hx => by obtain ⟨t, h1, _⟩ := h x hx; rw [h1]; simp
  have set : ∀ {y : Name} {t : VTy}, ∀ x, x ∉ [y] → Γ.set y t x = Γ x := fun x hx => by simp only [List.mem_singleton] at hx; simp [TEnv.set, hx]
  cases h with
  | letMark _ => exact ⟨by simp [Stmt.direct, Stmt.fv], by simp [Stmt.fv], set⟩
  | setMark h => exact ⟨(one h (by simp)).1, (one h (by simp)).2, fun _ _ => rfl⟩
  | letVal _ h => exact ⟨val_plain h, plain (val_plain h), set⟩
  | letNone _ => exact ⟨by simp [Stmt.direct, Stmt.fv], by simp [Stmt.fv], set⟩
  | letVec _ => exact ⟨by simp [Stmt.direct, Stmt.fv], by simp [Stmt.fv], set⟩
  | letTrue _ => exact ⟨by simp [Stmt.direct, Stmt.fv], by simp [Stmt.fv], set⟩
  | letZero _ => exact ⟨by simp [Stmt.direct, Stmt.fv], by simp [Stmt.fv], set⟩
  | letIsSuccess _ => exact ⟨by simp [Stmt.direct, Stmt.fv], by simp [Stmt.fv], set⟩
  | @setSome _ r v u h1 h2 =>
    have : ∀ x ∈ (Stmt.setSome r v).fv, Γ.Plain x := by
      simp only [Stmt.fv, List.mem_cons]
      rintro x (rfl | hx)
      · exact ⟨_, h1, by simp⟩
      · exact val_plain h2 x hx
    exact ⟨this, plain this, fun _ _ => rfl⟩
  | @push _ r v u h1 h2 =>
    refine ⟨val_plain h2, ?_, fun _ _ => rfl⟩
    simp only [Stmt.fv, List.mem_cons]
    rintro x (rfl | hx)
    · rcases h1 with h1 | h1 <;> rw [h1] <;> simp
    · exact plain (val_plain h2) x hx
  | setFalse h => exact ⟨(one h (by simp)).1, (one h (by simp)).2, fun _ _ => rfl⟩
  | restoreFailed h => exact ⟨(one h (by simp)).1, (one h (by simp)).2, fun _ _ => rfl⟩
  | restore h => exact ⟨(one h (by simp)).1, (one h (by simp)).2, fun _ _ => rfl⟩
  | ifFailedRestore h => exact ⟨(one h (by simp)).1, (one h (by simp)).2, fun _ _ => rfl⟩
  | error => exact ⟨by simp [Stmt.direct, Stmt.fv], by simp [Stmt.fv], fun _ _ => rfl⟩
  | discard => exact ⟨by simp [Stmt.direct, Stmt.fv], by simp [Stmt.fv], fun _ _ => rfl⟩
  | recognize => exact ⟨by simp [Stmt.direct, Stmt.fv], by simp [Stmt.fv], fun _ _ => rfl⟩
  | parse _ => exact ⟨by simp [Stmt.direct, Stmt.fv], by simp [Stmt.fv], fun _ _ => rfl⟩
  | @extract vs ts _ h => exact ⟨by simp [Stmt.direct, Stmt.fv], by simp [Stmt.fv], fun x hx => setMany_get _ (by simpa using h) hx⟩
  | fail => exact ⟨by simp [Stmt.direct, Stmt.fv], by simp [Stmt.fv], fun _ _ => rfl⟩

theorem cond_plain {Γ : TEnv} {c : Cond} (h : CondOk Γ c) : ∀ x ∈ c.fv, Γ.Plain x := by
  cases h with
  | isSuccessful => simp [Cond.fv]
  | var h => simp only [Cond.fv, List.mem_singleton]; rintro _ rfl; exact ⟨_, h, by simp⟩
  | lt h => simp only [Cond.fv, List.mem_singleton]; rintro _ rfl; exact ⟨_, h, by simp⟩

/-- The variables of a well typed expression are declared, and its references are used rightly. -/
theorem ex_plain {K : Nat → Option ClosureSig} (hK : ∀ k s, K k = some s → ∀ t ∈ s.marks, t = .stream) {Γ : TEnv} {D : SVar} {e : Ex} {t : RTy} (h : ExOk sg ok K Γ D e t) :
    (∀ x ∈ e.own, Γ.Plain x) ∧ ∀ x ∈ e.fv, Γ x ≠ none := by
  have plain : ∀ {Γ : TEnv} {x : Name}, Γ.Plain x → Γ x ≠ none := fun h => by obtain ⟨t, h1, _⟩ := h; rw [h1]; simp
  have set : ∀ {Γ : TEnv} {y : Name} {t : VTy} {l m : List Name}, (∀ x ∈ l, (Γ.set y t).Plain x) ∧ (∀ x ∈ m, Γ.set y t x ≠ none) →
      (∀ x ∈ l, x ≠ y → Γ.Plain x) ∧ ∀ x ∈ m, x ≠ y → Γ x ≠ none := by
    intro Γ y t l m h
    refine ⟨fun x hx hy => ?_, fun x hx hy => ?_⟩
    · have := h.1 x hx
      simpa [TEnv.Plain, TEnv.set, hy] using this
    · have := h.2 x hx
      simpa [TEnv.set, hy] using this
  induction h with
  | st => simp [Ex.own, Ex.fv]
  | success h => exact ⟨val_plain h, fun x hx => plain (val_plain h x hx)⟩
  | failure => simp [Ex.own, Ex.fv]
  | @call Γ k muts vars marks sig h1 h2 h2' h3 h4 =>
    have q1 : ∀ x ∈ muts, Γ.Plain x := fun x hx => by
      obtain ⟨t, _, h⟩ := has_get h2 x hx
      exact ⟨t, h, fun u hu => h2' x hx u (by rw [h, hu])⟩
    have q2 : ∀ x ∈ marks, Γ.Plain x := fun x hx => by
      obtain ⟨t, ht, h⟩ := has_get h4 x hx
      exact ⟨t, h, fun u hu => by have := hK _ _ h1 t ht; rw [this] at hu; cases hu⟩
    refine ⟨fun x hx => ?_, fun x hx => ?_⟩
    · simp only [Ex.own, List.mem_append] at hx
      exact hx.elim (q1 x) (q2 x)
    · simp only [Ex.fv, List.mem_append] at hx
      rcases hx with (hx | hx) | hx
      · exact plain (q1 x hx)
      · obtain ⟨t, _, h⟩ := has_get h3 x hx
        rw [h]; simp
      · exact plain (q2 x hx)
  | @stmt Γ Γ' D D' s e t h1 _ ih =>
    obtain ⟨g1, g2, g3⟩ := stmt_plain h1
    refine ⟨fun x hx => ?_, fun x hx => ?_⟩
    · simp only [Ex.own, List.mem_append, List.mem_filter, decide_eq_true_eq] at hx
      rcases hx with hx | ⟨hx, hb⟩
      · exact g1 x hx
      · have := ih.1 x hx
        rwa [TEnv.Plain, g3 x hb] at this
    · simp only [Ex.fv, List.mem_append, List.mem_filter, decide_eq_true_eq] at hx
      rcases hx with hx | ⟨hx, hb⟩
      · exact g2 x hx
      · have := ih.2 x hx
        rwa [g3 x hb] at this
  | bind _ _ ih1 ih2 =>
    refine ⟨fun x hx => ?_, fun x hx => ?_⟩
    · simp only [Ex.own, List.mem_append] at hx
      exact hx.elim (ih1.1 x) (ih2.1 x)
    · simp only [Ex.fv, List.mem_append] at hx
      exact hx.elim (ih1.2 x) (ih2.2 x)
  | @loop Γ body c m k t _ h1 h2 _ ih1 ih2 =>
    have q1 : ∀ x ∈ c.toList, Γ.Plain x := fun x hx => ⟨_, h1 x (by simpa using hx), by simp⟩
    have q2 : Γ.Plain m := ⟨_, h2, by simp⟩
    refine ⟨fun x hx => ?_, fun x hx => ?_⟩
    · simp only [Ex.own, List.mem_append, List.mem_cons] at hx
      rcases hx with hx | rfl | hx | hx
      · exact q1 x hx
      · exact q2
      · exact ih1.1 x hx
      · exact ih2.1 x hx
    · simp only [Ex.fv, List.mem_append, List.mem_cons] at hx
      rcases hx with hx | rfl | hx | hx
      · exact plain (q1 x hx)
      · exact plain q2
      · exact ih1.2 x hx
      · exact ih2.2 x hx
  | ite h _ _ ih1 ih2 =>
    refine ⟨fun x hx => ?_, fun x hx => ?_⟩
    · simp only [Ex.own, List.mem_append] at hx
      exact hx.elim (cond_plain h x) fun hx => hx.elim (ih1.1 x) (ih2.1 x)
    · simp only [Ex.fv, List.mem_append] at hx
      exact hx.elim (fun hx => plain (cond_plain h x hx)) fun hx => hx.elim (ih1.2 x) (ih2.2 x)
  | ifPrefix _ _ ih1 ih2 =>
    refine ⟨fun x hx => ?_, fun x hx => ?_⟩
    · simp only [Ex.own, List.mem_append] at hx
      exact hx.elim (ih1.1 x) (ih2.1 x)
    · simp only [Ex.fv, List.mem_append] at hx
      exact hx.elim (ih1.2 x) (ih2.2 x)
  | matchNext _ _ ih1 ih2 =>
    refine ⟨fun x hx => ?_, fun x hx => ?_⟩
    · simp only [Ex.own, List.mem_append, List.mem_filter] at hx
      exact hx.elim (fun hx => ih1.1 x hx.1) (ih2.1 x)
    · simp only [Ex.fv, List.mem_append, List.mem_filter] at hx
      exact hx.elim (fun hx => ih1.2 x hx.1) (ih2.2 x)
  | matchNextVar _ _ _ ih1 ih2 =>
    have ih1 := set ih1
    refine ⟨fun x hx => ?_, fun x hx => ?_⟩
    · simp only [Ex.own, List.mem_append, List.mem_filter, Option.toList_some, List.mem_singleton, decide_eq_true_eq] at hx
      exact hx.elim (fun hx => ih1.1 x hx.1 hx.2) (ih2.1 x)
    · simp only [Ex.fv, List.mem_append, List.mem_filter, Option.toList_some, List.mem_singleton, decide_eq_true_eq] at hx
      exact hx.elim (fun hx => ih1.2 x hx.1 hx.2) (ih2.2 x)
  | matchClass _ _ _ ih1 ih2 =>
    have ih1 := set ih1
    refine ⟨fun x hx => ?_, fun x hx => ?_⟩
    · simp only [Ex.own, List.mem_append, List.mem_filter, decide_eq_true_eq] at hx
      exact hx.elim (fun hx => ih1.1 x hx.1 hx.2) (ih2.1 x)
    · simp only [Ex.fv, List.mem_append, List.mem_filter, decide_eq_true_eq] at hx
      exact hx.elim (fun hx => ih1.2 x hx.1 hx.2) (ih2.2 x)

theorem setMany_ref (Γ : TEnv) : ∀ {xs : List Name} {ts : List VTy}, xs.length = ts.length → ∀ {x}, x ∈ xs → ∃ t, Γ.setMany xs (ts.map .mutRef) x = some (.mutRef t)
  | y :: xs, t :: ts, h, x, hx => by
    rw [List.map_cons, TEnv.setMany, TEnv.set]
    by_cases hxy : x = y
    · exact ⟨t, by simp [hxy]⟩
    · rw [if_neg hxy]
      exact setMany_ref Γ (by simpa using h) (by simpa [hxy] using hx)

/-- The closures of a well typed function. -/
theorem closures_plain {K K' : Nat → Option ClosureSig} {cs : List Closure} (h : ClosuresTyped sg ok K cs K') (hK : ∀ k s, K k = some s → ∀ t ∈ s.marks, t = .stream) :
    (∀ c ∈ cs, c.refOkIn .own = true) ∧ ∀ c ∈ cs, ∀ x ∈ c.body.fv, x ∈ c.muts ∨ x ∈ c.vars ∨ x ∈ c.marks := by
  induction h with
  | nil => simp
  | @cons K K' c cs sig h1 h2 h3 _ _ _ h4 _ ih =>
    have ih := ih (by
      intro k s hs
      dsimp only at hs
      split at hs
      · cases hs
        rw [h3]
        simp
      · exact hK k s hs)
    have hp := ex_plain hK h4
    rw [List.forall_mem_cons, List.forall_mem_cons]
    refine ⟨⟨?_, ih.1⟩, ?_, ih.2⟩
    · simp only [Closure.refOkIn, List.all_eq_true, decide_eq_true_eq]
      intro x hx hm
      obtain ⟨t, q1, q2⟩ := hp.1 x hx
      obtain ⟨u, q3⟩ := setMany_ref ((TEnv.empty.setMany c.marks sig.marks).setMany c.vars sig.vars) h1.symm hm
      rw [ClosureSig.env, q3] at q1
      cases q1
      exact q2 u rfl
    · intro x hx
      by_cases q1 : x ∈ c.muts
      · exact .inl q1
      by_cases q2 : x ∈ c.vars
      · exact .inr (.inl q2)
      by_cases q3 : x ∈ c.marks
      · exact .inr (.inr q3)
      refine absurd ?_ (hp.2 x hx)
      rw [ClosureSig.env, setMany_get _ (by simpa using h1.symm) q1, setMany_get _ h2.symm q2, setMany_get _ (by rw [h3]; simp) q3]
      rfl

/-- A well typed function uses its references rightly, and its closures only use their parameters. -/
theorem fn_plain {f : Fn} {t : RTy} (h : FnTyped sg ok f t) : f.refOkIn .own = true ∧ ∀ c ∈ f.closures, ∀ x ∈ c.body.fv, x ∈ c.muts ∨ x ∈ c.vars ∨ x ∈ c.marks := by
  obtain ⟨K, h1, _⟩ := h
  have := closures_plain h1 (by simp)
  exact ⟨by simpa only [Fn.refOkIn, List.all_eq_true] using this.1, this.2⟩

end

theorem parser_bad {T : Nat → Ty} {r : String} {e : Expr} {f : Fn} (h : compileParser T r e = .ok f) (hT : T e.id ≠ .unit) (hz : sized T true e = true)
    (hs : scopable T true false e = false) : ∃ c ∈ f.closures, ∃ x ∈ c.body.fv, x ∉ c.muts ∧ x ∉ c.vars ∧ x ∉ c.marks := by
  unfold compileParser at h
  rw [if_neg hT] at h
  obtain ⟨⟨code, c⟩, hc, h⟩ := except_bind_eq_ok h
  obtain ⟨c2, hc2, h⟩ := except_bind_eq_ok h
  cases h
  obtain ⟨-, e2⟩ := closeScope_eq hc2
  subst e2
  have hA : Separate (.one true e) (Ctx.new.openScope (T e.id).card).2 := by
    refine ⟨fun x hx => freshNames_old hx, ?_, ?_, ?_, ?_, ?_⟩ <;> simp [Job.refs, openScope_muts, openScope_marks, Ctx.new]
  have hq := compile_comp T e _ _ _ _ _ _ hc
  exact hq.unscopable hz hA (freshNames_nodup _ _) (fun x hx => hx) (by simp [Ex.fv]) trivial (u := false) (by simp) hs

/-- Well typed functions come from expressions with scopes and references in order. -/
theorem compileGrammar_converse {sg : Sigs} {T : Nat → Ty} : ∀ {rules : List (String × Expr)} {fs : List (FnRef × Fn)}, compileGrammar T rules = .ok fs →
    (∀ r ∈ rules, T r.2.id = .unit ∨ sized T true r.2 = true) → (∀ f ∈ fs, ∃ t, FnOk sg f.2 t) →
    ∀ r ∈ rules, (T r.2.id = .unit ∨ scopable T true false r.2 = true) ∧ refable T false false false false r.2 = true ∧
      (T r.2.id = .unit ∨ refable T true false false false r.2 = true) := by
  intro rules
  induction rules with
  | nil => intro fs _ _ _ r hr; cases hr
  | cons r rs ih =>
    obtain ⟨r, e⟩ := r
    intro fs h hz ho
    rw [compileGrammar] at h
    obtain ⟨f1, h1, h⟩ := except_bind_eq_ok h
    obtain ⟨f2, h2, h⟩ := except_bind_eq_ok h
    obtain ⟨fs', h3, h⟩ := except_bind_eq_ok h
    cases h
    rw [List.forall_mem_cons] at hz ⊢
    rw [List.forall_mem_cons, List.forall_mem_cons] at ho
    obtain ⟨⟨t1, o1⟩, ⟨t2, o2⟩, o3⟩ := ho
    have p1 := fn_plain o1
    have p2 := fn_plain o2
    refine ⟨⟨?_, ?_, ?_⟩, ih h3 hz.2 o3⟩
    · rcases hz.1 with hT | hz
      · exact .inl hT
      · by_cases hT : T e.id = .unit
        · exact .inl hT
        · right
          cases hs : scopable T true false e with
          | true => rfl
          | false =>
            obtain ⟨c, hc, x, hx, q1, q2, q3⟩ := parser_bad h2 hT hz hs
            rcases p2.2 c hc x hx with h | h | h
            · exact absurd h q1
            · exact absurd h q2
            · exact absurd h q3
    · rw [← recognizer_refOk (o := .own) (by simp) h1]; exact p1.1
    · have := parser_refOk (o := .own) (by simp) h2
      rw [p2.1] at this
      simpa using this.symm

end Oak
