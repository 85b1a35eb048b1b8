import Verif.Proofs.RustCode
/-! The generated code is well typed: from types of all the names to types of the variables in scope. -/
set_option autoImplicit false
set_option linter.constructorNameAsVariable false

namespace Oak

section
variable {sg : Sigs} {T : Nat → Ty}

/-- `Γ'` gives the variables of `fv` the types of `Γ`, up to `&mut` for those that are not in `direct`. -/
structure Sees (Γ Γ' : TEnv) (fv direct : List Name) : Prop where
  any : ∀ x ∈ fv, Γ' x = Γ x ∨ ∃ t, Γ x = some t ∧ (∀ u, t ≠ .mutRef u) ∧ Γ' x = some (.mutRef t)
  same : ∀ x ∈ direct, Γ' x = Γ x

theorem Sees.mono {Γ Γ' : TEnv} {fv direct fv' direct' : List Name} (h : Sees Γ Γ' fv direct) (h1 : ∀ x ∈ fv', x ∈ fv) (h2 : ∀ x ∈ direct', x ∈ direct) :
    Sees Γ Γ' fv' direct' := ⟨fun x hx => h.any x (h1 x hx), fun x hx => h.same x (h2 x hx)⟩

/-- Under a declaration. -/
theorem Sees.set {Γ Γ' : TEnv} {fv direct : List Name} {x : Name} {t : VTy} (h : Sees Γ Γ' (fv.filter (fun y => decide (y ≠ x))) (direct.filter (fun y => decide (y ≠ x)))) :
    Sees (Γ.set x t) (Γ'.set x t) fv direct := by
  constructor
  · intro y hy
    by_cases hx : y = x
    · subst hx; left; simp [TEnv.set]
    · have := h.any y (by simp [hy, hx])
      simpa [TEnv.set, hx] using this
  · intro y hy
    by_cases hx : y = x
    · subst hx; simp [TEnv.set]
    · have := h.same y (by simp [hy, hx])
      simpa [TEnv.set, hx] using this

theorem setMany_get (Γ : TEnv) : ∀ {xs : List Name} {ts : List VTy}, xs.length = ts.length → ∀ {x}, x ∉ xs → Γ.setMany xs ts x = Γ x
  | [], [], _, x, _ => rfl
  | y :: xs, t :: ts, h, x, hx => by
    simp only [List.mem_cons, not_or] at hx
    rw [TEnv.setMany, TEnv.set, if_neg hx.1, setMany_get Γ (by simpa using h) hx.2]

theorem setMany_mem (Γ Γ' : TEnv) : ∀ {xs : List Name} {ts : List VTy}, xs.length = ts.length → ∀ {x}, x ∈ xs → Γ.setMany xs ts x = Γ'.setMany xs ts x
  | y :: xs, t :: ts, h, x, hx => by
    rw [TEnv.setMany, TEnv.setMany, TEnv.set, TEnv.set]
    by_cases hxy : x = y
    · simp [hxy]
    · rw [if_neg hxy, if_neg hxy]
      exact setMany_mem Γ Γ' (by simpa using h) (by simpa [hxy] using hx)

theorem Sees.setMany {Γ Γ' : TEnv} {fv direct xs : List Name} {ts : List VTy} (hl : xs.length = ts.length)
    (h : Sees Γ Γ' (fv.filter (fun y => decide (y ∉ xs))) (direct.filter (fun y => decide (y ∉ xs)))) : Sees (Γ.setMany xs ts) (Γ'.setMany xs ts) fv direct := by
  constructor
  · intro y hy
    by_cases hx : y ∈ xs
    · exact .inl (setMany_mem _ _ hl hx)
    · have := h.any y (by simp [hy, hx])
      rwa [setMany_get _ hl hx, setMany_get _ hl hx]
  · intro y hy
    by_cases hx : y ∈ xs
    · exact setMany_mem _ _ hl hx
    · have := h.same y (by simp [hy, hx])
      rwa [setMany_get _ hl hx, setMany_get _ hl hx]

theorem Sees.has {Γ Γ' : TEnv} {fv direct xs : List Name} {ts : List VTy} (h : Sees Γ Γ' fv direct) (hx : ∀ x ∈ xs, x ∈ direct) (ht : Γ.Has xs ts) : Γ'.Has xs ts := by
  unfold TEnv.Has at *
  rw [← ht]
  exact List.map_congr_left fun x hx' => h.same x (hx x hx')

theorem Sees.val {Γ Γ' : TEnv} {fv direct : List Name} {v : VEx} {t : RTy} (h : Sees Γ Γ' fv direct) (hx : ∀ x ∈ v.fv, x ∈ direct) (ht : ValOk sg Γ v t) :
    ValOk sg Γ' v t := by
  induction ht with
  | tup h1 => exact .tup (h.has hx h1)
  | call h1 h2 => exact .call (h.has hx h1) h2
  | callUnknown h1 h2 => exact .callUnknown (h.has hx h1) h2
  | path h1 => exact .path h1
  | box _ ih => exact .box (ih hx)
  | boxUnknown _ ih => exact .boxUnknown fun u => ih u hx
  | range h1 => exact .range (by rw [h.same _ (hx _ (by simp [VEx.fv])), h1])
  | span h1 => exact .span (by rw [h.same _ (hx _ (by simp [VEx.fv])), h1])

theorem Sees.cond {Γ Γ' : TEnv} {fv direct : List Name} {c : Cond} (h : Sees Γ Γ' fv direct) (hx : ∀ x ∈ c.fv, x ∈ direct) (ht : CondOk Γ c) : CondOk Γ' c := by
  cases ht with
  | isSuccessful => exact .isSuccessful
  | var h1 => exact .var (by rw [h.same _ (hx _ (by simp [Cond.fv])), h1])
  | lt h1 => exact .lt (by rw [h.same _ (hx _ (by simp [Cond.fv])), h1])

theorem Sees.stmt {Γ Γ' Δ : TEnv} {D D' : SVar} {fv direct : List Name} {s : Stmt} {ok : Name → VTy → Prop} (h : Sees Γ Γ' (s.fv ++ fv.filter (fun x => decide (x ∉ s.binds)))
    (s.direct ++ direct.filter (fun x => decide (x ∉ s.binds)))) (hs : StmtOk sg ok Γ D s Δ D') :
    ∃ Δ', StmtOk sg ok Γ' D s Δ' D' ∧ Sees Δ Δ' fv direct := by
  have hd : Sees Γ Γ' s.fv s.direct := h.mono (fun x hx => by simp [hx]) (fun x hx => by simp [hx])
  have hnext : s.binds = [] → Sees Γ Γ' fv direct := fun h0 => h.mono (fun x hx => by simp [hx, h0]) (fun x hx => by simp [hx, h0])
  have hset : ∀ x t, s.binds = [x] → Sees (Γ.set x t) (Γ'.set x t) fv direct := fun x t h0 =>
    Sees.set (h.mono (fun y hy => by simp only [h0, List.mem_singleton]; simp at hy; simp [hy]) (fun y hy => by simp only [h0, List.mem_singleton]; simp at hy; simp [hy]))
  have hsame : ∀ x ∈ s.direct, Γ' x = Γ x := hd.same
  cases hs with
  | letMark h0 => exact ⟨_, .letMark h0, hset _ _ rfl⟩
  | setMark h1 => exact ⟨_, .setMark (by rw [hsame _ (by simp [Stmt.direct, Stmt.fv]), h1]), hnext rfl⟩
  | letVal h0 h1 => exact ⟨_, .letVal h0 (hd.val (fun x hx => hx) h1), hset _ _ rfl⟩
  | letNone h0 => exact ⟨_, .letNone h0, hset _ _ rfl⟩
  | letVec h0 => exact ⟨_, .letVec h0, hset _ _ rfl⟩
  | letTrue h0 => exact ⟨_, .letTrue h0, hset _ _ rfl⟩
  | letZero h0 => exact ⟨_, .letZero h0, hset _ _ rfl⟩
  | letIsSuccess h0 => exact ⟨_, .letIsSuccess h0, hset _ _ rfl⟩
  | setSome h1 h2 =>
    exact ⟨_, .setSome (by rw [hsame _ (by simp [Stmt.direct, Stmt.fv]), h1]) (hd.val (fun x hx => by simp [Stmt.direct, Stmt.fv, hx]) h2), hnext rfl⟩
  | @push _ r v u h1 h2 =>
    refine ⟨_, .push (u := u) ?_ (hd.val (fun x hx => by simp [Stmt.direct, hx]) h2), hnext rfl⟩
    rcases hd.any r (by simp [Stmt.fv]) with h3 | ⟨t, h3, h4, h5⟩
    · rw [h3]; exact h1
    · rw [h3] at h1
      rcases h1 with h1 | h1
      · cases h1; exact .inr h5
      · cases h1; exact absurd rfl (h4 _)
  | setFalse h1 => exact ⟨_, .setFalse (by rw [hsame _ (by simp [Stmt.direct, Stmt.fv]), h1]), hnext rfl⟩
  | restoreFailed h1 => exact ⟨_, .restoreFailed (by rw [hsame _ (by simp [Stmt.direct, Stmt.fv]), h1]), hnext rfl⟩
  | restore h1 => exact ⟨_, .restore (by rw [hsame _ (by simp [Stmt.direct, Stmt.fv]), h1]), hnext rfl⟩
  | ifFailedRestore h1 => exact ⟨_, .ifFailedRestore (by rw [hsame _ (by simp [Stmt.direct, Stmt.fv]), h1]), hnext rfl⟩
  | error => exact ⟨_, .error, hnext rfl⟩
  | discard => exact ⟨_, .discard, hnext rfl⟩
  | recognize => exact ⟨_, .recognize, hnext rfl⟩
  | parse h1 => exact ⟨_, .parse h1, hnext rfl⟩
  | @extract vs ts h0 h1 =>
    exact ⟨_, .extract h0 h1, Sees.setMany (by simpa using h1) (h.mono (fun y hy => by simp [Stmt.binds] at hy ⊢; simp [hy]) (fun y hy => by simp [Stmt.binds] at hy ⊢; simp [hy]))⟩
  | fail => exact ⟨_, .fail, hnext rfl⟩

theorem Sees.ex {K : Nat → Option ClosureSig} {Γ : TEnv} {D : SVar} {e : Ex} {t : RTy} {ok : Name → VTy → Prop} (ht : ExOk sg ok K Γ D e t) :
    ∀ {Γ' : TEnv}, Sees Γ Γ' e.fv e.direct → ExOk sg ok K Γ' D e t := by
  induction ht with
  | st => intro _ _; exact .st
  | success h1 => intro Γ' h; exact .success (h.val (fun x hx => hx) h1)
  | failure => intro _ _; exact .failure
  | call h1 h2 h2' h3 h4 =>
    intro Γ' h
    exact .call h1 (h.has (fun x hx => by simp [Ex.direct, hx]) h2) (fun m hm t => by rw [h.same m (by simp [Ex.direct, hm])]; exact h2' m hm t) (h.has (fun x hx => by simp [Ex.direct, hx]) h3) (h.has (fun x hx => by simp [Ex.direct, hx]) h4)
  | stmt h1 _ ih =>
    intro Γ' h
    obtain ⟨Δ', k1, k2⟩ := h.stmt h1
    exact .stmt k1 (ih k2)
  | bind _ _ ih1 ih2 =>
    intro Γ' h
    exact .bind (ih1 (h.mono (fun x hx => by simp [Ex.fv, hx]) (fun x hx => by simp [Ex.direct, hx])))
      (ih2 (h.mono (fun x hx => by simp [Ex.fv, hx]) (fun x hx => by simp [Ex.direct, hx])))
  | loop _ h1 h2 _ ih1 ih2 =>
    intro Γ' h
    refine .loop (ih1 (h.mono (fun x hx => by simp [Ex.fv, hx]) (fun x hx => by simp [Ex.direct, hx]))) ?_ ?_
      (ih2 (h.mono (fun x hx => by simp [Ex.fv, hx]) (fun x hx => by simp [Ex.direct, hx])))
    · intro x hx; rw [h.same x (by simp [Ex.direct, hx]), h1 x hx]
    · rw [h.same _ (by simp [Ex.direct]), h2]
  | ite h1 _ _ ih1 ih2 =>
    intro Γ' h
    exact .ite (h.cond (fun x hx => by simp [Ex.direct, hx]) h1) (ih1 (h.mono (fun x hx => by simp [Ex.fv, hx]) (fun x hx => by simp [Ex.direct, hx])))
      (ih2 (h.mono (fun x hx => by simp [Ex.fv, hx]) (fun x hx => by simp [Ex.direct, hx])))
  | ifPrefix _ _ ih1 ih2 =>
    intro Γ' h
    exact .ifPrefix (ih1 (h.mono (fun x hx => by simp [Ex.fv, hx]) (fun x hx => by simp [Ex.direct, hx])))
      (ih2 (h.mono (fun x hx => by simp [Ex.fv, hx]) (fun x hx => by simp [Ex.direct, hx])))
  | matchNext _ _ ih1 ih2 =>
    intro Γ' h
    exact .matchNext (ih1 (h.mono (fun x hx => by simp [Ex.fv, hx]) (fun x hx => by simp [Ex.direct, hx])))
      (ih2 (h.mono (fun x hx => by simp [Ex.fv, hx]) (fun x hx => by simp [Ex.direct, hx])))
  | matchNextVar h0 _ _ ih1 ih2 =>
    intro Γ' h
    exact .matchNextVar h0 (ih1 (Sees.set (h.mono (fun y hy => by simp at hy; simp [Ex.fv, hy]) (fun y hy => by simp at hy; simp [Ex.direct, hy]))))
      (ih2 (h.mono (fun x hx => by simp [Ex.fv, hx]) (fun x hx => by simp [Ex.direct, hx])))
  | matchClass h0 _ _ ih1 ih2 =>
    intro Γ' h
    exact .matchClass h0 (ih1 (Sees.set (h.mono (fun y hy => by simp at hy; simp [Ex.fv, hy]) (fun y hy => by simp at hy; simp [Ex.direct, hy]))))
      (ih2 (h.mono (fun x hx => by simp [Ex.fv, hx]) (fun x hx => by simp [Ex.direct, hx])))

theorem setMany_map (Γ : TEnv) (f : Name → VTy) : ∀ (xs : List Name) (x : Name), Γ.setMany xs (xs.map f) x = if x ∈ xs then some (f x) else Γ x
  | [], x => by simp [TEnv.setMany]
  | y :: xs, x => by
    rw [List.map_cons, TEnv.setMany, TEnv.set, setMany_map Γ f xs x]
    by_cases h : x = y
    · simp [h]
    · simp [h]

theorem direct_fv : ∀ e : Ex, ∀ x ∈ e.direct, x ∈ e.fv := by
  have hst : ∀ s : Stmt, ∀ x ∈ s.direct, x ∈ s.fv := by
    intro s x hx
    cases s <;> simp_all [Stmt.direct, Stmt.fv]
  intro e
  induction e with
  | stmt s e ih =>
    intro x hx
    simp only [Ex.direct, Ex.fv, List.mem_append, List.mem_filter] at hx ⊢
    rcases hx with hx | hx
    · exact .inl (hst s x hx)
    · exact .inr ⟨ih x hx.1, hx.2⟩
  | bind e k ih1 ih2 => intro x hx; simp only [Ex.direct, Ex.fv, List.mem_append] at hx ⊢; grind
  | loop e c m k ih1 ih2 => intro x hx; simp only [Ex.direct, Ex.fv, List.mem_append, List.mem_cons] at hx ⊢; grind
  | ite c e k ih1 ih2 => intro x hx; simp only [Ex.direct, Ex.fv, List.mem_append] at hx ⊢; grind
  | ifPrefix c e k ih1 ih2 => intro x hx; simp only [Ex.direct, Ex.fv, List.mem_append] at hx ⊢; grind
  | matchNext c e k ih1 ih2 => intro x hx; simp only [Ex.direct, Ex.fv, List.mem_append, List.mem_filter] at hx ⊢; grind
  | matchClass c d e k ih1 ih2 => intro x hx; simp only [Ex.direct, Ex.fv, List.mem_append, List.mem_filter] at hx ⊢; grind
  | _ => intro x hx; exact hx

/-- The closures are well typed in Rust. -/
theorem closures_typed {a : Asg} {cs : List Closure} (hc : CloTyped sg a cs) (hs : ∀ c ∈ cs, c.closed = true) (hr : ∀ c ∈ cs, c.refOk = true)
    (hm : ∀ c ∈ cs, ∀ m ∈ c.marks, a.ty m = .stream) :
    ClosuresTyped sg (fun x t => a.ty x = t) (fun _ => none) cs (a.closures cs) := by
  have key : ∀ post pre, cs = pre ++ post → ClosuresTyped sg (fun x t => a.ty x = t) (a.closures pre) post (a.closures cs) := by
    intro post
    induction post with
    | nil => intro pre h; rw [List.append_nil] at h; subst h; exact .nil
    | cons c post ih =>
      intro pre h
      have hmem : c ∈ cs := by rw [h]; simp
      obtain ⟨h1, h2⟩ := hc pre c post h
      have hsig : a.sig c.name = ⟨c.muts.map a.ty, c.vars.map a.ty, c.marks.map a.ty, (a.clo c.name).2⟩ := by rw [Asg.sig, h1]
      refine .cons (sig := a.sig c.name) (by rw [hsig]; simp) (by rw [hsig]; simp) (by rw [hsig]; exact List.map_congr_left (hm c hmem))
        (by rw [hsig]; exact a.okAll _) (by rw [hsig]; exact a.okAll _) (by rw [hsig]; exact a.okAll _) ?_ ?_
      · have henv : (a.sig c.name).env c = fun x => if x ∈ c.muts then some (.mutRef (a.ty x)) else if x ∈ c.vars then some (a.ty x) else
            if x ∈ c.marks then some (a.ty x) else none := by
          funext x
          rw [ClosureSig.env, hsig]
          simp only [List.map_map]
          rw [setMany_map _ (VTy.mutRef ∘ a.ty), setMany_map, setMany_map]
          rfl
        have hret : (a.sig c.name).ret = (a.clo c.name).2 := rfl
        rw [hret]
        have hcl := hs c hmem
        have hre := hr c hmem
        simp only [Closure.closed, Bool.and_eq_true, List.all_eq_true, decide_eq_true_eq, List.mem_append] at hcl
        simp only [Closure.refOk, List.all_eq_true, decide_eq_true_eq] at hre
        refine Sees.ex h2 ⟨?_, ?_⟩
        · intro x hx
          rw [henv]
          have h0 := hcl.1 x hx
          by_cases h3 : x ∈ c.muts
          · right; exact ⟨a.ty x, rfl, a.ty_not_ref x, by simp [h3]⟩
          · left
            simp only [h3, if_false]
            by_cases h4 : x ∈ c.vars
            · simp [h4]; rfl
            · have h5 : x ∈ c.marks := by simp_all
              simp [h4, h5]; rfl
        · intro x hx
          rw [henv]
          have h3 := hre x hx
          have h0 := hcl.1 x (direct_fv _ x hx)
          simp only [h3, if_false]
          by_cases h4 : x ∈ c.vars
          · simp [h4]; rfl
          · have h5 : x ∈ c.marks := by simp_all
            simp [h4, h5]; rfl
      · have hK : (fun k => if k = c.name then some (a.sig c.name) else a.closures pre k) = a.closures (pre ++ [c]) := by
          funext k
          unfold Asg.closures
          by_cases hk : k = c.name
          · subst hk; simp
          · simp [hk]
        rw [hK]
        exact ih (pre ++ [c]) (by rw [h]; simp)
  have := key cs [] rfl
  have h0 : a.closures [] = fun _ => none := by funext k; simp [Asg.closures]
  rwa [h0] at this

/-- A function whose code is well typed and well scoped. -/
theorem fn_ok {a : Asg} {f : Fn} {R : RTy} (hc : CloTyped sg a f.closures) (hb : CodeOk sg a f.closures f.body R) (hs : f.scopeOk = true) (hr : f.refOk = true)
    (hm : ∀ c ∈ f.closures, ∀ m ∈ c.marks, a.ty m = .stream) : FnTyped sg (fun x t => a.ty x = t) f R := by
  simp only [Fn.scopeOk, Bool.and_eq_true, List.all_eq_true, List.isEmpty_iff] at hs
  simp only [Fn.refOk, List.all_eq_true] at hr
  refine ⟨a.closures f.closures, closures_typed hc hs.1 hr hm, Sees.ex hb ⟨?_, ?_⟩⟩
  · rw [hs.2]; simp
  · intro x hx
    have := direct_fv _ x hx
    rw [hs.2] at this; cases this

end

end Oak
