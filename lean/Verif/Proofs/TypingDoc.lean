import Verif.Proofs.TypingTop
/-!
From the inferred types to the documented types and to Rust types.
-/
set_option linter.constructorNameAsVariable false
set_option autoImplicit false

namespace Oak
namespace Typing

section
variable {A : AGrammar} {k : Nat} {N : Prop} {U : Nat → IType} {T : Nat → Ty}

theorem final_le (h : Final A k N U) {j : Nat} (hj : (U j).settled = true) : j ≤ k := by
  by_cases h0 : j ≤ k
  · exact h0
  · rw [h.out j (by omega)] at hj; cases hj

theorem mapM_ok {α β : Type} {f : α → Res β} {l : List α} (h : ∀ x ∈ l, ∃ y, f x = .ok y) : ∃ ys, l.mapM f = .ok ys :=
  let ⟨ys, h, _⟩ := mapM_res h; ⟨ys, h⟩

theorem compile_all {n : Nat} (is : List Nat) (h : ∀ j ∈ is, ∃ v, ∀ m, n ≤ m → compileType T m j = .ok v) :
    ∃ vs, ∀ m, n ≤ m → is.mapM (fun i => compileType T m i) = .ok vs := by
  induction is with
  | nil => exact ⟨[], fun _ _ => rfl⟩
  | cons j is ih =>
    rw [List.forall_mem_cons] at h
    obtain ⟨v, hv⟩ := h.1
    obtain ⟨vs, hvs⟩ := ih h.2
    exact ⟨v :: vs, fun m hm => by rw [List.mapM_cons, hv m hm, Res.bind_ok, hvs m hm]; rfl⟩

theorem compile_total (h : Final A k N U) (hT : ∀ i, i ≤ k → reduceFinal (U i) = .ok (T i)) {n : Nat} {t : IType} (hd : Dp U n t) :
    ∀ i, i ≤ k → U i = t → ∃ v, ∀ m, n ≤ m → compileType T m i = .ok v := by
  induction hd with
  | @mk n t h1 _ ih =>
    intro i hi ht
    have hTi := hT i hi
    rw [ht] at hTi
    cases t with
    | infer => cases hTi
    | rec_ => cases hTi
    | external =>
      cases hTi' : T i <;> rw [hTi'] at hTi <;> cases hTi
      exact ⟨.rust "_", fun m hm => by cases m with | zero => omega | succ m => simp [compileType, hTi']⟩
    | invisible =>
      cases hTi' : T i <;> rw [hTi'] at hTi <;> cases hTi
      exact ⟨.unit, fun m hm => by cases m with | zero => omega | succ m => simp [compileType, hTi']⟩
    | regular t =>
      have hTi' : T i = t := by cases hTi; rfl
      have hk : ∀ j ∈ (IType.regular t).refs, j ≤ k := fun j hj => final_le h (h1 j hj)
      cases t with
      | unit => exact ⟨.unit, fun m hm => by cases m with | zero => omega | succ m => simp [compileType, hTi']⟩
      | atom => exact ⟨.char, fun m hm => by cases m with | zero => omega | succ m => simp [compileType, hTi']⟩
      | rust x => exact ⟨.rust x, fun m hm => by cases m with | zero => omega | succ m => simp [compileType, hTi']⟩
      | optional j =>
        obtain ⟨v, hv⟩ := ih j (by simp [IType.refs]) j (hk j (by simp [IType.refs])) rfl
        exact ⟨.option v, fun m hm => by cases m with | zero => omega | succ m => simp [compileType, hTi', hv m (by omega)]⟩
      | list j =>
        obtain ⟨v, hv⟩ := ih j (by simp [IType.refs]) j (hk j (by simp [IType.refs])) rfl
        exact ⟨.vec v, fun m hm => by cases m with | zero => omega | succ m => simp [compileType, hTi', hv m (by omega)]⟩
      | tuple is =>
        have hall : ∃ vs, ∀ m, n ≤ m → is.mapM (fun i => compileType T m i) = .ok vs := by
          have : ∀ j ∈ is, ∃ v, ∀ m, n ≤ m → compileType T m j = .ok v := fun j hj =>
            ih j (by simpa [IType.refs] using hj) j (hk j (by simpa [IType.refs] using hj)) rfl
          exact compile_all is this
        obtain ⟨vs, hvs⟩ := hall
        exact ⟨.tuple vs, fun m hm => by
          cases m with
          | zero => omega
          | succ m => simp [compileType, hTi', hvs m (by omega)]⟩

/-- The Rust type is that of the documented type. -/
theorem compile_unf (h : Final A k N U) (hT : ∀ i, i ≤ k → reduceFinal (U i) = .ok (T i)) : ∀ (v : DType) (i m : Nat) (r : RTy), i ≤ k → Unf U v (U i) →
    compileType T m i = .ok r → r = v.toRust := by
  have hki : ∀ {i}, ∀ j ∈ (U i).refs, j ≤ k := fun j hj => final_le h (h.deep.ref hj)
  have leaf : ∀ {i m : Nat} {t : IType} {t' : Ty} {r r' : RTy}, i ≤ k → U i = t → reduceFinal t = .ok t' → (∀ T, T i = t' → ∀ m, compileType T (m + 1) i = .ok r') →
      compileType T m i = .ok r → r = r' := by
    intro i m t t' r r' hi ht h1 h2 h3
    have := hT i hi
    rw [ht, h1] at this
    cases m with
    | zero => cases h3
    | succ m =>
      rw [h2 T (by cases this; rfl) m] at h3
      cases h3; rfl
  refine DType.ind ?_ ?_ ?_ ?_ ?_ ?_ ?_ ?_
  · intro i m r hi hu hc
    exact leaf hi hu rfl (fun T hT m => by simp [compileType, hT, DType.toRust]) hc
  · intro i m r hi hu hc
    exact leaf hi hu rfl (fun T hT m => by simp [compileType, hT, DType.toRust]) hc
  · intro i m r hi hu hc
    exact leaf hi hu rfl (fun T hT m => by simp [compileType, hT, DType.toRust]) hc
  · intro i m r hi hu hc
    exact leaf hi hu rfl (fun T hT m => by simp [compileType, hT, DType.toRust]) hc
  · intro v ih i m r hi hu hc
    obtain ⟨j, h1, h2⟩ := hu
    have := hT i hi
    rw [h1] at this
    have hTi : T i = .list j := by simpa [reduceFinal] using this.symm
    cases m with
    | zero => cases hc
    | succ m =>
      simp only [compileType, hTi] at hc
      obtain ⟨r', h3, h4⟩ := Res.bind_eq_ok hc
      cases h4
      rw [ih j m r' (hki j (by rw [h1]; simp [IType.refs])) h2 h3]; rfl
  · intro v ih i m r hi hu hc
    obtain ⟨j, h1, h2⟩ := hu
    have := hT i hi
    rw [h1] at this
    have hTi : T i = .optional j := by simpa [reduceFinal] using this.symm
    cases m with
    | zero => cases hc
    | succ m =>
      simp only [compileType, hTi] at hc
      obtain ⟨r', h3, h4⟩ := Res.bind_eq_ok hc
      cases h4
      rw [ih j m r' (hki j (by rw [h1]; simp [IType.refs])) h2 h3]; rfl
  · intro vs ih i m r hi hu hc
    obtain ⟨js, h1, h2⟩ := hu
    have := hT i hi
    rw [h1] at this
    have hTi : T i = .tuple js := by simpa [reduceFinal] using this.symm
    cases m with
    | zero => cases hc
    | succ m =>
      simp only [compileType, hTi] at hc
      obtain ⟨rs, h3, h4⟩ := Res.bind_eq_ok hc
      cases h4
      have hjs : ∀ j ∈ js, j ≤ k := fun j hj => hki (i := i) j (by rw [h1]; simpa [IType.refs] using hj)
      rw [DType.toRust]
      congr 1
      clear hc h1 hTi this
      induction vs generalizing js rs with
      | nil =>
        unfold UnfAll at h2
        subst h2
        cases h3; rfl
      | cons v vs ihv =>
        unfold UnfAll at h2
        obtain ⟨j, js', rfl, h5, h6⟩ := h2
        rw [List.forall_mem_cons] at ih hjs
        rw [List.mapM_cons] at h3
        obtain ⟨r1, e1, h3⟩ := Res.bind_eq_ok h3
        obtain ⟨r2, e2, h3⟩ := Res.bind_eq_ok h3
        cases h3
        rw [toRustAll, ih.1 j m r1 hjs.1 h5 e1, ihv ih.2 js' h6 r2 e2 hjs.2]
  · intro s i m r hi hu hc
    exact leaf hi hu rfl (fun T hT m => by simp [compileType, hT, DType.toRust]) hc

/-- All the types are finite. -/
theorem Final.finite (h : Final A k N U) (hT : ∀ i, i ≤ k → reduceFinal (U i) = .ok (T i)) {i : Nat} (hi : i ≤ k) :
    ∃ r, ∀ m, k + 2 ≤ m → compileType T m i = .ok r := by
  obtain ⟨r, hr⟩ := compile_total h hT (h.deep i) i hi rfl
  exact ⟨r, fun m hm => hr m (by have := cnt_le k U; omega)⟩

theorem unit_iff (h : Final A k N U) (hT : ∀ i, i ≤ k → reduceFinal (U i) = .ok (T i)) {i : Nat} (hi : i ≤ k) : T i = .unit ↔ (U i).isUnitKind = true := by
  have h1 := hT i hi
  have h2 := h.typed i hi
  have h3 := h.norec i
  cases hU : U i with
  | infer => exact absurd hU h2
  | rec_ rs => exact absurd hU (h3 rs)
  | external => rw [hU] at h1; simp only [reduceFinal, Res.ok.injEq] at h1; simp [← h1, IType.isUnitKind]
  | invisible => rw [hU] at h1; simp only [reduceFinal, Res.ok.injEq] at h1; simp [← h1, IType.isUnitKind]
  | regular t => rw [hU] at h1; simp only [reduceFinal, Res.ok.injEq] at h1; simp [← h1, IType.isUnitKind]

/-- What is known of the expressions whose value is built. -/
theorem built_doc (H : A.Ready k) (h : Final A k N U) (hT : ∀ i, i ≤ k → reduceFinal (U i) = .ok (T i)) (n : N) {r : String} {b e : Expr}
    (hb : A.grammar.find r = some b) (he : Built T b e) : Occurs A.grammar e ∧ Done A k U false e ∧ RuleDoc A k U e := by
  have hstep : ∀ {e c : Expr}, Occurs A.grammar e → Done A k U false e → RuleDoc A k U e → T e.id ≠ .unit → c ∈ e.zkids →
      Occurs A.grammar c ∧ Done A k U false c ∧ RuleDoc A k U c := by
    intro e c ho hd hr hu hc
    have hlt : e.id ≤ k := Nat.le_of_lt (H.lt ho _ (id_mem_indices e))
    have hnu : ¬ (U e.id).isUnitKind = true := fun h0 => hu ((unit_iff h hT hlt).2 h0)
    refine ⟨ho.kid (zkids_sub hc), ?_, fun x hx => hr x (live_kids.2 (.inr ⟨by simpa using hnu, c, hc, hx⟩))⟩
    cases hd with
    | unit h0 => exact absurd h0 hnu
    | node _ _ h0 => exact h0 c hc
    | act => cases hc
    | asc => cases hc
  induction he with
  | body => exact ⟨.body hb, h.done n r b hb, h.rules n r b hb⟩
  | seq _ hu hc ih => exact hstep ih.1 ih.2.1 ih.2.2 hu hc
  | choice _ hu hc ih => exact hstep ih.1 ih.2.1 ih.2.2 hu hc
  | star _ hu ih => exact hstep ih.1 ih.2.1 ih.2.2 hu (by simp [Expr.zkids, Expr.kids])
  | plus _ hu ih => exact hstep ih.1 ih.2.1 ih.2.2 hu (by simp [Expr.zkids, Expr.kids])
  | opt _ hu ih => exact hstep ih.1 ih.2.1 ih.2.2 hu (by simp [Expr.zkids, Expr.kids])
  | span _ hu ih => exact hstep ih.1 ih.2.1 ih.2.2 hu (by simp [Expr.zkids, Expr.kids])
  | range _ hu ih => exact hstep ih.1 ih.2.1 ih.2.2 hu (by simp [Expr.zkids, Expr.kids])
  | @act i e boxed f _ hu ih =>
    have hlt : i ≤ k := Nat.le_of_lt (H.lt ih.1 i (by simpa [Expr.id] using id_mem_indices (.act i e boxed f)))
    have hnu : ¬ (U i).isUnitKind = true := fun h0 => hu ((unit_iff h hT hlt).2 h0)
    refine ⟨ih.1.kid (by simp [Expr.kids]), ?_⟩
    cases ih.2.1 with
    | unit h0 => exact absurd h0 hnu
    | node h0 => exact absurd rfl (h0 _ _ _ _)
    | act h1 h2 _ => exact ⟨h2, h1⟩

/-- The type of an expression whose value is built. -/
theorem built_type (H : A.Ready k) (h : Final A k N U) (hT : ∀ i, i ≤ k → reduceFinal (U i) = .ok (T i)) (n : N) {r : String} {b e : Expr}
    (hb : A.grammar.find r = some b) (he : Built T b e) : ∃ t, HasType A e t ∧ ∀ m, k + 2 ≤ m → compileType T m e.id = .ok t.toRust := by
  obtain ⟨ho, _, hd⟩ := built_doc H h hT n hb he
  obtain ⟨⟨v, h1, _, h3⟩, _⟩ := hd e .root
  have hlt : e.id ≤ k := Nat.le_of_lt (H.lt ho _ (id_mem_indices e))
  obtain ⟨r, hr⟩ := h.finite hT hlt
  refine ⟨v, h1, fun m hm => ?_⟩
  rw [hr m hm, compile_unf h hT v e.id m r hlt h3 (hr m hm)]

theorem anyRes_false {α : Type} {f : α → Res Bool} {l : List α} (h : anyRes f l = .ok false) : ∀ x ∈ l, f x = .ok false := by
  induction l with
  | nil => simp
  | cons x l ih =>
    rw [anyRes] at h
    obtain ⟨b, h1, h2⟩ := Res.bind_eq_ok h
    cases b with
    | true => cases h2
    | false => exact List.forall_mem_cons.2 ⟨h1, ih h2⟩

/-- The test that types are known. -/
theorem known_of_contains : ∀ (v : DType) (t : IType) (m : Nat), Unf U v t → containsExternal U m t = .ok false → v.known = true := by
  refine DType.ind ?_ ?_ ?_ ?_ ?_ ?_ ?_ ?_
  · intros; rfl
  · intros; rfl
  · intros; rfl
  · intro t m hu hc
    unfold Unf at hu
    subst hu
    cases m <;> cases hc
  · rintro v ih t m ⟨j, rfl, hu⟩ hc
    cases m with
    | zero => cases hc
    | succ m => exact ih _ m hu hc
  · rintro v ih t m ⟨j, rfl, hu⟩ hc
    cases m with
    | zero => cases hc
    | succ m => exact ih _ m hu hc
  · rintro vs ih t m ⟨js, rfl, hu⟩ hc
    cases m with
    | zero => cases hc
    | succ m =>
      rw [containsExternal] at hc
      rw [DType.known, known_all]
      replace hc := anyRes_false hc
      induction vs generalizing js with
      | nil => simp
      | cons v vs ihv =>
        unfold UnfAll at hu
        obtain ⟨j, js', rfl, h5, h6⟩ := hu
        rw [List.forall_mem_cons] at ih hc
        exact List.forall_mem_cons.2 ⟨ih.1 _ m h5 hc.1, ihv ih.2 js' h6 hc.2⟩
  · intros; rfl

end

end Typing
end Oak
