import Verif.Proofs.Program
/-!
The ghost record of calls is not read: two runs from states that differ by this record only, with functions that do not read it, give results that differ by it only.
-/
set_option linter.constructorNameAsVariable false
set_option autoImplicit false

namespace Oak

/-- States that differ at most by the ghost record, which is not shorter in the second one. -/
def SameBut {S D : Type} (a b : PState S D) : Prop := ∃ cs, a.calls.length ≤ cs.length ∧ b = { a with calls := cs }

/-- Results that are related. -/
inductive ResLike {α β : Type} (R : α → β → Prop) : Res α → Res β → Prop where
  | ok {a b} : R a b → ResLike R (.ok a) (.ok b)
  | panic : ResLike R .panic .panic
  | stuck : ResLike R .stuck .stuck
  | timeout : ResLike R .timeout .timeout

theorem ResLike.bind {α β γ δ : Type} {R : α → β → Prop} {Q : γ → δ → Prop} {x : Res α} {y : Res β} {f : α → Res γ} {g : β → Res δ} (h : ResLike R x y)
    (hf : ∀ a b, R a b → ResLike Q (f a) (g b)) : ResLike Q (x >>= f) (y >>= g) := by
  cases h with
  | ok h => exact hf _ _ h
  | panic => exact .panic
  | stuck => exact .stuck
  | timeout => exact .timeout

theorem ResLike.refl {α : Type} (x : Res α) : ResLike Eq x x := by
  cases x with
  | ok => exact .ok rfl
  | panic => exact .panic
  | stuck => exact .stuck
  | timeout => exact .timeout

/-- Results of runs that differ at most by the ghost record. -/
def OutLike {A S D : Type} (x y : A × PState S D) : Prop := x.1 = y.1 ∧ SameBut x.2 y.2

section
variable {S D E : Type} {ops : StreamOps S}

theorem SameBut.mark {a b : PState S D} (h : SameBut a b) : a.mark = b.mark := by obtain ⟨cs, _, rfl⟩ := h; rfl
theorem SameBut.succeeds {a b : PState S D} (h : SameBut a b) : a.isSuccessful = b.isSuccessful := by obtain ⟨cs, _, rfl⟩ := h; rfl
theorem SameBut.fails {a b : PState S D} (h : SameBut a b) : a.isFailed = b.isFailed := by obtain ⟨cs, _, rfl⟩ := h; rfl
theorem SameBut.failure {a b : PState S D} (h : SameBut a b) : SameBut (a.failure : PState S E) b.failure := by obtain ⟨cs, hl, rfl⟩ := h; exact ⟨cs, hl, rfl⟩
theorem SameBut.success {a b : PState S D} (h : SameBut a b) (d : E) : SameBut (a.success d) (b.success d) := by obtain ⟨cs, hl, rfl⟩ := h; exact ⟨cs, hl, rfl⟩
theorem SameBut.discard {a b : PState S D} (h : SameBut a b) : SameBut a.discardData b.discardData := by obtain ⟨cs, hl, rfl⟩ := h; exact ⟨cs, hl, rfl⟩
theorem SameBut.calls {a b : PState S D} (h : SameBut a b) (c : List Val) : SameBut { a with calls := a.calls ++ c } { b with calls := b.calls ++ c } := by
  obtain ⟨cs, hl, rfl⟩ := h; exact ⟨cs ++ c, by simp only [List.length_append]; omega, rfl⟩

theorem SameBut.restore {a b : PState S D} (h : SameBut a b) (m : S) : ResLike SameBut (a.restore m : Res (PState S E)) (b.restore m) := by
  obtain ⟨cs, hl, rfl⟩ := h
  unfold PState.restore
  exact (ResLike.refl _).bind fun _ _ _ => .ok ⟨cs, hl, rfl⟩

theorem SameBut.restoreFromFailure {a b : PState S D} (h : SameBut a b) (m : S) : ResLike SameBut (a.restoreFromFailure m : Res (PState S E)) (b.restoreFromFailure m) := by
  unfold PState.restoreFromFailure
  have : a.failed = b.failed := h.fails
  rw [this]
  exact (ResLike.refl _).bind fun _ _ _ => h.restore m

theorem SameBut.error {a b : PState S D} (h : SameBut a b) (d : String) : ResLike SameBut (a.error ops d) (b.error ops d) := by
  obtain ⟨cs, hl, rfl⟩ := h
  unfold PState.error
  refine (ResLike.refl (ops.cmp a.cur a.far)).bind fun o o' h => ?_
  cases h
  cases o <;> exact .ok ⟨cs, hl, rfl⟩

theorem SameBut.next {a b : PState S D} (h : SameBut a b) : ResLike OutLike (a.next ops) (b.next ops) := by
  obtain ⟨cs, hl, rfl⟩ := h
  unfold PState.next
  refine (ResLike.refl (ops.next a.cur)).bind fun o o' h => ?_
  cases h
  exact .ok ⟨rfl, cs, hl, rfl⟩

theorem SameBut.consumePrefix {a b : PState S D} (h : SameBut a b) (l : String) : ResLike OutLike (a.consumePrefix ops l) (b.consumePrefix ops l) := by
  obtain ⟨cs, hl, rfl⟩ := h
  unfold PState.consumePrefix
  refine (ResLike.refl (ops.consumePrefix l a.cur)).bind fun o o' h => ?_
  cases h
  exact .ok ⟨rfl, cs, hl, rfl⟩

theorem SameBut.extract {a b : PState S D} (h : SameBut a b) : ResLike (fun x y => SameBut x.1 y.1 ∧ x.2 = y.2) (a.extractData : Res (PState S E × D)) b.extractData := by
  obtain ⟨cs, hl, rfl⟩ := h
  unfold PState.extractData PState.isSuccessful PState.isFailed
  dsimp only
  cases a.failed with
  | true => exact .panic
  | false =>
    cases a.data with
    | none => exact .panic
    | some d => exact .ok ⟨⟨cs, hl, rfl⟩, rfl⟩

end

section
variable {σ : Type} {ops : StreamOps σ} {fns fns' : FnRef → PState σ Val → Res (PState σ Val)} {T : Nat → Ty}

abbrev BodyLike (body body' : PState σ Val → Res (Option (List Val) × PState σ Val)) : Prop := ∀ a b, SameBut a b → ResLike OutLike (body a) (body' b)

theorem failed_like {a b : PState σ Val} (h : SameBut a b) (d : String) :
    ResLike OutLike (((a.error ops d : Res (PState σ Val)) >>= fun st => .ok (none, st.failure)) : Res (Option (List Val) × PState σ Val)) ((b.error ops d : Res (PState σ Val)) >>= fun st => .ok (none, st.failure)) :=
  (h.error d).bind fun _ _ h => .ok ⟨rfl, h.failure⟩

theorem runCall_like (hf : ∀ f a b, SameBut a b → ResLike SameBut (fns f a) (fns' f b)) (p : Bool) (i : Nat) (path : Path) : BodyLike (runCall fns T p i path) (runCall fns' T p i path) := by
  intro a b h
  unfold runCall
  split
  · refine (hf _ _ _ h).bind fun a b h => ?_
    rw [h.succeeds]
    split
    · refine h.extract.bind fun x y h => ?_
      obtain ⟨x1, x2⟩ := x
      obtain ⟨y1, y2⟩ := y
      obtain ⟨h1, h2⟩ := h
      dsimp only at h1 h2 ⊢
      rw [h2]
      refine (ResLike.refl _).bind fun w w' hw => ?_
      cases hw
      exact .ok ⟨rfl, h1⟩
    · exact .ok ⟨rfl, h.failure⟩
  · refine (hf _ _ _ h).bind fun a b h => ?_
    rw [h.succeeds]
    split
    · exact .ok ⟨rfl, h.discard⟩
    · exact .ok ⟨rfl, h.failure⟩

theorem runLoop_like {body body' : PState σ Val → Res (Option (List Val) × PState σ Val)} (hb : BodyLike body body') (n : Nat) :
    ∀ k m vs a b, SameBut a b → ResLike (fun x y => x.1 = y.1 ∧ x.2.1 = y.2.1 ∧ x.2.2.1 = y.2.2.1 ∧ SameBut x.2.2.2 y.2.2.2) (runLoop body n k m vs a) (runLoop body' n k m vs b) := by
  induction n with
  | zero => intros; exact .timeout
  | succ n ih =>
    intro k m vs a b h
    simp only [runLoop]
    refine (hb _ _ h).bind fun x y h => ?_
    obtain ⟨o, a⟩ := x
    obtain ⟨o', b⟩ := y
    obtain ⟨h1, h2⟩ := h
    dsimp only at h1 h2
    subst h1
    cases o with
    | none =>
      dsimp only
      rw [h2.succeeds, h2.mark]
      split
      · refine (ResLike.refl _).bind fun m m' hm => ?_
        cases hm
        exact ih _ _ _ _ _ h2
      · exact .ok ⟨rfl, rfl, rfl, h2⟩
    | some ws =>
      dsimp only
      rw [h2.succeeds, h2.mark]
      split
      · refine (ResLike.refl _).bind fun m m' hm => ?_
        cases hm
        exact ih _ _ _ _ _ h2
      · exact .ok ⟨rfl, rfl, rfl, h2⟩

theorem runRepeat_like {body body' : PState σ Val → Res (Option (List Val) × PState σ Val)} (hb : BodyLike body body') (n : Nat) (plus p : Bool) :
    BodyLike (runRepeat n plus p body) (runRepeat n plus p body') := by
  intro a b h
  unfold runRepeat
  rw [h.mark]
  refine (ResLike.refl _).bind fun m m' hm => ?_
  cases hm
  refine (runLoop_like hb n _ _ _ _ _ h).bind fun x y h => ?_
  obtain ⟨k, m1, vs, a⟩ := x
  obtain ⟨k', m2, vs', b⟩ := y
  obtain ⟨h1, h2, h3, h4⟩ := h
  dsimp only at h1 h2 h3 h4 ⊢
  subst h1 h2 h3
  split
  · exact .ok ⟨rfl, h4.failure⟩
  · exact (h4.restoreFromFailure _).bind fun _ _ h => .ok ⟨rfl, h⟩

theorem runOpt_like {body body' : PState σ Val → Res (Option (List Val) × PState σ Val)} (hb : BodyLike body body') (p : Bool) : BodyLike (runOpt p body) (runOpt p body') := by
  intro a b h
  unfold runOpt
  rw [h.mark]
  refine (ResLike.refl _).bind fun m m' hm => ?_
  cases hm
  refine (hb _ _ h).bind fun x y h => ?_
  obtain ⟨o, a⟩ := x
  obtain ⟨o', b⟩ := y
  obtain ⟨h1, h2⟩ := h
  dsimp only at h1 h2 ⊢
  subst h1
  have : ResLike SameBut (restoreIf a m) (restoreIf b m) := by
    unfold restoreIf
    rw [h2.fails]
    split
    · exact h2.restoreFromFailure _
    · exact .ok h2
  exact this.bind fun _ _ h => .ok ⟨rfl, h⟩

theorem runPred_like {body body' : PState σ Val → Res (Option (List Val) × PState σ Val)} (hb : BodyLike body body') (neg : Bool) : BodyLike (runPred neg body) (runPred neg body') := by
  intro a b h
  unfold runPred
  rw [h.mark]
  refine (ResLike.refl _).bind fun m m' hm => ?_
  cases hm
  refine (hb _ _ h).bind fun x y h => ?_
  obtain ⟨o, a⟩ := x
  obtain ⟨o', b⟩ := y
  obtain ⟨h1, h2⟩ := h
  dsimp only at h1 h2 ⊢
  rw [h2.succeeds]
  refine (h2.restore m).bind fun a b h => ?_
  split
  · exact .ok ⟨rfl, h⟩
  · exact .ok ⟨rfl, h.failure⟩

/-- Runs that start from states that differ by the ghost record only. -/
theorem run_like (hf : ∀ f a b, SameBut a b → ResLike SameBut (fns f a) (fns' f b)) (n : Nat) (e : Expr) : ∀ p, BodyLike (run ops fns T n p e) (run ops fns' T n p e) := by
  induction e using Expr.ind with
  | str i l =>
    intro p a b h
    simp only [run]
    refine (h.consumePrefix l).bind fun x y h => ?_
    obtain ⟨o, a⟩ := x
    obtain ⟨o', b⟩ := y
    obtain ⟨h1, h2⟩ := h
    dsimp only at h1 h2 ⊢
    subst h1
    split
    · exact .ok ⟨rfl, h2⟩
    · exact failed_like h2 l
  | any i =>
    intro p a b h
    simp only [run]
    refine h.next.bind fun x y h => ?_
    obtain ⟨o, a⟩ := x
    obtain ⟨o', b⟩ := y
    obtain ⟨h1, h2⟩ := h
    dsimp only at h1 h2
    subst h1
    cases o with
    | some c => exact .ok ⟨rfl, h2⟩
    | none => exact failed_like h2 _
  | cls i ivs =>
    intro p a b h
    simp only [run]
    rw [h.mark]
    refine (ResLike.refl _).bind fun m m' hm => ?_
    cases hm
    refine h.next.bind fun x y h => ?_
    obtain ⟨o, a⟩ := x
    obtain ⟨o', b⟩ := y
    obtain ⟨h1, h2⟩ := h
    dsimp only at h1 h2 ⊢
    subst h1
    split
    · exact .ok ⟨rfl, h2⟩
    · exact (h2.restore m).bind fun _ _ h => failed_like h _
  | nt i r => intro p; simpa only [run] using runCall_like hf p i [r]
  | ext i path => intro p; simpa only [run] using runCall_like hf p i path
  | seq i es ih =>
    intro p
    have key : ∀ es : List Expr, (∀ e ∈ es, ∀ p, BodyLike (run ops fns T n p e) (run ops fns' T n p e)) → ∀ p, BodyLike (runSeq ops fns T n p es) (runSeq ops fns' T n p es) := by
      intro es
      induction es with
      | nil => intro _ p a b h; simp only [runSeq]; exact .ok ⟨rfl, h⟩
      | cons e es ihes =>
        intro ih p a b h
        simp only [runSeq]
        refine (ih e (by simp) p a b h).bind fun x y h => ?_
        obtain ⟨o, a⟩ := x
        obtain ⟨o', b⟩ := y
        obtain ⟨h1, h2⟩ := h
        dsimp only at h1 h2
        subst h1
        cases o with
        | none => exact .ok ⟨rfl, h2⟩
        | some vs =>
          refine (ihes (fun e he => ih e (by simp [he])) p a b h2).bind fun x y h => ?_
          obtain ⟨o, a⟩ := x
          obtain ⟨o', b⟩ := y
          obtain ⟨h1, h2⟩ := h
          dsimp only at h1 h2
          subst h1
          cases o with
          | none => exact .ok ⟨rfl, h2⟩
          | some ws => exact .ok ⟨rfl, h2⟩
    simpa only [run] using key es ih _
  | choice i es ih =>
    intro p a b h
    have key : ∀ es : List Expr, (∀ e ∈ es, ∀ p, BodyLike (run ops fns T n p e) (run ops fns' T n p e)) → ∀ p m, BodyLike (runBranches ops fns T n p m es) (runBranches ops fns' T n p m es) := by
      intro es
      induction es with
      | nil => intro _ p m a b h; simp only [runBranches]; exact .ok ⟨rfl, h⟩
      | cons e es ihes =>
        intro ih p m a b h
        simp only [runBranches]
        refine (ih e (by simp) p a b h).bind fun x y h => ?_
        obtain ⟨o, a⟩ := x
        obtain ⟨o', b⟩ := y
        obtain ⟨h1, h2⟩ := h
        dsimp only at h1 h2
        subst h1
        cases o with
        | some vs => exact .ok ⟨rfl, h2⟩
        | none =>
          dsimp only
          split
          · exact .ok ⟨rfl, h2⟩
          · exact (h2.restoreFromFailure m).bind fun a b h => ihes (fun e he => ih e (by simp [he])) p m a b h
    simp only [run]
    rw [h.mark]
    refine (ResLike.refl _).bind fun m m' hm => ?_
    cases hm
    exact key es ih _ _ _ _ h
  | star i e ih => intro p; simpa only [run] using runRepeat_like (ih _) n false _
  | plus i e ih => intro p; simpa only [run] using runRepeat_like (ih _) n true _
  | opt i e ih => intro p; simpa only [run] using runOpt_like (ih _) _
  | not i e ih => intro p; simpa only [run] using runPred_like (ih false) true
  | and i e ih => intro p; simpa only [run] using runPred_like (ih false) false
  | asc i e t ih => intro p; simpa only [run] using ih _
  | act i e b f ih =>
    intro p a c h
    simp only [run]
    split
    · refine (ih true _ _ h).bind fun x y h => ?_
      obtain ⟨o, a⟩ := x
      obtain ⟨o', b⟩ := y
      obtain ⟨h1, h2⟩ := h
      dsimp only at h1 h2
      subst h1
      cases o with
      | none => exact .ok ⟨rfl, h2⟩
      | some ws => exact .ok ⟨rfl, h2.calls _⟩
    · exact ih false _ _ h
  | span i e ih | range i e ih =>
    intro p a c h
    simp only [run]
    split
    · rw [h.mark]
      refine (ResLike.refl _).bind fun m m' hm => ?_
      cases hm
      refine (ih true _ _ h).bind fun x y h => ?_
      obtain ⟨o, a⟩ := x
      obtain ⟨o', b⟩ := y
      obtain ⟨h1, h2⟩ := h
      dsimp only at h1 h2
      subst h1
      cases o with
      | none => exact .ok ⟨rfl, h2⟩
      | some ws =>
        dsimp only
        rw [h2.mark]
        refine (ResLike.refl _).bind fun m m' hm => ?_
        cases hm
        exact .ok ⟨rfl, h2⟩
    · exact ih false _ _ h

theorem finish_like {x y : Option (List Val) × PState σ Val} (h : OutLike x y) : ResLike SameBut (finish x) (finish y) := by
  obtain ⟨o, a⟩ := x
  obtain ⟨o', b⟩ := y
  obtain ⟨h1, h2⟩ := h
  dsimp only at h1 h2
  subst h1
  cases o with
  | none => exact .ok h2
  | some ws => exact .ok (h2.success _)

end
end Oak
