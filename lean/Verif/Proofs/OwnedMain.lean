import Verif.Proofs.OwnedTypes
/-! The generated code uses no moved variable. -/
set_option autoImplicit false
set_option linter.constructorNameAsVariable false

namespace Oak

/-! ### Templates -/

section
variable {κ : Name → Bool} {f g : NameFactory} {S F a b k : Ex} {X Y : Name → Prop}

/-- The template of character classes. -/
theorem Own.cls {p m : Name} {cond : CharCond} {d : String} (hf : f.le g) (hm : g.old m) (ha : Own κ f a X) :
    Own κ g (.stmt (.letMark m) (.matchClass p cond a (.stmt (.restore m) (.stmt (.error d) .failure)))) fun x => X x ∧ x ≠ p := by
  intro M hM
  have hM1 : ∀ x ∈ assigned [m] M, x ∈ M := fun x hx => (mem_assigned.1 hx).1
  obtain ⟨A, h1, h2⟩ := ha (assigned [p] (assigned [m] M)) fun x hx ho => hM x (hM1 x (mem_assigned.1 hx).1) (hf.old ho)
  obtain ⟨B, h3, h4⟩ := useVar_eq (κ := κ) (x := m) (M := assigned [m] M) fun h => by simp [mem_assigned] at h
  refine ⟨_, by simp [Ex.owns, Stmt.owns, h1, h3, Stmt.binds]; rfl, fun x hx => ?_⟩
  simp only [mem_leave, List.mem_append, List.mem_singleton, List.not_mem_nil, mem_assigned] at hx
  rcases hx with ⟨hx | hx, hxm⟩ | ⟨hx, _⟩
  · rcases hx with ⟨hx, hp⟩ | ⟨hx, _⟩
    · rcases h2 x hx with h | h
      · exact .inl (hM1 x (mem_assigned.1 h).1)
      · exact .inr ⟨h, hp⟩
    · exact .inl hx.1
  · have hx : x ∈ B := by simpa using hx
    rcases h4 x hx with h | h
    · exact .inl (hM1 x h)
    · exact absurd h.1 hxm
  · exact .inl hx

/-- The template of predicates. -/
theorem Own.predicate {m : Name} (hf : f.le g) (hn : ¬ f.old m) (hm : g.old m) (ha : Own κ f a X) (hb : Own κ f b X) :
    Own κ g (.stmt .letIsSuccess (.stmt (.restore m) (.ite (.var .isSuccess) a b))) fun x => X x ∨ x = m := by
  intro M hM
  have hM1 : ∀ x ∈ assigned [.isSuccess] M, x ∈ M := fun x hx => (mem_assigned.1 hx).1
  have hmi : m ≠ .isSuccess := by rintro rfl; exact hm
  obtain ⟨M1, h1, h2⟩ := useVar_eq (κ := κ) (x := m) (M := assigned [.isSuccess] M) fun h => hM m (hM1 m h) hm
  have hok : ∀ x ∈ M1, ¬ f.old x := fun x hx ho => by
    rcases h2 x hx with h | ⟨rfl, _⟩
    · exact hM x (hM1 x h) (hf.old ho)
    · exact hn ho
  have hread : readVar .isSuccess M1 = some M1 := readVar_eq fun h => by
    rcases h2 _ h with h | ⟨h, _⟩
    · simp [mem_assigned] at h
    · exact hmi h.symm
  obtain ⟨A, h3, h4⟩ := ha M1 hok
  obtain ⟨B, h5, h6⟩ := hb M1 hok
  refine ⟨_, by simp [Ex.owns, Stmt.owns, Cond.owns, h1, hread, h3, h5, Stmt.binds]; rfl, fun x hx => ?_⟩
  have key : ∀ y, y ∈ M1 ∨ X y → y ∈ M ∨ X y ∨ y = m := fun y hy => by
    rcases hy with hy | hy
    · rcases h2 y hy with h | ⟨h, _⟩
      · exact .inl (hM1 y h)
      · exact .inr (.inr h)
    · exact .inr (.inl hy)
  simp only [mem_leave, List.mem_append, List.mem_singleton, List.not_mem_nil] at hx
  rcases hx with ⟨hx, _⟩ | ⟨hx, _⟩
  · have hx : x ∈ A ∨ x ∈ B := by simpa using hx
    rcases hx with hx | hx
    · exact key x (h4 x hx)
    · exact key x (h6 x hx)
  · exact .inl hx

/-- The template of repetitions. -/
theorem Own.repeat {plus : Bool} {body : Ex} {c : Ctx} (hf : f.le c.names) (hb : Own κ c.names body fun _ => False) (hS : Own κ f S X) :
    Own κ (repeatCode plus body S .failure c).2.names (repeatCode plus body S .failure c).1 X := by
  have hm1 := nextMark_fresh c
  have hm2 := nextMark_old c
  have g1 := (nextMark_adds c).le
  have hend : Own κ c.nextMark.2.names (.stmt (.restoreFailed false c.nextMark.1) S) fun x => X x ∨ x = c.nextMark.1 :=
    (Own.stmt (hf.trans g1) (OwnS.use rfl (fun _ => rfl) hm2) (by rintro x rfl h; exact hm1 (hf.old h)) hS).mono fun x h => h.1
  cases plus
  · refine (Own.stmt0 (.refl _) (.decl fun _ => rfl) (Own.loop (by simp) (hb.le g1) hend)).mono fun x h => ?_
    exact h.1.resolve_right fun he => h.2 (List.mem_singleton.2 he)
  · have g2 := (nextCounter_adds c.nextMark.2).le
    have hk := nextCounter_old c.nextMark.2
    refine (Own.stmt0 (.refl _) (.decl fun _ => rfl) (Own.stmt0 (.refl _) (.decl fun _ => rfl)
      (Own.loop (fun x hx => by rw [Option.mem_toList] at hx; cases hx; exact hk) (hb.le (g1.trans g2)) (Own.iteLt hk (Own.failure.mono fun _ h => h.elim) (hend.le g2))))).mono fun x h => ?_
    exact h.1.1.resolve_right fun he => h.2 (List.mem_singleton.2 he)

/-- The template of options. -/
theorem Own.optional {body : Ex} {c : Ctx} (hf : f.le c.names) (hb : Own κ c.names body fun _ => False) (hS : Own κ f S X) :
    Own κ (optionalCode body S c).2.names (optionalCode body S c).1 X := by
  have hm1 := nextMark_fresh c
  have hm2 := nextMark_old c
  have g1 := (nextMark_adds c).le
  have hend : Own κ c.nextMark.2.names (.stmt (.ifFailedRestore c.nextMark.1) S) fun x => X x ∨ x = c.nextMark.1 :=
    (Own.stmt (hf.trans g1) (OwnS.use rfl (fun _ => rfl) hm2) (by rintro x rfl h; exact hm1 (hf.old h)) hS).mono fun x h => h.1
  refine (Own.stmt0 (.refl _) (.decl fun _ => rfl) (Own.bind (hb.le g1) hend)).mono fun x h => ?_
  exact h.1.resolve_right fun he => h.2 (List.mem_singleton.2 he)

/-- The template of choices. -/
theorem Own.choice {m b : Name} {codes : List Ex} (hm : f.old m) (hb : f.old b) (h : ∀ code ∈ codes, Own κ f code fun _ => False) :
    Own κ f (choiceCode m b codes) fun _ => False := by
  induction codes with
  | nil => exact .st
  | cons code codes ih =>
    rw [List.forall_mem_cons] at h
    refine Own.iteVar hb ((Own.stmt0 (.refl _) (.read hm) (Own.bind h.1 (ih h.2))).mono fun x h => h.1) .st

end

/-! ### The variables of the context -/

/-- The variables in scope are distinct, and known by the factory. -/
structure Distinct (c : Ctx) : Prop where
  nodup : (c.muts ++ c.fv ++ c.marks).Nodup
  old : ∀ x ∈ c.muts ++ c.fv ++ c.marks, c.names.old x

theorem Distinct.sub {c c' : Ctx} (h : Distinct c) (hm : c'.muts.Sublist c.muts) (hf : c'.fv.Sublist c.fv) (hk : c'.marks.Sublist c.marks) (hn : c.names.le c'.names) :
    Distinct c' := by
  have hs := (hm.append hf).append hk
  exact ⟨h.nodup.sublist hs, fun x hx => hn.old (h.old x (hs.subset hx))⟩

theorem Distinct.moves {c c' : Ctx} {n : Nat} (h : Distinct c) (hm : Moves c c' n) (hg : Adds c c') : Distinct c' := by
  obtain ⟨P, hP, _⟩ := hm.fv
  refine h.sub (by rw [hm.muts]; exact .refl _) (by rw [hP]; exact List.sublist_append_left _ _) (by rw [hm.marks]; exact .refl _) hg.le

theorem Distinct.fvOld {c : Ctx} (h : Distinct c) {x : Name} (hx : x ∈ c.fv) : c.names.old x := h.old x (by simp [hx])
theorem Distinct.fvNodup {c : Ctx} (h : Distinct c) : c.fv.Nodup := by
  have := h.nodup
  rw [List.append_assoc, List.nodup_append, List.nodup_append] at this
  exact this.2.1.1

/-- A new scope. -/
theorem Distinct.open {c : Ctx} (h : Distinct c) (n : Nat) {muts : List Name} (hm : muts.Nodup) (ho : ∀ x ∈ muts, c.names.old x) (hk : ∀ x ∈ muts, x ∉ c.marks) :
    Distinct { (c.openScope n).2 with muts := muts } := by
  have hmk : c.marks.Nodup := by
    have := h.nodup
    rw [List.nodup_append] at this
    exact this.2.1
  refine ⟨?_, ?_⟩
  · show (muts ++ freshNames c n ++ c.marks).Nodup
    rw [List.nodup_append, List.nodup_append]
    refine ⟨⟨hm, freshNames_nodup c n, ?_⟩, hmk, ?_⟩
    · rintro x hx y hy rfl; exact freshNames_fresh hy (ho x hx)
    · rintro x hx y hy rfl
      rcases List.mem_append.1 hx with hx | hx
      · exact hk x hx hy
      · exact freshNames_fresh hx (h.old x (by simp [hy]))
  · intro x hx
    have hx : x ∈ muts ++ freshNames c n ++ c.marks := hx
    show (c.openScope n).2.names.old x
    rcases List.mem_append.1 hx with hx | hx
    · rcases List.mem_append.1 hx with hx | hx
      · exact (openScope_le c n).old (ho x hx)
      · exact freshNames_old hx
    · exact (openScope_le c n).old (h.old x (by simp [hx]))

theorem Distinct.pushMut {c c' : Ctx} {b : Name} (h : Distinct c) (h1 : c'.muts = c.muts ++ [b]) (h2 : c'.fv = c.fv) (h3 : c'.marks = c.marks) (hn : c.names.le c'.names)
    (hb : ¬ c.names.old b) (hb' : c'.names.old b) : Distinct c' := by
  have hp : (b :: (c.muts ++ c.fv ++ c.marks)).Perm (c'.muts ++ c'.fv ++ c'.marks) := by
    rw [h1, h2, h3]
    simp only [List.append_assoc]
    simpa using (List.perm_middle (a := b) (l₁ := c.muts) (l₂ := c.fv ++ c.marks)).symm
  refine ⟨hp.nodup_iff.1 (List.nodup_cons.2 ⟨fun hx => hb (h.old b hx), h.nodup⟩), fun x hx => ?_⟩
  rcases List.mem_cons.1 (hp.symm.subset hx) with rfl | hx
  · exact hb'
  · exact hn.old (h.old x hx)

theorem Distinct.pushMark {c c' : Ctx} {m : Name} (h : Distinct c) (h1 : c'.muts = c.muts) (h2 : c'.fv.Sublist c.fv) (h3 : c'.marks = c.marks ++ [m]) (hn : c.names.le c'.names)
    (hb : ¬ c.names.old m) (hb' : c'.names.old m) : Distinct c' := by
  have hs : (c'.muts ++ c'.fv ++ c'.marks).Sublist (c.muts ++ c.fv ++ c.marks ++ [m]) := by
    rw [h1, h3, ← List.append_assoc]
    exact (((List.Sublist.refl _).append h2).append (.refl _)).append (.refl _)
  refine ⟨List.Nodup.sublist hs (List.nodup_append.2 ⟨h.nodup, by simp, ?_⟩), fun x hx => ?_⟩
  · rintro x hx y hy rfl
    rw [List.mem_singleton] at hy
    subst hy
    exact hb (h.old _ hx)
  · rcases List.mem_append.1 (hs.subset hx) with hx | hx
    · exact hn.old (h.old x hx)
    · rw [List.mem_singleton] at hx
      subst hx; exact hb'

/-- The closures made so far use no moved variable. -/
def ClosuresOwn (κ : Name → Bool) (c : Ctx) : Prop := ∀ cl ∈ c.closures, cl.owns κ = true

/-! ### Expressions -/

section
variable {A : AGrammar} {T : Nat → Ty} {ty : Name → VTy} {cp : String → Bool}

/-- The variables whose type is `Copy`. -/
def kappa (ty : Name → VTy) (cp : String → Bool) (x : Name) : Bool := (ty x).copy cp

/-- What is proved of every expression: `Q` are the variables that take its values, `X` those that the continuation moves. -/
def Owns (A : AGrammar) (T : Nat → Ty) (ty : Name → VTy) (cp : String → Bool) (e : Expr) : Prop :=
  ∀ p live S c code c' X Q, sized T p e = true → Apart T (CopyValue A T cp) p live e → compile T p e S .failure c = .ok (code, c') → CodeTyped (A.sigs T) ty code →
    (∀ cl ∈ c'.closures, CodeTyped (A.sigs T) ty cl.body) → Distinct c → (∀ x, X x → kappa ty cp x = false) → Own (kappa ty cp) c.names S X → ClosuresOwn (kappa ty cp) c →
    c.fv = c'.fv ++ Q → (¬ live → (∀ x, X x → x ∈ Q) ∧ ∀ x ∈ c'.fv, kappa ty cp x = true) →
    ClosuresOwn (kappa ty cp) c' ∧ Own (kappa ty cp) c'.names code fun x => X x ∧ x ∉ Q

theorem self_append {L Q : List Name} (h : L = L ++ Q) : Q = [] := by simpa using h

theorem call_owns {e : Expr} {i : Nat} {path : Path} (hcomp : ∀ p S F c, compile T p e S F c = compileCall T p i path S F c) : Owns A T ty cp e := by
  intro p live S c code c' X Q hsz hap h ht hcl hd hX hS hcs hQ hl
  rw [hcomp, compileCall] at h
  split at h
  · obtain ⟨⟨vs, c1⟩, h1, h⟩ := except_bind_eq_ok h
    cases h
    obtain ⟨e1, e2, e3⟩ := nextFreeVars_eq h1
    obtain rfl : Q = vs := List.append_cancel_left (hQ.symm.trans e1)
    have hn : c'.names = c.names := by rw [e2]
    refine ⟨by rw [e2]; exact hcs, ?_⟩
    rw [hn]
    refine (Own.stmt0 (.refl _) (.skip rfl fun _ => rfl) (Own.iteSuccess (Own.stmt0 (.refl _) (.decl fun _ => rfl) hS)
      ((Own.stmt0 (.refl _) (.skip rfl fun _ => rfl) .failure).mono fun x h => h.1.elim))).mono fun x h => h.1
  · cases h
    rw [self_append hQ]
    refine ⟨hcs, (Own.stmt0 (.refl _) (.skip rfl fun _ => rfl) (Own.iteSuccess (Own.stmt0 (.refl _) (.skip rfl fun _ => rfl) hS)
      (Own.failure.mono fun x h => h.elim))).mono fun x h => ⟨h.1.1, by simp⟩⟩

theorem seq_owns (hinv : ∀ e, Inverts A T ty cp e) {es : List Expr} (ih : ∀ e ∈ es, Owns A T ty cp e) {p : Bool} {live : Prop} {S code : Ex} {c c' : Ctx} {X : Name → Prop} {Q : List Name}
    (hsz : sizedAll T p es = true) (hap : ApartSeq T (CopyValue A T cp) p live es) (h : compileSeq T p es S .failure c = .ok (code, c')) (ht : CodeTyped (A.sigs T) ty code)
    (hcl : ∀ cl ∈ c'.closures, CodeTyped (A.sigs T) ty cl.body) (hd : Distinct c) (hX : ∀ x, X x → kappa ty cp x = false) (hS : Own (kappa ty cp) c.names S X)
    (hcs : ClosuresOwn (kappa ty cp) c) (hQ : c.fv = c'.fv ++ Q) (hl : ¬ live → (∀ x, X x → x ∈ Q) ∧ ∀ x ∈ c'.fv, kappa ty cp x = true) :
    ClosuresOwn (kappa ty cp) c' ∧ Own (kappa ty cp) c'.names code fun x => X x ∧ x ∉ Q := by
  induction es generalizing live code c' Q with
  | nil =>
    simp only [compileSeq] at h; cases h
    rw [self_append hQ]
    exact ⟨hcs, hS.mono fun x h => ⟨h, by simp⟩⟩
  | cons e es ihe =>
    rw [compileSeq] at h
    obtain ⟨⟨S1, c1⟩, h1, h⟩ := except_bind_eq_ok h
    obtain ⟨⟨code2, c2⟩, h2, h⟩ := except_bind_eq_ok h
    cases h
    rw [List.forall_mem_cons] at ih
    rw [sizedAll, Bool.and_eq_true] at hsz
    rw [ApartSeq] at hap
    have hcl2 : ∀ cl ∈ c2.closures, CodeTyped (A.sigs T) ty cl.body := hcl
    have hQ2 : c.fv = c2.fv ++ Q := hQ
    have hm1 := seq_moves (fun e' he' => compile_moves T e' p (sizedAll_iff.1 hsz.2 e' he')) h1
    have hm2 := compile_moves T e p hsz.1 _ _ _ _ _ h2
    have g1 := seq_adds (fun e _ => compile_adds T e) h1
    have g2 := compile_adds T e _ _ _ _ _ _ h2
    obtain ⟨Q1, q1, _⟩ := hm1.fv
    obtain ⟨Q2, q2, l2⟩ := hm2.fv
    obtain rfl : Q = Q2 ++ Q1 := List.append_cancel_left (hQ2.symm.trans (by rw [q1, q2, List.append_assoc]))
    obtain ⟨k1, k2⟩ := hinv e _ _ _ _ _ _ hsz.1 h2 ht hcl2
    have hl2 : ¬ live → (∀ x, X x → x ∈ Q2 ++ Q1) ∧ ∀ x ∈ c2.fv, kappa ty cp x = true := hl
    obtain ⟨n1, n2⟩ := ihe ih.2 hsz.2 hap.2 h1 k1 (fun cl h => hcl2 cl (g2.sub cl h)) q1 fun hnl => by
      rw [not_or] at hnl
      obtain ⟨hl1, hl3⟩ := hl2 hnl.1
      have hQc : ∀ x ∈ Q2, kappa ty cp x = true := by
        by_cases hp : p = true
        · refine k2 ?_ _ _ q2 l2
          exact Classical.byContradiction fun hc => hnl.2 ⟨hp, hc⟩
        · rw [Bool.not_eq_true] at hp
          subst hp
          rw [arity_false] at l2
          rw [List.eq_nil_of_length_eq_zero l2]; simp
      refine ⟨fun x hx => ?_, fun x hx => ?_⟩
      · rcases List.mem_append.1 (hl1 x hx) with h | h
        · have := hQc x h; rw [hX x hx] at this; cases this
        · exact h
      · rw [q2] at hx
        rcases List.mem_append.1 hx with h | h
        · exact hl3 x h
        · exact hQc x h
    obtain ⟨n3, n4⟩ := ih.1 _ _ _ _ _ _ _ _ hsz.1 hap.1 h2 ht hcl2 (hd.moves hm1 g1) (fun x h => hX x h.1) n2 n1 q2 fun hnl => by
      obtain ⟨hl1, hl3⟩ := hl2 hnl
      exact ⟨fun x hx => (List.mem_append.1 (hl1 x hx.1)).resolve_right hx.2, hl3⟩
    exact ⟨n3, n4.mono fun x h => ⟨h.1.1, fun hm => (List.mem_append.1 hm).elim h.2 h.1.2⟩⟩

/-- The continuation of a choice. -/
theorem sac_owns {c : Ctx} {S : Ex} {X : Name → Prop} (hd : Distinct c) (hS : Own (kappa ty cp) c.names S X)
    (hcs : ClosuresOwn (kappa ty cp) c) :
    ClosuresOwn (kappa ty cp) (c.successAsClosure S).2 ∧
      Own (kappa ty cp) (c.successAsClosure S).2.names (c.successAsClosure S).1 fun x => X x ∨ (x ∈ c.fv ∧ kappa ty cp x = false) := by
  unfold Ctx.successAsClosure
  split
  · refine ⟨fun cl hcl => ?_, ?_⟩
    · rcases List.mem_append.1 hcl with h | h
      · exact hcs cl h
      · rw [List.mem_singleton] at h
        subst h
        obtain ⟨M', h1, _⟩ := hS [] (by simp)
        simp [Closure.owns, h1]
        simpa using hd.nodup
    · exact (Own.call (κ := kappa ty cp) (f := c.names) hd.nodup hd.old).mono (fun x h => .inr h)
  · exact ⟨hcs, hS.mono fun x h => .inl h⟩

theorem branches_owns {es : List Expr} (ih : ∀ e ∈ es, Owns A T ty cp e) {p : Bool} {b : Name} {S : Ex} {codes : List Ex} {c c' : Ctx} {scope : Ctx.Scope} {X : Name → Prop}
    {Q : List Name} (hsz : sizedAll T p es = true) (har : ∀ e ∈ es, arity T p e = Q.length) (hap : ApartAlts T (CopyValue A T cp) p es)
    (h : compileBranches T p es b S .failure scope c = .ok (codes, c')) (ht : ∀ code ∈ codes, CodeTyped (A.sigs T) ty code) (hcl : ∀ cl ∈ c'.closures, CodeTyped (A.sigs T) ty cl.body)
    (hd : Distinct { c with fv := scope.fv, muts := scope.muts }) (hX : ∀ x, X x → kappa ty cp x = false) (hS : Own (kappa ty cp) c.names S X)
    (hcs : ClosuresOwn (kappa ty cp) c) {L : List Name} (hQ : scope.fv = L ++ Q) (hXQ : ∀ x, X x → x ∈ Q) (hL : ∀ x ∈ L, kappa ty cp x = true) :
    ClosuresOwn (kappa ty cp) c' ∧ ∀ code ∈ codes, Own (kappa ty cp) c'.names code fun _ => False := by
  induction es generalizing c codes with
  | nil => simp [compileBranches] at h
  | cons e es ihe =>
    rw [compileBranches] at h
    rw [List.forall_mem_cons] at ih har
    rw [sizedAll, Bool.and_eq_true] at hsz
    rw [ApartAlts] at hap
    have split : ∀ {c0 c1 : Ctx} {n : Nat}, c0.fv = scope.fv → n = Q.length → Moves c0 c1 n → c1.fv = L := fun hf hn hm => by
      obtain ⟨P, h1, h2⟩ := hm.fv
      rw [hf, hQ] at h1
      exact (List.append_inj' h1 (by rw [h2, hn])).1.symm
    split at h
    · obtain ⟨c1, h1, h⟩ := except_bind_eq_ok h
      obtain ⟨⟨code, c2⟩, h2, h⟩ := except_bind_eq_ok h
      cases h
      have := popMut_eq h1
      subst this
      have hf := split rfl har.1 (compile_moves T e p hsz.1 _ _ _ _ _ h2)
      obtain ⟨k1, k2⟩ := ih.1 _ False _ _ _ _ X Q hsz.1 hap.1 h2 (ht code (by simp)) hcl
        (hd.sub (List.dropLast_sublist _) (.refl _) (.refl _) (.refl _)) hX hS hcs (by rw [hf]; exact hQ) fun _ => ⟨hXQ, by rw [hf]; exact hL⟩
      refine ⟨k1, fun code' hc => ?_⟩
      rw [List.mem_singleton] at hc
      subst hc
      exact k2.mono fun x h => h.2 (hXQ x h.1)
    · obtain ⟨⟨code, c1⟩, h1, h⟩ := except_bind_eq_ok h
      obtain ⟨⟨codes', c2⟩, h2, h⟩ := except_bind_eq_ok h
      cases h
      have g1 := compile_adds T e _ _ _ _ _ _ h1
      have g2 := branches_adds (fun e _ => compile_adds T e) h2
      have hm := compile_moves T e p hsz.1 _ _ _ _ _ h1
      have hf := split rfl har.1 hm
      have hS1 : Own (kappa ty cp) c.names (.stmt (.setFalse b) S) X := (Own.stmt0 (.refl _) .setFalse hS).mono fun x h => h.1
      obtain ⟨k1, k2⟩ := ih.1 _ False _ _ _ _ X Q hsz.1 hap.1 h1 (ht code (by simp)) (fun cl h => hcl cl (g2.sub cl h))
        (hd.sub (.refl _) (.refl _) (.refl _) (.refl _)) hX hS1 hcs (by rw [hf]; exact hQ) fun _ => ⟨hXQ, by rw [hf]; exact hL⟩
      have hd2 : Distinct { c1.incr with fv := scope.fv, muts := scope.muts } :=
        hd.sub (.refl _) (.refl _) (by show c1.marks.Sublist c.marks; rw [hm.marks]; exact .refl _) g1.le
      obtain ⟨k3, k4⟩ := ihe ih.2 hsz.2 har.2 hap.2 h2 (fun code hc => ht code (by simp [hc])) hd2 (hS.le g1.le) k1
      refine ⟨k3, List.forall_mem_cons.2 ⟨?_, k4⟩⟩
      exact (k2.le g2.le).mono fun x h => h.2 (hXQ x h.1)

/-- The body of a repetition or of an option whose value is built. -/
theorem valueConstructor_owns {e : Expr} (ih : Owns A T ty cp e) (hsz : sized T true e = true) (hap : Apart T (CopyValue A T cp) true False e) {vec : Bool} {c c' : Ctx} {body : Ex}
    {r : Name} (h : valueConstructor (compile T true e) (T e.id).card vec c = .ok (body, r, c')) (ht : CodeTyped (A.sigs T) ty body)
    (hcl : ∀ cl ∈ c'.closures, CodeTyped (A.sigs T) ty cl.body) (hd : Distinct c) (hcs : ClosuresOwn (kappa ty cp) c) :
    ClosuresOwn (kappa ty cp) c' ∧ Own (kappa ty cp) c'.names body fun _ => False := by
  unfold valueConstructor at h
  obtain ⟨⟨r1, c1⟩, h1, h⟩ := except_bind_eq_ok h
  obtain ⟨⟨body1, c2⟩, h2, h⟩ := except_bind_eq_ok h
  obtain ⟨c3, h3, h⟩ := except_bind_eq_ok h
  cases h
  obtain ⟨e1, e2⟩ := nextFreeVar_eq h1
  obtain ⟨e3, e4⟩ := closeScope_eq h3
  subst e4
  have hn1 : c1.names = c.names := by rw [e2]
  have hr : c1.names.old r := by rw [hn1]; exact hd.fvOld (by rw [e1]; simp)
  have hd1 : Distinct c1 := hd.sub (by rw [e2]; exact .refl _) (by rw [e1]; exact List.sublist_append_left _ _) (by rw [e2]; exact .refl _) (by rw [hn1]; exact .refl _)
  have hrm : r ∉ c1.marks := by
    have := hd.nodup
    rw [List.nodup_append] at this
    intro hm
    have hm' : r ∈ c.marks := by rw [e2] at hm; exact hm
    exact this.2.2 r (by rw [e1]; simp) r hm' rfl
  have hd2 : Distinct ((c1.openScope (T e.id).card).2.pushMut r) := hd1.open (T e.id).card (muts := [r]) (by simp) (by simpa using hr) (by simpa using hrm)
  have hcs2 : ClosuresOwn (kappa ty cp) ((c1.openScope (T e.id).card).2.pushMut r) := by
    intro cl hcl
    have hcl : cl ∈ c1.closures := hcl
    rw [e2] at hcl
    exact hcs cl hcl
  have hv : OwnV (kappa ty cp) (c1.openScope (T e.id).card).2.names (.tup (freshNames c1 (T e.id).card)) fun x => x ∈ freshNames c1 (T e.id).card ∧ kappa ty cp x = false :=
    OwnV.tup (fun x hx => freshNames_old hx) (freshNames_nodup _ _)
  have hS : Own (kappa ty cp) (c1.openScope (T e.id).card).2.names
      (.stmt (if vec then .push r (.tup (freshNames c1 (T e.id).card)) else .setSome r (.tup (freshNames c1 (T e.id).card))) .st)
      fun x => x ∈ freshNames c1 (T e.id).card ∧ kappa ty cp x = false := by
    refine (Own.stmt (f := c1.names) (openScope_le c1 _) (Y := fun x => x ∈ freshNames c1 (T e.id).card ∧ kappa ty cp x = false) ?_ (fun x hx ho => freshNames_fresh hx.1 ho) .st).mono
      fun x h => h.1.resolve_left id
    cases vec
    · exact .setSome hv
    · exact .push hv ((openScope_le c1 _).old hr) fun h => freshNames_fresh h.1 hr
  obtain ⟨k1, k2⟩ := ih _ False _ _ _ _ _ (freshNames c1 (T e.id).card) hsz hap h2 ht hcl hd2 (fun x h => h.2) hS hcs2
    (by show freshNames c1 (T e.id).card = c2.fv ++ _; rw [show c2.fv = [] from e3]; rfl) fun _ => ⟨fun x h => h.1, by rw [show c2.fv = [] from e3]; simp⟩
  exact ⟨k1, k2.mono fun x h => h.2 h.1.1⟩

/-- The body of a repetition, an option or a predicate that is only recognized. -/
theorem body_owns {e : Expr} (ih : Owns A T ty cp e) {live : Prop} (hap : Apart T (CopyValue A T cp) false live e) {c c' : Ctx} {body : Ex}
    (h : compile T false e .st .failure c = .ok (body, c')) (ht : CodeTyped (A.sigs T) ty body) (hcl : ∀ cl ∈ c'.closures, CodeTyped (A.sigs T) ty cl.body) (hd : Distinct c)
    (hcs : ClosuresOwn (kappa ty cp) c) (hl : ¬ live → ∀ x ∈ c.fv, kappa ty cp x = true) : c'.fv = c.fv ∧
    ClosuresOwn (kappa ty cp) c' ∧ Own (kappa ty cp) c'.names body fun _ => False := by
  have hm := compile_moves T e false (sized_false T e) _ _ _ _ _ h
  obtain ⟨P, h1, h2⟩ := hm.fv
  rw [arity_false] at h2
  rw [List.eq_nil_of_length_eq_zero h2, List.append_nil] at h1
  obtain ⟨k1, k2⟩ := ih _ live _ _ _ _ (fun _ => False) [] (sized_false T e) hap h ht hcl hd (fun _ h => h.elim) .st hcs (by rw [h1]; simp)
    fun hn => ⟨fun _ h => h.elim, by rw [← h1]; exact hl hn⟩
  exact ⟨h1.symm, k1, k2.mono fun x h => h.1⟩

/-- The code of a range or of a span. -/
theorem spanned_owns {e : Expr} (ih : Owns A T ty cp e) {live : Prop} (hsz : sized T true e = true) (har : arity T true e = (T e.id).card) (hap : Apart T (CopyValue A T cp) true live e)
    {v : Name → VEx} (hv : ∀ m M, (v m).owns (kappa ty cp) M = readVar m M) {S code : Ex} {c c1 c2 : Ctx} {r : Name} {X : Name → Prop} {Q : List Name}
    (h1 : c.nextMark.2.nextFreeVarSkip (T e.id).card = .ok (r, c1)) (h2 : compile T true e (.stmt (.letVal r (v c.nextMark.1)) S) .failure (c1.pushMark c.nextMark.1) = .ok (code, c2))
    (ht : CodeTyped (A.sigs T) ty code) (hcl : ∀ cl ∈ c2.closures, CodeTyped (A.sigs T) ty cl.body) (hd : Distinct c) (hX : ∀ x, X x → kappa ty cp x = false)
    (hS : Own (kappa ty cp) c.names S X) (hcs : ClosuresOwn (kappa ty cp) c) (hQ : c.fv = c2.fv ++ Q)
    (hl : ¬ live → (∀ x, X x → x ∈ Q) ∧ ∀ x ∈ c2.fv, kappa ty cp x = true) :
    ClosuresOwn (kappa ty cp) c2 ∧ Own (kappa ty cp) c2.names (.stmt (.letMark c.nextMark.1) code) fun x => X x ∧ x ∉ Q := by
  obtain ⟨B, C, e1, e2, e3⟩ := nextFreeVarSkip_eq h1
  have e1' : c.fv = B ++ r :: C := e1
  have hm := compile_moves T e true hsz _ _ _ _ _ h2
  obtain ⟨P, p1, p2⟩ := hm.fv
  have p1' : B ++ C = c2.fv ++ P := by rw [← p1, e3]; rfl
  obtain ⟨hB, rfl⟩ := List.append_inj' p1' (by omega)
  rw [← hB] at hQ
  obtain rfl : Q = r :: C := List.append_cancel_left (hQ.symm.trans e1')
  have hn : c1.names = c.nextMark.2.names := by rw [e3]
  have g1 := (nextMark_adds c).le
  have hS1 : Own (kappa ty cp) (c1.pushMark c.nextMark.1).names (.stmt (.letVal r (v c.nextMark.1)) S) fun x => X x ∧ x ≠ r := by
    show Own (kappa ty cp) c1.names _ _
    rw [hn]
    exact (Own.stmt0 g1 (.letVal (OwnV.read hv (nextMark_old c))) hS).mono fun x h => ⟨h.1, by simpa [Stmt.binds] using h.2⟩
  have hd1 : Distinct (c1.pushMark c.nextMark.1) := by
    refine hd.pushMark (m := c.nextMark.1) (by rw [e3]; rfl) ?_ (by rw [e3]; rfl) (by show c.names.le c1.names; rw [hn]; exact g1) (nextMark_fresh c)
      (by show c1.names.old _; rw [hn]; exact nextMark_old c)
    show c1.fv.Sublist c.fv
    rw [e3, e1']
    exact (List.Sublist.refl B).append (List.sublist_cons_self _ _)
  have hcs1 : ClosuresOwn (kappa ty cp) (c1.pushMark c.nextMark.1) := by
    intro cl hcl
    have hcl : cl ∈ c1.closures := hcl
    rw [e3] at hcl
    exact hcs cl hcl
  obtain ⟨k1, k2⟩ := ih _ live _ _ _ _ _ C hsz hap h2 ht hcl hd1 (fun x h => hX x h.1) hS1 hcs1 p1 fun hn => by
    obtain ⟨l1, l2⟩ := hl hn
    refine ⟨fun x hx => ?_, l2⟩
    rcases List.mem_cons.1 (l1 x hx.1) with h | h
    · exact absurd h hx.2
    · exact h
  refine ⟨k1, (Own.stmt0 (.refl _) (.decl fun _ => rfl) k2).mono fun x h => ⟨h.1.1.1, ?_⟩⟩
  simp only [List.mem_cons, not_or]
  exact ⟨h.1.1.2, h.1.2⟩

/-- The code of an expression uses no moved variable. -/
theorem compile_owns (hinv : ∀ e, Inverts A T ty cp e) (e : Expr) : Owns A T ty cp e := by
  induction e using Expr.ind with
  | str i l =>
    intro p live S c code c' X Q hsz hap h ht hcl hd hX hS hcs hQ hl
    rw [compile] at h; cases h
    rw [self_append hQ]
    refine ⟨hcs, (Own.ifPrefix hS ?_).mono fun x h => ⟨h, by simp⟩⟩
    exact (Own.stmt0 (.refl _) (.skip rfl fun _ => rfl) .failure).mono fun x h => h.1.elim
  | any i =>
    intro p live S c code c' X Q hsz hap h ht hcl hd hX hS hcs hQ hl
    rw [compile] at h
    have hF : Own (kappa ty cp) c.names (.stmt (.error "<character>") .failure) fun _ => False := (Own.stmt0 (.refl _) (.skip rfl fun _ => rfl) .failure).mono fun x h => h.1
    split at h
    · obtain ⟨⟨v, c1⟩, h1, h⟩ := except_bind_eq_ok h
      cases h
      obtain ⟨e1, e2⟩ := nextFreeVar_eq h1
      obtain rfl : Q = [v] := List.append_cancel_left (hQ.symm.trans e1)
      refine ⟨by rw [e2]; exact hcs, ?_⟩
      rw [show c'.names = c.names by rw [e2]]
      exact Own.matchNext hS hF
    · cases h
      rw [self_append hQ]
      exact ⟨hcs, Own.matchNext hS hF⟩
  | cls i ivs =>
    intro p live S c code c' X Q hsz hap h ht hcl hd hX hS hcs hQ hl
    rw [compile] at h
    split at h
    · obtain ⟨⟨v, c1⟩, h1, h⟩ := except_bind_eq_ok h
      obtain ⟨cond, h2, h⟩ := except_bind_eq_ok h
      cases h
      obtain ⟨e1, e2⟩ := nextFreeVar_eq h1
      obtain rfl : Q = [v] := List.append_cancel_left (hQ.symm.trans e1)
      have hS1 : Own (kappa ty cp) c1.names S X := by rw [show c1.names = c.names by rw [e2]]; exact hS
      have hk := Own.cls (p := v) (cond := cond) (d := classDesc ivs) (nextMark_adds c1).le (nextMark_old c1) hS1
      exact ⟨fun cl hcl => hcs cl (by have hcl : cl ∈ c1.closures := hcl; rw [e2] at hcl; exact hcl), hk.mono fun x h => ⟨h.1, by simpa using h.2⟩⟩
    · obtain ⟨⟨v, c1⟩, h1, h⟩ := except_bind_eq_ok h
      cases h1
      obtain ⟨cond, h2, h⟩ := except_bind_eq_ok h
      cases h
      rw [self_append hQ]
      have hk := Own.cls (p := .x) (cond := cond) (d := classDesc ivs) (nextMark_adds c).le (nextMark_old c) hS
      exact ⟨hcs, hk.mono fun x h => ⟨h.1, by simp⟩⟩
  | nt i r => exact call_owns (i := i) (path := [r]) fun _ _ _ _ => by rw [compile]
  | ext i f => exact call_owns (i := i) (path := f) fun _ _ _ _ => by rw [compile]
  | seq i es ih =>
    intro p live S c code c' X Q hsz hap h ht hcl hd hX hS hcs hQ hl
    rw [compile] at h
    rw [sized] at hsz
    rw [Apart] at hap
    exact seq_owns hinv ih hsz hap h ht hcl hd hX hS hcs hQ hl
  | choice i es ih =>
    intro p live S c code c' X Q hsz hap h ht hcl hd hX hS hcs hQ hl
    have hmv := compile_moves T _ p hsz _ _ _ _ _ h
    rw [compile] at h
    rw [sized, Bool.and_eq_true] at hsz
    rw [Apart] at hap
    obtain ⟨⟨brs, c1⟩, h1, h⟩ := except_bind_eq_ok h
    cases brs with
    | nil => cases h
    | cons b brs =>
      cases h
      have hb := ht.stmt.stmt.bind
      obtain ⟨hl1, hl2⟩ := hl hap.1
      obtain ⟨s1, s2, s3, _⟩ := successAsClosure_ctx c S
      obtain ⟨k1, k2⟩ := sac_owns hd hS hcs
      have gs := successAsClosure_adds c S
      have g1 := nextMark_adds (c.successAsClosure S).2
      have g2 := nextBranchFailed_adds (c.successAsClosure S).2.nextMark.2
      have g12 := g1.trans g2
      have gb := branches_adds (fun e _ => compile_adds T e) h1
      obtain ⟨P, p1, p2⟩ := hmv.fv
      obtain rfl : Q = P := List.append_cancel_left (hQ.symm.trans p1)
      have hd0 : Distinct (c.successAsClosure S).2 := hd.sub (by rw [s2]; exact .refl _) (by rw [s1]; exact .refl _) (by rw [s3]; exact .refl _) gs.le
      have hd1 := hd0.pushMut (c' := (c.successAsClosure S).2.nextMark.2.nextBranchFailed.2.pushMut (c.successAsClosure S).2.nextMark.2.nextBranchFailed.1)
        (b := (c.successAsClosure S).2.nextMark.2.nextBranchFailed.1) rfl rfl rfl g12.le (nextBranchFailed_fresh (c.successAsClosure S).2.nextMark.2)
        (nextBranchFailed_old (c.successAsClosure S).2.nextMark.2)
      have hX1 : ∀ x, (X x ∨ x ∈ c.fv ∧ kappa ty cp x = false) → x ∈ Q := fun x hx => by
        rcases hx with hx | hx
        · exact hl1 x hx
        · have h0 := hx.1
          rw [hQ] at h0
          rcases List.mem_append.1 h0 with h0 | h0
          · have := hl2 x h0; rw [hx.2] at this; cases this
          · exact h0
      obtain ⟨n1, n2⟩ := branches_owns ih (Q := Q) (L := c'.fv) hsz.1 (fun e he => by rw [p2, arity]; exact sameArity_iff.1 hsz.2 e he) hap.2 h1
        (List.forall_mem_cons.2 ⟨hb.1, choiceCode_typed hb.2⟩) hcl hd1 (fun x h => h.elim (hX x) And.right) (k2.le g12.le) k1
        (s1.trans hQ) hX1 hl2
      rw [List.forall_mem_cons] at n2
      have hm : c'.names.old (c.successAsClosure S).2.nextMark.1 := gb.le.old (g2.le.old (nextMark_old _))
      have hbf : c'.names.old (c.successAsClosure S).2.nextMark.2.nextBranchFailed.1 := gb.le.old (nextBranchFailed_old _)
      refine ⟨n1, (Own.stmt0 (.refl _) (.decl fun _ => rfl) (Own.stmt0 (.refl _) (.decl fun _ => rfl) (Own.bind n2.1 (Own.choice hm hbf n2.2)))).mono fun x h => h.1.1.elim⟩
  | star i e ih =>
    intro p live S c code c' X Q hsz hap h ht hcl hd hX hS hcs hQ hl
    rw [compile] at h
    rw [Apart] at hap
    split at h
    · rename_i hp
      rw [sized, hp, Bool.not_true, Bool.false_or, Bool.and_eq_true] at hsz
      rw [if_pos hp] at hap
      obtain ⟨⟨body, r, c1⟩, h1, h⟩ := except_bind_eq_ok h
      cases h
      obtain ⟨k1, k2⟩ := repeat_typed (plus := false) (body := body) (S := S) (F := .failure) (c := c1) ht.stmt
      obtain ⟨e1, _, _⟩ := valueConstructor_moves (compile_moves T e true hsz.1) h1
      obtain rfl : Q = [r] := List.append_cancel_left (hQ.symm.trans e1)
      obtain ⟨n1, n2⟩ := valueConstructor_owns ih hsz.1 hap h1 k1 hcl hd hcs
      have g := valueConstructor_adds (compile_adds T e true) h1
      have := Own.repeat (plus := false) g.le n2 hS
      exact ⟨n1, Own.stmt0 (.refl _) (.decl fun _ => rfl) this⟩
    · rename_i hp
      rw [if_neg hp] at hap
      obtain ⟨⟨body, c1⟩, h1, h⟩ := except_bind_eq_ok h
      cases h
      obtain ⟨k1, k2⟩ := repeat_typed (plus := false) (body := body) (S := S) (F := .failure) (c := c1.incr) ht
      have hm := compile_moves T e false (sized_false T e) _ _ _ _ _ h1
      have hQ1 : c.fv = c1.fv ++ Q := hQ
      have hl1 : ¬ live → (∀ x, X x → x ∈ Q) ∧ ∀ x ∈ c1.fv, kappa ty cp x = true := hl
      have hQ0 : Q = [] := by
        obtain ⟨P, p1, p2⟩ := hm.fv
        rw [arity_false] at p2
        rw [List.append_cancel_left (hQ1.symm.trans p1)]
        exact List.eq_nil_of_length_eq_zero p2
      subst hQ0
      rw [List.append_nil] at hQ1
      obtain ⟨_, n1, n2⟩ := body_owns ih hap h1 k1 hcl hd hcs fun hn => by rw [hQ1]; exact (hl1 hn).2
      have g := compile_adds T e _ _ _ _ _ _ h1
      have := Own.repeat (plus := false) (c := c1.incr) (S := S) (X := X) g.le n2 hS
      exact ⟨n1, this.mono fun x h => ⟨h, by simp⟩⟩
  | plus i e ih =>
    intro p live S c code c' X Q hsz hap h ht hcl hd hX hS hcs hQ hl
    rw [compile] at h
    rw [Apart] at hap
    split at h
    · rename_i hp
      rw [sized, hp, Bool.not_true, Bool.false_or, Bool.and_eq_true] at hsz
      rw [if_pos hp] at hap
      obtain ⟨⟨body, r, c1⟩, h1, h⟩ := except_bind_eq_ok h
      cases h
      obtain ⟨k1, k2⟩ := repeat_typed (plus := true) (body := body) (S := S) (F := .failure) (c := c1) ht.stmt
      obtain ⟨e1, _, _⟩ := valueConstructor_moves (compile_moves T e true hsz.1) h1
      obtain rfl : Q = [r] := List.append_cancel_left (hQ.symm.trans e1)
      obtain ⟨n1, n2⟩ := valueConstructor_owns ih hsz.1 hap h1 k1 hcl hd hcs
      have g := valueConstructor_adds (compile_adds T e true) h1
      have := Own.repeat (plus := true) g.le n2 hS
      exact ⟨n1, Own.stmt0 (.refl _) (.decl fun _ => rfl) this⟩
    · rename_i hp
      rw [if_neg hp] at hap
      obtain ⟨⟨body, c1⟩, h1, h⟩ := except_bind_eq_ok h
      cases h
      obtain ⟨k1, k2⟩ := repeat_typed (plus := true) (body := body) (S := S) (F := .failure) (c := c1.incr) ht
      have hm := compile_moves T e false (sized_false T e) _ _ _ _ _ h1
      have hQ1 : c.fv = c1.fv ++ Q := hQ
      have hl1 : ¬ live → (∀ x, X x → x ∈ Q) ∧ ∀ x ∈ c1.fv, kappa ty cp x = true := hl
      have hQ0 : Q = [] := by
        obtain ⟨P, p1, p2⟩ := hm.fv
        rw [arity_false] at p2
        rw [List.append_cancel_left (hQ1.symm.trans p1)]
        exact List.eq_nil_of_length_eq_zero p2
      subst hQ0
      rw [List.append_nil] at hQ1
      obtain ⟨_, n1, n2⟩ := body_owns ih hap h1 k1 hcl hd hcs fun hn => by rw [hQ1]; exact (hl1 hn).2
      have g := compile_adds T e _ _ _ _ _ _ h1
      have := Own.repeat (plus := true) (c := c1.incr) (S := S) (X := X) g.le n2 hS
      exact ⟨n1, this.mono fun x h => ⟨h, by simp⟩⟩
  | opt i e ih =>
    intro p live S c code c' X Q hsz hap h ht hcl hd hX hS hcs hQ hl
    rw [compile] at h
    rw [Apart] at hap
    split at h
    · rename_i hp
      rw [sized, hp, Bool.not_true, Bool.false_or, Bool.and_eq_true] at hsz
      rw [if_pos hp] at hap
      obtain ⟨⟨body, r, c1⟩, h1, h⟩ := except_bind_eq_ok h
      cases h
      obtain ⟨k1, k2⟩ := optional_typed (body := body) (S := S) (c := c1) ht.stmt
      obtain ⟨e1, _, _⟩ := valueConstructor_moves (compile_moves T e true hsz.1) h1
      obtain rfl : Q = [r] := List.append_cancel_left (hQ.symm.trans e1)
      obtain ⟨n1, n2⟩ := valueConstructor_owns ih hsz.1 hap h1 k1 hcl hd hcs
      have g := valueConstructor_adds (compile_adds T e true) h1
      have := Own.optional g.le n2 hS
      exact ⟨n1, Own.stmt0 (.refl _) (.decl fun _ => rfl) this⟩
    · rename_i hp
      rw [if_neg hp] at hap
      obtain ⟨⟨body, c1⟩, h1, h⟩ := except_bind_eq_ok h
      cases h
      obtain ⟨k1, k2⟩ := optional_typed (body := body) (S := S) (c := c1.incr) ht
      have hm := compile_moves T e false (sized_false T e) _ _ _ _ _ h1
      have hQ1 : c.fv = c1.fv ++ Q := hQ
      have hl1 : ¬ live → (∀ x, X x → x ∈ Q) ∧ ∀ x ∈ c1.fv, kappa ty cp x = true := hl
      have hQ0 : Q = [] := by
        obtain ⟨P, p1, p2⟩ := hm.fv
        rw [arity_false] at p2
        rw [List.append_cancel_left (hQ1.symm.trans p1)]
        exact List.eq_nil_of_length_eq_zero p2
      subst hQ0
      rw [List.append_nil] at hQ1
      obtain ⟨_, n1, n2⟩ := body_owns ih hap h1 k1 hcl hd hcs fun hn => by rw [hQ1]; exact (hl1 hn).2
      have g := compile_adds T e _ _ _ _ _ _ h1
      have := Own.optional (c := c1.incr) (S := S) (X := X) g.le n2 hS
      exact ⟨n1, this.mono fun x h => ⟨h, by simp⟩⟩
  | not i e ih =>
    intro p live S c code c' X Q hsz hap h ht hcl hd hX hS hcs hQ hl
    rw [compile] at h
    rw [Apart] at hap
    split at h
    · cases h
    · obtain ⟨⟨body, c1⟩, h1, h⟩ := except_bind_eq_ok h
      cases h
      have hm := compile_moves T e false (sized_false T e) _ _ _ _ _ h1
      have hQ1 : c.fv = c1.fv ++ Q := hQ
      have hl1 : ¬ live → (∀ x, X x → x ∈ Q) ∧ ∀ x ∈ c1.fv, kappa ty cp x = true := hl
      have hQ0 : Q = [] := by
        obtain ⟨P, p1, p2⟩ := hm.fv
        rw [arity_false] at p2
        have p1 : c.fv = c1.fv ++ P := p1
        rw [List.append_cancel_left (hQ1.symm.trans p1)]
        exact List.eq_nil_of_length_eq_zero p2
      subst hQ0
      rw [List.append_nil] at hQ1
      have g0 := (nextMark_adds c).le
      have hd0 : Distinct c.nextMark.2 := hd.sub (.refl _) (.refl _) (.refl _) g0
      obtain ⟨_, n1, n2⟩ := body_owns ih hap h1 ht.stmt.bind.1 hcl hd0 hcs fun hn => by
        show ∀ x ∈ c.fv, _
        rw [hQ1]; exact (hl1 hn).2
      have g := (compile_adds T e _ _ _ _ _ _ h1).le
      refine ⟨n1, (Own.stmt0 (.refl _) (.decl fun _ => rfl) (Own.bind n2 (Own.predicate (g0.trans g) (nextMark_fresh c) (g.old (nextMark_old c))
        (Own.failure.mono fun _ h => h.elim) hS))).mono fun x h => ⟨h.1.resolve_right fun he => h.2 (List.mem_singleton.2 he), by simp⟩⟩
  | and i e ih =>
    intro p live S c code c' X Q hsz hap h ht hcl hd hX hS hcs hQ hl
    rw [compile] at h
    rw [Apart] at hap
    split at h
    · cases h
    · obtain ⟨⟨body, c1⟩, h1, h⟩ := except_bind_eq_ok h
      cases h
      have hm := compile_moves T e false (sized_false T e) _ _ _ _ _ h1
      have hQ1 : c.fv = c1.fv ++ Q := hQ
      have hl1 : ¬ live → (∀ x, X x → x ∈ Q) ∧ ∀ x ∈ c1.fv, kappa ty cp x = true := hl
      have hQ0 : Q = [] := by
        obtain ⟨P, p1, p2⟩ := hm.fv
        rw [arity_false] at p2
        have p1 : c.fv = c1.fv ++ P := p1
        rw [List.append_cancel_left (hQ1.symm.trans p1)]
        exact List.eq_nil_of_length_eq_zero p2
      subst hQ0
      rw [List.append_nil] at hQ1
      have g0 := (nextMark_adds c).le
      have hd0 : Distinct c.nextMark.2 := hd.sub (.refl _) (.refl _) (.refl _) g0
      obtain ⟨_, n1, n2⟩ := body_owns ih hap h1 ht.stmt.bind.1 hcl hd0 hcs fun hn => by
        show ∀ x ∈ c.fv, _
        rw [hQ1]; exact (hl1 hn).2
      have g := (compile_adds T e _ _ _ _ _ _ h1).le
      refine ⟨n1, (Own.stmt0 (.refl _) (.decl fun _ => rfl) (Own.bind n2 (Own.predicate (g0.trans g) (nextMark_fresh c) (g.old (nextMark_old c))
        hS (Own.failure.mono fun _ h => h.elim)))).mono fun x h => ⟨h.1.resolve_right fun he => h.2 (List.mem_singleton.2 he), by simp⟩⟩
  | act i e boxed f ih =>
    intro p live S c code c' X Q hsz hap h ht hcl hd hX hS hcs hQ hl
    rw [compile] at h
    rw [Apart] at hap
    split at h
    · rename_i hp
      rw [sized, hp, Bool.not_true, Bool.false_or, Bool.and_eq_true] at hsz
      rw [hp] at hap
      obtain ⟨⟨r, c1⟩, h1, h⟩ := except_bind_eq_ok h
      obtain ⟨⟨code1, c2⟩, h2, h⟩ := except_bind_eq_ok h
      obtain ⟨c3, h3, h⟩ := except_bind_eq_ok h
      cases h
      obtain ⟨e1, e2⟩ := nextFreeVar_eq h1
      obtain ⟨e3, e4⟩ := closeScope_eq h3
      subst e4
      have e3 : c2.fv = [] := e3
      have hQ1 : c.fv = c1.fv ++ Q := hQ
      obtain rfl : Q = [r] := List.append_cancel_left (hQ1.symm.trans e1)
      have hn1 : c1.names = c.names := by rw [e2]
      have hl1 : ¬ live → (∀ x, X x → x ∈ [r]) ∧ ∀ x ∈ c1.fv, kappa ty cp x = true := hl
      have hd1 : Distinct c1 := hd.sub (by rw [e2]; exact .refl _) (by rw [e1]; exact List.sublist_append_left _ _) (by rw [e2]; exact .refl _) (by rw [hn1]; exact .refl _)
      have hd2 : Distinct (c1.openScope (T e.id).card).2 := hd1.open (T e.id).card (muts := []) (by simp) (by simp) (by simp)
      have hcs2 : ClosuresOwn (kappa ty cp) (c1.openScope (T e.id).card).2 := by
        intro cl hcl
        have hcl : cl ∈ c1.closures := hcl
        rw [e2] at hcl
        exact hcs cl hcl
      have hS1 : Own (kappa ty cp) (c1.openScope (T e.id).card).2.names
          (.stmt (.letVal r (actionCall boxed f (T e.id = .unit) (freshNames c1 (T e.id).card))) S)
          fun x => (X x ∨ (x ∈ freshNames c1 (T e.id).card ∧ kappa ty cp x = false)) ∧ x ≠ r :=
        (Own.stmt (f := c1.names) (openScope_le c1 _) (.letVal (OwnV.action (fun x hx => freshNames_old hx) (freshNames_nodup _ _) boxed f (T e.id = .unit)))
          (fun x hx ho => freshNames_fresh hx.1 ho) (by rw [hn1]; exact hS)).mono fun x h => ⟨h.1, by simpa [Stmt.binds] using h.2⟩
      obtain ⟨k1, k2⟩ := ih _ live _ _ _ _ _ (freshNames c1 (T e.id).card) hsz.1 hap h2 ht hcl hd2 (fun x h => h.1.elim (hX x) And.right) hS1 hcs2 (by rw [e3]; rfl) fun hn => by
        refine ⟨fun x hx => ?_, by rw [e3]; simp⟩
        rcases hx.1 with h | h
        · exact absurd (List.mem_singleton.1 ((hl1 hn).1 x h)) hx.2
        · exact h.1
      refine ⟨k1, k2.mono fun x h => ?_⟩
      rcases h.1.1 with h' | h'
      · exact ⟨h', by simpa using h.1.2⟩
      · exact absurd h'.1 h.2
    · rename_i hp
      rw [Bool.not_eq_true] at hp
      rw [hp] at hap
      exact ih _ _ _ _ _ _ _ _ (sized_false T e) hap h ht hcl hd hX hS hcs hQ hl
  | asc i e t ih =>
    intro p live S c code c' X Q hsz hap h ht hcl hd hX hS hcs hQ hl
    rw [compile] at h
    rw [sized] at hsz
    rw [Apart] at hap
    exact ih _ _ _ _ _ _ _ _ hsz hap h ht hcl hd hX hS hcs hQ hl
  | span i e ih =>
    intro p live S c code c' X Q hsz hap h ht hcl hd hX hS hcs hQ hl
    rw [compile] at h
    rw [Apart] at hap
    split at h
    · rename_i hp
      rw [sized, hp, Bool.not_true, Bool.false_or, Bool.and_eq_true] at hsz
      rw [hp] at hap
      obtain ⟨⟨r, c1⟩, h1, h⟩ := except_bind_eq_ok h
      obtain ⟨⟨code1, c2⟩, h2, h⟩ := except_bind_eq_ok h
      cases h
      have := spanned_owns (c2 := c2) (S := S) (X := X) (Q := Q) ih hsz.1 (by simpa using hsz.2) hap (v := .span) (fun _ _ => rfl) h1 h2 ht.stmt hcl hd hX hS hcs hQ hl
      exact this
    · rename_i hp
      rw [Bool.not_eq_true] at hp
      rw [hp] at hap
      exact ih _ _ _ _ _ _ _ _ (sized_false T e) hap h ht hcl hd hX hS hcs hQ hl
  | range i e ih =>
    intro p live S c code c' X Q hsz hap h ht hcl hd hX hS hcs hQ hl
    rw [compile] at h
    rw [Apart] at hap
    split at h
    · rename_i hp
      rw [sized, hp, Bool.not_true, Bool.false_or, Bool.and_eq_true] at hsz
      rw [hp] at hap
      obtain ⟨⟨r, c1⟩, h1, h⟩ := except_bind_eq_ok h
      obtain ⟨⟨code1, c2⟩, h2, h⟩ := except_bind_eq_ok h
      cases h
      have := spanned_owns (c2 := c2) (S := S) (X := X) (Q := Q) ih hsz.1 (by simpa using hsz.2) hap (v := .range) (fun _ _ => rfl) h1 h2 ht.stmt hcl hd hX hS hcs hQ hl
      exact this
    · rename_i hp
      rw [Bool.not_eq_true] at hp
      rw [hp] at hap
      exact ih _ _ _ _ _ _ _ _ (sized_false T e) hap h ht hcl hd hX hS hcs hQ hl

end

end Oak
