import Verif.Proofs.CompOcc
/-! The references of the closures: the check of the generated code is the check of the expression. -/
set_option autoImplicit false
set_option linter.constructorNameAsVariable false

namespace Oak

/-! ### `touches` is monotone -/

/-- A monotone Boolean function. -/
def Mono (f : Bool → Bool) : Prop := f false = true → f true = true

theorem touchesSeq_mono {T : Nat → Ty} {p n : Bool} {es : List Expr} (ih : ∀ e ∈ es, ∀ p n, Mono fun d => touches T p n d e) : Mono fun d => touchesSeq T p n d es := by
  induction es with
  | nil => intro h; simp only [touchesSeq]
  | cons e es ihe =>
    rw [List.forall_mem_cons] at ih
    intro h
    simp only [touchesSeq] at h ⊢
    have h1 := ihe ih.2
    simp only [Mono] at h1
    generalize touchesSeq T p n false es = a at h h1
    generalize touchesSeq T p n true es = b at h1 ⊢
    cases a <;> cases b
    · exact h
    · exact ih.1 _ _ h
    · simp at h1
    · exact h

theorem touchesAny_mono {T : Nat → Ty} {p : Bool} {es : List Expr} (ih : ∀ e ∈ es, ∀ p n, Mono fun d => touches T p n d e) : Mono fun d => touchesAny T p d es := by
  induction es with
  | nil => intro h; simp [touchesAny] at h
  | cons e es ihe =>
    rw [List.forall_mem_cons] at ih
    intro h
    simp only [touchesAny, Bool.or_eq_true] at h ⊢
    exact h.imp (ih.1 _ _) (ihe ih.2)

theorem touches_mono (T : Nat → Ty) (e : Expr) : ∀ p n, Mono fun d => touches T p n d e := by
  induction e using Expr.ind with
  | str i l => intro p n h; simp only [touches]
  | any i => intro p n h; simp only [touches]
  | cls i l => intro p n h; simp only [touches]
  | nt i r => intro p n h; simp only [touches]
  | ext i r => intro p n h; simp only [touches]
  | seq i es ih => intro p n h; simp only [touches] at h ⊢; exact touchesSeq_mono ih h
  | choice i es ih =>
    intro p n h
    simp only [touches] at h ⊢
    cases n
    · exact touchesAny_mono ih h
    · exact h
  | star i e ih => intro p n h; simp only [touches, Bool.true_or]
  | plus i e ih => intro p n h; simp only [touches, Bool.true_or]
  | opt i e ih => intro p n h; simp only [touches, Bool.true_or]
  | not i e ih => intro p n h; simp only [touches, Bool.true_or]
  | and i e ih => intro p n h; simp only [touches, Bool.true_or]
  | act i e b f ih =>
    intro p n h
    simp only [touches] at h ⊢
    split at h
    · simp at h
    · rename_i hp; rw [if_neg hp]; exact ih _ _ h
  | asc i e t ih => intro p n h; simp only [touches] at h ⊢; exact ih _ _ h
  | span i e ih => intro p n h; simp only [touches] at h ⊢; exact ih _ _ h
  | range i e ih => intro p n h; simp only [touches] at h ⊢; exact ih _ _ h

theorem any_mono {f : Bool → Bool} (hf : Mono f) {l : List Name} {g : Name → Bool} {k : Name → Bool} (hk : ∀ x ∈ l, k x = f (g x)) :
    l.any k = (!l.isEmpty && f (l.any g)) := by
  induction l with
  | nil => simp
  | cons x l ih =>
    rw [List.forall_mem_cons] at hk
    simp only [List.any_cons, ih hk.2, hk.1, List.isEmpty_cons, Bool.not_false, Bool.true_and]
    simp only [Mono] at hf
    cases l with
    | nil => simp
    | cons y l =>
      simp only [List.isEmpty_cons, Bool.not_false, Bool.true_and]
      generalize g x = a
      generalize (y :: l).any g = b
      cases a <;> cases b <;> simp <;> intro h <;> exact hf h

/-! ### The main equation -/

/-- `refable` for a job. -/
def Job.refable (T : Nat → Ty) (n m d : Bool) : Job → Bool
  | .one p e => Oak.refable T p n m d e
  | .seq p es => refableSeq T p n m d es
  | .alts p es _ _ => refableBranches T p m d es

/-- The references of a job, but for the flag of the choice. -/
def Job.refs : Job → Ctx → List Name
  | .one _ _, c | .seq _ _, c => c.muts
  | .alts _ _ _ s, _ => s.muts

/-- The variables of the context are apart. -/
structure Separate (j : Job) (c : Ctx) : Prop where
  fvOld : ∀ x ∈ j.fvBefore c, c.names.old x
  mutsOld : ∀ x ∈ j.refs c, c.names.old x
  marksOld : ∀ x ∈ c.marks, c.names.old x
  fvMarks : ∀ x ∈ j.fvBefore c, x ∉ c.marks
  mutsMarks : ∀ x ∈ j.refs c, x ∉ c.marks
  mutsFv : ∀ x ∈ j.refs c, x ∉ j.fvBefore c

/-- The branches are compiled with the flag as the last reference. -/
def Job.flag : Job → Prop
  | .one _ _ | .seq _ _ => True
  | .alts _ _ b s => s.ncomb = 0 ∧ ∃ l, s.muts = l ++ [b]

/-- Some reference is assigned or borrowed. -/
def anyDirect (b : Occ) (l : List Name) (S : Ex) : Bool := l.any fun x => decide (x ∈ S.occ b)

/-- The references of a closure do not occur in its body. -/
def Closure.refOkIn (b : Occ) (c : Closure) : Bool := (c.body.occ b).all fun x => decide (x ∉ c.muts)

section
variable {T : Nat → Ty} {p : Bool} {e e0 : Expr}
theorem Leaf.refable (h : Leaf e) (n m d : Bool) : Oak.refable T p n m d e = true := by cases h <;> rw [Oak.refable]
theorem Discards.refable (h : Discards T p e e0) (n m d : Bool) : Oak.refable T p n m d e = Oak.refable T false n m false e0 := by
  cases h <;> rw [Oak.refable] <;> rename_i h <;> (try rw [h]) <;> simp
theorem Builds.refable {vec : Bool} (h : Builds T p e e0 vec) (n m d : Bool) : Oak.refable T p n m d e = Oak.refable T true false true (!vec) e0 := by
  cases h <;> rw [Oak.refable] <;> rename_i h <;> (try rw [h]) <;> simp
theorem Pass.refable {p0 : Bool} (h : Pass T p e p0 e0) (n m d : Bool) : Oak.refable T p n m d e = Oak.refable T p0 n m d e0 := by
  cases h <;> rw [Oak.refable] <;> rename_i h <;> (try rw [h]) <;> simp
theorem Places.refable (h : Places T p e e0) (n m d : Bool) : Oak.refable T p n m d e = Oak.refable T true n m d e0 := by
  cases h <;> rw [Oak.refable] <;> rename_i h <;> rw [h]
end

theorem refOk_mk {b : Occ} {k : Nat} {us vs ms : List Name} {S : Ex} : (Closure.mk k us vs ms S).refOkIn b = !anyDirect b us S := by
  rw [Bool.eq_iff_iff]
  simp only [Closure.refOkIn, anyDirect, List.all_eq_true, decide_eq_true_eq, Bool.not_eq_true', List.any_eq_false]
  exact ⟨fun h x hx hd => h x hd hx, fun h x hx hm => h x hm hx⟩

theorem Separate.le {j : Job} {c c1 : Ctx} (h : Separate j c) (hf : j.fvBefore c1 = j.fvBefore c) (hm : j.refs c1 = j.refs c) (hk : c1.marks = c.marks) (hl : c.names.le c1.names) : Separate j c1 := by
  refine ⟨?_, ?_, ?_, ?_, ?_, ?_⟩
  · rw [hf]; exact fun x hx => hl.old (h.fvOld x hx)
  · rw [hm]; exact fun x hx => hl.old (h.mutsOld x hx)
  · rw [hk]; exact fun x hx => hl.old (h.marksOld x hx)
  · rw [hf, hk]; exact h.fvMarks
  · rw [hm, hk]; exact h.mutsMarks
  · rw [hf, hm]; exact h.mutsFv

/-- The outcome for a job. -/
def refsOf (l : List Name) (j : Job) : List Name :=
  match j with
  | .one _ _ | .seq _ _ => l
  | .alts _ _ _ _ => l.dropLast

theorem Comp.refOk {T : Nat → Ty} {j : Job} {S F : Ex} {c c' : Ctx} {codes : List Ex} {o : Occ} (hO : o ≠ .all) (h : Comp T j S F c codes c') (hA : Separate j c) (hF : ∀ x, x ∉ F.occ o) (hb : j.flag) :
    c'.closures.all (Closure.refOkIn o) =
      (c.closures.all (Closure.refOkIn o) && j.refable T c.follows (!(j.mutsAfter c).isEmpty) (anyDirect o (j.mutsAfter c) S)) := by
  induction h with
  | @leaf p e S F c code c' vs h1 h2 h3 h4 h5 h6 h7 => rw [h5]; simp [Job.refable, h1.refable]
  | @under p e e0 S F c c0 body c1 code c' h1 h2 h3 h4 h5 h5' h6 h7 h8 h9 h10 h11 ih =>
    have hA0 : Separate (.one false e0) c0 := Separate.le (j := .one false e0) (c := c) ⟨hA.1, hA.2, hA.3, hA.4, hA.5, hA.6⟩ h2 h3 h5 h6
    have ih := ih hA0 (fun x => occ_failure) trivial
    have hfo : c0.follows = c.follows := by rw [Ctx.follows, h4]; rfl
    have : anyDirect o c.muts .st = false := by simp [anyDirect, occ_st]
    rw [h10.closures, ih]
    simp only [Job.refable, h1.refable, h5', hfo, Job.mutsAfter, h3, this]
  | @build p e e0 vec S F c r c2 body c3 code c' h1 h2 h3 h4 h5 h6 h7 h8 h9 ih =>
    have hr : r ∈ c.fv := by rw [h2]; simp
    have hr2 : r ∉ c2.fv := fun hx => h3.fresh r hx (hA.fvOld r hr)
    have hA2 : Separate (.one true e0) c2 := by
      refine ⟨h3.old, ?_, ?_, ?_, ?_, ?_⟩
      · simp only [Job.refs, h4, List.mem_singleton]; rintro _ rfl; exact h3.le.old (hA.fvOld _ hr)
      · rw [h3.marks]; exact fun x hx => h3.le.old (hA.marksOld x hx)
      · rw [h3.marks]; exact fun x hx hm => h3.fresh x hx (hA.marksOld x hm)
      · simp only [Job.refs, h4, List.mem_singleton, h3.marks]; rintro _ rfl; exact hA.fvMarks _ hr
      · simp only [Job.refs, h4, List.mem_singleton]; rintro _ rfl; exact hr2
    have ih := ih hA2 (fun x => occ_failure) trivial
    have hfo : c2.follows = false := by simp [Ctx.follows, h3.ncomb]
    have hd : anyDirect o [r] (.stmt (if vec then .push r (.tup c2.fv) else .setSome r (.tup c2.fv)) .st) = !vec := by
      cases vec
      · have : r ∈ (Ex.stmt (.setSome r (.tup c2.fv)) .st).occ o := occ_stmt.2 (.inl ((occ_other (by simp)).2 (by simp [Stmt.fv])))
        simpa [anyDirect] using this
      · have : r ∉ (Ex.stmt (.push r (.tup c2.fv)) .st).occ o := by
          rw [occ_stmt, occ_push]
          simp [VEx.fv, hr2, occ_st, hO]
        simpa [anyDirect] using this
    rw [h8.closures, ih]
    simp only [Job.refable, h1.refable, h3.closures, hfo, Job.mutsAfter, h4, hd]
    simp
  | @act p i e0 bx f S F c r c2 v code c3 c' h1 h2 h3 h4 h5 h5' h6 h7 h8 h9 ih =>
    have hA2 : Separate (.one true e0) c2 := by
      refine ⟨h3.old, ?_, ?_, ?_, ?_, ?_⟩
      · simp [Job.refs, h4]
      · rw [h3.marks]; exact fun x hx => h3.le.old (hA.marksOld x hx)
      · rw [h3.marks]; exact fun x hx hm => h3.fresh x hx (hA.marksOld x hm)
      · simp [Job.refs, h4]
      · simp [Job.refs, h4]
    have ih := ih hA2 hF trivial
    have hfo : c2.follows = false := by simp [Ctx.follows, h3.ncomb]
    rw [h9.closures, ih]
    simp only [Job.refable, h3.closures, hfo, Job.mutsAfter, h4]
    rw [Oak.refable, if_pos h1]
    simp [anyDirect]
  | @pass p e p0 e0 S F c code c' h1 h2 ih =>
    rw [ih ⟨hA.1, hA.2, hA.3, hA.4, hA.5, hA.6⟩ hF trivial]
    simp only [Job.refable, h1.refable, Job.mutsAfter]
  | @place p e e0 S F c m r A B c2 v code c3 c' h1 h2 h3 h4 h5 h6 h7 h8 h9 h10 h11 h12 h13 h14 h15 h16 h17 ih =>
    have hsub : ∀ x ∈ c2.fv, x ∈ c.fv := by
      rw [h2, h3]; intro x hx
      simp only [List.mem_append, List.mem_cons] at hx ⊢
      exact hx.imp_right .inr
    have hr : r ∈ c.fv := by rw [h2]; simp
    have hne : ∀ x, c.names.old x → x ≠ m := fun x hx h => h9 (h ▸ hx)
    have hA2 : Separate (.one true e0) c2 := by
      refine ⟨fun x hx => h8.old (hA.fvOld x (hsub x hx)), ?_, ?_, ?_, ?_, ?_⟩
      · simp only [Job.refs, h4]; exact fun x hx => h8.old (hA.mutsOld x hx)
      · rw [h5]; intro x hx
        simp only [List.mem_append, List.mem_singleton] at hx
        rcases hx with hx | rfl
        · exact h8.old (hA.marksOld x hx)
        · exact h10
      · intro x hx
        have := hA.fvMarks x (hsub x hx)
        rw [h5]; simp [this, hne x (hA.fvOld x (hsub x hx))]
      · simp only [Job.refs, h4]; intro x hx
        have := hA.mutsMarks x hx
        rw [h5]; simp [this, hne x (hA.mutsOld x hx)]
      · simp only [Job.refs, h4]; exact fun x hx hf => hA.mutsFv x hx (hsub x hf)
    have ih := ih hA2 hF trivial
    have hfo : c2.follows = c.follows := by simp [Ctx.follows, h6]
    have hd : anyDirect o c.muts (.stmt (.letVal r v) S) = anyDirect o c.muts S := by
      rw [Bool.eq_iff_iff]
      simp only [anyDirect, List.any_eq_true, decide_eq_true_eq]
      refine exists_congr fun x => and_congr_right fun hx => ?_
      have q1 : x ≠ r := fun h => hA.mutsFv x hx (h ▸ hr)
      have q2 : x ≠ m := hne x (hA.mutsOld x hx)
      rw [occ_stmt, occ_other (by simp)]
      simp [Stmt.fv, Stmt.binds, h11, q1, q2]
    rw [h16, ih]
    simp only [Job.refable, h1.refable, h7, hfo, Job.mutsAfter, h4, hd]
  | @seq p i es S F c code c' h ih =>
    rw [ih ⟨hA.1, hA.2, hA.3, hA.4, hA.5, hA.6⟩ hF trivial]
    simp only [Job.refable, Job.mutsAfter]
    rw [Oak.refable]
  | @nil p S F c => simp [Job.refable, refableSeq]
  | @cons p e es S F c S1 c1 code c2 h1 _ h2 h3 h4 ih1 ih2 =>
    have k1 := h1.keeps
    have hm1 : c1.muts = c.muts := k1.muts
    have hA1 : Separate (.one p e) c1 := by
      have hs : ∀ x ∈ c1.fv, x ∈ c.fv := fun x hx => k1.fv.subset hx
      refine ⟨fun x hx => k1.le.old (hA.fvOld x (hs x hx)), ?_, ?_, fun x hx => by rw [k1.marks]; exact hA.fvMarks x (hs x hx), ?_, ?_⟩
      · simp only [Job.refs, hm1]; exact fun x hx => k1.le.old (hA.mutsOld x hx)
      · rw [k1.marks]; exact fun x hx => k1.le.old (hA.marksOld x hx)
      · simp only [Job.refs, hm1, k1.marks]; exact hA.mutsMarks
      · simp only [Job.refs, hm1]; exact fun x hx hf => hA.mutsFv x hx (hs x hf)
    have ih1 := ih1 ⟨hA.1, hA.2, hA.3, hA.4, hA.5, hA.6⟩ hF trivial
    have ih2 := ih2 hA1 hF trivial
    have hfo : c1.follows = (c.follows || !es.isEmpty) := by
      cases es with
      | nil => simp [h4 rfl]
      | cons d ds => simp [Ctx.follows, h3 (by simp)]
    have hd : anyDirect o c.muts S1 = (!c.muts.isEmpty && touchesSeq T p c.follows (anyDirect o c.muts S) es) := by
      refine any_mono (f := fun d => touchesSeq T p c.follows d es) (touchesSeq_mono fun e _ => touches_mono T e) fun x hx => ?_
      have := (h1.occ o x (hA.mutsOld x hx) (hA.mutsFv x hx) (hA.mutsMarks x hx) (hF x) trivial).1 hx
      simp only [List.mem_singleton, exists_eq_left, Job.touches] at this
      rw [Bool.eq_iff_iff, decide_eq_true_eq]
      exact this
    show c2.closures.all (Closure.refOkIn o) = _
    rw [ih2, ih1]
    simp only [Job.refable, Job.mutsAfter, hm1, hfo, hd]
    rw [refableSeq, Bool.and_assoc, Bool.and_comm (refableSeq _ _ _ _ _ _)]
  | @choice p i es S F c S1 m f c2 first rest c' h1 h2 h3 ih =>
    have hne : ∀ x, c.names.old x → x ≠ f := fun x hx h => h1.fresh (h ▸ hx)
    have hA2 : Separate (.alts (p && decide (T i ≠ .unit)) es f c2.saveScope) c2 := by
      refine ⟨?_, ?_, ?_, ?_, ?_, ?_⟩ <;> simp only [Job.fvBefore, Job.refs, Ctx.saveScope, h1.fv, h1.marks, h1.muts, List.mem_append, List.mem_singleton]
      · exact fun x hx => h1.le.old (hA.fvOld x hx)
      · rintro x (hx | rfl)
        · exact h1.le.old (hA.mutsOld x hx)
        · exact h1.old
      · exact fun x hx => h1.le.old (hA.marksOld x hx)
      · exact hA.fvMarks
      · rintro x (hx | rfl)
        · exact hA.mutsMarks x hx
        · exact fun hx => h1.fresh (hA.marksOld _ hx)
      · rintro x (hx | rfl)
        · exact hA.mutsFv x hx
        · exact fun hx => h1.fresh (hA.fvOld _ hx)
    have ih := ih hA2 hF ⟨h1.ncomb, c.muts, h1.muts⟩
    have hma : (Job.alts (p && decide (T i ≠ .unit)) es f c2.saveScope).mutsAfter c2 = c.muts := by simp [Job.mutsAfter, Ctx.saveScope, h1.muts]
    rw [ih, hma]
    simp only [Job.refable, Job.mutsAfter]
    rw [Oak.refable]
    rcases h1.what with ⟨q1, q2, q3⟩ | ⟨q1, k, q2, q3⟩
    · have hfo : c.follows = false := by simp [Ctx.follows, q1]
      rw [q2, q3, hfo]
      simp
    · have hfo : c.follows = true := by simp [Ctx.follows, q1]
      have hd : anyDirect o c.muts S1 = !c.muts.isEmpty := by
        rw [q2]
        cases hm : c.muts with
        | nil => simp [anyDirect]
        | cons y l =>
          have : y ∈ (Ex.call k (y :: l) c.fv c.marks).occ o := occ_call.2 (by simp)
          rw [anyDirect, List.any_cons, decide_eq_true this]; rfl
      rw [q3, hfo, hd]
      simp only [List.all_append, List.all_cons, List.all_nil, refOk_mk, Bool.and_true, Bool.true_and, if_true, Bool.and_assoc]
  | @last p e f s S F c code c' h ih =>
    obtain ⟨b2, l, b3⟩ := hb
    have hsub : ∀ x ∈ s.muts.dropLast, x ∈ s.muts := fun x hx => (List.dropLast_sublist _).subset hx
    have ih := ih ⟨hA.1, fun x hx => hA.2 x (hsub x hx), hA.3, hA.4, fun x hx => hA.5 x (hsub x hx), fun x hx => hA.6 x (hsub x hx)⟩ hF trivial
    rw [ih]
    have hfo : ({ c.restoreScope s with muts := s.muts.dropLast } : Ctx).follows = false := by simp [Ctx.follows, Ctx.restoreScope, b2]
    rw [hfo]
    simp only [Job.refable, Job.mutsAfter]
    simp [refableBranches, Ctx.restoreScope]
  | @more p e es f s S F c code c1 codes c' h1 h2 h3 ih1 ih2 =>
    obtain ⟨b2, l, b3⟩ := hb
    have k1 := h2.keeps
    have k1m : c1.marks = c.marks := k1.marks
    have k1l : c.names.le c1.names := k1.le
    have ih1 := ih1 ⟨hA.1, hA.2, hA.3, hA.4, hA.5, hA.6⟩ hF trivial
    have ih2 := ih2 (Separate.le (j := .alts p es f s) (c := c) (c1 := c1.incr) ⟨hA.1, hA.2, hA.3, hA.4, hA.5, hA.6⟩ rfl rfl k1m k1l) hF ⟨b2, l, b3⟩
    have hfo : (c.restoreScope s).follows = false := by simp [Ctx.follows, Ctx.restoreScope, b2]
    rw [hfo] at ih1
    have hd : anyDirect o s.muts (.stmt (.setFalse f) S) = true := by
      have : f ∈ (Ex.stmt (.setFalse f) S).occ o := occ_stmt.2 (.inl ((occ_other (by simp)).2 (by simp [Stmt.fv])))
      simp [anyDirect, b3, this]
    have hm : (!s.muts.isEmpty) = true := by simp [b3]
    rw [ih2, show c1.incr.closures = c1.closures from rfl, ih1]
    simp only [Job.refable, Job.mutsAfter, show (c.restoreScope s).muts = s.muts from rfl, show (c.restoreScope s).closures = c.closures from rfl, hd, hm]
    rw [refableBranches, if_neg (by simpa using h1), Bool.and_assoc]

/-! ### Functions and programs -/

theorem refOk_direct (c : Closure) : c.refOk = c.refOkIn .direct := rfl

/-- The references of the closures of a function do not occur in their bodies. -/
def Fn.refOkIn (o : Occ) (f : Fn) : Bool := f.closures.all (Closure.refOkIn o)

theorem apart_new (e : Expr) (p : Bool) : Separate (.one p e) Ctx.new := by
  refine ⟨?_, ?_, ?_, ?_, ?_, ?_⟩ <;> simp [Job.fvBefore, Job.refs, Ctx.new]

theorem refOk_top {o : Occ} (hO : o ≠ .all) {T : Nat → Ty} {p : Bool} {e : Expr} {S code : Ex} {c c' : Ctx} (h : Comp T (.one p e) S .failure c [code] c') (hA : Separate (.one p e) c)
    (h1 : c.closures = []) (h2 : c.muts = []) (h3 : c.ncomb = 0) : c'.closures.all (Closure.refOkIn o) = refable T p false false false e := by
  rw [Comp.refOk hO h hA (fun x => occ_failure) trivial]
  simp [Job.refable, Ctx.follows, Job.mutsAfter, anyDirect, h1, h2, h3]

theorem recognizer_refOk {o : Occ} (hO : o ≠ .all) {T : Nat → Ty} {e : Expr} {f : Fn} (h : compileRecognizer T e = .ok f) : f.refOkIn o = refable T false false false false e := by
  unfold compileRecognizer at h
  obtain ⟨⟨code, c⟩, hc, h⟩ := except_bind_eq_ok h
  cases h
  exact refOk_top hO (compile_comp T e _ _ _ _ _ _ hc) (apart_new e false) rfl rfl rfl

theorem parser_refOk {o : Occ} (hO : o ≠ .all) {T : Nat → Ty} {r : String} {e : Expr} {f : Fn} (h : compileParser T r e = .ok f) :
    f.refOkIn o = (T e.id == .unit || refable T true false false false e) := by
  unfold compileParser at h
  split at h
  · rename_i hT
    cases h
    simp [Fn.refOkIn, hT]
  · rename_i hT
    obtain ⟨⟨code, c⟩, hc, h⟩ := except_bind_eq_ok h
    obtain ⟨c2, hc2, h⟩ := except_bind_eq_ok h
    cases h
    obtain ⟨-, e2⟩ := closeScope_eq hc2
    subst e2
    have hA : Separate (.one true e) (Ctx.new.openScope (T e.id).card).2 := by
      refine ⟨fun x hx => freshNames_old hx, ?_, ?_, ?_, ?_, ?_⟩ <;> simp [Job.refs, openScope_muts, openScope_marks, Ctx.new]
    have hu : (T e.id == .unit) = false := by simpa using hT
    rw [hu, Bool.false_or]
    have hq := compile_comp T e _ _ _ _ _ _ hc
    have := refOk_top hO hq hA rfl rfl rfl
    exact this

theorem compileGrammar_refOk {o : Occ} (hO : o ≠ .all) {T : Nat → Ty} : ∀ {rs : List (String × Expr)} {fs : List (FnRef × Fn)}, compileGrammar T rs = .ok fs →
    (fs.all fun f => f.2.refOkIn o) = rs.all fun r => refable T false false false false r.2 && (T r.2.id == .unit || refable T true false false false r.2) := by
  intro rs
  induction rs with
  | nil => intro fs h; simp only [compileGrammar] at h; cases h; rfl
  | cons r rs ih =>
    obtain ⟨r, e⟩ := r
    intro fs h
    rw [compileGrammar] at h
    obtain ⟨f1, h1, h⟩ := except_bind_eq_ok h
    obtain ⟨f2, h2, h⟩ := except_bind_eq_ok h
    obtain ⟨fs', h3, h⟩ := except_bind_eq_ok h
    cases h
    simp only [List.all_cons, recognizer_refOk hO h1, parser_refOk hO h2, ih h3, Bool.and_assoc]

end Oak
