import Verif.Proofs.Comp
import Verif.Spec.Refs
/-! Occurrences of the old variables in the generated code. -/
set_option autoImplicit false
set_option linter.constructorNameAsVariable false

namespace Oak

/-! ### What the compilation keeps -/

/-- The `&mut` variables after the compilation. -/
def Job.mutsAfter : Job → Ctx → List Name
  | .one _ _, c | .seq _ _, c => c.muts
  | .alts _ _ _ s, _ => s.muts.dropLast
/-- The free variables before the compilation. -/
def Job.fvBefore : Job → Ctx → List Name
  | .one _ _, c | .seq _ _, c => c.fv
  | .alts _ _ _ s, _ => s.fv

/-- What the compilation keeps. -/
structure KeepsCtx (j : Job) (c c' : Ctx) : Prop where
  muts : c'.muts = j.mutsAfter c
  fv : c'.fv.Sublist (j.fvBefore c)
  marks : c'.marks = c.marks
  le : c.names.le c'.names

theorem Comp.keeps {T : Nat → Ty} {j : Job} {S F : Ex} {c c' : Ctx} {codes : List Ex} (h : Comp T j S F c codes c') : KeepsCtx j c c' := by
  induction h with
  | leaf _ h1 h2 h3 _ h5 _ => exact ⟨h2, by simp [Job.fvBefore, h1], h3, h5⟩
  | under _ h1 h2 _ h3 _ h4 _ h5 h6 h7 _ ih =>
    refine ⟨?_, ?_, ?_, h4.trans (ih.le.trans h7.le)⟩
    · rw [h6, ih.muts]; exact h2
    · rw [h5]; have := ih.fv; simp only [Job.fvBefore] at this ⊢; rwa [← h1]
    · rw [h7.marks, ih.marks, h3]
  | build _ h1 h2 _ _ _ h4 h5 _ ih =>
    exact ⟨h4, by simp [Job.fvBefore, h1], by rw [h5.marks, ih.marks, h2.marks], h2.le.trans (ih.le.trans h5.le)⟩
  | act _ h1 h2 _ _ _ _ _ h4 h5 ih =>
    exact ⟨h4, by simp [Job.fvBefore, h1], by rw [h5.marks, ih.marks, h2.marks], h2.le.trans (ih.le.trans h5.le)⟩
  | pass _ _ ih => exact ⟨ih.muts, ih.fv, ih.marks, ih.le⟩
  | place _ h1 h2 h3 h4 _ _ h5 _ _ _ _ h6 h7 h8 _ h9 ih =>
    refine ⟨?_, ?_, ?_, ?_⟩
    · rw [h7, ih.muts]; exact h3
    · have := ih.fv
      simp only [Job.fvBefore] at this ⊢
      rw [h6, h1]
      refine this.trans ?_
      rw [h2]
      exact List.Sublist.append (.refl _) (List.sublist_cons_self _ _)
    · rw [h8, ih.marks, h4, List.dropLast_concat]
    · rw [h9]; exact h5.trans ih.le
  | seq _ ih => exact ⟨ih.muts, ih.fv, ih.marks, ih.le⟩
  | nil => exact ⟨rfl, .refl _, rfl, .refl _⟩
  | cons _ _ _ _ _ ih1 ih2 => exact ⟨ih2.muts.trans ih1.muts, ih2.fv.trans ih1.fv, ih2.marks.trans ih1.marks, ih1.le.trans ih2.le⟩
  | choice h1 _ _ ih =>
    refine ⟨?_, ?_, ?_, h1.le.trans ih.le⟩
    · rw [ih.muts]; simp [Job.mutsAfter, Ctx.saveScope, h1.muts]
    · have := ih.fv; simp only [Job.fvBefore, Ctx.saveScope, h1.fv] at this ⊢; exact this
    · rw [ih.marks, h1.marks]
  | last _ ih => exact ⟨ih.muts, ih.fv, ih.marks, ih.le⟩
  | more _ _ _ ih1 ih2 => exact ⟨ih2.muts, ih2.fv, ih2.marks.trans ih1.marks, ih1.le.trans ih2.le⟩

/-! ### Occurrences -/

/-- `touches` for a job. -/
def Job.touches (T : Nat → Ty) (n d : Bool) : Job → Bool
  | .one p e => Oak.touches T p n d e
  | .seq p es => touchesSeq T p n d es
  | .alts p es _ _ => touchesAny T p d es

/-- `hides` for a job. -/
def Job.hides (T : Nat → Ty) (n : Bool) : Job → Bool
  | .one p e => Oak.hides T p n e
  | .seq p es => hidesSeq T p n es
  | .alts p es _ _ => hidesAll T p es

section
variable {T : Nat → Ty} {p : Bool} {e e0 : Expr}

theorem Leaf.touches (h : Leaf e) (n d : Bool) : Oak.touches T p n d e = d := by cases h <;> rw [Oak.touches]
theorem Leaf.hides (h : Leaf e) (n : Bool) : Oak.hides T p n e = false := by cases h <;> rw [Oak.hides]
theorem Discards.touches (h : Discards T p e e0) (n d : Bool) : Oak.touches T p n d e = (d || Oak.touches T false n false e0) := by
  cases h <;> rw [Oak.touches] <;> rename_i h <;> (try rw [h]) <;> simp
theorem Discards.hides (h : Discards T p e e0) (n : Bool) : Oak.hides T p n e = false := by cases h <;> rw [Oak.hides]
theorem Builds.touches {vec : Bool} (h : Builds T p e e0 vec) (n d : Bool) : Oak.touches T p n d e = d := by
  cases h <;> rw [Oak.touches] <;> rename_i h <;> (try rw [h]) <;> simp
theorem Builds.hides {vec : Bool} (h : Builds T p e e0 vec) (n : Bool) : Oak.hides T p n e = false := by cases h <;> rw [Oak.hides]
theorem Pass.touches {p0 : Bool} (h : Pass T p e p0 e0) (n d : Bool) : Oak.touches T p n d e = Oak.touches T p0 n d e0 := by
  cases h <;> rw [Oak.touches] <;> rename_i h <;> (try rw [h]) <;> simp
theorem Pass.hides {p0 : Bool} (h : Pass T p e p0 e0) (n : Bool) : Oak.hides T p n e = Oak.hides T p0 n e0 := by
  cases h <;> rw [Oak.hides] <;> rename_i h <;> (try rw [h]) <;> simp
theorem Places.touches (h : Places T p e e0) (n d : Bool) : Oak.touches T p n d e = Oak.touches T true n d e0 := by
  cases h <;> rw [Oak.touches] <;> rename_i h <;> rw [h]
theorem Places.hides (h : Places T p e e0) (n : Bool) : Oak.hides T p n e = Oak.hides T true n e0 := by
  cases h <;> rw [Oak.hides] <;> rename_i h <;> rw [h]
end

/-- Whether the variable is passed to the closures. -/
def Job.Passed (x : Name) : Job → Ctx → Prop
  | .one _ _, c | .seq _ _, c => x ∈ c.muts
  | .alts _ _ _ s, _ => x ∈ s.muts

/-- The flag of a choice is not the variable. -/
def Job.Not (x : Name) : Job → Prop
  | .one _ _ | .seq _ _ => True
  | .alts _ _ b s => x ≠ b ∧ s.ncomb = 0 ∧ s.muts.getLast? = some b

/-- Something follows in the scope. -/
def Ctx.follows (c : Ctx) : Bool := decide (0 < c.ncomb)

theorem Comp.occ {T : Nat → Ty} {j : Job} {S F : Ex} {c c' : Ctx} {codes : List Ex} (h : Comp T j S F c codes c') (b : Occ) (x : Name) (ho : c.names.old x)
    (hfv : x ∉ j.fvBefore c) (hm : x ∉ c.marks) (hF : x ∉ F.occ b) (hb : j.Not x) :
    (j.Passed x c → ((∃ k ∈ codes, x ∈ k.occ b) ↔ j.touches T c.follows (decide (x ∈ S.occ b)) = true)) ∧
    (¬ j.Passed x c → ((∃ k ∈ codes, x ∈ k.occ b) ↔ x ∈ S.occ b ∧ j.hides T c.follows = false)) := by
  induction h with
  | @leaf p e S F c code c' vs h1 h2 h3 h4 h5 h6 h7 =>
    simp only [List.mem_singleton, exists_eq_left, Job.touches, Job.hides, h1.touches, h1.hides, decide_eq_true_eq, and_true]
    have : x ∉ vs := fun hv => hfv (by simp [Job.fvBefore, h2, hv])
    exact ⟨fun _ => h7 b x ho this hF, fun _ => h7 b x ho this hF⟩
  | @under p e e0 S F c c0 body c1 code c' h1 h2 h3 h4 h5 h5' h6 h7 h8 h9 h10 h11 ih =>
    have hk := h7.keeps
    simp only [List.mem_singleton, exists_eq_left, Job.touches, Job.hides, h1.touches, h1.hides] at ih ⊢
    have ih := ih (h6.old ho) (by simpa only [Job.fvBefore, h2] using hfv) (h5 ▸ hm) occ_failure trivial
    have hq := h11 b x ho hF
    rw [hq]
    have hfo : c0.follows = c.follows := by rw [Ctx.follows, h4]; rfl
    rw [hfo] at ih
    simp only [occ_st, decide_false, false_and, iff_false] at ih
    simp only [Job.Passed, h3] at ih ⊢
    refine ⟨fun hp => ?_, fun hp => ?_⟩
    · rw [ih.1 hp]; simp [or_comm]
    · simp [ih.2 hp]
  | @build p e e0 vec S F c r c2 body c3 code c' h1 h2 h3 h4 h5 h6 h7 h8 h9 ih =>
    have hr : x ≠ r := fun hv => hfv (by simp [Job.fvBefore, h2, hv])
    have hx2 : x ∉ c2.fv := fun hx => h3.fresh x hx ho
    simp only [List.mem_singleton, exists_eq_left, Job.touches, Job.hides, h1.touches, h1.hides] at ih ⊢
    have ih := (ih (h3.le.old ho) hx2 (h3.marks ▸ hm) occ_failure trivial).2 (by simp [Job.Passed, h4, hr])
    have hS : x ∉ (Ex.stmt (if vec then .push r (.tup c2.fv) else .setSome r (.tup c2.fv)) .st).occ b := by
      cases vec
      · simp only [Bool.false_eq_true, if_false, occ_stmt]
        rw [occ_other (by simp)]
        simp [Stmt.fv, VEx.fv, hr, hx2, occ_st]
      · simp [occ_stmt, occ_push, VEx.fv, hr, hx2, occ_st]
    rw [h9 b x ho hr hF]
    simp [ih, hS]
  | @act p i e0 bx f S F c r c2 v code c3 c' h1 h2 h3 h4 h5 h5' h6 h7 h8 h9 ih =>
    have hr : x ≠ r := fun hv => hfv (by simp [Job.fvBefore, h2, hv])
    have hx2 : x ∉ c2.fv := fun hx => h3.fresh x hx ho
    have ih := (ih (h3.le.old ho) hx2 (h3.marks ▸ hm) hF trivial).2 (by simp [Job.Passed, h4])
    have hS : x ∈ (Ex.stmt (.letVal r v) S).occ b ↔ x ∈ S.occ b := by
      rw [occ_stmt, occ_other (by simp)]
      have : x ∉ v.fv := fun h => hx2 (h5 x h)
      simp [Stmt.fv, Stmt.binds, this, hr]
    have hfo : c2.follows = false := by simp [Ctx.follows, h3.ncomb]
    rw [hS, hfo] at ih
    refine ⟨fun _ => ih.trans ?_, fun _ => ih.trans ?_⟩
    · simp only [Job.hides, Job.touches]
      rw [touches, if_pos h1]
      simp
    · simp only [Job.hides]
      rw [hides, h1]
      simp
  | @pass p e p0 e0 S F c code c' h1 h2 ih =>
    simp only [Job.touches, Job.hides, h1.touches, h1.hides] at ih ⊢
    exact ih ho hfv hm hF trivial
  | @place p e e0 S F c m r A B c2 v code c3 c' h1 h2 h3 h4 h5 h6 h7 h8 h9 h10 h11 h12 h13 h14 h15 h16 h17 ih =>
    have hxm : x ≠ m := fun h => h9 (h ▸ ho)
    have hk := h12.keeps
    have hr : x ≠ r := fun h => hfv (by show x ∈ c.fv; rw [h2, h]; simp)
    simp only [List.mem_singleton, exists_eq_left, Job.touches, Job.hides, h1.touches, h1.hides] at ih ⊢
    have hxf : x ∈ c2.fv ↔ x ∈ c.fv := by rw [h2, h3]; simp [hr]
    have ih := ih (h8.old ho) (fun hx => hfv (hxf.1 hx)) (by rw [h5]; simp [hm, hxm]) hF trivial
    have hS : x ∈ (Ex.stmt (.letVal r v) S).occ b ↔ x ∈ S.occ b := by
      rw [occ_stmt, occ_other (by simp)]
      simp [Stmt.fv, Stmt.binds, h11, hxm, hr]
    have hfo : c2.follows = c.follows := by simp [Ctx.follows, h6]
    have hp : (Job.one true e0).Passed x c2 ↔ (Job.one p e).Passed x c := by simp only [Job.Passed, h4]
    rw [hfo, hp] at ih
    simp only [hS] at ih
    rw [occ_stmt, occ_other (by simp)]
    simp only [Stmt.fv, Stmt.binds, List.not_mem_nil, false_or, List.mem_singleton, hxm, not_false_eq_true, and_true]
    exact ih
  | @seq p i es S F c code c' h ih =>
    simp only [Job.touches, Job.hides] at ih ⊢
    rw [touches, hides]
    exact ih ho hfv hm hF trivial
  | @nil p S F c => simp [Job.touches, Job.hides, touchesSeq, hidesSeq]
  | @cons p e es S F c S1 c1 code c2 h1 _ h2 h3 h4 ih1 ih2 =>
    have k1 := h1.keeps
    have k2 := h2.keeps
    have ih1 := ih1 ho hfv hm hF trivial
    have ih2 := ih2 (k1.le.old ho) (fun hx => hfv (k1.fv.subset hx)) (k1.marks ▸ hm) hF trivial
    have hfo : c1.follows = (c.follows || !es.isEmpty) := by
      cases es with
      | nil => simp [h4 rfl]
      | cons d ds => simp [Ctx.follows, h3 (by simp)]
    have hp : (Job.one p e).Passed x c1 ↔ (Job.seq p es).Passed x c := by
      simp only [Job.Passed, k1.muts, Job.mutsAfter]
    rw [hp, hfo] at ih2
    simp only [List.mem_singleton, exists_eq_left, Job.touches, Job.hides] at ih1 ih2 ⊢
    rw [touchesSeq, hidesSeq]
    refine ⟨fun h => ?_, fun h => ?_⟩
    · rw [ih2.1 h]
      have : decide (x ∈ S1.occ b) = touchesSeq T p c.follows (decide (x ∈ S.occ b)) es := by
        rw [Bool.eq_iff_iff, decide_eq_true_eq]; exact ih1.1 h
      rw [this]
    · rw [ih2.2 h, ih1.2 h, Bool.or_eq_false_iff, and_assoc]
      exact and_congr_right fun _ => and_comm
  | @choice p i es S F c S1 m f c2 first rest c' h1 h2 h3 ih =>
    have hxm : x ≠ m := fun h => h2 (h ▸ ho)
    have hxf : x ≠ f := fun h => h1.fresh (h ▸ ho)
    have ih := ih (h1.le.old ho) (by simpa only [Job.fvBefore, Ctx.saveScope, h1.fv] using hfv) (h1.marks ▸ hm) hF
      ⟨hxf, h1.ncomb, by simp [Ctx.saveScope, h1.muts]⟩
    simp only [List.mem_singleton, exists_eq_left, occ_stmt, occ_bind, occ_choiceCode hxm hxf]
    rw [occ_other (by simp), occ_other (by simp)]
    simp only [Stmt.fv, Stmt.binds, List.not_mem_nil, false_or, List.mem_singleton, hxm, hxf, not_false_eq_true, and_true]
    have hp : (Job.alts (p && decide (T i ≠ .unit)) es f c2.saveScope).Passed x c2 ↔ (Job.one p (.choice i es)).Passed x c := by
      simp only [Job.Passed, Ctx.saveScope, h1.muts, List.mem_append, List.mem_singleton, hxf, or_false]
    rw [hp] at ih
    simp only [List.mem_cons, exists_eq_or_imp, Job.touches, Job.hides] at ih ⊢
    rw [touches, hides]
    refine ⟨fun h => (ih.1 h).trans ?_, fun h => (ih.2 h).trans ?_⟩
    · rcases h1.what with ⟨q1, q2, q3⟩ | ⟨q1, k, q2, q3⟩
      · have : c.follows = false := by simp [Ctx.follows, q1]
        rw [q2, this, Bool.false_or]
      · have : c.follows = true := by simp [Ctx.follows, q1]
        have hx : x ∈ S1.occ b := by
          rw [q2, occ_call]
          exact .inl h
        simp [this, hx]
    · rcases h1.what with ⟨q1, q2, q3⟩ | ⟨q1, k, q2, q3⟩
      · have : c.follows = false := by simp [Ctx.follows, q1]
        rw [q2, this, Bool.false_or]
      · have : c.follows = true := by simp [Ctx.follows, q1]
        have hx : x ∉ S1.occ b := by
          rw [q2, occ_call]
          simp only [Job.Passed] at h
          simp only [Job.fvBefore] at hfv
          simp [h, hfv, hm]
        simp [this, hx]
  | @last p e f s S F c code c' h ih =>
    obtain ⟨b1, b2, b3⟩ := hb
    have ih := ih ho hfv hm hF trivial
    have hp : (Job.one p e).Passed x { c.restoreScope s with muts := s.muts.dropLast } ↔ (Job.alts p [e] f s).Passed x c := by
      simp only [Job.Passed, Ctx.restoreScope]
      obtain ⟨l, hl⟩ := List.getLast?_eq_some_iff.1 b3
      rw [hl, List.dropLast_concat]
      simp [b1]
    have hfo : ({ c.restoreScope s with muts := s.muts.dropLast } : Ctx).follows = false := by simp [Ctx.follows, Ctx.restoreScope, b2]
    rw [hp, hfo] at ih
    simp only [Job.touches, Job.hides] at ih ⊢
    simp only [touchesAny, hidesAll, Bool.or_false, Bool.and_true]
    exact ih
  | @more p e es f s S F c code c1 codes c' h1 h2 h3 ih1 ih2 =>
    obtain ⟨b1, b2, b3⟩ := hb
    have k1 := h2.keeps
    have ih1 := ih1 ho hfv hm hF trivial
    have ih2 := ih2 (k1.le.old ho) hfv (by rw [show c1.incr.marks = c.marks from k1.marks]; exact hm) hF ⟨b1, b2, b3⟩
    have hS : x ∈ (Ex.stmt (.setFalse f) S).occ b ↔ x ∈ S.occ b := by
      rw [occ_stmt, occ_other (by simp)]
      simp [Stmt.fv, Stmt.binds, b1]
    have hfo : (c.restoreScope s).follows = false := by simp [Ctx.follows, Ctx.restoreScope, b2]
    rw [hfo] at ih1
    simp only [hS, Job.Passed, Ctx.restoreScope] at ih1
    simp only [Job.Passed] at ih2
    simp only [Job.touches, Job.hides, List.mem_cons, exists_eq_or_imp, List.not_mem_nil, false_and, exists_false, or_false, exists_eq_left] at ih1 ih2 ⊢
    simp only [Job.Passed]
    rw [touchesAny, hidesAll]
    refine ⟨fun h => ?_, fun h => ?_⟩
    · rw [ih1.1 h, ih2.1 h]; simp
    · rw [ih1.2 h, ih2.2 h]
      cases hides T p false e <;> cases hidesAll T p es <;> simp

end Oak
