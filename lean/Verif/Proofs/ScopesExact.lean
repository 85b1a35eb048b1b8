import Verif.Proofs.RefsMain
import Verif.Proofs.ScopedMain
import Verif.Proofs.CodegenOk
/-! The scopes of the generated code: when the check of the expression fails, some closure uses an undeclared variable. -/
set_option autoImplicit false
set_option linter.constructorNameAsVariable false

namespace Oak

/-- Some closure uses a variable that it does not declare. -/
def Ctx.Bad (c : Ctx) : Prop := ∃ cl ∈ c.closures, ∃ x ∈ cl.body.fv, x ∉ cl.muts ∧ x ∉ cl.vars ∧ x ∉ cl.marks

theorem Ctx.Bad.mono {c c' : Ctx} (h : c.Bad) (hs : ∀ cl ∈ c.closures, cl ∈ c'.closures) : c'.Bad :=
  let ⟨cl, h1, h2⟩ := h
  ⟨cl, hs cl h1, h2⟩

theorem Comp.closures {T : Nat → Ty} {j : Job} {S F : Ex} {c c' : Ctx} {codes : List Ex} (h : Comp T j S F c codes c') : ∀ cl ∈ c.closures, cl ∈ c'.closures := by
  induction h with
  | leaf _ _ _ _ h _ _ => rw [h]; exact fun _ h => h
  | under _ _ _ _ _ h1 _ _ _ _ h2 _ ih => rw [h2.closures, ← h1]; exact ih
  | build _ _ h1 _ _ _ _ h2 _ ih => rw [h2.closures, ← h1.closures]; exact ih
  | act _ _ h1 _ _ _ _ _ _ h2 ih => rw [h2.closures, ← h1.closures]; exact ih
  | pass _ _ ih => exact ih
  | place _ _ _ _ _ _ h1 _ _ _ _ _ _ _ _ h2 _ ih => rw [h2, ← h1]; exact ih
  | seq _ ih => exact ih
  | nil => exact fun _ h => h
  | cons _ _ _ _ _ ih1 ih2 => exact fun cl h => ih2 cl (ih1 cl h)
  | choice h1 _ _ ih =>
    intro cl hcl
    refine ih cl ?_
    rcases h1.what with ⟨_, _, q⟩ | ⟨_, k, _, q⟩
    · rw [q]; exact hcl
    · rw [q]; simp [hcl]
  | last _ ih => exact ih
  | more _ _ _ ih1 ih2 => exact fun cl h => ih2 cl (ih1 cl h)

/-- The flag of a choice is not the variable. -/
def Job.notFlag (x : Name) : Job → Prop
  | .one _ _ | .seq _ _ => True
  | .alts _ _ b _ => x ≠ b

theorem occT {x : Name} {k : Ex} : x ∈ k.occ .all ↔ x ∈ k.fv := Iff.rfl

/-- The free variables of the code that follows are free in the code, or are lost in a closure. -/
theorem Comp.lost {T : Nat → Ty} {j : Job} {S F : Ex} {c c' : Ctx} {codes : List Ex} (h : Comp T j S F c codes c') (x : Name) (ho : c.names.old x)
    (hn : (j.fvBefore c).Nodup) (hfv : x ∈ j.fvBefore c → x ∈ c'.fv) (hF : x ∉ F.fv) (hb : j.notFlag x) (hS : x ∈ S.fv) : (∃ k ∈ codes, x ∈ k.fv) ∨ c'.Bad := by
  induction h with
  | @leaf p e S F c code c' vs h1 h2 h3 h4 h5 h6 h7 =>
    have : x ∉ vs := fun hv => by
      rw [Job.fvBefore, h2, List.nodup_append] at hn
      exact hn.2.2 x (hfv (by simp [Job.fvBefore, h2, hv])) x hv rfl
    exact .inl ⟨_, by simp, (h7 .all x ho this hF).2 hS⟩
  | @under p e e0 S F c c0 body c1 code c' h1 h2 h3 h4 h5 h5' h6 h7 h8 h9 h10 h11 ih =>
    exact .inl ⟨_, by simp, (h11 .all x ho hF).2 (.inr hS)⟩
  | @build p e e0 vec S F c r c2 body c3 code c' h1 h2 h3 h4 h5 h6 h7 h8 h9 ih =>
    have hr : x ≠ r := fun hv => by
      rw [Job.fvBefore, h2, List.nodup_append] at hn
      exact hn.2.2 x (hfv (by simp [Job.fvBefore, h2, hv])) x (by simp [hv]) rfl
    exact .inl ⟨_, by simp, (h9 .all x ho hr hF).2 (.inr hS)⟩
  | @act p i e0 bx f S F c r c2 v code c3 c' h1 h2 h3 h4 h5 h5' h6 h7 h8 h9 ih =>
    have hr : x ≠ r := fun hv => by
      rw [Job.fvBefore, h2, List.nodup_append] at hn
      exact hn.2.2 x (hfv (by simp [Job.fvBefore, h2, hv])) x (by simp [hv]) rfl
    refine (ih (h3.le.old ho) h3.nodup (fun hx => absurd ho (h3.fresh x hx)) hF trivial ?_).imp_right fun h => h.mono (by rw [h9.closures]; exact fun _ h => h)
    simp [Ex.fv, Stmt.binds, hr, hS]
  | @pass p e p0 e0 S F c code c' h1 h2 ih => exact ih ho hn hfv hF trivial hS
  | @place p e e0 S F c m r A B c2 v code c3 c' h1 h2 h3 h4 h5 h6 h7 h8 h9 h10 h11 h12 h13 h14 h15 h16 h17 ih =>
    have hxm : x ≠ m := fun h => h9 (h ▸ ho)
    have hk := h12.keeps
    have hn' : (A ++ r :: B).Nodup := by rw [← h2]; exact hn
    have hrn : r ∉ A ++ B := by
      rw [List.nodup_append] at hn'
      obtain ⟨n1, n2, n3⟩ := hn'
      rw [List.nodup_cons] at n2
      simp only [List.mem_append, not_or]
      exact ⟨fun h => n3 r h r (by simp) rfl, n2.1⟩
    have hr : x ≠ r := fun h => by
      have h0 := hfv (by show x ∈ c.fv; rw [h2, h]; simp)
      rw [h13] at h0
      have h0 := hk.fv.subset h0
      rw [Job.fvBefore, h3, h] at h0
      exact hrn h0
    have hxf : x ∈ c2.fv ↔ x ∈ c.fv := by rw [h2, h3]; simp [hr]
    rcases ih (h8.old ho) (by
        rw [Job.fvBefore, h3]
        exact hn'.sublist (List.Sublist.append (.refl _) (List.sublist_cons_self _ _))) (fun hx => h13 ▸ hfv (hxf.1 hx)) hF trivial (by simp [Ex.fv, Stmt.binds, hr, hS]) with h | h
    · obtain ⟨k, hk, hx⟩ := h
      simp only [List.mem_singleton] at hk
      subst hk
      exact .inl ⟨_, List.mem_singleton.2 rfl, by simp [Ex.fv, Stmt.binds, hxm, hx]⟩
    · exact .inr (h.mono (by rw [h16]; exact fun _ h => h))
  | @seq p i es S F c code c' h ih => exact ih ho hn hfv hF trivial hS
  | @nil p S F c => exact .inl ⟨_, by simp, hS⟩
  | @cons p e es S F c S1 c1 code c2 h1 _ h2 h3 h4 ih1 ih2 =>
    have k1 := h1.keeps
    have k2 := h2.keeps
    rcases ih1 ho hn (fun hx => k2.fv.subset (hfv hx)) hF trivial hS with h | h
    · obtain ⟨k, hk, hx⟩ := h
      simp only [List.mem_singleton] at hk
      subst hk
      exact (ih2 (k1.le.old ho) (hn.sublist k1.fv) (fun hx => hfv (k1.fv.subset hx)) hF trivial hx).imp_right fun h => h.mono fun _ h => h
    · exact .inr (h.mono h2.closures)
  | @choice p i es S F c S1 m f c2 first rest c' h1 h2 h3 ih =>
    have hxm : x ≠ m := fun h => h2 (h ▸ ho)
    have hxf : x ≠ f := fun h => h1.fresh (h ▸ ho)
    have key : x ∈ S1.fv ∨ c2.Bad := by
      rcases h1.what with ⟨q1, q2, q3⟩ | ⟨q1, k, q2, q3⟩
      · rw [q2]; exact .inl hS
      · by_cases hp : x ∈ c.muts ∨ x ∈ c.fv ∨ x ∈ c.marks
        · rw [q2]; exact .inl ((occ_call (k := k) (b := .all)).2 (by simpa using hp))
        · simp only [not_or] at hp
          exact .inr ⟨_, by rw [q3]; simp; exact .inr rfl, x, hS, hp⟩
    rcases key with h | h
    · rcases ih (h1.le.old ho) (by simpa only [Job.fvBefore, Ctx.saveScope, h1.fv] using hn) (by simpa only [Job.fvBefore, Ctx.saveScope, h1.fv] using hfv) hF hxf h with h | h
      · left
        refine ⟨_, List.mem_singleton.2 rfl, ?_⟩
        rw [← occT]
        simp only [List.mem_cons, exists_eq_or_imp] at h
        simp only [occ_stmt, occ_bind, occ_choiceCode hxm hxf, Stmt.binds, List.mem_singleton, hxm, hxf, not_false_eq_true, and_true]
        exact .inr (.inr h)
      · exact .inr h
    · exact .inr (h.mono h3.closures)
  | @last p e f s S F c code c' h ih => exact ih ho hn hfv hF trivial hS
  | @more p e es f s S F c code c1 codes c' h1 h2 h3 ih1 ih2 =>
    have k1 := h2.keeps
    rcases ih2 (k1.le.old ho) hn hfv hF hb hS with h | h
    · obtain ⟨k, hk, hx⟩ := h
      exact .inl ⟨k, by simp [hk], hx⟩
    · exact .inr h

/-- `captures` for a job. -/
def Job.captures (T : Nat → Ty) (n : Bool) : Job → Bool
  | .one p e => Oak.captures T p n e
  | .seq p es => capturesSeq T p n es
  | .alts p es _ _ => capturesAny T p es

section
variable {T : Nat → Ty} {p : Bool} {e e0 : Expr}
theorem Leaf.captures (h : Leaf e) (n : Bool) : Oak.captures T p n e = false := by cases h <;> rw [Oak.captures]
theorem Discards.captures (h : Discards T p e e0) (n : Bool) : Oak.captures T p n e = false := by cases h <;> rw [Oak.captures]
theorem Builds.captures {vec : Bool} (h : Builds T p e e0 vec) (n : Bool) : Oak.captures T p n e = false := by cases h <;> rw [Oak.captures]
theorem Pass.captures {p0 : Bool} (h : Pass T p e p0 e0) (n : Bool) : Oak.captures T p n e = Oak.captures T p0 n e0 := by
  cases h <;> rw [Oak.captures] <;> rename_i h <;> (try rw [h]) <;> simp
theorem Places.captures (h : Places T p e e0) (n : Bool) : Oak.captures T p n e = Oak.captures T true n e0 := by
  cases h <;> rw [Oak.captures] <;> rename_i h <;> rw [h]
end

/-- The flag of a choice is not the variable, and the branches are compiled as the first expressions of their scopes. -/
def Job.flagless (x : Name) : Job → Prop
  | .one _ _ | .seq _ _ => True
  | .alts _ _ b s => x ≠ b ∧ s.ncomb = 0

/-- When the code that follows is put in a closure and needs a variable that is not passed to closures, some closure is bad. -/
theorem Comp.captured {T : Nat → Ty} {j : Job} {S F : Ex} {c c' : Ctx} {codes : List Ex} (h : Comp T j S F c codes c') (x : Name) (ho : c.names.old x)
    (hn : (j.fvBefore c).Nodup) (hfv : x ∉ j.fvBefore c) (hm : x ∉ j.refs c) (hk : x ∉ c.marks) (hF : x ∉ F.fv) (hb : j.flagless x) (hS : x ∈ S.fv)
    (hc : j.captures T c.follows = true) : c'.Bad := by
  induction h with
  | @leaf p e S F c code c' vs h1 h2 h3 h4 h5 h6 h7 => simp [Job.captures, h1.captures] at hc
  | @under p e e0 S F c c0 body c1 code c' h1 h2 h3 h4 h5 h5' h6 h7 h8 h9 h10 h11 ih => simp [Job.captures, h1.captures] at hc
  | @build p e e0 vec S F c r c2 body c3 code c' h1 h2 h3 h4 h5 h6 h7 h8 h9 ih => simp [Job.captures, h1.captures] at hc
  | @act p i e0 bx f S F c r c2 v code c3 c' h1 h2 h3 h4 h5 h5' h6 h7 h8 h9 ih =>
    have hr : x ≠ r := fun hv => hfv (by simp [Job.fvBefore, h2, hv])
    have hfo : c2.follows = false := by simp [Ctx.follows, h3.ncomb]
    refine Ctx.Bad.mono (ih (h3.le.old ho) h3.nodup (fun hx => h3.fresh x hx ho) (by simp [Job.refs, h4]) (h3.marks ▸ hk) hF trivial ?_ ?_) (by rw [h9.closures]; exact fun _ h => h)
    · simp [Ex.fv, Stmt.binds, hr, hS]
    · simp only [Job.captures] at hc ⊢
      rw [Oak.captures, h1] at hc
      rw [hfo]
      simpa using hc
  | @pass p e p0 e0 S F c code c' h1 h2 ih =>
    refine ih ho hn hfv hm hk hF trivial hS ?_
    simp only [Job.captures, h1.captures] at hc ⊢
    exact hc
  | @place p e e0 S F c m r A B c2 v code c3 c' h1 h2 h3 h4 h5 h6 h7 h8 h9 h10 h11 h12 h13 h14 h15 h16 h17 ih =>
    have hxm : x ≠ m := fun h => h9 (h ▸ ho)
    have hn' : (A ++ r :: B).Nodup := by rw [← h2]; exact hn
    have hr : x ≠ r := fun h => hfv (by show x ∈ c.fv; rw [h2, h]; simp)
    have hxf : x ∈ c2.fv ↔ x ∈ c.fv := by rw [h2, h3]; simp [hr]
    have hfo : c2.follows = c.follows := by simp [Ctx.follows, h6]
    refine Ctx.Bad.mono (ih (h8.old ho) (by
        rw [Job.fvBefore, h3]
        exact hn'.sublist (List.Sublist.append (.refl _) (List.sublist_cons_self _ _))) (fun hx => hfv (hxf.1 hx)) (by simp only [Job.refs, h4]; exact hm) (by rw [h5]; simp [hk, hxm]) hF trivial
        (by simp [Ex.fv, Stmt.binds, hr, hS]) ?_) (by rw [h16]; exact fun _ h => h)
    simp only [Job.captures, h1.captures] at hc ⊢
    rw [hfo]; exact hc
  | @seq p i es S F c code c' h ih =>
    refine ih ho hn hfv hm hk hF trivial hS ?_
    simp only [Job.captures] at hc ⊢
    rw [Oak.captures] at hc
    exact hc
  | @nil p S F c => simp [Job.captures, capturesSeq] at hc
  | @cons p e es S F c S1 c1 code c2 h1 _ h2 h3 h4 ih1 ih2 =>
    have k1 := h1.keeps
    have hm1 : c1.muts = c.muts := k1.muts
    have hfo : c1.follows = (c.follows || !es.isEmpty) := by
      cases es with
      | nil => simp [h4 rfl]
      | cons d ds => simp [Ctx.follows, h3 (by simp)]
    simp only [Job.captures] at hc ih1 ih2
    rw [capturesSeq, Bool.or_eq_true] at hc
    rcases hc with hc | hc
    · rcases h1.lost x ho hn (fun hx => absurd hx hfv) hF trivial hS with h | h
      · obtain ⟨k, hk', hx⟩ := h
        simp only [List.mem_singleton] at hk'
        subst hk'
        exact Ctx.Bad.mono (ih2 (k1.le.old ho) (hn.sublist k1.fv) (fun hx => hfv (k1.fv.subset hx)) (by simp only [Job.refs, hm1]; exact hm) (k1.marks ▸ hk) hF trivial hx (by rw [hfo]; exact hc))
          fun _ h => h
      · exact h.mono h2.closures
    · exact Ctx.Bad.mono (ih1 ho hn hfv hm hk hF trivial hS hc) h2.closures
  | @choice p i es S F c S1 m f c2 first rest c' h1 h2 h3 ih =>
    have hxf : x ≠ f := fun h => h1.fresh (h ▸ ho)
    rcases h1.what with ⟨q1, q2, q3⟩ | ⟨q1, k, q2, q3⟩
    · have hfo : c.follows = false := by simp [Ctx.follows, q1]
      refine ih (h1.le.old ho) (by simpa only [Job.fvBefore, Ctx.saveScope, h1.fv] using hn) (by simpa only [Job.fvBefore, Ctx.saveScope, h1.fv] using hfv) ?_ (h1.marks ▸ hk) hF ⟨hxf, h1.ncomb⟩
        (q2 ▸ hS) ?_
      · simp only [Job.refs, Ctx.saveScope, h1.muts, List.mem_append, List.mem_singleton, not_or]
        exact ⟨hm, hxf⟩
      · simp only [Job.captures] at hc ⊢
        rw [Oak.captures, hfo] at hc
        simpa using hc
    · exact Ctx.Bad.mono ⟨_, by rw [q3]; simp; exact .inr rfl, x, hS, hm, hfv, hk⟩ h3.closures
  | @last p e f s S F c code c' h ih =>
    have hsub : ∀ x ∈ s.muts.dropLast, x ∈ s.muts := fun x hx => (List.dropLast_sublist _).subset hx
    have hfo : ({ c.restoreScope s with muts := s.muts.dropLast } : Ctx).follows = false := by simp [Ctx.follows, Ctx.restoreScope, hb.2]
    refine ih ho hn hfv (fun hx => hm (hsub x hx)) hk hF trivial hS ?_
    rw [hfo]
    simpa [Job.captures, capturesAny] using hc
  | @more p e es f s S F c code c1 codes c' h1 h2 h3 ih1 ih2 =>
    have k1 := h2.keeps
    have k1m : c1.marks = c.marks := k1.marks
    have hfo : (c.restoreScope s).follows = false := by simp [Ctx.follows, Ctx.restoreScope, hb.2]
    simp only [Job.captures] at hc ih1 ih2
    rw [capturesAny, Bool.or_eq_true] at hc
    rcases hc with hc | hc
    · refine Ctx.Bad.mono (ih1 ho hn hfv hm hk hF trivial (by simp [Ex.fv, Stmt.binds, hS]) (by rw [hfo]; exact hc)) fun cl hcl => h3.closures cl hcl
    · exact ih2 (k1.le.old ho) hn hfv hm (by rw [show c1.incr.marks = c.marks from k1m]; exact hk) hF hb hS hc

/-- `scopable` for a job. -/
def Job.scopable (T : Nat → Ty) (u : Bool) : Job → Bool
  | .one p e => Oak.scopable T p u e
  | .seq p es => scopableSeq T p u es
  | .alts p es _ _ => scopableBranches T p u es

/-- `sized` for a job. -/
def Job.sized (T : Nat → Ty) : Job → Prop
  | .one p e => Oak.sized T p e = true
  | .seq p es => sizedAll T p es = true
  | .alts p es _ _ => sizedAll T p es = true

section
variable {T : Nat → Ty} {p : Bool} {e e0 : Expr}
theorem Leaf.scopable (h : Leaf e) (u : Bool) : Oak.scopable T p u e = true := by cases h <;> rw [Oak.scopable]
theorem Discards.scopable (h : Discards T p e e0) (u : Bool) : Oak.scopable T p u e = true := by
  cases h <;> rw [Oak.scopable] <;> rename_i h <;> rw [h] <;> exact scopable_false _ _ _
theorem Builds.scopable {vec : Bool} (h : Builds T p e e0 vec) (u : Bool) : Oak.scopable T p u e = Oak.scopable T true true e0 := by
  cases h <;> rw [Oak.scopable] <;> rename_i h <;> rw [h]
theorem Pass.scopable {p0 : Bool} (h : Pass T p e p0 e0) (u : Bool) : Oak.scopable T p u e = Oak.scopable T p0 u e0 := by
  cases h <;> rw [Oak.scopable] <;> rename_i h <;> (try rw [h]) <;> simp
theorem Places.scopable (h : Places T p e e0) (u : Bool) : Oak.scopable T p u e = Oak.scopable T true u e0 := by
  cases h <;> rw [Oak.scopable] <;> rename_i h <;> rw [h]
theorem Builds.sized {vec : Bool} (h : Builds T p e e0 vec) (hz : Oak.sized T p e = true) : Oak.sized T true e0 = true := by
  cases h <;> rw [Oak.sized] at hz <;> rename_i h <;> rw [h] at hz <;> simp at hz <;> exact hz.1
theorem Places.sized (h : Places T p e e0) (hz : Oak.sized T p e = true) : Oak.sized T true e0 = true := by
  cases h <;> rw [Oak.sized] at hz <;> rename_i h <;> rw [h] at hz <;> simp at hz <;> exact hz.1
theorem Pass.sized {p0 : Bool} (h : Pass T p e p0 e0) (hz : Oak.sized T p e = true) : Oak.sized T p0 e0 = true := by
  cases h
  · exact sized_false _ _
  · exact sized_false _ _
  · exact sized_false _ _
  · rw [Oak.sized] at hz; exact hz
end

/-- A variable of the code that follows that an inner scope hides. -/
def Hidden (x : Name) (j : Job) (S : Ex) (c c' : Ctx) : Prop := x ∈ S.fv ∧ c.names.old x ∧ x ∉ c.marks ∧ (x ∈ j.fvBefore c → x ∈ c'.fv) ∧ j.notFlag x

theorem Comp.unscopable {T : Nat → Ty} {j : Job} {S F : Ex} {c c' : Ctx} {codes : List Ex} (h : Comp T j S F c codes c') (hz : j.sized T) (hA : Separate j c)
    (hn : (j.fvBefore c).Nodup) (hfv : ∀ x ∈ j.fvBefore c, x ∈ S.fv) (hF : ∀ x, x ∉ F.fv) (hb : j.flag) {u : Bool} (hu : u = true → ∃ x, Hidden x j S c c')
    (hs : j.scopable T u = false) : c'.Bad := by
  induction h generalizing u with
  | @leaf p e S F c code c' vs h1 h2 h3 h4 h5 h6 h7 => simp [Job.scopable, h1.scopable] at hs
  | @under p e e0 S F c c0 body c1 code c' h1 h2 h3 h4 h5 h5' h6 h7 h8 h9 h10 h11 ih => simp [Job.scopable, h1.scopable] at hs
  | @build p e e0 vec S F c r c2 body c3 code c' h1 h2 h3 h4 h5 h6 h7 h8 h9 ih =>
    have hr : r ∈ c.fv := by rw [h2]; simp
    have hr2 : r ∉ c2.fv := fun hx => h3.fresh r hx (hA.fvOld r hr)
    have hA2 : Separate (.one true e0) c2 := by
      refine ⟨h3.old, ?_, ?_, ?_, ?_, ?_⟩
      · simp only [Job.refs, h4, List.mem_singleton]; rintro _ rfl; exact h3.le.old (hA.fvOld _ hr)
      · rw [h3.marks]; exact fun x hx => h3.le.old (hA.marksOld x hx)
      · rw [h3.marks]; exact fun x hx hm => h3.fresh x hx (hA.marksOld x hm)
      · simp only [Job.refs, h4, List.mem_singleton, h3.marks]; rintro _ rfl; exact hA.fvMarks _ hr
      · simp only [Job.refs, h4, List.mem_singleton]; rintro _ rfl; exact hr2
    refine Ctx.Bad.mono (ih (u := true) (h1.sized hz) hA2 h3.nodup ?_ (by simp [Ex.fv]) trivial (fun _ => ⟨r, ?_, h3.le.old (hA.fvOld r hr), h3.marks ▸ hA.fvMarks r hr, fun hx => absurd hx hr2, trivial⟩) ?_)
      (by rw [h8.closures]; exact fun _ h => h)
    · intro x hx
      simp only [Job.fvBefore] at hx
      cases vec <;> simp [Ex.fv, Stmt.fv, VEx.fv, hx]
    · cases vec <;> simp [Ex.fv, Stmt.fv]
    · simpa only [Job.scopable, h1.scopable] using hs
  | @act p i e0 bx f S F c r c2 v code c3 c' h1 h2 h3 h4 h5 h5' h6 h7 h8 h9 ih =>
    have hA2 : Separate (.one true e0) c2 := by
      refine ⟨h3.old, ?_, ?_, ?_, ?_, ?_⟩
      · simp [Job.refs, h4]
      · rw [h3.marks]; exact fun x hx => h3.le.old (hA.marksOld x hx)
      · rw [h3.marks]; exact fun x hx hm => h3.fresh x hx (hA.marksOld x hm)
      · simp [Job.refs, h4]
      · simp [Job.refs, h4]
    have hfo : c2.follows = false := by simp [Ctx.follows, h3.ncomb]
    have hx : ∀ x, Hidden x (.one p (.act i e0 bx f)) S c c' → x ∈ (Ex.stmt (.letVal r v) S).fv ∧ x ∉ c2.fv := by
      intro x hx
      have hr : x ≠ r := fun hv => by
        rw [Job.fvBefore, h2, List.nodup_append] at hn
        exact hn.2.2 x (hx.2.2.2.1 (by simp [Job.fvBefore, h2, hv])) x (by simp [hv]) rfl
      exact ⟨by simp [Ex.fv, Stmt.binds, hr, hx.1], fun h => h3.fresh x h hx.2.1⟩
    simp only [Job.scopable] at hs
    rw [Oak.scopable, h1] at hs
    rw [Bool.and_eq_false_iff] at hs
    refine Ctx.Bad.mono (c := c3) ?_ (by rw [h9.closures]; exact fun _ h => h)
    rcases hs with hs | hs
    · refine ih (u := u) ?_ hA2 h3.nodup ?_ hF trivial (fun h => ?_) hs
      · simp only [Job.sized] at hz ⊢
        rw [Oak.sized, h1] at hz
        simp at hz
        exact hz.1
      · intro x hx
        simp [Ex.fv, Stmt.fv, h5' x hx]
      · obtain ⟨x, hx'⟩ := hu h
        obtain ⟨q1, q2⟩ := hx x hx'
        exact ⟨x, q1, h3.le.old hx'.2.1, h3.marks ▸ hx'.2.2.1, fun h => absurd h q2, trivial⟩
    · simp only [Bool.true_and, Bool.not_eq_false', Bool.and_eq_true] at hs
      obtain ⟨x, hx'⟩ := hu hs.1
      obtain ⟨q1, q2⟩ := hx x hx'
      exact h6.captured x (h3.le.old hx'.2.1) h3.nodup q2 (by simp [Job.refs, h4]) (h3.marks ▸ hx'.2.2.1) (hF x) trivial q1 (by rw [hfo]; exact hs.2)
  | @pass p e p0 e0 S F c code c' h1 h2 ih =>
    refine ih (u := u) (h1.sized hz) ⟨hA.1, hA.2, hA.3, hA.4, hA.5, hA.6⟩ hn hfv hF trivial (fun h => ?_) ?_
    · obtain ⟨x, q⟩ := hu h; exact ⟨x, q⟩
    · simp only [Job.scopable, h1.scopable] at hs ⊢
      exact hs
  | @place p e e0 S F c m r A B c2 v code c3 c' h1 h2 h3 h4 h5 h6 h7 h8 h9 h10 h11 h12 h13 h14 h15 h16 h17 ih =>
    have hk := h12.keeps
    have hsub : ∀ x ∈ c2.fv, x ∈ c.fv := by
      rw [h2, h3]; intro x hx
      simp only [List.mem_append, List.mem_cons] at hx ⊢
      exact hx.imp_right .inr
    have hr : r ∈ c.fv := by rw [h2]; simp
    have hne : ∀ x, c.names.old x → x ≠ m := fun x hx h => h9 (h ▸ hx)
    have hA2 : Separate (.one true e0) c2 := by
      refine ⟨fun x hx => h8.old (hA.fvOld x (hsub x hx)), ?_, ?_, ?_, ?_, ?_⟩
      · simp only [Job.refs, h4]; exact fun x hx => h8.old (hA.mutsOld x hx)
      · rw [h5]; intro x hx
        simp only [List.mem_append, List.mem_singleton] at hx
        rcases hx with hx | rfl
        · exact h8.old (hA.marksOld x hx)
        · exact h10
      · intro x hx
        have := hA.fvMarks x (hsub x hx)
        rw [h5]; simp [this, hne x (hA.fvOld x (hsub x hx))]
      · simp only [Job.refs, h4]; intro x hx
        have := hA.mutsMarks x hx
        rw [h5]; simp [this, hne x (hA.mutsOld x hx)]
      · simp only [Job.refs, h4]; exact fun x hx hf => hA.mutsFv x hx (hsub x hf)
    have hn' : (A ++ r :: B).Nodup := by rw [← h2]; exact hn
    have hrn : r ∉ c2.fv := by
      rw [List.nodup_append] at hn'
      obtain ⟨n1, n2, n3⟩ := hn'
      rw [List.nodup_cons] at n2
      rw [h3]
      simp only [List.mem_append, not_or]
      exact ⟨fun h => n3 r h r (by simp) rfl, n2.1⟩
    refine Ctx.Bad.mono (ih (u := u) (h1.sized hz) hA2 (by
        rw [Job.fvBefore, h3]
        exact hn'.sublist (List.Sublist.append (.refl _) (List.sublist_cons_self _ _))) (fun x hx => ?_) hF trivial (fun h => ?_) ?_) (by rw [h16]; exact fun _ h => h)
    · have : x ≠ r := fun h => hrn (h ▸ hx)
      simp [Ex.fv, Stmt.binds, this, hfv x (hsub x hx)]
    · obtain ⟨x, q1, q2, q3, q4, _⟩ := hu h
      have : x ≠ r := fun h => by
        have h0 := q4 (by show x ∈ c.fv; rw [h]; exact hr)
        rw [h13] at h0
        have h0 := hk.fv.subset h0
        rw [h] at h0
        exact hrn h0
      exact ⟨x, by simp [Ex.fv, Stmt.binds, this, q1], h8.old q2, by rw [h5]; simp [q3, hne x q2], fun hx => h13 ▸ q4 (hsub x hx), trivial⟩
    · simp only [Job.scopable, h1.scopable] at hs ⊢
      exact hs
  | @seq p i es S F c code c' h ih =>
    refine ih (u := u) ?_ ⟨hA.1, hA.2, hA.3, hA.4, hA.5, hA.6⟩ hn hfv hF trivial (fun h => ?_) ?_
    · simp only [Job.sized] at hz ⊢; rw [Oak.sized] at hz; exact hz
    · obtain ⟨x, q⟩ := hu h; exact ⟨x, q⟩
    · simp only [Job.scopable] at hs ⊢; rw [Oak.scopable] at hs; exact hs
  | @nil p S F c => simp [Job.scopable, scopableSeq] at hs
  | @cons p e es S F c S1 c1 code c2 h1 hc h2 h3 h4 ih1 ih2 =>
    have k1 := h1.keeps
    have k2 := h2.keeps
    have hm1 : c1.muts = c.muts := k1.muts
    have hsub : ∀ x ∈ c1.fv, x ∈ c.fv := fun x hx => k1.fv.subset hx
    have hA1 : Separate (.one p e) c1 := by
      refine ⟨fun x hx => k1.le.old (hA.fvOld x (hsub x hx)), ?_, ?_, fun x hx => by rw [k1.marks]; exact hA.fvMarks x (hsub x hx), ?_, ?_⟩
      · simp only [Job.refs, hm1]; exact fun x hx => k1.le.old (hA.mutsOld x hx)
      · rw [k1.marks]; exact fun x hx => k1.le.old (hA.marksOld x hx)
      · simp only [Job.refs, hm1, k1.marks]; exact hA.mutsMarks
      · simp only [Job.refs, hm1]; exact fun x hx hf => hA.mutsFv x hx (hsub x hf)
    simp only [Job.sized] at hz
    rw [sizedAll, Bool.and_eq_true] at hz
    refine Ctx.Bad.mono (c := c2) ?_ fun _ h => h
    by_cases hbad : c2.Bad
    · exact hbad
    simp only [Job.scopable] at hs
    rw [scopableSeq, Bool.and_eq_false_iff] at hs
    have lost : ∀ x, c.names.old x → (x ∈ c.fv → x ∈ c1.fv) → x ∈ S.fv → x ∈ S1.fv := by
      intro x q1 q2 q3
      rcases h1.lost x q1 hn q2 (hF x) trivial q3 with h | h
      · obtain ⟨k, hk', hx⟩ := h
        simp only [List.mem_singleton] at hk'
        subst hk'
        exact hx
      · exact absurd (h.mono h2.closures) hbad
    rcases hs with hs | hs
    · refine ih2 (u := u) hz.1 hA1 (hn.sublist k1.fv) (fun x hx => ?_) hF trivial (fun h => ?_) hs
      · exact lost x (hA.fvOld x (hsub x hx)) (fun _ => hx) (hfv x (hsub x hx))
      · obtain ⟨x, q1, q2, q3, q4, _⟩ := hu h
        exact ⟨x, lost x q2 (fun hx => k2.fv.subset (q4 hx)) q1, k1.le.old q2, k1.marks ▸ q3, fun hx => q4 (hsub x hx), trivial⟩
    · refine Ctx.Bad.mono (ih1 (u := u || decide (arity T p e > 0)) hz.2 ⟨hA.1, hA.2, hA.3, hA.4, hA.5, hA.6⟩ hn hfv hF trivial (fun h => ?_) hs) h2.closures
      simp only [Bool.or_eq_true, decide_eq_true_eq] at h
      rcases h with h | h
      · obtain ⟨x, q1, q2, q3, q4, _⟩ := hu h
        exact ⟨x, q1, q2, q3, fun hx => k2.fv.subset (q4 hx), trivial⟩
      · obtain ⟨⟨P, q1, q2⟩, _, _⟩ := compile_moves T e p hz.1 _ _ _ _ _ hc
        cases P with
        | nil => simp at q2; omega
        | cons y P =>
          have hy : y ∈ c1.fv := by rw [q1]; simp
          exact ⟨y, hfv y (hsub y hy), hA.fvOld y (hsub y hy), hA.fvMarks y (hsub y hy), fun _ => hy, trivial⟩
  | @choice p i es S F c S1 m f c2 first rest c' h1 h2 h3 ih =>
    have hA2 : Separate (.alts (p && decide (T i ≠ .unit)) es f c2.saveScope) c2 := by
      refine ⟨?_, ?_, ?_, ?_, ?_, ?_⟩ <;> simp only [Job.fvBefore, Job.refs, Ctx.saveScope, h1.fv, h1.marks, h1.muts, List.mem_append, List.mem_singleton]
      · exact fun x hx => h1.le.old (hA.fvOld x hx)
      · rintro x (hx | rfl)
        · exact h1.le.old (hA.mutsOld x hx)
        · exact h1.old
      · exact fun x hx => h1.le.old (hA.marksOld x hx)
      · exact hA.fvMarks
      · rintro x (hx | rfl)
        · exact hA.mutsMarks x hx
        · exact fun hx => h1.fresh (hA.marksOld _ hx)
      · rintro x (hx | rfl)
        · exact hA.mutsFv x hx
        · exact fun hx => h1.fresh (hA.fvOld _ hx)
    by_cases hbad : c2.Bad
    · exact hbad.mono h3.closures
    have lost : ∀ x, x ∈ S.fv → x ∈ S1.fv := by
      intro x hS
      rcases h1.what with ⟨q1, q2, q3⟩ | ⟨q1, k, q2, q3⟩
      · rw [q2]; exact hS
      · by_cases hp : x ∈ c.muts ∨ x ∈ c.fv ∨ x ∈ c.marks
        · rw [q2]; exact (occ_call (k := k) (b := .all)).2 (by simpa using hp)
        · simp only [not_or] at hp
          exact absurd ⟨_, by rw [q3]; simp; exact .inr rfl, x, hS, hp⟩ hbad
    refine ih (u := u) ?_ hA2 (by simpa only [Job.fvBefore, Ctx.saveScope, h1.fv] using hn) (fun x hx => lost x (hfv x ?_)) hF ⟨h1.ncomb, c.muts, h1.muts⟩ (fun h => ?_) ?_
    · simp only [Job.sized] at hz ⊢
      rw [Oak.sized, Bool.and_eq_true] at hz
      exact hz.1
    · simpa only [Job.fvBefore, Ctx.saveScope, h1.fv] using hx
    · obtain ⟨x, q1, q2, q3, q4, _⟩ := hu h
      exact ⟨x, lost x q1, h1.le.old q2, h1.marks ▸ q3, by simpa only [Job.fvBefore, Ctx.saveScope, h1.fv] using q4, fun h => h1.fresh (h ▸ q2)⟩
    · simp only [Job.scopable] at hs ⊢
      rw [Oak.scopable] at hs
      exact hs
  | @last p e f s S F c code c' h ih =>
    have hsub : ∀ x ∈ s.muts.dropLast, x ∈ s.muts := fun x hx => (List.dropLast_sublist _).subset hx
    refine ih (u := u) ?_ ⟨hA.1, fun x hx => hA.2 x (hsub x hx), hA.3, hA.4, fun x hx => hA.5 x (hsub x hx), fun x hx => hA.6 x (hsub x hx)⟩ hn hfv hF trivial (fun h => ?_) ?_
    · simpa [Job.sized, sizedAll] using hz
    · obtain ⟨x, q1, q2, q3, q4, _⟩ := hu h; exact ⟨x, q1, q2, q3, q4, trivial⟩
    · simpa [Job.scopable, scopableBranches] using hs
  | @more p e es f s S F c code c1 codes c' h1 h2 h3 ih1 ih2 =>
    obtain ⟨b2, l, b3⟩ := hb
    have k1 := h2.keeps
    have k1m : c1.marks = c.marks := k1.marks
    have k1l : c.names.le c1.names := k1.le
    have hf : f ∈ s.muts := by rw [b3]; simp
    simp only [Job.sized] at hz
    rw [sizedAll, Bool.and_eq_true] at hz
    simp only [Job.scopable] at hs
    rw [scopableBranches, Bool.and_eq_false_iff] at hs
    rcases hs with hs | hs
    · refine Ctx.Bad.mono (ih1 (u := u || !es.isEmpty) hz.1 ⟨hA.1, hA.2, hA.3, hA.4, hA.5, hA.6⟩ hn (fun x hx => ?_) hF trivial (fun _ => ?_) hs) fun cl hcl => h3.closures cl hcl
      · simp [Ex.fv, Stmt.binds, hfv x hx]
      · exact ⟨f, by simp [Ex.fv, Stmt.fv], hA.mutsOld f hf, hA.mutsMarks f hf, fun hx => absurd hx (hA.mutsFv f hf), trivial⟩
    · refine ih2 (u := u) hz.2 (Separate.le (j := .alts p es f s) (c := c) (c1 := c1.incr) ⟨hA.1, hA.2, hA.3, hA.4, hA.5, hA.6⟩ rfl rfl k1m k1l) hn hfv hF ⟨b2, l, b3⟩ (fun h => ?_) hs
      obtain ⟨x, q1, q2, q3, q4, q5⟩ := hu h
      exact ⟨x, q1, k1l.old q2, by rw [show c1.incr.marks = c.marks from k1m]; exact q3, q4, q5⟩

theorem bad_closed {c : Ctx} (h : c.Bad) : c.closures.all Closure.closed = false := by
  obtain ⟨cl, h1, x, h2, h3, h4, h5⟩ := h
  rw [List.all_eq_false]
  refine ⟨cl, h1, ?_⟩
  simp only [Closure.closed, Bool.and_eq_true, List.all_eq_true, decide_eq_true_eq, not_and]
  intro h
  have := h x h2
  simp [h3, h4, h5] at this

theorem parser_unscoped {T : Nat → Ty} {r : String} {e : Expr} {f : Fn} (h : compileParser T r e = .ok f) (hT : T e.id ≠ .unit) (hz : sized T true e = true)
    (hs : scopable T true false e = false) : f.scopeOk = false := by
  unfold compileParser at h
  rw [if_neg hT] at h
  obtain ⟨⟨code, c⟩, hc, h⟩ := except_bind_eq_ok h
  obtain ⟨c2, hc2, h⟩ := except_bind_eq_ok h
  cases h
  obtain ⟨-, e2⟩ := closeScope_eq hc2
  subst e2
  have hA : Separate (.one true e) (Ctx.new.openScope (T e.id).card).2 := by
    refine ⟨fun x hx => freshNames_old hx, ?_, ?_, ?_, ?_, ?_⟩ <;> simp [Job.refs, openScope_muts, openScope_marks, Ctx.new]
  have hq := compile_comp T e _ _ _ _ _ _ hc
  have := bad_closed (hq.unscopable hz hA (freshNames_nodup _ _) (fun x hx => hx) (by simp [Ex.fv]) trivial (u := false) (by simp) hs)
  simp only [Fn.scopeOk, Bool.and_eq_false_iff]
  exact .inl this

theorem compileGrammar_unscoped {T : Nat → Ty} : ∀ {rules : List (String × Expr)} {fs : List (FnRef × Fn)}, compileGrammar T rules = .ok fs →
    (∀ r ∈ rules, T r.2.id = .unit ∨ sized T true r.2 = true) → (∀ f ∈ fs, f.2.scopeOk = true) → ∀ r ∈ rules, T r.2.id = .unit ∨ scopable T true false r.2 = true := by
  intro rules
  induction rules with
  | nil => intro fs _ _ _ r hr; cases hr
  | cons r rs ih =>
    obtain ⟨r, e⟩ := r
    intro fs h hz ho
    rw [compileGrammar] at h
    obtain ⟨f1, h1, h⟩ := except_bind_eq_ok h
    obtain ⟨f2, h2, h⟩ := except_bind_eq_ok h
    obtain ⟨fs', h3, h⟩ := except_bind_eq_ok h
    cases h
    rw [List.forall_mem_cons] at hz ⊢
    rw [List.forall_mem_cons, List.forall_mem_cons] at ho
    refine ⟨?_, ih h3 hz.2 ho.2.2⟩
    rcases hz.1 with hT | hz
    · exact .inl hT
    · by_cases hT : T e.id = .unit
      · exact .inl hT
      · right
        cases hs : scopable T true false e with
        | true => rfl
        | false => have := parser_unscoped h2 hT hz hs; rw [ho.2.1] at this; cases this

end Oak
