import Verif.Proofs.ActionCall
import Verif.Proofs.Names
/-! The names written by the compiler come from its factory. -/
set_option autoImplicit false
set_option linter.constructorNameAsVariable false

namespace Oak

theorem mem_of_mem_dropLast' {α : Type} {l : List α} {x : α} (h : x ∈ l.dropLast) : x ∈ l := List.dropLast_subset l h

/-- Names of the factory, and the two fixed ones. -/
def NameFactory.known (f : NameFactory) (a : Name) : Prop := f.old a ∨ a = .x ∨ a = .isSuccess

theorem NameFactory.le.known {f g : NameFactory} (h : f.le g) {a : Name} (ha : f.known a) : g.known a := by
  rcases ha with ha | ha
  · exact .inl (h.old ha)
  · exact .inr ha

/-- All the names of the context are known. -/
structure KnownNames (c : Ctx) : Prop where
  fv : ∀ x ∈ c.fv, c.names.known x
  muts : ∀ x ∈ c.muts, c.names.known x
  marks : ∀ x ∈ c.marks, c.names.known x
  closures : ∀ cl ∈ c.closures, ∀ x ∈ cl.names, c.names.known x
  kind : (∀ x ∈ c.marks, ∃ n, x = .mark n) ∧ ∀ cl ∈ c.closures, ∀ x ∈ cl.marks, ∃ n, x = .mark n

/-- All the names of the code are known. -/
def CleanK (c : Ctx) (k : Ex) : Prop := ∀ x ∈ k.names, c.names.known x

/-- A step of the compilation that uses at most `m` prefixes. -/
structure Step (c c' : Ctx) (m : Nat) : Prop where
  clean : KnownNames c'
  le : c.names.le c'.names
  bound : c'.names.prefixUid ≤ c.names.prefixUid + m

theorem Step.refl {c : Ctx} (h : KnownNames c) : Step c c 0 := ⟨h, .refl _, Nat.le_refl _⟩
theorem Step.trans {c c1 c2 : Ctx} {m n : Nat} (a : Step c c1 m) (b : Step c1 c2 n) : Step c c2 (m + n) :=
  ⟨b.clean, a.le.trans b.le, by have := a.bound; have := b.bound; omega⟩
theorem Step.mono {c c' : Ctx} {m n : Nat} (a : Step c c' m) (h : m ≤ n) : Step c c' n :=
  ⟨a.clean, a.le, Nat.le_trans a.bound (by omega)⟩
theorem Step.cleanK {c c' : Ctx} {m : Nat} (a : Step c c' m) {k : Ex} (h : CleanK c k) : CleanK c' k :=
  fun x hx => a.le.known (h x hx)
theorem Step.known {c c' : Ctx} {m : Nat} (a : Step c c' m) {x : Name} (h : c.names.known x) : c'.names.known x := a.le.known h

theorem Step.incr {c c' : Ctx} {m : Nat} (a : Step c c' m) : Step c c'.incr m :=
  ⟨⟨a.clean.fv, a.clean.muts, a.clean.marks, a.clean.closures, a.clean.kind⟩, a.le, a.bound⟩

theorem KnownNames.mono {c : Ctx} {f : NameFactory} (h : KnownNames c) (hf : c.names.le f) : KnownNames { c with names := f } :=
  ⟨fun x hx => hf.known (h.fv x hx), fun x hx => hf.known (h.muts x hx), fun x hx => hf.known (h.marks x hx),
    fun cl hcl x hx => hf.known (h.closures cl hcl x hx), h.kind⟩

theorem nextMark_le (c : Ctx) : c.names.le c.nextMark.2.names := by constructor <;> simp [Ctx.nextMark]
theorem nextCounter_le (c : Ctx) : c.names.le c.nextCounter.2.names := by constructor <;> simp [Ctx.nextCounter]
theorem nextBranchFailed_le (c : Ctx) : c.names.le c.nextBranchFailed.2.names := by constructor <;> simp [Ctx.nextBranchFailed]

theorem nextMark_step {c : Ctx} (h : KnownNames c) : Step c c.nextMark.2 0 := ⟨h.mono (nextMark_le c), nextMark_le c, Nat.le_refl _⟩
theorem nextCounter_step {c : Ctx} (h : KnownNames c) : Step c c.nextCounter.2 0 := ⟨h.mono (nextCounter_le c), nextCounter_le c, Nat.le_refl _⟩
theorem nextBranchFailed_step {c : Ctx} (h : KnownNames c) : Step c c.nextBranchFailed.2 0 :=
  ⟨h.mono (nextBranchFailed_le c), nextBranchFailed_le c, Nat.le_refl _⟩

theorem nextFreeVar_step {c c1 : Ctx} {v : Name} (h : c.nextFreeVar = .ok (v, c1)) (hc : KnownNames c) : Step c c1 0 ∧ c.names.known v := by
  unfold Ctx.nextFreeVar at h
  split at h
  · rename_i w hw
    cases h
    refine ⟨⟨⟨fun x hx => hc.fv x (mem_of_mem_dropLast' hx), hc.muts, hc.marks, hc.closures, hc.kind⟩, .refl _, Nat.le_refl _⟩, ?_⟩
    exact hc.fv _ (List.mem_of_getLast? hw)
  · cases h

theorem nextFreeVars_step {n : Nat} {c c1 : Ctx} {vs : List Name} (h : c.nextFreeVars n = .ok (vs, c1)) (hc : KnownNames c) :
    Step c c1 0 ∧ ∀ v ∈ vs, c.names.known v := by
  induction n generalizing c c1 vs with
  | zero => cases h; exact ⟨.refl hc, by simp⟩
  | succ n ih =>
    unfold Ctx.nextFreeVars at h
    replace h := except_bind_eq_ok h
    obtain ⟨⟨v, c2⟩, h1, h⟩ := h
    replace h := except_bind_eq_ok h
    obtain ⟨⟨ws, c3⟩, h2, h⟩ := h
    cases h
    obtain ⟨s1, k1⟩ := nextFreeVar_step h1 hc
    obtain ⟨s2, k2⟩ := ih h2 s1.clean
    refine ⟨s1.trans s2, ?_⟩
    intro x hx
    rcases List.mem_append.1 hx with hx | hx
    · have : c2.names = c.names := by
        unfold Ctx.nextFreeVar at h1
        split at h1 <;> cases h1
        rfl
      rw [← this]; exact k2 x hx
    · rw [List.mem_singleton.1 hx]; exact k1

theorem nextFreeVarSkip_step {n : Nat} {c c1 : Ctx} {v : Name} (h : c.nextFreeVarSkip n = .ok (v, c1)) (hc : KnownNames c) :
    Step c c1 0 ∧ c.names.known v := by
  unfold Ctx.nextFreeVarSkip at h
  split at h
  · split at h
    · rename_i w hw
      cases h
      refine ⟨⟨⟨fun x hx => hc.fv x (List.mem_of_mem_eraseIdx hx), hc.muts, hc.marks, hc.closures, hc.kind⟩, .refl _, Nat.le_refl _⟩, ?_⟩
      exact hc.fv _ (List.mem_of_getElem? hw)
    · cases h
  · cases h

/-- The scope kept aside is known. -/
structure CleanS (f : NameFactory) (s : Ctx.Scope) : Prop where
  fv : ∀ x ∈ s.fv, f.known x
  muts : ∀ x ∈ s.muts, f.known x

theorem CleanS.mono {f g : NameFactory} {s : Ctx.Scope} (h : CleanS f s) (hf : f.le g) : CleanS g s :=
  ⟨fun x hx => hf.known (h.fv x hx), fun x hx => hf.known (h.muts x hx)⟩

theorem saveScope_clean {c : Ctx} (h : KnownNames c) : CleanS c.names c.saveScope := ⟨h.fv, h.muts⟩

theorem restoreScope_clean {c : Ctx} {s : Ctx.Scope} (h : KnownNames c) (hs : CleanS c.names s) : KnownNames (c.restoreScope s) :=
  ⟨hs.fv, hs.muts, h.marks, h.closures, h.kind⟩

theorem openScope_step {c : Ctx} (n : Nat) (h : KnownNames c) :
    Step c (c.openScope n).2 1 ∧ CleanS (c.openScope n).2.names (c.openScope n).1 := by
  have hle := openScope_le c n
  refine ⟨⟨⟨?_, ?_, fun x hx => hle.known (h.marks x hx), fun cl hcl x hx => hle.known (h.closures cl hcl x hx), h.kind⟩, hle, ?_⟩, ?_⟩
  · intro x hx
    exact .inl (freshNames_old (c := c) (n := n) hx)
  · intro x hx; simp [openScope_muts] at hx
  · exact Nat.le_refl _
  · exact (saveScope_clean h).mono hle

theorem closeScope_step {c c' c0 : Ctx} {s : Ctx.Scope} {m : Nat} (h : c.closeScope s = .ok c') (hc : Step c0 c m) (hs : CleanS c.names s) :
    Step c0 c' m := by
  unfold Ctx.closeScope at h
  split at h <;> cases h
  exact ⟨restoreScope_clean hc.clean hs, hc.le, hc.bound⟩

theorem pushMut_clean {c : Ctx} {x : Name} (h : KnownNames c) (hx : c.names.known x) : KnownNames (c.pushMut x) :=
  ⟨h.fv, by simpa [Ctx.pushMut, or_imp, forall_and, hx] using h.muts, h.marks, h.closures, h.kind⟩

theorem pushMark_clean {c : Ctx} {x : Name} (h : KnownNames c) (hx : c.names.known x) (hk : ∃ n, x = .mark n) : KnownNames (c.pushMark x) :=
  ⟨h.fv, h.muts, by simpa [Ctx.pushMark, or_imp, forall_and, hx] using h.marks, h.closures,
    by simpa [Ctx.pushMark, or_imp, forall_and, hk] using h.kind.1, h.kind.2⟩

theorem popMark_clean {c : Ctx} (h : KnownNames c) : KnownNames c.popMark :=
  ⟨h.fv, h.muts, fun x hx => h.marks x (mem_of_mem_dropLast' hx), h.closures,
    fun x hx => h.kind.1 x (mem_of_mem_dropLast' hx), h.kind.2⟩

theorem popMut_clean {c c' : Ctx} (hp : c.popMut = .ok c') (h : KnownNames c) : KnownNames c' ∧ c'.names = c.names := by
  unfold Ctx.popMut at hp
  split at hp <;> cases hp
  exact ⟨⟨h.fv, fun x hx => h.muts x (mem_of_mem_dropLast' hx), h.marks, h.closures, h.kind⟩, rfl⟩

theorem successAsClosure_step {c : Ctx} {S : Ex} (h : KnownNames c) (hS : CleanK c S) :
    Step c (c.successAsClosure S).2 0 ∧ CleanK (c.successAsClosure S).2 (c.successAsClosure S).1 := by
  unfold Ctx.successAsClosure
  split
  · have hle : c.names.le { c.names with closureUid := c.names.closureUid + 1 } := by constructor <;> simp
    refine ⟨⟨⟨fun x hx => hle.known (h.fv x hx), fun x hx => hle.known (h.muts x hx), fun x hx => hle.known (h.marks x hx), ?_, h.kind.1, ?_⟩, hle,
      Nat.le_refl _⟩, ?_⟩
    · intro cl hcl x hx
      simp only [List.mem_append, List.mem_singleton] at hcl
      rcases hcl with hcl | rfl
      · exact hle.known (h.closures cl hcl x hx)
      · simp only [Closure.names, List.mem_append] at hx
        rcases hx with ((hx | hx) | hx) | hx
        · exact hle.known (h.muts x hx)
        · exact hle.known (h.fv x hx)
        · exact hle.known (h.marks x hx)
        · exact hle.known (hS x hx)
    · intro cl hcl x hx
      simp only [List.mem_append, List.mem_singleton] at hcl
      rcases hcl with hcl | rfl
      · exact h.kind.2 cl hcl x hx
      · exact h.kind.1 x hx
    · intro x hx
      simp only [Ex.names, List.mem_append] at hx
      rcases hx with (hx | hx) | hx
      · exact hle.known (h.muts x hx)
      · exact hle.known (h.fv x hx)
      · exact hle.known (h.marks x hx)
  · exact ⟨.refl h, hS⟩

/-- What compiling does to names. -/
def Named (m : Nat) (comp : Ex → Ex → Ctx → Except String (Ex × Ctx)) : Prop :=
  ∀ S F c code c', comp S F c = .ok (code, c') → KnownNames c → CleanK c S → CleanK c F → Step c c' m ∧ CleanK c' code

theorem mark_known (c : Ctx) : c.nextMark.2.names.known c.nextMark.1 := .inl (nextMark_old c)
theorem counter_known (c : Ctx) : c.nextCounter.2.names.known c.nextCounter.1 := .inl (nextCounter_old c)
theorem branch_known (c : Ctx) : c.nextBranchFailed.2.names.known c.nextBranchFailed.1 := .inl (nextBranchFailed_old c)

theorem repeatCode_step {plus : Bool} {body S F : Ex} {c : Ctx} (hc : KnownNames c) (hb : CleanK c body) (hS : CleanK c S) (hF : CleanK c F) :
    Step c (repeatCode plus body S F c).2 0 ∧ CleanK (repeatCode plus body S F c).2 (repeatCode plus body S F c).1 := by
  cases plus
  · simp only [repeatCode, Bool.false_eq_true, if_false]
    have s := nextMark_step hc
    refine ⟨s, ?_⟩
    intro x hx
    simp only [Ex.names, Stmt.names, Option.toList, List.mem_append, List.mem_cons, List.not_mem_nil, or_false, false_or] at hx
    rcases hx with rfl | rfl | hx | rfl | hx
    · exact mark_known c
    · exact mark_known c
    · exact s.known (hb x hx)
    · exact mark_known c
    · exact s.known (hS x hx)
  · simp only [repeatCode, if_true]
    have s1 := nextMark_step hc
    have s2 := nextCounter_step s1.clean
    have s := s1.trans s2
    have hm := s2.known (mark_known c)
    have hk := counter_known c.nextMark.2
    refine ⟨s, ?_⟩
    intro x hx
    simp only [Ex.names, Stmt.names, Cond.names, Option.toList, List.mem_append, List.mem_cons, List.not_mem_nil, or_false, false_or] at hx
    rcases hx with rfl | rfl | rfl | rfl | hx | rfl | hx | rfl | hx
    · exact hm
    · exact hk
    · exact hk
    · exact hm
    · exact s.known (hb x hx)
    · exact hk
    · exact s.known (hF x hx)
    · exact hm
    · exact s.known (hS x hx)

theorem optionalCode_step {body S : Ex} {c : Ctx} (hc : KnownNames c) (hb : CleanK c body) (hS : CleanK c S) :
    Step c (optionalCode body S c).2 0 ∧ CleanK (optionalCode body S c).2 (optionalCode body S c).1 := by
  simp only [optionalCode]
  have s := nextMark_step hc
  refine ⟨s, ?_⟩
  intro x hx
  simp only [Ex.names, Stmt.names, List.mem_append, List.mem_cons, List.not_mem_nil, or_false] at hx
  rcases hx with rfl | hx | rfl | hx
  · exact mark_known c
  · exact s.known (hb x hx)
  · exact mark_known c
  · exact s.known (hS x hx)

theorem valueConstructor_step {comp : Ex → Ex → Ctx → Except String (Ex × Ctx)} {m card : Nat} {vec : Bool} {c c' : Ctx} {body : Ex} {r : Name}
    (hcomp : Named m comp) (h : valueConstructor comp card vec c = .ok (body, r, c')) (hc : KnownNames c) :
    Step c c' (m + 1) ∧ CleanK c' body ∧ c'.names.known r := by
  unfold valueConstructor at h
  replace h := except_bind_eq_ok h
  obtain ⟨⟨v, c1⟩, h1, h⟩ := h
  obtain ⟨s1, k1⟩ := nextFreeVar_step h1 hc
  obtain ⟨s2, hs⟩ := openScope_step card s1.clean
  have hv := s2.known (s1.known k1)
  have hclean := pushMut_clean s2.clean hv
  dsimp only at h
  replace h := except_bind_eq_ok h
  obtain ⟨⟨code, c3⟩, h3, h⟩ := h
  replace h := except_bind_eq_ok h
  obtain ⟨c4, h4, h⟩ := h
  simp only [Except.ok.injEq, Prod.mk.injEq] at h
  obtain ⟨rfl, rfl, rfl⟩ := h
  obtain ⟨s3, k3⟩ := hcomp _ _ _ _ _ h3 hclean (by
    intro x hx
    have hx : x = v ∨ x ∈ ((c1.openScope card).2.pushMut v).fv := by
      cases vec <;> simpa [Ex.names, Stmt.names, VEx.names] using hx
    rcases hx with rfl | hx
    · exact hv
    · exact hclean.fv x hx) (by intro x hx; simp [Ex.names] at hx)
  have s : Step c c3 (m + 1) :=
    ⟨s3.clean, (s1.trans s2).le.trans s3.le, by
      have h1 := (s1.trans s2).bound
      have h2 := s3.bound
      simp only [Ctx.pushMut] at h2
      omega⟩
  have sc := closeScope_step h4 s.incr (hs.mono s3.le)
  have hle : c3.names = c4.names := by
    unfold Ctx.closeScope at h4
    split at h4 <;> cases h4
    rfl
  exact ⟨sc, fun x hx => by rw [← hle]; exact k3 x hx, by rw [← hle]; exact s3.le.known hv⟩

theorem compileCall_named (T : Nat → Ty) (p : Bool) (i : Nat) (path : Path) : Named 0 (compileCall T p i path) := by
  intro S F c code c' h hc hS hF
  unfold compileCall at h
  split at h
  · replace h := except_bind_eq_ok h
    obtain ⟨⟨vs, c1⟩, h1, h⟩ := h
    cases h
    obtain ⟨s, k⟩ := nextFreeVars_step h1 hc
    refine ⟨s, ?_⟩
    intro x hx
    simp only [Ex.names, Stmt.names, Cond.names, List.mem_append, List.not_mem_nil, false_or] at hx
    rcases hx with (hx | hx) | hx
    · exact s.known (k x hx)
    · exact s.known (hS x hx)
    · exact s.known (hF x hx)
  · cases h
    refine ⟨.refl hc, ?_⟩
    intro x hx
    simp only [Ex.names, Stmt.names, Cond.names, List.mem_append, List.not_mem_nil, false_or] at hx
    rcases hx with hx | hx
    · exact hS x hx
    · exact hF x hx

theorem choiceCode_names {m b : Name} {l : List Ex} {x : Name} (h : x ∈ (choiceCode m b l).names) : x = m ∨ x = b ∨ ∃ e ∈ l, x ∈ e.names := by
  induction l with
  | nil => simp [choiceCode, Ex.names] at h
  | cons e l ih =>
    simp only [choiceCode, Ex.names, Stmt.names, Cond.names, List.mem_append, List.mem_cons, List.not_mem_nil, or_false] at h
    rcases h with rfl | rfl | h | h
    · exact .inr (.inl rfl)
    · exact .inl rfl
    · exact .inr (.inr ⟨e, by simp, h⟩)
    · rcases ih h with h | h | ⟨e', he, h⟩
      · exact .inl h
      · exact .inr (.inl h)
      · exact .inr (.inr ⟨e', by simp [he], h⟩)

theorem CleanK.stmt {c : Ctx} {s : Stmt} {k : Ex} (hs : ∀ x ∈ s.names, c.names.known x) (hk : CleanK c k) : CleanK c (.stmt s k) := by
  intro x hx
  simp only [Ex.names, List.mem_append] at hx
  rcases hx with hx | hx
  · exact hs x hx
  · exact hk x hx

theorem seq_named (T : Nat → Ty) (p : Bool) (es : List Expr) (ih : ∀ e ∈ es, ∀ p, Named e.nodes (compile T p e)) :
    Named (nodesAll es) (compileSeq T p es) := by
  induction es with
  | nil =>
    intro S F c code c' h hc hS hF
    simp only [compileSeq] at h
    cases h
    exact ⟨.refl hc, hS⟩
  | cons e es ihes =>
    intro S F c code c' h hc hS hF
    simp only [compileSeq] at h
    replace h := except_bind_eq_ok h
    obtain ⟨⟨S1, c1⟩, h1, h⟩ := h
    replace h := except_bind_eq_ok h
    obtain ⟨⟨code1, c2⟩, h2, h⟩ := h
    cases h
    obtain ⟨s1, k1⟩ := ihes (fun e he => ih e (by simp [he])) _ _ _ _ _ h1 hc hS hF
    obtain ⟨s2, k2⟩ := ih e (by simp) p _ _ _ _ _ h2 s1.clean k1 (s1.cleanK hF)
    exact ⟨((s1.trans s2).mono (by simp only [nodesAll]; omega)).incr, k2⟩

theorem branches_named (T : Nat → Ty) (p : Bool) (es : List Expr) (ih : ∀ e ∈ es, ∀ p, Named e.nodes (compile T p e))
    (b : Name) (scope : Ctx.Scope) (S F : Ex) (c c' : Ctx) (codes : List Ex)
    (h : compileBranches T p es b S F scope c = .ok (codes, c')) (hc : KnownNames c) (hs : CleanS c.names scope) (hb : c.names.known b)
    (hS : CleanK c S) (hF : CleanK c F) : Step c c' (nodesAll es) ∧ ∀ k ∈ codes, CleanK c' k := by
  induction es generalizing c c' codes with
  | nil => simp only [compileBranches] at h; cases h
  | cons e es ihes =>
    simp only [compileBranches] at h
    split at h
    · replace h := except_bind_eq_ok h
      obtain ⟨c1, h1, h⟩ := h
      replace h := except_bind_eq_ok h
      obtain ⟨⟨code, c2⟩, h2, h⟩ := h
      cases h
      obtain ⟨p1, p2⟩ := popMut_clean h1 (restoreScope_clean hc hs)
      have p2 : c1.names = c.names := p2
      obtain ⟨s, k⟩ := ih e (by simp) p _ _ _ _ _ h2 p1 (fun x hx => by rw [p2]; exact hS x hx) (fun x hx => by rw [p2]; exact hF x hx)
      refine ⟨⟨s.clean, by have := s.le; rwa [p2] at this, ?_⟩, ?_⟩
      · have := s.bound
        rw [p2] at this
        simp only [nodesAll]; omega
      · intro k' hk'
        rw [List.mem_singleton.1 hk']; exact k
    · replace h := except_bind_eq_ok h
      obtain ⟨⟨code, c1⟩, h1, h⟩ := h
      replace h := except_bind_eq_ok h
      obtain ⟨⟨codes1, c2⟩, h2, h⟩ := h
      cases h
      obtain ⟨s1, k1⟩ := ih e (by simp) p _ _ _ _ _ h1 (restoreScope_clean hc hs)
        (CleanK.stmt (by simpa [Stmt.names, Ctx.restoreScope] using hb) hS) hF
      have s1 : Step c c1 e.nodes := ⟨s1.clean, s1.le, s1.bound⟩
      obtain ⟨s2, k2⟩ := ihes (fun e he => ih e (by simp [he])) c1.incr c2 codes1 h2 s1.incr.clean (hs.mono s1.le) (s1.known hb)
        (s1.incr.cleanK hS) (s1.incr.cleanK hF)
      refine ⟨(s1.incr.trans s2).mono (by simp [nodesAll]), ?_⟩
      intro k' hk'
      rcases List.mem_cons.1 hk' with rfl | hk'
      · exact s2.cleanK k1
      · exact k2 k' hk'

theorem spanned_named (T : Nat → Ty) (e : Expr) (ih : ∀ p, Named e.nodes (compile T p e)) (card : Nat) (mk : Name → VEx)
    (hmk : ∀ m, (mk m).names = [m]) (S F : Ex) (c c' : Ctx) (code : Ex) (r : Name) (c1 : Ctx)
    (hr : c.nextMark.2.nextFreeVarSkip card = .ok (r, c1)) (code1 : Ex) (c2 : Ctx)
    (h : compile T true e (.stmt (.letVal r (mk c.nextMark.1)) S) F (c1.pushMark c.nextMark.1) = .ok (code1, c2))
    (hcode : code = .stmt (.letMark c.nextMark.1) code1) (hc' : c' = c2.incr.popMark) (hc : KnownNames c) (hS : CleanK c S) (hF : CleanK c F) :
    Step c c' (e.nodes + 1) ∧ CleanK c' code := by
  subst hcode hc'
  have s1 := nextMark_step hc
  obtain ⟨s2, k2⟩ := nextFreeVarSkip_step hr s1.clean
  have s := s1.trans s2
  have hm := s2.known (mark_known c)
  obtain ⟨s3, k3⟩ := ih true _ _ _ _ _ h (pushMark_clean s2.clean hm ⟨_, rfl⟩)
    (CleanK.stmt (by
      intro x hx
      simp only [Stmt.names, hmk, List.mem_cons, List.not_mem_nil, or_false] at hx
      rcases hx with rfl | rfl
      · exact s2.known k2
      · exact hm) (s.cleanK hS)) (s.cleanK hF)
  have s3 : Step c1 c2 e.nodes := ⟨s3.clean, s3.le, s3.bound⟩
  refine ⟨⟨popMark_clean s3.incr.clean, s.le.trans s3.le, ?_⟩, ?_⟩
  · have h1 := s.bound
    have h2 := s3.bound
    simp only [Ctx.popMark, Ctx.incr]
    omega
  · exact CleanK.stmt (by
      intro x hx
      simp only [Stmt.names, List.mem_singleton] at hx
      subst hx
      exact s3.known hm) k3

theorem Named.mono {m n : Nat} {comp : Ex → Ex → Ctx → Except String (Ex × Ctx)} (h : Named m comp) (hmn : m ≤ n) : Named n comp :=
  fun S F c code c' hc h1 h2 h3 => ⟨(h S F c code c' hc h1 h2 h3).1.mono hmn, (h S F c code c' hc h1 h2 h3).2⟩

theorem actionCall_names (b : Bool) (f : Path) (u : Bool) (vs : List Name) : ∀ x ∈ (actionCall b f u vs).names, x ∈ vs := by
  intro x hx
  rw [actionCall_eq] at hx
  by_cases h1 : (Spec.isVariant f && u) = true <;> cases b <;> simp [h1, VEx.names] at hx <;> assumption

/-- The names written by the compiler come from its factory, which makes at most one prefix per expression. -/
theorem compile_named (T : Nat → Ty) (e : Expr) : ∀ p, Named e.nodes (compile T p e) := by
  induction e using Expr.ind with
  | str i l =>
    intro p S F c code c' h hc hS hF
    simp only [compile] at h
    cases h
    refine ⟨(Step.refl hc).mono (by simp), ?_⟩
    intro x hx
    simp only [Ex.names, Stmt.names, List.mem_append, List.not_mem_nil, false_or] at hx
    rcases hx with hx | hx
    · exact hS x hx
    · exact hF x hx
  | any i =>
    intro p S F c code c' h hc hS hF
    simp only [compile] at h
    split at h
    · replace h := except_bind_eq_ok h
      obtain ⟨⟨v, c1⟩, h1, h⟩ := h
      cases h
      obtain ⟨s, k⟩ := nextFreeVar_step h1 hc
      refine ⟨s.mono (by simp), ?_⟩
      intro x hx
      simp only [Ex.names, Stmt.names, Option.toList, List.mem_append, List.mem_singleton, List.not_mem_nil, false_or] at hx
      rcases hx with rfl | hx | hx
      · exact s.known k
      · exact s.known (hS x hx)
      · exact s.known (hF x hx)
    · cases h
      refine ⟨(Step.refl hc).mono (by simp), ?_⟩
      intro x hx
      simp only [Ex.names, Stmt.names, Option.toList, List.mem_append, List.not_mem_nil, false_or] at hx
      rcases hx with hx | hx
      · exact hS x hx
      · exact hF x hx
  | cls i ivs =>
    intro p S F c code c' h hc hS hF
    simp only [compile] at h
    have key : ∀ v c1, Step c c1 0 → c1.names.known v →
        (do
          let cond ← compileCondition ivs
          .ok (.stmt (.letMark c1.nextMark.1) (.matchClass v cond S (.stmt (.restore c1.nextMark.1) (.stmt (.error (classDesc ivs)) F))), c1.nextMark.2)) =
          (.ok (code, c') : Except String (Ex × Ctx)) → Step c c' (Expr.cls i ivs).nodes ∧ CleanK c' code := by
      intro v c1 s1 k1 h
      replace h := except_bind_eq_ok h
      obtain ⟨cond, _, h⟩ := h
      cases h
      have s2 := nextMark_step s1.clean
      have s := s1.trans s2
      refine ⟨s.mono (by simp), ?_⟩
      intro x hx
      simp only [Ex.names, Stmt.names, List.mem_append, List.mem_cons, List.not_mem_nil, or_false, false_or] at hx
      rcases hx with rfl | rfl | hx | rfl | hx
      · exact mark_known c1
      · exact s2.known k1
      · exact s.known (hS x hx)
      · exact mark_known c1
      · exact s.known (hF x hx)
    split at h
    · replace h := except_bind_eq_ok h
      obtain ⟨⟨v, c1⟩, h1, h⟩ := h
      obtain ⟨s1, k1⟩ := nextFreeVar_step h1 hc
      exact key v c1 s1 (s1.known k1) h
    · exact key .x c (.refl hc) (.inr (.inl rfl)) h
  | nt i r => intro p; exact (compileCall_named T p i [r]).mono (by simp)
  | ext i q => intro p; exact (compileCall_named T p i q).mono (by simp)
  | seq i es ih =>
    intro p S F c code c' h hc hS hF
    simp only [compile] at h
    exact (seq_named T _ es ih).mono (by simp [Expr.nodes]) _ _ _ _ _ h hc hS hF
  | choice i es ih =>
    intro p S F c code c' h hc hS hF
    simp only [compile] at h
    obtain ⟨s1, k1⟩ := successAsClosure_step hc hS
    have s2 := nextMark_step s1.clean
    have s3 := nextBranchFailed_step s2.clean
    have s := (s1.trans s2).trans s3
    have hb := branch_known ((c.successAsClosure S).2.nextMark.2)
    have hcl := pushMut_clean s3.clean hb
    replace h := except_bind_eq_ok h
    obtain ⟨⟨brs, c4⟩, h4, h⟩ := h
    obtain ⟨s4, k4⟩ := branches_named T _ es ih _ _ _ _ _ _ _ h4 hcl (saveScope_clean hcl) hb ((s2.trans s3).cleanK k1) (s.cleanK hF)
    have s4 : Step (c.successAsClosure S).2.nextMark.2.nextBranchFailed.2 c4 (nodesAll es) := ⟨s4.clean, s4.le, s4.bound⟩
    have hm := s4.known (s3.known (mark_known (c.successAsClosure S).2))
    have hb := s4.known hb
    cases brs with
    | nil => cases h
    | cons first rest =>
      cases h
      refine ⟨(s.trans s4).mono (by simp [Expr.nodes]), ?_⟩
      intro x hx
      simp only [Ex.names, Stmt.names, List.mem_append, List.mem_cons, List.not_mem_nil, or_false] at hx
      rcases hx with rfl | rfl | hx | hx
      · exact hm
      · exact hb
      · exact k4 first (by simp) x hx
      · rcases choiceCode_names hx with rfl | rfl | ⟨k, hk, hx⟩
        · exact hm
        · exact hb
        · exact k4 k (by simp [hk]) x hx
  | star i e ih =>
    intro p S F c code c' h hc hS hF
    simp only [compile] at h
    split at h
    · replace h := except_bind_eq_ok h
      obtain ⟨⟨body, r, c1⟩, h1, h⟩ := h
      cases h
      obtain ⟨s1, k1, k2⟩ := valueConstructor_step (ih true) h1 hc
      obtain ⟨s2, k3⟩ := repeatCode_step (plus := false) s1.clean k1 (s1.cleanK hS) (s1.cleanK hF)
      exact ⟨(s1.trans s2).mono (by simp [Expr.nodes]), CleanK.stmt (by simpa [Stmt.names] using s2.known k2) k3⟩
    · replace h := except_bind_eq_ok h
      obtain ⟨⟨body, c1⟩, h1, h⟩ := h
      cases h
      obtain ⟨s1, k1⟩ := ih false _ _ _ _ _ h1 hc (by intro x hx; simp [Ex.names] at hx) (by intro x hx; simp [Ex.names] at hx)
      obtain ⟨s2, k3⟩ := repeatCode_step (plus := false) s1.incr.clean k1 (s1.incr.cleanK hS) (s1.incr.cleanK hF)
      exact ⟨(s1.incr.trans s2).mono (by simp [Expr.nodes]), k3⟩
  | plus i e ih =>
    intro p S F c code c' h hc hS hF
    simp only [compile] at h
    split at h
    · replace h := except_bind_eq_ok h
      obtain ⟨⟨body, r, c1⟩, h1, h⟩ := h
      cases h
      obtain ⟨s1, k1, k2⟩ := valueConstructor_step (ih true) h1 hc
      obtain ⟨s2, k3⟩ := repeatCode_step (plus := true) s1.clean k1 (s1.cleanK hS) (s1.cleanK hF)
      exact ⟨(s1.trans s2).mono (by simp [Expr.nodes]), CleanK.stmt (by simpa [Stmt.names] using s2.known k2) k3⟩
    · replace h := except_bind_eq_ok h
      obtain ⟨⟨body, c1⟩, h1, h⟩ := h
      cases h
      obtain ⟨s1, k1⟩ := ih false _ _ _ _ _ h1 hc (by intro x hx; simp [Ex.names] at hx) (by intro x hx; simp [Ex.names] at hx)
      obtain ⟨s2, k3⟩ := repeatCode_step (plus := true) s1.incr.clean k1 (s1.incr.cleanK hS) (s1.incr.cleanK hF)
      exact ⟨(s1.incr.trans s2).mono (by simp [Expr.nodes]), k3⟩
  | opt i e ih =>
    intro p S F c code c' h hc hS hF
    simp only [compile] at h
    split at h
    · replace h := except_bind_eq_ok h
      obtain ⟨⟨body, r, c1⟩, h1, h⟩ := h
      cases h
      obtain ⟨s1, k1, k2⟩ := valueConstructor_step (ih true) h1 hc
      obtain ⟨s2, k3⟩ := optionalCode_step s1.clean k1 (s1.cleanK hS)
      exact ⟨(s1.trans s2).mono (by simp [Expr.nodes]), CleanK.stmt (by simpa [Stmt.names] using s2.known k2) k3⟩
    · replace h := except_bind_eq_ok h
      obtain ⟨⟨body, c1⟩, h1, h⟩ := h
      cases h
      obtain ⟨s1, k1⟩ := ih false _ _ _ _ _ h1 hc (by intro x hx; simp [Ex.names] at hx) (by intro x hx; simp [Ex.names] at hx)
      obtain ⟨s2, k3⟩ := optionalCode_step s1.incr.clean k1 (s1.incr.cleanK hS)
      exact ⟨(s1.incr.trans s2).mono (by simp [Expr.nodes]), k3⟩
  | not i e ih =>
    intro p S F c code c' h hc hS hF
    simp only [compile] at h
    split at h
    · cases h
    · replace h := except_bind_eq_ok h
      obtain ⟨⟨body, c1⟩, h1, h⟩ := h
      cases h
      have s1 := nextMark_step hc
      obtain ⟨s2, k2⟩ := ih false _ _ _ _ _ h1 s1.clean (by intro x hx; simp [Ex.names] at hx) (by intro x hx; simp [Ex.names] at hx)
      have hm := s2.known (mark_known c)
      have s := s1.trans s2
      refine ⟨s.incr.mono (by simp [Expr.nodes]), ?_⟩
      intro x hx
      simp only [Ex.names, Stmt.names, Cond.names, List.mem_append, List.mem_cons, List.not_mem_nil, or_false] at hx
      rcases hx with rfl | hx | rfl | rfl | rfl | hx | hx
      · exact hm
      · exact k2 x hx
      · exact .inr (.inr rfl)
      · exact hm
      · exact .inr (.inr rfl)
      · exact s.known (hF x hx)
      · exact s.known (hS x hx)
  | and i e ih =>
    intro p S F c code c' h hc hS hF
    simp only [compile] at h
    split at h
    · cases h
    · replace h := except_bind_eq_ok h
      obtain ⟨⟨body, c1⟩, h1, h⟩ := h
      cases h
      have s1 := nextMark_step hc
      obtain ⟨s2, k2⟩ := ih false _ _ _ _ _ h1 s1.clean (by intro x hx; simp [Ex.names] at hx) (by intro x hx; simp [Ex.names] at hx)
      have hm := s2.known (mark_known c)
      have s := s1.trans s2
      refine ⟨s.incr.mono (by simp [Expr.nodes]), ?_⟩
      intro x hx
      simp only [Ex.names, Stmt.names, Cond.names, List.mem_append, List.mem_cons, List.not_mem_nil, or_false] at hx
      rcases hx with rfl | hx | rfl | rfl | rfl | hx | hx
      · exact hm
      · exact k2 x hx
      · exact .inr (.inr rfl)
      · exact hm
      · exact .inr (.inr rfl)
      · exact s.known (hS x hx)
      · exact s.known (hF x hx)
  | act i e b f ih =>
    intro p S F c code c' h hc hS hF
    simp only [compile] at h
    split at h
    · replace h := except_bind_eq_ok h
      obtain ⟨⟨r, c1⟩, h1, h⟩ := h
      replace h := except_bind_eq_ok h
      obtain ⟨⟨code2, c2⟩, h2, h⟩ := h
      replace h := except_bind_eq_ok h
      obtain ⟨c3, h3, h⟩ := h
      cases h
      obtain ⟨s1, k1⟩ := nextFreeVar_step h1 hc
      obtain ⟨s2, hs⟩ := openScope_step (T e.id).card s1.clean
      have s := s1.trans s2
      obtain ⟨s4, k4⟩ := ih true _ _ _ _ _ h2 s2.clean (CleanK.stmt (by
        intro x hx
        simp only [Stmt.names, List.mem_cons] at hx
        rcases hx with rfl | hx
        · exact s.known k1
        · exact s2.clean.fv x (actionCall_names _ _ _ _ x hx)) (s.cleanK hS)) (s.cleanK hF)
      have s5 := closeScope_step h3 (s.trans s4).incr (hs.mono s4.le)
      have hle : c2.names = c'.names := by
        unfold Ctx.closeScope at h3
        split at h3 <;> cases h3
        rfl
      exact ⟨s5.mono (by simp [Expr.nodes]; omega), fun x hx => by rw [← hle]; exact k4 x hx⟩
    · exact ((ih false).mono (by simp [Expr.nodes])) _ _ _ _ _ h hc hS hF
  | asc i e t ih =>
    intro p S F c code c' h hc hS hF
    simp only [compile] at h
    exact ((ih _).mono (by simp [Expr.nodes])) _ _ _ _ _ h hc hS hF
  | span i e ih =>
    intro p S F c code c' h hc hS hF
    simp only [compile] at h
    split at h
    · replace h := except_bind_eq_ok h
      obtain ⟨⟨r, c1⟩, h1, h⟩ := h
      replace h := except_bind_eq_ok h
      obtain ⟨⟨code2, c2⟩, h2, h⟩ := h
      cases h
      exact spanned_named T e ih _ VEx.span (fun _ => rfl) S F c _ _ r c1 h1 code2 c2 h2 rfl rfl hc hS hF
    · exact ((ih false).mono (by simp [Expr.nodes])) _ _ _ _ _ h hc hS hF
  | range i e ih =>
    intro p S F c code c' h hc hS hF
    simp only [compile] at h
    split at h
    · replace h := except_bind_eq_ok h
      obtain ⟨⟨r, c1⟩, h1, h⟩ := h
      replace h := except_bind_eq_ok h
      obtain ⟨⟨code2, c2⟩, h2, h⟩ := h
      cases h
      exact spanned_named T e ih _ VEx.range (fun _ => rfl) S F c _ _ r c1 h1 code2 c2 h2 rfl rfl hc hS hF
    · exact ((ih false).mono (by simp [Expr.nodes])) _ _ _ _ _ h hc hS hF

theorem clean_new : KnownNames Ctx.new := ⟨by simp [Ctx.new], by simp [Ctx.new], by simp [Ctx.new], by simp [Ctx.new], by simp [Ctx.new]⟩

/-- The names of a recognizer. -/
theorem recognizer_names {T : Nat → Ty} {e : Expr} {f : Fn} (h : compileRecognizer T e = .ok f) :
    ∃ fac : NameFactory, fac.prefixUid ≤ e.nodes + 1 ∧ ∀ x ∈ f.names, fac.known x := by
  unfold compileRecognizer at h
  replace h := except_bind_eq_ok h
  obtain ⟨⟨body, c⟩, h1, h⟩ := h
  cases h
  obtain ⟨s, k⟩ := compile_named T e false _ _ _ _ _ h1 clean_new (by intro x hx; simp [Ex.names, VEx.names] at hx)
    (by intro x hx; simp [Ex.names] at hx)
  refine ⟨c.names, ?_, ?_⟩
  · have := s.bound
    have h1 : Ctx.new.names.prefixUid = 1 := rfl
    omega
  · intro x hx
    simp only [Fn.names, List.mem_append, List.mem_flatMap] at hx
    rcases hx with ⟨cl, hcl, hx⟩ | hx
    · exact s.clean.closures cl hcl x hx
    · exact k x hx

/-- The names of a parser. -/
theorem parser_names {T : Nat → Ty} {r : String} {e : Expr} {f : Fn} (h : compileParser T r e = .ok f) :
    ∃ fac : NameFactory, fac.prefixUid ≤ e.nodes + 2 ∧ ∀ x ∈ f.names, fac.known x := by
  unfold compileParser at h
  split at h
  · cases h
    exact ⟨.new, by simp [NameFactory.new], by intro x hx; simp [Fn.names, Ex.names, Stmt.names] at hx⟩
  · replace h := except_bind_eq_ok h
    obtain ⟨⟨body, c⟩, h1, h⟩ := h
    replace h := except_bind_eq_ok h
    obtain ⟨c2, h2, h⟩ := h
    cases h
    obtain ⟨s1, hs⟩ := openScope_step (T e.id).card clean_new
    obtain ⟨s, k⟩ := compile_named T e true _ _ _ _ _ h1 s1.clean (by
      intro x hx
      exact s1.clean.fv x hx) (by intro x hx; simp [Ex.names] at hx)
    have hle : c.names = c2.names ∧ c.closures = c2.closures := by
      unfold Ctx.closeScope at h2
      split at h2 <;> cases h2
      exact ⟨rfl, rfl⟩
    refine ⟨c.names, ?_, ?_⟩
    · have := (s1.trans s).bound
      have h1 : Ctx.new.names.prefixUid = 1 := rfl
      omega
    · intro x hx
      simp only [Fn.names, List.mem_append, List.mem_flatMap] at hx
      rcases hx with ⟨cl, hcl, hx⟩ | hx
      · exact s.clean.closures cl (by rw [hle.2]; exact hcl) x hx
      · exact k x hx

/-- The marks given to closures. -/
theorem recognizer_marks {T : Nat → Ty} {e : Expr} {f : Fn} (h : compileRecognizer T e = .ok f) : ∀ cl ∈ f.closures, ∀ x ∈ cl.marks, ∃ n, x = .mark n := by
  unfold compileRecognizer at h
  obtain ⟨⟨body, c⟩, h1, h⟩ := except_bind_eq_ok h
  cases h
  obtain ⟨s, k⟩ := compile_named T e false _ _ _ _ _ h1 clean_new (by intro x hx; simp [Ex.names, VEx.names] at hx)
    (by intro x hx; simp [Ex.names] at hx)
  exact s.clean.kind.2

/-- The marks given to closures. -/
theorem parser_marks {T : Nat → Ty} {r : String} {e : Expr} {f : Fn} (h : compileParser T r e = .ok f) : ∀ cl ∈ f.closures, ∀ x ∈ cl.marks, ∃ n, x = .mark n := by
  unfold compileParser at h
  split at h
  · cases h; simp
  · obtain ⟨⟨body, c⟩, h1, h⟩ := except_bind_eq_ok h
    obtain ⟨c2, h2, h⟩ := except_bind_eq_ok h
    cases h
    obtain ⟨s1, hs⟩ := openScope_step (T e.id).card clean_new
    obtain ⟨s, k⟩ := compile_named T e true _ _ _ _ _ h1 s1.clean (by
      intro x hx
      exact s1.clean.fv x hx) (by intro x hx; simp [Ex.names] at hx)
    have hle : c.closures = c2.closures := by
      unfold Ctx.closeScope at h2
      split at h2 <;> cases h2
      rfl
    show ∀ cl ∈ c2.closures, _
    rw [← hle]
    exact s.clean.kind.2

end Oak
