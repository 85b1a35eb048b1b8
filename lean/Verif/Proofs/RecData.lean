import Verif.Spec.RecWarnings
import Verif.Proofs.TypingMsgs
import Verif.Proofs.TypingReduce
/-!
A rule that calls itself in a sequence that has data, in a choice, is refused.
-/
set_option linter.constructorNameAsVariable false
set_option autoImplicit false
set_option linter.unusedSectionVars false

namespace Oak
namespace Typing

/-- Facts that resist the messages and the types of the expressions that are not in `Z`. -/
structure StableOff (Z : List Nat) (Q : TState → Prop) : Prop where
  set : ∀ {s}, Q s → ∀ i t, i ∉ Z → Q (s.set i t)
  fail : ∀ {s x d}, Q s → x.blocking = true → tdiagMsg d = x → Q { s with error := true, msgs := s.msgs ++ [x], log := s.log ++ [d] }
  more : ∀ {s xs}, Q s → (∀ x ∈ xs, ∃ j, x = TMsg.unitAction j) → Q { s with msgs := s.msgs ++ xs }

/-- The types of the expressions of `Z`. -/
def Same (Z : List Nat) (T0 : Nat → IType) (s : TState) : Prop := ∀ j ∈ Z, s.types j = T0 j

theorem stableOff_same (Z : List Nat) (T0 : Nat → IType) : StableOff Z (Same Z T0) where
  set {s} h i t hi := by
    intro j hj
    have hne : j ≠ i := fun e => hi (e ▸ hj)
    show (if j = i then t else s.types j) = _
    rw [if_neg hne]
    exact h j hj
  fail h _ _ := h
  more h _ := h

section
variable {Z : List Nat} {Q : TState → Prop} (hQ : StableOff Z Q)
include hQ

theorem surfStep_off {i : Nat} (hi : i ∉ Z) {s : TState} (h : Q s) {walk : Res (IType × TState)} (hw : Keeps Q walk) : Keeps Q (surfStep i s walk) := by
  intro y hy
  unfold surfStep at hy
  split at hy
  · obtain ⟨⟨t, s1⟩, h1, h2⟩ := Res.bind_eq_ok hy
    obtain ⟨u, h3, h4⟩ := Res.bind_eq_ok h2
    cases h4
    exact hQ.set (hw _ h1) i u hi
  · cases hy; exact h

theorem surfChoice_off {m i : Nat} {tys : List IType} {s : TState} (h : Q s) : Keeps Q (surfChoice m i tys s) := by
  intro y hy
  unfold surfChoice at hy
  obtain ⟨o, h1, h2⟩ := Res.bind_eq_ok hy
  cases o with
  | some t => cases h2; exact h
  | none => cases h2; exact hQ.fail h rfl rfl

variable {A : AGrammar} {k m : Nat} {call : String → TState → Res (IType × TState)}

omit hQ in
theorem surfAll_off {es : List Expr} (hes : ∀ e ∈ es, ∀ s, Q s → Keeps Q (surfExpr A k m call e s)) (s : TState) (h : Q s) :
    Keeps Q (surfAll A k m call es s) := by
  induction es generalizing s with
  | nil => rw [surfAll]; exact keeps_ok h
  | cons e es ih =>
    rw [surfAll]
    refine keeps_bind (hes e (by simp) s h) fun t s h => ?_
    refine keeps_bind (ih (fun e he => hes e (by simp [he])) s h) fun ts s h => ?_
    exact keeps_ok h

theorem surfExpr_off (hc : ∀ r s, Q s → Keeps Q (call r s)) (e : Expr) (he : ∀ j ∈ e.indices, j ∉ Z) : ∀ s, Q s → Keeps Q (surfExpr A k m call e s) := by
  induction e using Expr.ind with
  | str | any | cls | ext => intro s h; rw [surfExpr]; exact surfStep_off hQ (he _ (by simp [Expr.indices])) h (keeps_ok h)
  | not | and | asc => intro s h; rw [surfExpr]; exact surfStep_off hQ (he _ (by simp [Expr.indices])) h (keeps_ok h)
  | nt i r => intro s h; rw [surfExpr]; exact surfStep_off hQ (he _ (by simp [Expr.indices])) h (hc r s h)
  | act i e b f => intro s h; rw [surfExpr]; exact surfStep_off hQ (he _ (by simp [Expr.indices])) h (keeps_ok (hQ.more h (action_msgs A i b f)))
  | star i e ih | plus i e ih | opt i e ih | span i e ih | range i e ih =>
    intro s h; rw [surfExpr]
    exact surfStep_off hQ (he _ (by simp [Expr.indices])) h (keeps_bind (ih (fun j hj => he j (by simp [Expr.indices, hj])) s h) fun t s h => keeps_ok h)
  | seq i es ih =>
    intro s h; rw [surfExpr]
    refine surfStep_off hQ (he _ (by simp [Expr.indices])) h (keeps_bind (surfAll_off (fun e hm => ih e hm fun j hj => he j ?_) s h) fun t s h => keeps_ok h)
    rw [Expr.indices, List.mem_append, mem_indicesAll]
    exact .inl ⟨e, hm, hj⟩
  | choice i es ih =>
    intro s h; rw [surfExpr]
    refine surfStep_off hQ (he _ (by simp [Expr.indices])) h (keeps_bind (surfAll_off (fun e hm => ih e hm fun j hj => he j ?_) s h) fun t s h => surfChoice_off hQ h)
    rw [Expr.indices, List.mem_append, mem_indicesAll]
    exact .inl ⟨e, hm, hj⟩

end

section
variable {A : AGrammar} {k m : Nat} (H : A.Ready k) {r : String} {b : Expr} (hb : A.grammar.find r = some b)
include H hb

theorem off_body {Z : List Nat} (hZ : ∀ j ∈ Z, j ∈ b.indices) {q : String} {c : Expr} (hq : A.grammar.find q = some c) (hne : q ≠ r) :
    ∀ j ∈ c.indices, j ∉ Z := fun _ hj hz => hne (H.disjoint hq hb hj (hZ _ hz))

/-- While the rule `r` is visited the types of its expressions are not changed by the calls. -/
theorem surfRule_off {Z : List Nat} {Q : TState → Prop} (hQ : StableOff Z Q) (hZ : ∀ j ∈ Z, j ∈ b.indices) (n : Nat) :
    ∀ path, r ∈ path → ∀ q s, Q s → Keeps Q (surfRule A k m n path q s) := by
  induction n with
  | zero => intro path _ q s _ y hy; rw [surfRule] at hy; cases hy
  | succ n ih =>
    intro path hp q s h y hy
    rw [surfRule] at hy
    split at hy
    · cases hy
    · rename_i c hc
      split at hy
      · split at hy
        · cases hy; exact h
        · rename_i hn
          have hne : q ≠ r := fun e => hn (by simpa [e] using hp)
          have hoff := off_body H hb hZ hc hne
          obtain ⟨⟨t, s1⟩, h1, h2⟩ := Res.bind_eq_ok hy
          obtain ⟨u, h3, h4⟩ := Res.bind_eq_ok h2
          cases h4
          exact hQ.set (surfExpr_off hQ (ih _ (by simp [hp])) _ hoff s h _ h1) _ _ (hoff _ (id_mem_indices c))
      · cases hy; exact h

/-- The visit of one expression of a list. -/
theorem surfAll_visit {n : Nat} {path : List String} (hp : r ∈ path) {W : List Nat} (hW : ∀ j ∈ W, j ∈ b.indices) {es : List Expr} (hn : (indicesAll es).Nodup)
    (hes : ∀ j ∈ indicesAll es, j ∈ b.indices) (hdis : ∀ j ∈ indicesAll es, j ∉ W) {x : Expr} (hx : x ∈ es) {s : TState} {ts : List IType} {s' : TState}
    (h : surfAll A k m (surfRule A k m n path) es s = .ok (ts, s')) :
    ∃ s1 t s2, Same (x.indices ++ W) s.types s1 ∧ surfExpr A k m (surfRule A k m n path) x s1 = .ok (t, s2) ∧ t ∈ ts ∧ Same x.indices s2.types s' := by
  induction es generalizing s ts s' with
  | nil => cases hx
  | cons e es ih =>
    rw [surfAll] at h
    obtain ⟨⟨t, s1⟩, h1, h⟩ := Res.bind_eq_ok h
    obtain ⟨⟨ts1, s2⟩, h2, h⟩ := Res.bind_eq_ok h
    cases h
    rw [indicesAll, List.nodup_append] at hn
    have hin : ∀ j ∈ e.indices, j ∈ indicesAll (e :: es) := fun j hj => by simp [indicesAll, hj]
    have hin2 : ∀ j ∈ indicesAll es, j ∈ indicesAll (e :: es) := fun j hj => by simp [indicesAll, hj]
    by_cases hxe : x = e
    · subst hxe
      refine ⟨s, t, s1, fun _ _ => rfl, h1, by simp, ?_⟩
      have hZ : ∀ j ∈ x.indices, j ∈ b.indices := fun j hj => hes j (hin j hj)
      refine surfAll_off (fun e he => surfExpr_off (stableOff_same x.indices s1.types) (surfRule_off H hb (stableOff_same _ _) hZ n path hp) e ?_) s1 (fun _ _ => rfl) _ h2
      exact fun j hj hj2 => hn.2.2 j hj2 j (mem_indicesAll.2 ⟨e, he, hj⟩) rfl
    · have hx : x ∈ es := by
        cases hx with
        | head => exact absurd rfl hxe
        | tail _ h => exact h
      obtain ⟨s3, t3, s4, k1, k2, k3, k4⟩ := ih hn.2.1 (fun j hj => hes j (hin2 j hj)) (fun j hj => hdis j (hin2 j hj)) hx h2
      refine ⟨s3, t3, s4, ?_, k2, by simp [k3], k4⟩
      have hxi : ∀ j ∈ x.indices, j ∈ indicesAll es := fun j hj => mem_indicesAll.2 ⟨x, hx, hj⟩
      have hZ : ∀ j ∈ x.indices ++ W, j ∈ b.indices := by
        intro j hj
        rcases List.mem_append.1 hj with hj | hj
        · exact hes j (hin2 j (hxi j hj))
        · exact hW j hj
      have := surfExpr_off (stableOff_same (x.indices ++ W) s.types) (surfRule_off H hb (stableOff_same _ _) hZ n path hp) e (fun j hj hj2 => by
        rcases List.mem_append.1 hj2 with hj2 | hj2
        · exact hn.2.2 j hj j (hxi j hj2) rfl
        · exact hdis j (hin j hj) hj2) s (fun _ _ => rfl) _ h1
      intro j hj
      rw [k1 j hj]
      exact this j hj

end

/-- The type is recursive and has data. -/
def PolyRec (t : IType) : Prop := ∃ R : RecSet, t = .rec_ R ∧ R.isPoly = true

theorem isPoly_union {a b : RecSet} (h : a.isPoly = true ∨ b.isPoly = true) : (a.union b).isPoly = true := by
  unfold RecSet.isPoly at *
  simp only [List.any_eq_true] at *
  rcases h with ⟨p, h1, h2⟩ | ⟨p, h1, h2⟩
  · exact ⟨p, Oak.union_mem.2 (.inl h1), h2⟩
  · exact ⟨p, Oak.union_mem.2 (.inr h1), h2⟩

theorem splitTypes_poly {T : Nat → IType} {m : Nat} (tys : List IType) : ∀ (r : RecSet) (ts : List IType) (y : RecSet × List IType),
    splitTypes T m tys r ts = .ok y → (r.isPoly = true ∨ ∃ t ∈ tys, PolyRec t) → y.1.isPoly = true := by
  induction tys with
  | nil =>
    intro r ts y h hp
    rw [splitTypes] at h
    cases h
    rcases hp with hp | ⟨t, ht, _⟩
    · exact hp
    · cases ht
  | cons t tys ih =>
    intro r ts y h hp
    by_cases hr : ∃ r2, t = .rec_ r2
    · obtain ⟨r2, rfl⟩ := hr
      rw [splitTypes] at h
      refine ih _ _ _ h ?_
      rcases hp with hp | ⟨t, ht, hp⟩
      · exact .inl (isPoly_union (.inl hp))
      · cases ht with
        | head =>
          obtain ⟨R, h1, h2⟩ := hp
          cases h1
          exact .inl (isPoly_union (.inr h2))
        | tail _ ht => exact .inr ⟨t, ht, hp⟩
    · have hp : r.isPoly = true ∨ ∃ t ∈ tys, PolyRec t := by
        rcases hp with hp | ⟨t, ht, hp⟩
        · exact .inl hp
        · cases ht with
          | head => obtain ⟨R, h1, _⟩ := hp; exact absurd ⟨R, h1⟩ hr
          | tail _ ht => exact .inr ⟨t, ht, hp⟩
      rw [splitTypes] at h
      · obtain ⟨c, _, h⟩ := Res.bind_eq_ok h
        exact ih _ _ _ h hp
      · intro r2 e; exact hr ⟨r2, e⟩

theorem surfChoice_poly {m i : Nat} {tys : List IType} {s : TState} {y : IType × TState} (h : surfChoice m i tys s = .ok y) (hp : ∃ t ∈ tys, PolyRec t) :
    y = (.invisible, { s with error := true, msgs := s.msgs ++ [.mismatch i], log := s.log ++ [.mismatch i tys s.types] }) := by
  unfold surfChoice at h
  obtain ⟨o, h1, h⟩ := Res.bind_eq_ok h
  unfold reduceSum at h1
  split at h1
  · cases h1
  · obtain ⟨⟨R, ts⟩, h2, h1⟩ := Res.bind_eq_ok h1
    cases h1
    have := splitTypes_poly tys _ _ _ h2 (.inr hp)
    have he : sumType R ts = none := by unfold sumType; rw [if_pos this]
    rw [he] at h
    cases h
    rfl

/-- Types that count as data in a tuple. -/
def DataType (t : IType) : Prop := t = .external ∨ t = .regular .atom ∨ ∃ x, t = .regular (.rust x)

theorem reduceTuple_poly {T : Nat → IType} {is : List Nat} {t : IType} (h : reduceTuple T is = .ok t) {a d : Nat} (ha : a ∈ is) (hd : d ∈ is) {R : RecSet}
    (hR : T a = .rec_ R) (hne : R ≠ []) (hD : DataType (T d)) : PolyRec t := by
  unfold reduceTuple at h
  split at h
  · cases h
  · dsimp only at h
    obtain ⟨p, hp⟩ := List.exists_mem_of_ne_nil _ hne
    have ha' : a ∈ tupleInlining T is := List.mem_flatMap.2 ⟨a, ha, by rw [hR]; simp⟩
    have hd' : d ∈ tupleInlining T is := List.mem_flatMap.2 ⟨d, hd, by rcases hD with h | h | ⟨x, h⟩ <;> rw [h] <;> simp⟩
    have hm : p ∈ tupleRecSet T (tupleInlining T is) := (tupleRecSet_mem _).2 ⟨a, ha', R, hR, hp⟩
    have hpoly : tuplePoly T (tupleInlining T is) = true := by
      unfold tuplePoly
      rw [List.any_eq_true]
      exact ⟨d, hd', by rcases hD with h | h | ⟨x, h⟩ <;> rw [h]⟩
    have hemp : (tupleRecSet T (tupleInlining T is)).isEmpty = false := by
      cases hx : tupleRecSet T (tupleInlining T is) with
      | nil => rw [hx] at hm; cases hm
      | cons => rfl
    rw [hemp, hpoly] at h
    simp only [Bool.not_false, if_true] at h
    cases h
    refine ⟨_, rfl, ?_⟩
    unfold RecSet.isPoly RecSet.toPoly
    rw [List.any_map, List.any_eq_true]
    exact ⟨p, hm, rfl⟩

theorem surfStep_infer {i : Nat} {s : TState} (hi : s.types i = .infer) {walk : Res (IType × TState)} {y : IType × TState} (h : surfStep i s walk = .ok y) :
    ∃ t s1 u, walk = .ok (t, s1) ∧ reduce s1.types t = .ok u ∧ y = (u, s1.set i u) := by
  unfold surfStep at h
  rw [if_pos hi] at h
  obtain ⟨⟨t, s1⟩, h1, h2⟩ := Res.bind_eq_ok h
  obtain ⟨u, h3, h4⟩ := Res.bind_eq_ok h2
  cases h4
  exact ⟨t, s1, u, h1, h3, rfl⟩

theorem set_self (s : TState) (i : Nat) (t : IType) : (s.set i t).types i = t := by simp [TState.set]

theorem surf_data {A : AGrammar} {k m : Nat} {call : String → TState → Res (IType × TState)} {d : Expr} (hd : d.HasData) {s : TState} (hi : s.types d.id = .infer)
    {y : IType × TState} (h : surfExpr A k m call d s = .ok y) : DataType (y.2.types d.id) := by
  have key : ∀ {i : Nat} {walk : Res (IType × TState)} {t : IType}, s.types i = .infer → (∀ z, walk = .ok z → z.1 = t) → DataType t → surfStep i s walk = .ok y →
      DataType (y.2.types i) := by
    intro i walk t hi hw ht h
    obtain ⟨t1, s1, u, h1, h2, rfl⟩ := surfStep_infer hi h
    have := hw _ h1
    dsimp only at this
    subst this
    show DataType ((s1.set i u).types i)
    rw [set_self]
    rcases ht with rfl | rfl | ⟨x, rfl⟩ <;> cases h2
    · exact .inl rfl
    · exact .inr (.inl rfl)
    · exact .inr (.inr ⟨x, rfl⟩)
  cases d with
  | any i => rw [surfExpr] at h; exact key hi (fun z hz => by cases hz; rfl) (.inr (.inl rfl)) h
  | cls i c => rw [surfExpr] at h; exact key hi (fun z hz => by cases hz; rfl) (.inr (.inl rfl)) h
  | ext i p => rw [surfExpr] at h; exact key hi (fun z hz => by cases hz; rfl) (.inl rfl) h
  | range i c =>
    rw [surfExpr] at h
    refine key hi (fun z hz => ?_) (.inr (.inr ⟨rangeTy, rfl⟩)) h
    obtain ⟨⟨t, s1⟩, h1, h2⟩ := Res.bind_eq_ok hz
    cases h2; rfl
  | asc i c ty =>
    rw [surfExpr] at h
    cases ty with
    | regular t =>
      cases t with
      | rust x => exact key hi (fun z hz => by cases hz; rfl) (.inr (.inr ⟨x, rfl⟩)) h
      | _ => cases hd
    | _ => cases hd
  | _ => cases hd

section
variable {A : AGrammar} {k m : Nat} (H : A.Ready k) {r : String} {i : Nat} {es : List Expr} (hb : A.grammar.find r = some (.choice i es))
  {j : Nat} {fs : List Expr} (hes : .seq j fs ∈ es) {a : Nat} (ha : .nt a r ∈ fs) {d : Expr} (hd : d ∈ fs) (hD : d.HasData)
include H hb hes ha hd hD

/-- The visit of the body. -/
theorem body_poly {n : Nat} {path : List String} {s : TState} (hinf : ∀ j ∈ (Expr.choice i es).indices, s.types j = .infer) {y : IType × TState}
    (h : surfExpr A k m (surfRule A k m n (r :: path)) (.choice i es) s = .ok y) : y.1 = .invisible ∧ y.2.types i = .invisible ∧ .mismatch i ∈ y.2.msgs := by
  have hnd := H.body_nodup hb
  have hnk := kids_nodup hnd
  have hbi : ∀ j ∈ indicesAll es, j ∈ (Expr.choice i es).indices := fun j hj => by rw [Expr.indices]; simp [hj]
  have hii : i ∈ (Expr.choice i es).indices := by rw [Expr.indices]; simp
  rw [surfExpr] at h
  obtain ⟨t, s1, u, h1, h2, rfl⟩ := surfStep_infer (hinf i hii) h
  obtain ⟨⟨tys, s2⟩, h3, h1⟩ := Res.bind_eq_ok h1
  have hpoly : ∃ t ∈ tys, PolyRec t := by
    obtain ⟨v1, t1, v2, e1, e2, e3, _⟩ := surfAll_visit H hb (n := n) (path := r :: path) (by simp) (W := [i]) (by simpa using hii) hnk.1 hbi
      (by intro j hj hj2; simp only [List.mem_singleton] at hj2; subst hj2; exact hnk.2 hj) hes h3
    refine ⟨t1, e3, ?_⟩
    have hsi : ∀ x ∈ (Expr.seq j fs).indices, x ∈ indicesAll es := fun x hx => mem_indicesAll.2 ⟨_, hes, hx⟩
    have hjj : j ∈ (Expr.seq j fs).indices := by rw [Expr.indices]; simp
    have hfi : ∀ x ∈ indicesAll fs, x ∈ (Expr.seq j fs).indices := fun x hx => by rw [Expr.indices]; simp [hx]
    have hnf := kids_nodup (indicesAll_nodup hnk.1 hes)
    have hinf1 : ∀ x ∈ (Expr.seq j fs).indices ++ [i], v1.types x = .infer := by
      intro x hx
      rw [e1 x hx]
      rcases List.mem_append.1 hx with hx | hx
      · exact hinf x (hbi x (hsi x hx))
      · simp only [List.mem_singleton] at hx; subst hx; exact hinf _ hii
    rw [surfExpr] at e2
    obtain ⟨t2, v3, u2, g1, g2, g3⟩ := surfStep_infer (hinf1 j (List.mem_append_left _ hjj)) e2
    cases g3
    obtain ⟨⟨ts2, v4⟩, g3, g1⟩ := Res.bind_eq_ok g1
    cases g1
    have hW : ∀ x ∈ indicesAll fs, x ∉ [i] := by
      intro x hx hx2
      simp only [List.mem_singleton] at hx2
      subst hx2
      exact hnk.2 (hsi _ (hfi _ hx))
    have visit := fun {x : Expr} (hx : x ∈ fs) => surfAll_visit H hb (n := n) (path := r :: path) (by simp) (W := [i]) (by simpa using hii) hnf.1
      (fun z hz => hbi z (hsi z (hfi z hz))) hW hx g3
    have hin : ∀ {x : Expr}, x ∈ fs → ∀ z ∈ x.indices ++ [i], v1.types z = .infer := by
      intro x hx z hz
      apply hinf1
      rcases List.mem_append.1 hz with hz | hz
      · exact List.mem_append_left _ (hfi z (mem_indicesAll.2 ⟨x, hx, hz⟩))
      · exact List.mem_append_right _ hz
    have ra : v3.types a = recType (r :: path) r := by
      obtain ⟨w1, x1, w2, q1, q2, _, q4⟩ := visit ha
      rw [q4 a (by simp [Expr.indices])]
      rw [surfExpr] at q2
      have hai : w1.types a = .infer := by rw [q1 a (by simp [Expr.indices]), hin ha a (by simp [Expr.indices])]
      have hri : w1.types i = .infer := by rw [q1 i (by simp), hin ha i (by simp)]
      obtain ⟨x2, w3, u3, p1, p2, p3⟩ := surfStep_infer hai q2
      cases p3
      rw [set_self]
      cases n with
      | zero => rw [surfRule] at p1; cases p1
      | succ n =>
        rw [surfRule, hb] at p1
        dsimp only at p1
        rw [if_pos (show w1.types (Expr.choice i es).id = .infer from hri)] at p1
        simp only [List.contains_cons, BEq.rfl, Bool.true_or, if_true] at p1
        cases p1
        cases p2
        rfl
    have rd : DataType (v3.types d.id) := by
      obtain ⟨w1, x1, w2, q1, q2, _, q4⟩ := visit hd
      rw [q4 d.id (id_mem_indices d)]
      refine surf_data hD ?_ q2
      rw [q1 d.id (List.mem_append_left _ (id_mem_indices d)), hin hd d.id (List.mem_append_left _ (id_mem_indices d))]
    exact reduceTuple_poly g2 (List.mem_map.2 ⟨_, ha, rfl⟩) (List.mem_map.2 ⟨_, hd, rfl⟩) ra (by simp) rd
  have := surfChoice_poly h1 hpoly
  cases this
  cases h2
  exact ⟨rfl, set_self _ _ _, by simp [TState.set]⟩

/-- Before the visit of the rule its expressions have no types; after it the error is reported. -/
def ToldAt (i : Nat) (b : Expr) (s : TState) : Prop :=
  (s.types i = .infer → ∀ j ∈ b.indices, s.types j = .infer) ∧ (s.types i ≠ .infer → .mismatch i ∈ s.msgs)

omit H hb hes ha hd hD in
theorem stableOff_toldAt {b : Expr} (hi : i ∈ b.indices) : StableOff b.indices (ToldAt i b) where
  set {s} h x t hx := by
    have e : ∀ z ∈ b.indices, (s.set x t).types z = s.types z := by
      intro z hz
      have hne : z ≠ x := fun e => hx (e ▸ hz)
      simp [TState.set, hne]
    refine ⟨fun h1 z hz => ?_, fun h1 => ?_⟩
    · rw [e z hz]; rw [e i hi] at h1; exact h.1 h1 z hz
    · rw [e i hi] at h1; exact h.2 h1
  fail h _ _ := ⟨h.1, fun h1 => List.mem_append_left _ (h.2 h1)⟩
  more h _ := ⟨h.1, fun h1 => List.mem_append_left _ (h.2 h1)⟩

theorem surfRule_here {n : Nat} {path : List String} (hp : r ∉ path) {s : TState} (h : ToldAt i (.choice i es) s) {y : IType × TState}
    (hy : surfRule A k m n path r s = .ok y) : .mismatch i ∈ y.2.msgs ∧ y.2.types i ≠ .infer := by
  cases n with
  | zero => rw [surfRule] at hy; cases hy
  | succ n =>
    rw [surfRule, hb] at hy
    dsimp only at hy
    split at hy
    · rename_i hi
      rw [if_neg (by simpa using hp)] at hy
      obtain ⟨⟨t, s1⟩, h1, h2⟩ := Res.bind_eq_ok hy
      obtain ⟨g1, g2, g3⟩ := body_poly H hb hes ha hd hD (h.1 hi) h1
      obtain ⟨u, h3, h4⟩ := Res.bind_eq_ok h2
      dsimp only at g1 g2 g3
      subst g1
      cases h3
      cases h4
      exact ⟨g3, by simp [TState.set, Expr.id]⟩
    · rename_i hi; cases hy; exact ⟨h.2 hi, hi⟩

theorem surfRule_toldAt (n : Nat) : ∀ path q s, ToldAt i (.choice i es) s → Keeps (ToldAt i (.choice i es)) (surfRule A k m n path q s) := by
  have hst := stableOff_toldAt (i := i) (b := .choice i es) (by simp [Expr.indices])
  induction n with
  | zero => intro path q s _ y hy; rw [surfRule] at hy; cases hy
  | succ n ih =>
    intro path q s h y hy
    by_cases hq : q = r
    · subst hq
      by_cases hp : q ∈ path
      · rw [surfRule, hb] at hy
        dsimp only at hy
        split at hy
        · rw [if_pos (by simpa using hp)] at hy; cases hy; exact h
        · cases hy; exact h
      · obtain ⟨h1, h2⟩ := surfRule_here H hb hes ha hd hD hp h hy
        exact ⟨fun h => absurd h h2, fun _ => h1⟩
    · rw [surfRule] at hy
      split at hy
      · cases hy
      · rename_i c hc
        have hoff := off_body H hb (fun _ h => h) hc hq
        split at hy
        · split at hy
          · cases hy; exact h
          · obtain ⟨⟨t, s1⟩, h1, h2⟩ := Res.bind_eq_ok hy
            obtain ⟨u, h3, h4⟩ := Res.bind_eq_ok h2
            cases h4
            exact hst.set (surfExpr_off hst (ih _) _ hoff s h _ h1) _ _ (hoff _ (id_mem_indices c))
        · cases hy; exact h

omit H hb hes ha hd hD in
theorem stable_told_msg (i : Nat) : Stable fun s => TMsg.mismatch i ∈ s.msgs where
  set h _ _ := h
  fail h _ _ := List.mem_append_left _ h
  more h _ := List.mem_append_left _ h

theorem surfRules_toldAt {n : Nat} (rs : List (String × Expr)) : (∃ c, (r, c) ∈ rs) → ∀ s, ToldAt i (.choice i es) s → ∀ s', surfRules A k m n rs s = .ok s' →
    .mismatch i ∈ s'.msgs := by
  induction rs with
  | nil => rintro ⟨c, h⟩; cases h
  | cons x rs ih =>
    rintro ⟨c, hx⟩ s h s' hs
    obtain ⟨q, e⟩ := x
    rw [surfRules] at hs
    obtain ⟨⟨t, s1⟩, h1, h2⟩ := Res.bind_eq_ok hs
    by_cases hq : q = r
    · subst hq
      exact surfRules_keeps (stable_told_msg i) rs s1 (surfRule_here H hb hes ha hd hD (by simp) h h1).1 s' h2
    · refine ih ⟨c, ?_⟩ s1 (surfRule_toldAt H hb hes ha hd hD n [] q s h _ h1) s' h2
      cases hx with
      | head => exact absurd rfl hq
      | tail _ hx => exact hx

theorem refused {n : Nat} {p : Partial (Nat → Ty)} {ms : List TMsg} (h : typeInference A k m n = .ok (p, ms)) : p = .nothing ∧ .mismatch i ∈ ms := by
  have h0 : Honest (.new k) := ⟨fun h => (by cases h), fun ⟨x, h, _⟩ => (by cases h)⟩
  have hT : ToldAt i (.choice i es) (.new k) := by
    have : ∀ j ∈ (Expr.choice i es).indices, (TState.new k).types j = .infer := by
      intro j hj
      have := H.lt (Occurs.body hb) j hj
      have hne : j ≠ k := by omega
      simp [TState.new, hne]
    exact ⟨fun _ => this, fun hn => absurd (this i (by simp [Expr.indices])) hn⟩
  rw [typeInference_eq] at h
  obtain ⟨s1, h1, h⟩ := Res.bind_eq_ok h
  have k1 := surfRules_keeps stable_honest _ _ h0 s1 h1
  have k2 := surfRules_toldAt H hb hes ha hd hD _ ⟨_, H.body_mem hb⟩ _ hT s1 h1
  have he : s1.error = true := k1.2 ⟨_, k2, rfl⟩
  rw [if_pos he] at h
  cases h
  exact ⟨rfl, k2⟩

end

end Typing
end Oak
