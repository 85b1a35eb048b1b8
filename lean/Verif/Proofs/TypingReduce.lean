import Verif.Proofs.TypingBase
/-!
The reductions of types.
-/
set_option linter.constructorNameAsVariable false
set_option autoImplicit false

namespace Oak

theorem union_mem {a b : RecSet} {p : RecPath} : p ∈ a.union b ↔ p ∈ a ∨ p ∈ b := by
  unfold RecSet.union
  induction b generalizing a with
  | nil => simp
  | cons q b ih =>
    rw [List.foldl_cons, ih]
    split
    · rename_i h
      have : q ∈ a := by simpa using h
      grind
    · simp; grind

theorem union_nil_iff {a b : RecSet} : a.union b = [] ↔ a = [] ∧ b = [] := by
  constructor
  · intro h
    have : ∀ p, ¬ (p ∈ a ∨ p ∈ b) := fun p hp => by rw [← union_mem, h] at hp; cases hp
    exact ⟨List.eq_nil_iff_forall_not_mem.2 fun p hp => this p (.inl hp), List.eq_nil_iff_forall_not_mem.2 fun p hp => this p (.inr hp)⟩
  · rintro ⟨rfl, rfl⟩; rfl

theorem toPoly_mem {a : RecSet} {p : RecPath} (h : p ∈ a.toPoly) : ∃ q ∈ a, q.path = p.path := by
  obtain ⟨q, hq, rfl⟩ := List.mem_map.1 h
  exact ⟨q, hq, rfl⟩

theorem toPoly_nil {a : RecSet} : a.toPoly = [] ↔ a = [] := by simp [RecSet.toPoly]

/-- A recursive type is built from the recursive types of a list. -/
def RecFrom (ts : List IType) (t : IType) : Prop :=
  ∀ rs, t = .rec_ rs → rs ≠ [] ∧ ∀ p ∈ rs, ∃ rs', .rec_ rs' ∈ ts ∧ ∃ q ∈ rs', q.path = p.path

theorem RecFrom.settled {ts : List IType} {t : IType} (h : t.settled = true) : RecFrom ts t := by
  intro rs hr
  subst hr
  cases h

/-- Recursive types have at least one path. -/
def RecFilled (T : Nat → IType) : Prop := ∀ i rs, T i = .rec_ rs → rs ≠ []

theorem foldl_recs {α : Type} {T : α → IType} {f : RecSet → α → RecSet} {p : RecPath}
    (hf : ∀ acc i, p ∈ f acc i ↔ p ∈ acc ∨ ∃ rs, T i = .rec_ rs ∧ p ∈ rs) (is : List α) :
    ∀ acc, p ∈ is.foldl f acc ↔ p ∈ acc ∨ ∃ i ∈ is, ∃ rs, T i = .rec_ rs ∧ p ∈ rs := by
  induction is with
  | nil => intro acc; simp
  | cons i is ih =>
    intro acc
    rw [List.foldl_cons, ih, hf]
    simp only [List.mem_cons, exists_eq_or_imp]
    grind

theorem tupleRecSet_mem {T : Nat → IType} (is : List Nat) {p : RecPath} :
    p ∈ tupleRecSet T is ↔ ∃ i ∈ is, ∃ rs, T i = .rec_ rs ∧ p ∈ rs := by
  unfold tupleRecSet
  rw [foldl_recs (T := T)]
  · simp
  · intro acc i
    split
    · rename_i r hr
      rw [union_mem, hr]
      simp
    · rename_i hr
      constructor
      · exact .inl
      · rintro (h | ⟨rs, h, _⟩)
        · exact h
        · exact absurd h (hr rs)

theorem tupleInlining_mem {T : Nat → IType} {is : List Nat} {j : Nat} (h : j ∈ tupleInlining T is) :
    j ∈ is ∨ ∃ i ∈ is, j ∈ (T i).refs := by
  obtain ⟨i, hi, h⟩ := List.mem_flatMap.1 h
  split at h
  · rename_i js hT
    exact .inr ⟨i, hi, by rw [hT]; exact h⟩
  · simp only [List.mem_singleton] at h
    exact .inl (h ▸ hi)

theorem settled_of {t : IType} (h1 : t ≠ .infer) (h2 : ∀ rs, t ≠ .rec_ rs) : t.settled = true := by
  cases t <;> simp_all [IType.settled]

theorem settled_ne_infer {t : IType} (h : t.settled = true) : t ≠ .infer := by
  rintro rfl; cases h

theorem settled_ne_rec {t : IType} (h : t.settled = true) {rs : RecSet} : t ≠ .rec_ rs := by
  rintro rfl; cases h

theorem reduceTuple_post {k : Nat} {T : Nat → IType} {is : List Nat} (hd : Deep k T) (hr : RecFilled T) (hne : is ≠ []) (ht : ∀ i ∈ is, T i ≠ .infer) :
    ∃ t, reduceTuple T is = .ok t ∧ t ≠ .infer ∧ (∀ j ∈ t.refs, (T j).settled = true) ∧ RecFrom (is.map T) t ∧
      ((∀ i, T i ≠ .regular (.tuple [])) → t ≠ .regular (.tuple [])) := by
  have hin : ∀ j ∈ tupleInlining T is, j ∈ is ∨ (T j).settled = true := fun j hj => by
    rcases tupleInlining_mem hj with h | ⟨i, _, h⟩
    · exact .inl h
    · exact .inr (hd.ref h)
  unfold reduceTuple
  rw [if_neg (by simpa using hne)]
  dsimp only
  by_cases hrs : (tupleRecSet T (tupleInlining T is)).isEmpty = true
  · rw [hrs]
    simp only [Bool.not_true, Bool.false_eq_true, if_false]
    have hall : ∀ j ∈ tupleInlining T is, (T j).settled = true := by
      intro j hj
      rcases hin j hj with h | h
      · refine settled_of (ht j h) fun rs hTj => ?_
        obtain ⟨p, hp⟩ := List.exists_mem_of_ne_nil rs (hr j rs hTj)
        have := (tupleRecSet_mem (T := T) (tupleInlining T is) (p := p)).2 ⟨j, hj, rs, hTj, hp⟩
        rw [List.isEmpty_iff.1 hrs] at this
        cases this
      · exact h
    split
    · exact ⟨_, rfl, by simp, by simp [IType.refs], .settled rfl, by simp⟩
    · split
      · exact ⟨_, rfl, by simp, by simp [IType.refs], .settled rfl, by simp⟩
      · rename_i i hi
        have : i ∈ [i] := by simp
        rw [← hi, List.mem_filter, List.mem_filter] at this
        have hs := hall i this.1.1
        exact ⟨_, rfl, settled_ne_infer hs, fun j hj => hd.ref hj, .settled hs, fun h => h i⟩
      · rename_i hx _
        refine ⟨_, rfl, by simp, ?_, .settled rfl, fun _ h => hx (by simpa using h)⟩
        intro j hj
        simp only [IType.refs, List.mem_filter] at hj
        exact hall j hj.1.1
  · rw [Bool.not_eq_true] at hrs
    rw [hrs]
    simp only [Bool.not_false, if_true]
    have hsub : ∀ p ∈ tupleRecSet T (tupleInlining T is), ∃ rs', .rec_ rs' ∈ is.map T ∧ p ∈ rs' := by
      intro p hp
      obtain ⟨j, hj, rs', hT, hp⟩ := (tupleRecSet_mem _).1 hp
      rcases hin j hj with h | h
      · exact ⟨rs', hT ▸ List.mem_map_of_mem h, hp⟩
      · rw [hT] at h; cases h
    have hne' : tupleRecSet T (tupleInlining T is) ≠ [] := by
      intro h; rw [h] at hrs; cases hrs
    refine ⟨_, rfl, by simp, by simp [IType.refs], ?_, by simp⟩
    intro rs hrs'
    cases hrs'
    split
    · refine ⟨fun h => hne' (toPoly_nil.1 h), fun p hp => ?_⟩
      obtain ⟨q, hq, hqp⟩ := toPoly_mem hp
      obtain ⟨rs', h1, h2⟩ := hsub q hq
      exact ⟨rs', h1, q, h2, hqp⟩
    · refine ⟨hne', fun p hp => ?_⟩
      obtain ⟨rs', h1, h2⟩ := hsub p hp
      exact ⟨rs', h1, p, h2, rfl⟩

theorem reduceUnary_post {T : Nat → IType} {c : Nat} {t : IType} (hr : RecFilled T) (hc : T c ≠ .infer) (ht : t.refs = [c])
    (hs : t.settled = true) : reduceUnary T c t ≠ .infer ∧ (∀ j ∈ (reduceUnary T c t).refs, (T j).settled = true) ∧
      RecFrom [T c] (reduceUnary T c t) ∧ reduceUnary T c t ≠ .regular (.tuple []) := by
  unfold reduceUnary
  split
  · exact ⟨by simp, by simp [IType.refs], .settled rfl, by simp⟩
  · rename_i r h
    refine ⟨by simp, by simp [IType.refs], ?_, by simp⟩
    intro rs hrs
    cases hrs
    refine ⟨fun h1 => hr _ _ h (toPoly_nil.1 h1), fun p hp => ?_⟩
    obtain ⟨q, hq, hqp⟩ := toPoly_mem hp
    exact ⟨r, by simp [h], q, hq, hqp⟩
  · rename_i h1 h2
    refine ⟨settled_ne_infer hs, ?_, .settled hs, by rintro rfl; cases ht⟩
    rw [ht]
    intro j hj
    simp only [List.mem_singleton] at hj
    subst hj
    exact settled_of hc h2

/-- Reduction of a type whose components are typed. -/
theorem reduce_post {k : Nat} {T : Nat → IType} {t : IType} (hd : Deep k T) (hr : RecFilled T) (hp : ∀ i, T i ≠ .regular (.tuple []))
    (h1 : t ≠ .infer) (h2 : t ≠ .regular (.tuple [])) (h3 : ∀ j ∈ t.refs, T j ≠ .infer) (h4 : ∀ rs, t = .rec_ rs → rs ≠ []) :
    ∃ t', reduce T t = .ok t' ∧ t' ≠ .infer ∧ (∀ j ∈ t'.refs, (T j).settled = true) ∧ RecFrom (t :: t.refs.map T) t' ∧ t' ≠ .regular (.tuple []) := by
  unfold reduce
  split
  · exact absurd rfl h1
  · rename_i c
    obtain ⟨a1, a2, a3, a4⟩ := reduceUnary_post (t := .regular (.optional c)) hr (h3 c (by simp [IType.refs])) rfl rfl
    refine ⟨_, rfl, a1, a2, fun rs hrs => ⟨(a3 rs hrs).1, fun p hp => ?_⟩, a4⟩
    obtain ⟨rs', b1, b2⟩ := (a3 rs hrs).2 p hp
    exact ⟨rs', by simp [IType.refs] at b1 ⊢; exact b1, b2⟩
  · rename_i c
    obtain ⟨a1, a2, a3, a4⟩ := reduceUnary_post (t := .regular (.list c)) hr (h3 c (by simp [IType.refs])) rfl rfl
    refine ⟨_, rfl, a1, a2, fun rs hrs => ⟨(a3 rs hrs).1, fun p hp => ?_⟩, a4⟩
    obtain ⟨rs', b1, b2⟩ := (a3 rs hrs).2 p hp
    exact ⟨rs', by simp [IType.refs] at b1 ⊢; exact b1, b2⟩
  · rename_i is
    obtain ⟨t', b0, b1, b2, b3, b4⟩ := reduceTuple_post hd hr (is := is) (fun h => h2 (by rw [h])) h3
    refine ⟨t', b0, b1, b2, fun rs hrs => ⟨(b3 rs hrs).1, fun p hp => ?_⟩, b4 hp⟩
    obtain ⟨rs', c1, c2⟩ := (b3 rs hrs).2 p hp
    exact ⟨rs', List.mem_cons_of_mem _ c1, c2⟩
  · rename_i n1 n2 n3
    refine ⟨t, rfl, h1, ?_, fun rs hrs => ⟨h4 rs hrs, fun p hp => ⟨rs, by simp [hrs], p, hp, rfl⟩⟩, h2⟩
    unfold IType.refs
    split
    · exact absurd rfl (n1 _)
    · exact absurd rfl (n2 _)
    · exact absurd rfl (n3 _)
    · simp

theorem reduce_leaf {T : Nat → IType} {t : IType} (h : t.settled = true) (hr : t.refs = []) (h2 : t ≠ .regular (.tuple [])) : reduce T t = .ok t := by
  unfold reduce
  split <;> simp_all [IType.settled, IType.refs]

theorem splitTypes_post {T : Nat → IType} {m n : Nat} (hm : n ≤ m) (tys : List IType) (hd : ∀ t ∈ tys, Dp T n t) : ∀ (r : RecSet) (ts : List IType),
    ∃ r' ts', splitTypes T m tys r ts = .ok (r', ts') ∧ (∀ p ∈ r', p ∈ r ∨ ∃ rs, .rec_ rs ∈ tys ∧ p ∈ rs) ∧
      (∀ p ∈ r, p ∈ r') ∧ (∀ rs, .rec_ rs ∈ tys → ∀ p ∈ rs, p ∈ r') ∧
      (∀ t ∈ ts', t ∈ ts ∨ (t ∈ tys ∧ ∀ rs, t ≠ .rec_ rs)) ∧ (∀ t ∈ ts, t ∈ ts') ∧
      (ts' = [] → ∀ t ∈ tys, ∃ rs, t = .rec_ rs) := by
  induction tys with
  | nil => intro r ts; exact ⟨r, ts, rfl, by simp, by simp, by simp, by simp, by simp, by simp⟩
  | cons t tys ih =>
    intro r ts
    rw [List.forall_mem_cons] at hd
    have key : (∃ r2, t = .rec_ r2) ∨ ∀ rs, t ≠ .rec_ rs := by cases t <;> simp
    rcases key with ⟨r2, rfl⟩ | hnr
    · rw [splitTypes]
      obtain ⟨r', ts', h1, h2, h3, h4, h5, h6, h7⟩ := ih hd.2 (r.union r2) ts
      refine ⟨r', ts', h1, ?_, ?_, ?_, ?_, h6, ?_⟩
      · intro p hp
        rcases h2 p hp with h | ⟨rs, h, h'⟩
        · rcases union_mem.1 h with h | h
          · exact .inl h
          · exact .inr ⟨r2, by simp, h⟩
        · exact .inr ⟨rs, by simp [h], h'⟩
      · exact fun p hp => h3 p (union_mem.2 (.inl hp))
      · intro rs hrs p hp
        rcases List.mem_cons.1 hrs with h | h
        · cases h; exact h3 p (union_mem.2 (.inr hp))
        · exact h4 rs h p hp
      · intro t ht
        rcases h5 t ht with h | h
        · exact .inl h
        · exact .inr ⟨by simp [h.1], h.2⟩
      · intro he
        exact List.forall_mem_cons.2 ⟨⟨r2, rfl⟩, h7 he⟩
    · obtain ⟨c, hc⟩ := anyRes_total (f := fun t2 => synEq T m t t2) ts fun t2 _ => synEq_total hd.1 m t2 hm
      have hst : splitTypes T m (t :: tys) r ts = splitTypes T m tys r (if c then ts else ts ++ [t]) := by
        rw [splitTypes]
        · rw [hc]; rfl
        · exact fun r2 h => hnr r2 h
      rw [hst]
      obtain ⟨r', ts', h1, h2, h3, h4, h5, h6, h7⟩ := ih hd.2 r (if c then ts else ts ++ [t])
      refine ⟨r', ts', h1, ?_, h3, ?_, ?_, ?_, ?_⟩
      · intro p hp
        rcases h2 p hp with h | ⟨rs, h, h'⟩
        · exact .inl h
        · exact .inr ⟨rs, by simp [h], h'⟩
      · intro rs hrs p hp
        rcases List.mem_cons.1 hrs with h | h
        · exact absurd h.symm (hnr rs)
        · exact h4 rs h p hp
      · intro t' ht'
        rcases h5 t' ht' with h | h
        · cases c with
          | true => exact .inl h
          | false =>
            simp only [Bool.false_eq_true, if_false, List.mem_append, List.mem_singleton] at h
            rcases h with h | rfl
            · exact .inl h
            · exact .inr ⟨by simp, hnr⟩
        · exact .inr ⟨by simp [h.1], h.2⟩
      · intro t' ht'
        refine h6 t' ?_
        cases c <;> simp [ht']
      · intro he
        exfalso
        subst he
        cases c with
        | false => exact absurd (h6 t (by simp)) (by simp)
        | true =>
          cases ts with
          | nil => simp [anyRes] at hc
          | cons x ts => exact absurd (h6 x (by simp)) (by simp)

theorem sumType_post {r : RecSet} {ts : List IType} {t : IType} (h : sumType r ts = some t) :
    (ts = [] ∧ t = .rec_ r) ∨ t ∈ ts ∨ t = .invisible := by
  unfold sumType at h
  split at h
  · cases h
  · split at h
    · cases h; exact .inl ⟨rfl, rfl⟩
    · cases h; exact .inr (.inl (by simp))
    · cases h; exact .inr (.inl (by simp))
    · cases h; exact .inr (.inl (by simp))
    · split at h
      · cases h; exact .inr (.inr rfl)
      · cases h

/-- The type of a choice is the type of a branch, a recursive type made from those of the branches, or the invisible type. -/
theorem reduceSum_post {T : Nat → IType} {m n : Nat} (hm : n ≤ m) {tys : List IType} (hne : tys ≠ []) (hd : ∀ t ∈ tys, Dp T n t)
    (hi : ∀ t ∈ tys, t ≠ .infer) (hr : ∀ rs, .rec_ rs ∈ tys → rs ≠ []) :
    ∃ o, reduceSum T m tys = .ok o ∧ ∀ t, o = some t → t ≠ .infer ∧ RecFrom tys t ∧ (t ∈ tys ∨ t.refs = []) ∧ (t ∉ tys → t ≠ .regular (.tuple [])) := by
  obtain ⟨r, ts, h1, h2, h3, h4, h5, h6, h7⟩ := splitTypes_post hm tys hd [] []
  refine ⟨sumType r ts, ?_, ?_⟩
  · unfold reduceSum
    rw [if_neg (by simpa using hne), h1]
    rfl
  · intro t ht
    rcases sumType_post ht with ⟨he, rfl⟩ | h | rfl
    · refine ⟨by simp, ?_, .inr rfl, by simp⟩
      intro rs hrs
      cases hrs
      constructor
      · rintro rfl
        obtain ⟨t, ht⟩ := List.exists_mem_of_ne_nil tys hne
        obtain ⟨rs, rfl⟩ := h7 he t ht
        obtain ⟨p, hp⟩ := List.exists_mem_of_ne_nil rs (hr rs ht)
        exact absurd (h4 rs ht p hp) (by simp)
      · intro p hp
        rcases h2 p hp with h | ⟨rs, h, hp'⟩
        · cases h
        · exact ⟨rs, h, p, hp', rfl⟩
    · rcases h5 t h with h | h
      · cases h
      · exact ⟨hi t h.1, .settled (settled_of (hi t h.1) h.2), .inl h.1, fun h' => absurd h.1 h'⟩
    · exact ⟨by simp, .settled rfl, .inr rfl, by simp⟩

end Oak
