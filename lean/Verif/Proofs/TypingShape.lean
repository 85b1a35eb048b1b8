import Verif.Proofs.TypingReduce
/-!
Types as trees: the types of the inference unfold to documented types.
-/
set_option linter.constructorNameAsVariable false
set_option autoImplicit false

namespace Oak

theorem DType.ind {P : DType → Prop} (hidden : P .hidden) (unit : P .unit) (char : P .char) (external : P .external) (list : ∀ t, P t → P (.list t))
    (option : ∀ t, P t → P (.option t)) (tuple : ∀ ts, (∀ t ∈ ts, P t) → P (.tuple ts)) (rust : ∀ s, P (.rust s)) (t : DType) : P t :=
  DType.rec (motive_1 := P) (motive_2 := fun ts => ∀ t ∈ ts, P t) hidden unit char external list option tuple rust (by simp)
    (fun _ _ h1 h2 => List.forall_mem_cons.2 ⟨h1, h2⟩) t

mutual
/-- The type `t` unfolds to the tree `v`. -/
def Unf (T : Nat → IType) : DType → IType → Prop
  | .hidden, t => t = .invisible
  | .unit, t => t = .regular .unit
  | .char, t => t = .regular .atom
  | .external, t => t = .external
  | .list v, t => ∃ j, t = .regular (.list j) ∧ Unf T v (T j)
  | .option v, t => ∃ j, t = .regular (.optional j) ∧ Unf T v (T j)
  | .tuple vs, t => ∃ js, t = .regular (.tuple js) ∧ UnfAll T vs js
  | .rust s, t => t = .regular (.rust s)
/-- The same for the components of a tuple. -/
def UnfAll (T : Nat → IType) : List DType → List Nat → Prop
  | [], js => js = []
  | v :: vs, js => ∃ j js', js = j :: js' ∧ Unf T v (T j) ∧ UnfAll T vs js'
end

theorem Unf.settled {T : Nat → IType} {v : DType} {t : IType} (h : Unf T v t) : t.settled = true := by
  cases v <;> unfold Unf at h
  case list => obtain ⟨j, rfl, _⟩ := h; rfl
  case option => obtain ⟨j, rfl, _⟩ := h; rfl
  case tuple => obtain ⟨j, rfl, _⟩ := h; rfl
  all_goals subst h; rfl

theorem UnfAll.length {T : Nat → IType} {vs : List DType} {js : List Nat} (h : UnfAll T vs js) : js.length = vs.length := by
  induction vs generalizing js with
  | nil => unfold UnfAll at h; simp [h]
  | cons v vs ih => unfold UnfAll at h; obtain ⟨j, js', rfl, _, h⟩ := h; simp [ih h]

theorem UnfAll.append {T : Nat → IType} {vs ws : List DType} {js ks : List Nat} (h : UnfAll T vs js) (h' : UnfAll T ws ks) : UnfAll T (vs ++ ws) (js ++ ks) := by
  induction vs generalizing js with
  | nil => unfold UnfAll at h; subst h; exact h'
  | cons v vs ih => unfold UnfAll at h; obtain ⟨j, js', rfl, h1, h⟩ := h; exact ⟨j, js' ++ ks, rfl, h1, ih h⟩

theorem UnfAll.mem {T : Nat → IType} {vs : List DType} {js : List Nat} (h : UnfAll T vs js) {j : Nat} (hj : j ∈ js) : ∃ v ∈ vs, Unf T v (T j) := by
  induction vs generalizing js with
  | nil => unfold UnfAll at h; subst h; cases hj
  | cons v vs ih =>
    unfold UnfAll at h
    obtain ⟨i, js', rfl, h1, h⟩ := h
    cases hj with
    | head => exact ⟨v, by simp, h1⟩
    | tail _ hj => obtain ⟨w, hw, h2⟩ := ih h hj; exact ⟨w, by simp [hw], h2⟩

/-- Unfolding depends on the types that are reached. -/
theorem Unf.congr {T T' : Nat → IType} {P : Nat → Prop} (hP : ∀ j, P j → T' j = T j) (hc : ∀ j, P j → ∀ i ∈ (T j).refs, P i) :
    ∀ (v : DType) (t : IType), (∀ j ∈ t.refs, P j) → Unf T v t → Unf T' v t := by
  intro v
  induction v using DType.ind with
  | list v ih =>
    intro t ht h
    unfold Unf at h ⊢
    obtain ⟨j, rfl, h⟩ := h
    have hj := ht j (by simp [IType.refs])
    exact ⟨j, rfl, by rw [hP j hj]; exact ih _ (hc j hj) h⟩
  | option v ih =>
    intro t ht h
    unfold Unf at h ⊢
    obtain ⟨j, rfl, h⟩ := h
    have hj := ht j (by simp [IType.refs])
    exact ⟨j, rfl, by rw [hP j hj]; exact ih _ (hc j hj) h⟩
  | tuple vs ih =>
    intro t ht h
    unfold Unf at h ⊢
    obtain ⟨js, rfl, h⟩ := h
    refine ⟨js, rfl, ?_⟩
    simp only [IType.refs] at ht
    induction vs generalizing js with
    | nil => unfold UnfAll at h ⊢; exact h
    | cons v vs ihv =>
      unfold UnfAll at h ⊢
      obtain ⟨j, js', rfl, h1, h2⟩ := h
      rw [List.forall_mem_cons] at ht ih
      refine ⟨j, js', rfl, by rw [hP j ht.1]; exact ih.1 _ (hc j ht.1) h1, ihv ih.2 js' h2 ht.2⟩
  | _ => intro t _ h; unfold Unf at h ⊢; exact h

/-- Typed expressions keep their types, so that unfolding is kept. -/
theorem Unf.grow {T T' : Nat → IType} (hg : ∀ j, T j ≠ .infer → T' j = T j) : ∀ (v : DType) (t : IType), Unf T v t → Unf T' v t := by
  intro v
  induction v using DType.ind with
  | list v ih =>
    intro t h
    unfold Unf at h ⊢
    obtain ⟨j, rfl, h⟩ := h
    exact ⟨j, rfl, by rw [hg j (settled_ne_infer h.settled)]; exact ih _ h⟩
  | option v ih =>
    intro t h
    unfold Unf at h ⊢
    obtain ⟨j, rfl, h⟩ := h
    exact ⟨j, rfl, by rw [hg j (settled_ne_infer h.settled)]; exact ih _ h⟩
  | tuple vs ih =>
    intro t h
    unfold Unf at h ⊢
    obtain ⟨js, rfl, h⟩ := h
    refine ⟨js, rfl, ?_⟩
    induction vs generalizing js with
    | nil => unfold UnfAll at h ⊢; exact h
    | cons v vs ihv =>
      unfold UnfAll at h ⊢
      obtain ⟨j, js', rfl, h1, h2⟩ := h
      rw [List.forall_mem_cons] at ih
      exact ⟨j, js', rfl, by rw [hg j (settled_ne_infer h1.settled)]; exact ih.1 _ h1, ihv ih.2 js' h2⟩
  | _ => intro t h; unfold Unf at h ⊢; exact h

/-- What a component of a tuple can be. -/
def DType.part (t : DType) : Prop := t ≠ .hidden ∧ t ≠ .unit ∧ ∀ ts, t ≠ .tuple ts

/-- Types in normal form. -/
def DType.Flat : DType → Prop
  | .tuple ts => 2 ≤ ts.length ∧ ∀ t ∈ ts, t.part
  | .list t => t ≠ .hidden
  | .option t => t ≠ .hidden
  | _ => True

theorem DType.parts_self {t : DType} (h : t.part) : t.parts = [t] := by
  obtain ⟨h1, h2, h3⟩ := h
  cases t <;> simp_all [DType.parts]

theorem DType.Flat.parts {t : DType} (h : t.Flat) : ∀ u ∈ t.parts, u.part := by
  cases t <;> simp_all [DType.parts, DType.part, DType.Flat]

theorem DType.Flat.single {t u : DType} (h : t.Flat) (hp : t.parts = [u]) : t = u := by
  cases t <;> simp_all [DType.parts, DType.Flat]

theorem unf_unit {T : Nat → IType} {v : DType} {t : IType} (h : Unf T v t) : t.isUnitKind = true ↔ v = .hidden ∨ v = .unit := by
  cases v <;> unfold Unf at h
  case list => obtain ⟨j, rfl, _⟩ := h; simp [IType.isUnitKind]
  case option => obtain ⟨j, rfl, _⟩ := h; simp [IType.isUnitKind]
  case tuple => obtain ⟨j, rfl, _⟩ := h; simp [IType.isUnitKind]
  all_goals subst h; simp [IType.isUnitKind]

theorem unf_hidden {T : Nat → IType} {v : DType} {t : IType} (h : Unf T v t) : t = .invisible ↔ v = .hidden := by
  cases v <;> unfold Unf at h
  case list => obtain ⟨j, rfl, _⟩ := h; simp
  case option => obtain ⟨j, rfl, _⟩ := h; simp
  case tuple => obtain ⟨j, rfl, _⟩ := h; simp
  all_goals subst h; simp

theorem unf_isUnit {T : Nat → IType} {v : DType} {t : IType} (h : Unf T v t) : t = .regular .unit ↔ v = .unit := by
  cases v <;> unfold Unf at h
  case list => obtain ⟨j, rfl, _⟩ := h; simp
  case option => obtain ⟨j, rfl, _⟩ := h; simp
  case tuple => obtain ⟨j, rfl, _⟩ := h; simp
  all_goals subst h; simp

theorem unf_external {T : Nat → IType} {v : DType} {t : IType} (h : Unf T v t) : t = .external ↔ v = .external := by
  cases v <;> unfold Unf at h
  case list => obtain ⟨j, rfl, _⟩ := h; simp
  case option => obtain ⟨j, rfl, _⟩ := h; simp
  case tuple => obtain ⟨j, rfl, _⟩ := h; simp
  all_goals subst h; simp

/-- The inlined components of the expression `i`. -/
def inlined (T : Nat → IType) (i : Nat) : List Nat :=
  match T i with
  | .regular (.tuple js) => js
  | _ => [i]

theorem tupleInlining_eq (T : Nat → IType) (is : List Nat) : tupleInlining T is = is.flatMap (inlined T) := by
  unfold tupleInlining
  congr 1

/-- The components of an expression in a sequence. -/
def pieces (T : Nat → IType) (i : Nat) : List Nat := if (T i).isUnitKind then [] else inlined T i

theorem unf_pieces {T : Nat → IType} {v : DType} {i : Nat} (hv : v.Flat) (h : Unf T v (T i)) :
    UnfAll T v.parts (pieces T i) ∧ (((inlined T i).filter fun j => T j != .invisible) = [] ↔ v = .hidden) ∧
      (((inlined T i).filter fun j => T j != .invisible).filter fun j => T j != .regular .unit) = pieces T i ∧
      (∀ j ∈ inlined T i, ∀ rs, T j ≠ .rec_ rs) ∧ inlined T i ≠ [] := by
  have hone : ∀ v, Unf T v (T i) → UnfAll T [v] [i] := fun v h => ⟨i, [], rfl, h, rfl⟩
  have h0 := h
  cases v <;> unfold Unf at h
  case tuple vs =>
    obtain ⟨js, h1, h2⟩ := h
    have hin : inlined T i = js := by unfold inlined; rw [h1]
    have hall : ∀ j ∈ js, T j ≠ .invisible ∧ T j ≠ .regular .unit ∧ ∀ rs, T j ≠ .rec_ rs := by
      intro j hj
      obtain ⟨v, hv1, hv2⟩ := h2.mem hj
      have hp := hv.2 v hv1
      exact ⟨fun h => hp.1 ((unf_hidden hv2).1 h), fun h => hp.2.1 ((unf_isUnit hv2).1 h), fun rs h => settled_ne_rec hv2.settled h⟩
    have hp : pieces T i = js := by unfold pieces; rw [h1]; simp [IType.isUnitKind, hin]
    have hf1 : (js.filter fun j => T j != .invisible) = js := List.filter_eq_self.2 fun j hj => by simpa using (hall j hj).1
    have hf2 : (js.filter fun j => T j != .regular .unit) = js := List.filter_eq_self.2 fun j hj => by simpa using (hall j hj).2.1
    have hnil : js ≠ [] := by
      rintro rfl
      have := h2.length
      have := hv.1
      simp only [List.length_nil] at *
      omega
    rw [hin, hp, hf1, hf2]
    exact ⟨h2, by simp [hnil], rfl, fun j hj => (hall j hj).2.2, hnil⟩
  case list => obtain ⟨j, h1, h2⟩ := h; refine ⟨?_, ?_⟩ <;> simp [inlined, pieces, h1, IType.isUnitKind, DType.parts]; exact hone _ h0
  case option => obtain ⟨j, h1, h2⟩ := h; refine ⟨?_, ?_⟩ <;> simp [inlined, pieces, h1, IType.isUnitKind, DType.parts]; exact hone _ h0
  case hidden => refine ⟨?_, ?_⟩ <;> simp [inlined, pieces, h, IType.isUnitKind, DType.parts, UnfAll]
  case unit => refine ⟨?_, ?_⟩ <;> simp [inlined, pieces, h, IType.isUnitKind, DType.parts, UnfAll]
  all_goals refine ⟨?_, ?_⟩ <;> simp [inlined, pieces, h, IType.isUnitKind, DType.parts]; exact hone _ h0

theorem UnfAll.pieces {T : Nat → IType} {vs : List DType} {is : List Nat} (h : UnfAll T vs is) (hv : ∀ v ∈ vs, v.Flat) :
    UnfAll T (vs.flatMap DType.parts) (is.flatMap (pieces T)) := by
  induction vs generalizing is with
  | nil => unfold UnfAll at h; subst h; rfl
  | cons v vs ih =>
    unfold UnfAll at h
    obtain ⟨j, js', rfl, h1, h⟩ := h
    rw [List.forall_mem_cons] at hv
    rw [List.flatMap_cons, List.flatMap_cons]
    exact (unf_pieces hv.1 h1).1.append (ih h hv.2)

theorem foldl_same {α β : Type} (f : α → β → α) (a : α) (l : List β) (h : ∀ x ∈ l, ∀ a, f a x = a) : l.foldl f a = a := by
  induction l generalizing a with
  | nil => rfl
  | cons x l ih =>
    rw [List.forall_mem_cons] at h
    rw [List.foldl_cons, h.1 a]
    exact ih a h.2

theorem pieces_mem {T : Nat → IType} {i j : Nat} (h : j ∈ pieces T i) : (T i).isUnitKind = false ∧ (j = i ∨ j ∈ (T i).refs) := by
  unfold pieces at h
  split at h
  · cases h
  · rename_i hu
    refine ⟨by simpa using hu, ?_⟩
    unfold inlined at h
    split at h
    · rename_i js heq; rw [heq]; exact .inr h
    · exact .inl (List.mem_singleton.1 h)

theorem flatMap_congr' {α β : Type} {f g : α → List β} {l : List α} (h : ∀ x ∈ l, f x = g x) : l.flatMap f = l.flatMap g := by
  induction l with
  | nil => rfl
  | cons x l ih =>
    rw [List.forall_mem_cons] at h
    rw [List.flatMap_cons, List.flatMap_cons, h.1, ih h.2]

/-- The type of a sequence. -/
theorem reduceTuple_unf {T : Nat → IType} {vs : List DType} {is : List Nat} {t : IType} (h : UnfAll T vs is) (hv : ∀ v ∈ vs, v.Flat) (hne : is ≠ [])
    (ht : reduceTuple T is = .ok t) :
    ((∀ v ∈ vs, v = .hidden) ∧ t = .invisible) ∨ ((∃ v ∈ vs, v ≠ .hidden) ∧ Unf T (.pack (vs.flatMap DType.parts)) t ∧
      (DType.pack (vs.flatMap DType.parts)).Flat ∧ ∀ j ∈ t.refs, ∃ i ∈ is, (T i).isUnitKind = false ∧ (j = i ∨ j ∈ (T i).refs)) := by
  have hmem : ∀ i ∈ is, ∃ v ∈ vs, v.Flat ∧ Unf T v (T i) := fun i hi => by
    obtain ⟨v, h1, h2⟩ := h.mem hi
    exact ⟨v, h1, hv v h1, h2⟩
  unfold reduceTuple at ht
  rw [if_neg (by simpa using hne)] at ht
  dsimp only at ht
  rw [tupleInlining_eq] at ht
  have hrec : tupleRecSet T (is.flatMap (inlined T)) = [] := by
    unfold tupleRecSet
    refine foldl_same _ _ _ fun j hj a => ?_
    obtain ⟨i, hi, hj⟩ := List.mem_flatMap.1 hj
    obtain ⟨v, _, hf, hu⟩ := hmem i hi
    split
    · rename_i rs heq; exact absurd heq ((unf_pieces hf hu).2.2.2.1 j hj rs)
    · rfl
  rw [hrec] at ht
  simp only [List.isEmpty_nil, Bool.not_true, Bool.false_eq_true, if_false] at ht
  have hff : (((is.flatMap (inlined T)).filter fun i => T i != .invisible).filter fun i => T i != .regular .unit) = is.flatMap (pieces T) := by
    rw [List.filter_flatMap, List.filter_flatMap]
    refine flatMap_congr' fun i hi => ?_
    obtain ⟨v, _, hf, hu⟩ := hmem i hi
    exact (unf_pieces hf hu).2.2.1
  rw [hff] at ht
  have hnil : ((is.flatMap (inlined T)).filter fun i => T i != .invisible) = [] ↔ ∀ v ∈ vs, v = .hidden := by
    rw [List.filter_flatMap, List.flatMap_eq_nil_iff]
    clear hff hrec ht hne hmem
    induction vs generalizing is with
    | nil => unfold UnfAll at h; subst h; simp
    | cons v vs ih =>
      unfold UnfAll at h
      obtain ⟨j, js', rfl, h1, h⟩ := h
      rw [List.forall_mem_cons] at hv
      rw [List.forall_mem_cons, List.forall_mem_cons, ih h hv.2, (unf_pieces hv.1 h1).2.1]
  split at ht
  · rename_i he
    cases ht
    exact .inl ⟨hnil.1 (by simpa using he), rfl⟩
  · rename_i he
    right
    have hex : ∃ v ∈ vs, v ≠ .hidden := by
      apply Classical.byContradiction
      intro hno
      refine he ?_
      rw [List.isEmpty_iff, hnil]
      intro v hv
      apply Classical.byContradiction
      exact fun h => hno ⟨v, hv, h⟩
    have hp := h.pieces hv
    have hmp : ∀ j ∈ is.flatMap (pieces T), ∃ i ∈ is, (T i).isUnitKind = false ∧ (j = i ∨ j ∈ (T i).refs) := by
      intro j hj
      obtain ⟨i, hi, hj⟩ := List.mem_flatMap.1 hj
      exact ⟨i, hi, pieces_mem hj⟩
    have hpart : ∀ v ∈ vs.flatMap DType.parts, v.part := by
      intro v hv'
      obtain ⟨w, hw, hv'⟩ := List.mem_flatMap.1 hv'
      exact (hv w hw).parts v hv'
    refine ⟨hex, ?_⟩
    generalize hL : is.flatMap (pieces T) = L at ht hp hmp
    generalize hV : vs.flatMap DType.parts = V at hp hpart
    cases V with
    | nil =>
      unfold UnfAll at hp
      subst hp
      cases ht
      exact ⟨by simp [DType.pack, Unf], by simp [DType.pack, DType.Flat], by simp [IType.refs]⟩
    | cons v V =>
      unfold UnfAll at hp
      obtain ⟨j, L, rfl, h1, hp⟩ := hp
      cases V with
      | nil =>
        unfold UnfAll at hp
        subst hp
        cases ht
        obtain ⟨i, hi, hi1, hi2⟩ := hmp j (by simp)
        have hsing : v.Flat ∧ j ∈ is := by
          -- the only component is an expression of the sequence
          clear hmp hpart hnil hff hrec he hex hi hi1 hi2 hmem hne
          induction vs generalizing is with
          | nil => simp at hV
          | cons w vs ih =>
            unfold UnfAll at h
            obtain ⟨i, is', rfl, h2, h⟩ := h
            rw [List.forall_mem_cons] at hv
            rw [List.flatMap_cons] at hV hL
            have hw := unf_pieces hv.1 h2
            cases hwp : w.parts with
            | nil =>
              rw [hwp] at hV hw
              have : pieces T i = [] := by simpa [UnfAll] using hw.1
              rw [this] at hL
              obtain ⟨a, b⟩ := ih h hv.2 (by simpa using hV) (by simpa using hL)
              exact ⟨a, by simp [b]⟩
            | cons u us =>
              rw [hwp] at hV
              simp only [List.cons_append, List.cons.injEq] at hV
              obtain ⟨rfl, hV⟩ := hV
              have hus := (List.append_eq_nil_iff.1 hV).1
              subst hus
              have := hv.1.single hwp
              subst this
              refine ⟨hv.1, ?_⟩
              have hpi : pieces T i = [i] := by
                have hl := hw.1.length
                rw [hwp] at hl
                have hpt := hv.1.parts w (by rw [hwp]; simp)
                unfold pieces inlined at hl ⊢
                split
                · rename_i hu
                  exact absurd ((unf_unit h2).1 hu) (by exact fun h => h.elim hpt.1 hpt.2.1)
                · split
                  · rename_i js heq
                    exfalso
                    cases w <;> unfold Unf at h2 <;> first | (rw [heq] at h2; cases h2; done) | skip
                    case list => obtain ⟨j, h, _⟩ := h2; rw [heq] at h; cases h
                    case option => obtain ⟨j, h, _⟩ := h2; rw [heq] at h; cases h
                    case tuple ts => exact hpt.2.2 ts rfl
                  · rfl
              rw [hpi] at hL
              simp only [List.cons_append, List.nil_append, List.cons.injEq] at hL
              rw [hL.1]; simp
        refine ⟨h1, hsing.1, fun j' hj' => ⟨j, hsing.2, ?_, .inr hj'⟩⟩
        have hpt := hpart v (by simp)
        cases hu : (T j).isUnitKind with
        | false => rfl
        | true => exact absurd ((unf_unit h1).1 hu) (by exact fun h => h.elim hpt.1 hpt.2.1)
      | cons v2 V =>
        unfold UnfAll at hp
        obtain ⟨j2, L, rfl, h2, hp⟩ := hp
        cases ht
        exact ⟨⟨_, rfl, j, _, rfl, h1, j2, _, rfl, h2, hp⟩, ⟨by simp, hpart⟩, hmp⟩

end Oak
