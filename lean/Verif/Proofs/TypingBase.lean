import Verif.Spec.Typing
import Verif.Properties.Front
/-!
Expressions as trees of numbered nodes; the types as a graph without cycles.
-/
set_option linter.constructorNameAsVariable false
set_option autoImplicit false

namespace Oak

/-- The children of an expression. -/
def Expr.kids : Expr → List Expr
  | .str _ _ | .any _ | .cls _ _ | .nt _ _ | .ext _ _ => []
  | .seq _ es | .choice _ es => es
  | .star _ e | .plus _ e | .opt _ e | .not _ e | .and _ e | .act _ e _ _ | .asc _ e _ | .span _ e | .range _ e => [e]

/-- The children whose type matters for the type of the expression. -/
def Expr.zkids : Expr → List Expr
  | .str _ _ | .any _ | .cls _ _ | .nt _ _ | .ext _ _ | .not _ _ | .and _ _ | .act _ _ _ _ | .asc _ _ _ => []
  | .seq _ es | .choice _ es => es
  | .star _ e | .plus _ e | .opt _ e | .span _ e | .range _ e => [e]

theorem zkids_sub {e c : Expr} (h : c ∈ e.zkids) : c ∈ e.kids := by
  cases e <;> simp_all [Expr.zkids, Expr.kids]

theorem Expr.kidsInd {P : Expr → Prop} (h : ∀ e : Expr, (∀ c ∈ e.kids, P c) → P e) (e : Expr) : P e := by
  induction e using Expr.ind <;> apply h <;> simp_all [Expr.kids]

theorem sub_kids {x e : Expr} : Sub x e ↔ x = e ∨ ∃ c ∈ e.kids, Sub x c := by
  constructor
  · intro h
    cases h with
    | refl => exact .inl rfl
    | seq h1 h2 => exact .inr ⟨_, h1, h2⟩
    | choice h1 h2 => exact .inr ⟨_, h1, h2⟩
    | _ h => exact .inr ⟨_, by simp [Expr.kids], h⟩
  · rintro (rfl | ⟨c, hc, h⟩)
    · exact .refl
    · cases e <;> simp only [Expr.kids, List.mem_singleton, List.not_mem_nil] at hc
      · exact .seq hc h
      · exact .choice hc h
      all_goals subst hc
      · exact .star h
      · exact .plus h
      · exact .opt h
      · exact .not h
      · exact .and h
      · exact .act h
      · exact .asc h
      · exact .span h
      · exact .range h

theorem Sub.kid {c e : Expr} (h : c ∈ e.kids) : Sub c e := sub_kids.2 (.inr ⟨c, h, .refl⟩)

theorem indices_eq (e : Expr) : e.indices = indicesAll e.kids ++ [e.id] := by
  cases e <;> simp [Expr.indices, Expr.kids, Expr.id, indicesAll]

theorem mem_indicesAll {es : List Expr} {j : Nat} : j ∈ indicesAll es ↔ ∃ e ∈ es, j ∈ e.indices := by
  induction es with
  | nil => simp [indicesAll]
  | cons e es ih => simp [indicesAll, ih]

theorem id_mem_indices (e : Expr) : e.id ∈ e.indices := by rw [indices_eq]; simp

theorem sub_indices {x e : Expr} (h : Sub x e) : ∀ j ∈ x.indices, j ∈ e.indices := by
  induction e using Expr.kidsInd with
  | _ e ih =>
    rcases sub_kids.1 h with rfl | ⟨c, hc, h⟩
    · exact fun _ h => h
    · intro j hj
      rw [indices_eq, List.mem_append, mem_indicesAll]
      exact .inl ⟨c, hc, ih c hc h j hj⟩

theorem indicesAll_nodup {es : List Expr} (h : (indicesAll es).Nodup) {e : Expr} (he : e ∈ es) : e.indices.Nodup := by
  induction es with
  | nil => cases he
  | cons x es ih =>
    rw [indicesAll, List.nodup_append] at h
    cases he with
    | head => exact h.1
    | tail _ he => exact ih h.2.1 he

theorem indicesAll_unique {es : List Expr} (h : (indicesAll es).Nodup) {a b : Expr} (ha : a ∈ es) (hb : b ∈ es) {j : Nat} (ja : j ∈ a.indices)
    (jb : j ∈ b.indices) : a = b := by
  induction es with
  | nil => cases ha
  | cons x es ih =>
    rw [indicesAll, List.nodup_append] at h
    cases ha with
    | head =>
      cases hb with
      | head => rfl
      | tail _ hb => exact absurd rfl (h.2.2 j ja j (mem_indicesAll.2 ⟨b, hb, jb⟩))
    | tail _ ha =>
      cases hb with
      | head => exact absurd rfl (h.2.2 j jb j (mem_indicesAll.2 ⟨a, ha, ja⟩))
      | tail _ hb => exact ih h.2.1 ha hb

theorem kids_nodup {e : Expr} (h : e.indices.Nodup) : (indicesAll e.kids).Nodup ∧ e.id ∉ indicesAll e.kids := by
  rw [indices_eq, List.nodup_append] at h
  exact ⟨h.1, fun h1 => h.2.2 _ h1 _ (by simp) rfl⟩

theorem sub_nodup {x e : Expr} (h : Sub x e) (he : e.indices.Nodup) : x.indices.Nodup := by
  induction e using Expr.kidsInd with
  | _ e ih =>
    rcases sub_kids.1 h with rfl | ⟨c, hc, h⟩
    · exact he
    · exact ih c hc h (indicesAll_nodup (kids_nodup he).1 hc)

/-- An index is that of one expression. -/
theorem sub_unique {e x y : Expr} (he : e.indices.Nodup) (hx : Sub x e) (hy : Sub y e) (h : x.id = y.id) : x = y := by
  induction e using Expr.kidsInd with
  | _ e ih =>
    have hk := kids_nodup he
    rcases sub_kids.1 hx with rfl | ⟨c, hc, hx'⟩
    · rcases sub_kids.1 hy with rfl | ⟨d, hd, hy'⟩
      · rfl
      · exact absurd (mem_indicesAll.2 ⟨d, hd, sub_indices hy' _ (h ▸ id_mem_indices y)⟩) hk.2
    · rcases sub_kids.1 hy with rfl | ⟨d, hd, hy'⟩
      · exact absurd (mem_indicesAll.2 ⟨c, hc, sub_indices hx' _ (h ▸ id_mem_indices x)⟩) hk.2
      · have : c = d := indicesAll_unique hk.1 hc hd (sub_indices hx' _ (id_mem_indices x)) (h ▸ sub_indices hy' _ (id_mem_indices y))
        subst this
        exact ih c hc (indicesAll_nodup hk.1 hc) hx' hy'

mutual
/-- The indices of the expressions whose type matters for the type of the expression. -/
def Expr.zone (e : Expr) : List Nat :=
  match e with
  | .str i _ | .any i | .cls i _ | .nt i _ | .ext i _ | .not i _ | .and i _ | .act i _ _ _ | .asc i _ _ => [i]
  | .seq i es | .choice i es => zoneAll es ++ [i]
  | .star i e | .plus i e | .opt i e | .span i e | .range i e => e.zone ++ [i]
/-- The same for lists of expressions. -/
def zoneAll (es : List Expr) : List Nat :=
  match es with
  | [] => []
  | e :: es => e.zone ++ zoneAll es
end

theorem zone_eq (e : Expr) : e.zone = zoneAll e.zkids ++ [e.id] := by
  cases e <;> simp [Expr.zone, Expr.zkids, Expr.id, zoneAll]

theorem mem_zoneAll {es : List Expr} {j : Nat} : j ∈ zoneAll es ↔ ∃ e ∈ es, j ∈ e.zone := by
  induction es with
  | nil => simp [zoneAll]
  | cons e es ih => simp [zoneAll, ih]

theorem mem_zone {e : Expr} {j : Nat} : j ∈ e.zone ↔ j = e.id ∨ ∃ c ∈ e.zkids, j ∈ c.zone := by
  rw [zone_eq, List.mem_append, mem_zoneAll, List.mem_singleton, or_comm]

theorem id_mem_zone (e : Expr) : e.id ∈ e.zone := mem_zone.2 (.inl rfl)

theorem zone_indices (e : Expr) : ∀ j ∈ e.zone, j ∈ e.indices := by
  induction e using Expr.kidsInd with
  | _ e ih =>
    intro j hj
    rw [indices_eq, List.mem_append, mem_indicesAll]
    rcases mem_zone.1 hj with rfl | ⟨c, hc, hj⟩
    · exact .inr (by simp)
    · exact .inl ⟨c, zkids_sub hc, ih c (zkids_sub hc) j hj⟩

theorem seenCalls_kids {e : Expr} {s : String} (h : s ∈ e.seenCalls) : (∃ i, e = .nt i s) ∨ ∃ c ∈ e.zkids, s ∈ c.seenCalls := by
  have hall : ∀ es, s ∈ seenCallsAll es → ∃ c ∈ es, s ∈ c.seenCalls := by
    intro es
    induction es with
    | nil => simp [seenCallsAll]
    | cons e es ih => simp [seenCallsAll]; grind
  cases e <;> simp_all [Expr.seenCalls, Expr.zkids]

theorem kids_seenCalls {e c : Expr} {s : String} (hc : c ∈ e.zkids) (h : s ∈ c.seenCalls) : s ∈ e.seenCalls := by
  have hall : ∀ es, c ∈ es → s ∈ seenCallsAll es := by
    intro es
    induction es with
    | nil => simp
    | cons e es ih => simp [seenCallsAll]; grind
  cases e <;> simp_all [Expr.seenCalls, Expr.zkids]

/-! Grammars. -/

section
variable {A : AGrammar} {k : Nat}

theorem AGrammar.Ready.all_nodup (H : A.Ready k) : (indicesAll (A.grammar.rules.map (·.2))).Nodup := by
  rw [H.numbered]; exact List.nodup_range

theorem AGrammar.Ready.body_mem (_H : A.Ready k) {r : String} {b : Expr} (h : A.grammar.find r = some b) : (r, b) ∈ A.grammar.rules :=
  grammar_find_mem h

theorem body_of_mem {G : Grammar} (hn : (G.rules.map (·.1)).Nodup) {r : String} {b : Expr} (h : (r, b) ∈ G.rules) : G.find r = some b := by
  unfold Grammar.find
  revert hn h
  generalize G.rules = l
  intro hn h
  induction l with
  | nil => cases h
  | cons x l ih =>
    rw [List.map_cons, List.nodup_cons] at hn
    rw [List.find?_cons]
    cases h with
    | head => simp
    | tail _ h =>
      have : (x.1 == r) = false := by
        rw [beq_eq_false_iff_ne]
        intro hx
        exact hn.1 (hx ▸ List.mem_map_of_mem (f := Prod.fst) h)
      rw [this]
      exact ih hn.2 h

theorem AGrammar.Ready.body_nodup (H : A.Ready k) {r : String} {b : Expr} (h : A.grammar.find r = some b) : b.indices.Nodup :=
  indicesAll_nodup H.all_nodup (List.mem_map_of_mem (f := Prod.snd) (H.body_mem h))

/-- The bodies of different rules have no index in common. -/
theorem AGrammar.Ready.disjoint (H : A.Ready k) {r s : String} {b c : Expr} (hr : A.grammar.find r = some b) (hs : A.grammar.find s = some c) {j : Nat}
    (jb : j ∈ b.indices) (jc : j ∈ c.indices) : r = s := by
  have hb := H.body_mem hr
  have hc := H.body_mem hs
  have hn := H.all_nodup
  revert hb hc hn
  generalize A.grammar.rules = l
  intro hb hc hn
  induction l with
  | nil => cases hb
  | cons x l ih =>
    rw [List.map_cons, indicesAll, List.nodup_append] at hn
    have hmem : ∀ {t : String} {d : Expr}, (t, d) ∈ l → j ∈ d.indices → j ∈ indicesAll (l.map (·.2)) := fun h1 h2 =>
      mem_indicesAll.2 ⟨_, List.mem_map_of_mem (f := Prod.snd) h1, h2⟩
    cases hb with
    | head =>
      cases hc with
      | head => rfl
      | tail _ hc => exact absurd rfl (hn.2.2 j jb j (hmem hc jc))
    | tail _ hb =>
      cases hc with
      | head => exact absurd rfl (hn.2.2 j jc j (hmem hb jb))
      | tail _ hc => exact ih hb hc hn.2.1

theorem AGrammar.Ready.occurs_nodup (H : A.Ready k) {e : Expr} (h : Occurs A.grammar e) : e.indices.Nodup := by
  obtain ⟨r, b, hb, hs⟩ := h
  exact sub_nodup hs (H.body_nodup hb)

theorem AGrammar.Ready.unique (H : A.Ready k) {x y : Expr} (hx : Occurs A.grammar x) (hy : Occurs A.grammar y) (h : x.id = y.id) : x = y := by
  obtain ⟨r, b, hb, hx⟩ := hx
  obtain ⟨s, c, hc, hy⟩ := hy
  have : r = s := H.disjoint hb hc (sub_indices hx _ (id_mem_indices x)) (h ▸ sub_indices hy _ (id_mem_indices y))
  subst this
  rw [hb] at hc
  cases hc
  exact sub_unique (H.body_nodup hb) hx hy h

theorem AGrammar.Ready.lt (H : A.Ready k) {e : Expr} (h : Occurs A.grammar e) : ∀ j ∈ e.indices, j < k := by
  obtain ⟨r, b, hb, hs⟩ := h
  intro j hj
  have : j ∈ indicesAll (A.grammar.rules.map (·.2)) :=
    mem_indicesAll.2 ⟨b, List.mem_map_of_mem (f := Prod.snd) (H.body_mem hb), sub_indices hs j hj⟩
  rw [H.numbered] at this
  exact List.mem_range.1 this

theorem Occurs.sub {G : Grammar} {x e : Expr} (h : Occurs G e) (hx : Sub x e) : Occurs G x := by
  obtain ⟨r, b, hb, hs⟩ := h
  exact ⟨r, b, hb, hx.trans hs⟩

theorem Occurs.kid {G : Grammar} {c e : Expr} (h : Occurs G e) (hc : c ∈ e.kids) : Occurs G c := h.sub (.kid hc)

theorem Occurs.body {G : Grammar} {r : String} {b : Expr} (h : G.find r = some b) : Occurs G b := ⟨r, b, h, .refl⟩

theorem filledAll_iff {es : List Expr} : filledAll es = true ↔ ∀ e ∈ es, e.filled = true := by
  induction es with
  | nil => simp [filledAll]
  | cons e es ih => simp [filledAll, ih]

theorem filled_kids {e : Expr} (h : e.filled = true) : ∀ c ∈ e.kids, c.filled = true := by
  cases e <;> simp_all [Expr.filled, Expr.kids, filledAll_iff]

theorem filled_sub {x e : Expr} (h : e.filled = true) (hs : Sub x e) : x.filled = true := by
  induction e using Expr.kidsInd with
  | _ e ih =>
    rcases sub_kids.1 hs with rfl | ⟨c, hc, hs⟩
    · exact h
    · exact ih c hc (filled_kids h c hc) hs

theorem AGrammar.Ready.occurs_filled (H : A.Ready k) {e : Expr} (h : Occurs A.grammar e) : e.filled = true := by
  obtain ⟨r, b, hb, hs⟩ := h
  exact filled_sub (H.filled _ (H.body_mem hb)) hs

theorem AGrammar.Ready.declared (H : A.Ready k) {i : Nat} {r : String} (h : Occurs A.grammar (.nt i r)) : ∃ b, A.grammar.find r = some b := by
  obtain ⟨q, b, hb, hs⟩ := h
  exact Option.isSome_iff_exists.1 (resolved_sub (H.calls _ (H.body_mem hb)) hs)

end

/-! Types. -/

/-- The type is known and does not come from a recursive call. -/
def IType.settled : IType → Bool
  | .infer | .rec_ _ => false
  | _ => true

/-- The expressions a type refers to. -/
def IType.refs : IType → List Nat
  | .regular (.optional i) | .regular (.list i) => [i]
  | .regular (.tuple is) => is
  | _ => []

/-- The types a type refers to are settled, and their depth is at most `n`. -/
inductive Dp (T : Nat → IType) : Nat → IType → Prop where
  | mk {n t} : (∀ j ∈ t.refs, (T j).settled = true) → (∀ j ∈ t.refs, Dp T n (T j)) → Dp T (n + 1) t

theorem Dp.ref {T : Nat → IType} {n : Nat} {t : IType} (h : Dp T n t) : ∀ j ∈ t.refs, (T j).settled = true := by
  cases h with
  | mk h _ => exact h

theorem Dp.mono {T : Nat → IType} {n m : Nat} {t : IType} (h : Dp T n t) (hm : n ≤ m) : Dp T m t := by
  induction h generalizing m with
  | mk h _ ih =>
    cases m with
    | zero => omega
    | succ m => exact .mk h fun j hj => (ih j hj) (Nat.le_of_succ_le_succ hm)

theorem Dp.leaf {T : Nat → IType} {n : Nat} {t : IType} (h : t.refs = []) : Dp T (n + 1) t := .mk (by simp [h]) (by simp [h])

/-- Settled types do not change, or they become types without components. -/
def Le (T T' : Nat → IType) : Prop := ∀ j, (T j).settled = true → (T' j).settled = true ∧ (T' j = T j ∨ (T' j).refs = [])

theorem Le.refl (T : Nat → IType) : Le T T := fun _ h => ⟨h, .inl rfl⟩

theorem Le.trans {T1 T2 T3 : Nat → IType} (h1 : Le T1 T2) (h2 : Le T2 T3) : Le T1 T3 := by
  intro j hj
  obtain ⟨a, b⟩ := h1 j hj
  obtain ⟨c, d⟩ := h2 j a
  refine ⟨c, ?_⟩
  rcases d with d | d
  · rw [d]; exact b
  · exact .inr d

theorem Dp.le {T T' : Nat → IType} {n : Nat} {t : IType} (h : Dp T n t) (hle : Le T T') : Dp T' n t := by
  induction h with
  | mk h hd ih =>
    rename_i n t
    refine .mk (fun j hj => (hle j (h j hj)).1) fun j hj => ?_
    rcases (hle j (h j hj)).2 with b | b
    · rw [b]; exact ih j hj
    · cases hd j hj with
      | mk _ _ => exact .leaf b

/-- How many of the expressions have a settled type. -/
def cnt (k : Nat) (T : Nat → IType) : Nat := (List.range (k + 1)).countP fun i => (T i).settled

theorem cnt_le (k : Nat) (T : Nat → IType) : cnt k T ≤ k + 1 := by
  have := List.countP_le_length (p := fun i => (T i).settled) (l := List.range (k + 1))
  simpa [cnt] using this

theorem cnt_mono {k : Nat} {T T' : Nat → IType} (h : Le T T') : cnt k T ≤ cnt k T' :=
  List.countP_mono_left fun i _ hi => (h i hi).1

theorem countP_lt {l : List Nat} {p q : Nat → Bool} (h : ∀ i ∈ l, p i = true → q i = true) {i : Nat} (hi : i ∈ l) (hp : p i = false) (hq : q i = true) :
    l.countP p + 1 ≤ l.countP q := by
  induction l with
  | nil => cases hi
  | cons x l ih =>
    rw [List.forall_mem_cons] at h
    rw [List.countP_cons, List.countP_cons]
    have hm := List.countP_mono_left h.2
    cases hi with
    | head => rw [hp, hq]; simpa using hm
    | tail _ hi =>
      have := ih h.2 hi
      by_cases hx : p x = true
      · rw [hx, h.1 hx]; simp; omega
      · simp only [Bool.not_eq_true] at hx
        simp only [hx, Bool.false_eq_true, if_false]
        omega

theorem cnt_lt {k : Nat} {T T' : Nat → IType} (h : Le T T') {i : Nat} (hi : i ≤ k) (h1 : (T i).settled = false) (h2 : (T' i).settled = true) :
    cnt k T + 1 ≤ cnt k T' :=
  countP_lt (fun i _ hi => (h i hi).1) (List.mem_range.2 (Nat.lt_succ_of_le hi)) h1 h2

/-- The types form a graph without cycles. -/
def Deep (k : Nat) (T : Nat → IType) : Prop := ∀ i, Dp T (cnt k T + 1) (T i)

theorem Deep.ref {k : Nat} {T : Nat → IType} (h : Deep k T) {i j : Nat} (hj : j ∈ (T i).refs) : (T j).settled = true := (h i).ref j hj

/-- A type whose components are settled is not too deep. -/
theorem Deep.dp {k : Nat} {T : Nat → IType} (h : Deep k T) {t : IType} (ht : ∀ j ∈ t.refs, (T j).settled = true) : Dp T (cnt k T + 2) t :=
  .mk ht fun j _ => h j

theorem not_settled_refs {t : IType} (h : t.settled = false) : t.refs = [] := by
  cases t <;> simp_all [IType.settled, IType.refs]

/-- Giving a type to an expression that has no settled type. -/
theorem Deep.update {k : Nat} {T T' : Nat → IType} (h : Deep k T) {i : Nat} {t : IType} (hi : i ≤ k) (hT : (T i).settled = false)
    (ht : ∀ j ∈ t.refs, (T j).settled = true) (h1 : T' i = t) (h2 : ∀ j, j ≠ i → T' j = T j) : Deep k T' ∧ Le T T' := by
  have hle : Le T T' := by
    intro j hj
    have : j ≠ i := fun h => by rw [h, hT] at hj; cases hj
    rw [h2 j this]
    exact ⟨hj, .inl rfl⟩
  refine ⟨?_, hle⟩
  intro j
  by_cases hji : j = i
  · subst hji
    rw [h1]
    cases hs : t.settled with
    | false => exact .leaf (not_settled_refs hs)
    | true =>
      have := cnt_lt hle hi hT (by rw [h1]; exact hs)
      exact ((h.dp ht).le hle).mono (by omega)
  · rw [h2 j hji]
    exact ((h j).le hle).mono (by have := cnt_mono (k := k) hle; omega)

/-! Outcomes. -/

/-- The outcome is a result that satisfies `Q`, or a panic if `P`. -/
def Outcome {α : Type} (x : Res α) (Q : α → Prop) (P : Prop) : Prop :=
  match x with
  | .ok a => Q a
  | .panic => P
  | .stuck => False
  | .timeout => False

theorem Outcome.bind {α β : Type} {x : Res α} {f : α → Res β} {Q : α → Prop} {R : β → Prop} {P : Prop} (hx : Outcome x Q P)
    (hf : ∀ a, Q a → Outcome (f a) R P) : Outcome (x >>= f) R P := by
  cases x with
  | ok a => exact hf a hx
  | panic => exact hx
  | stuck => exact hx
  | timeout => exact hx

theorem Outcome.mono {α : Type} {x : Res α} {Q R : α → Prop} {P P' : Prop} (hx : Outcome x Q P) (h : ∀ a, Q a → R a) (hp : P → P') : Outcome x R P' := by
  cases x with
  | ok a => exact h a hx
  | panic => exact hp hx
  | stuck => exact hx
  | timeout => exact hx

/-! Equality and external types: the traversals of types stop. -/

theorem allEq_total {f : Nat → Nat → Res Bool} (is js : List Nat) (h : ∀ i ∈ is, ∀ j, ∃ b, f i j = .ok b) : ∃ b, allEq f is js = .ok b := by
  induction is generalizing js with
  | nil => exact ⟨true, by cases js <;> rfl⟩
  | cons i is ih =>
    rw [List.forall_mem_cons] at h
    cases js with
    | nil => exact ⟨true, rfl⟩
    | cons j js =>
      obtain ⟨b, hb⟩ := h.1 j
      rw [allEq, hb]
      cases b with
      | false => exact ⟨false, rfl⟩
      | true => exact ih js h.2

theorem synEq_total {T : Nat → IType} {n : Nat} {a : IType} (h : Dp T n a) : ∀ (m : Nat) (b : IType), n ≤ m → ∃ r, synEq T m a b = .ok r := by
  induction h with
  | @mk n t h _ ih =>
    intro m b hm
    cases m with
    | zero => omega
    | succ m =>
      have hm : n ≤ m := by omega
      unfold synEq
      split
      · exact ⟨_, rfl⟩
      · exact ⟨_, rfl⟩
      · exact ⟨_, rfl⟩
      · split
        · exact ⟨_, rfl⟩
        · exact ⟨_, rfl⟩
        · exact ih _ (by simp [IType.refs]) _ _ hm
        · exact ih _ (by simp [IType.refs]) _ _ hm
        · split
          · exact allEq_total _ _ fun i hi j => ih i (by simpa [IType.refs] using hi) _ _ hm
          · exact ⟨_, rfl⟩
        · exact ⟨_, rfl⟩
        · exact ⟨_, rfl⟩
      · exact ⟨_, rfl⟩

theorem anyRes_total {α : Type} {f : α → Res Bool} (l : List α) (h : ∀ x ∈ l, ∃ b, f x = .ok b) : ∃ b, anyRes f l = .ok b := by
  induction l with
  | nil => exact ⟨false, rfl⟩
  | cons x l ih =>
    rw [List.forall_mem_cons] at h
    obtain ⟨b, hb⟩ := h.1
    rw [anyRes, hb]
    cases b with
    | false => exact ih h.2
    | true => exact ⟨true, rfl⟩

theorem containsExternal_total {T : Nat → IType} {n : Nat} {a : IType} (h : Dp T n a) : ∀ m : Nat, n ≤ m → ∃ r, containsExternal T m a = .ok r := by
  induction h with
  | @mk n t h _ ih =>
    intro m hm
    cases m with
    | zero => omega
    | succ m =>
      have hm : n ≤ m := by omega
      unfold containsExternal
      split
      · exact ⟨_, rfl⟩
      · exact ⟨_, rfl⟩
      · exact ⟨_, rfl⟩
      · exact ⟨_, rfl⟩
      · exact ⟨_, rfl⟩
      · exact ⟨_, rfl⟩
      · exact ⟨_, rfl⟩
      · exact ih _ (by simp [IType.refs]) _ hm
      · exact ih _ (by simp [IType.refs]) _ hm
      · exact anyRes_total _ fun i hi => ih i (by simpa [IType.refs] using hi) _ hm

end Oak
