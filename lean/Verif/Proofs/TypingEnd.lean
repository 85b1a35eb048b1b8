import Verif.Proofs.TypingRule
/-!
The end of the surface inference: all the rules are typed; recursive types are replaced.
-/
set_option linter.constructorNameAsVariable false
set_option autoImplicit false

namespace Oak
namespace Typing

section
variable {A : AGrammar} {k : Nat}

theorem new_ne {j : Nat} (h : (TState.new k).types j ≠ .infer) : j = k := by
  by_cases hj : j = k
  · exact hj
  · simp [TState.new, hj] at h

/-- Before the inference. -/
theorem sinv_new (H : A.Ready k) {D N : Prop} : SInv A k False D N [] (.new k) := by
  have hb : ∀ r b, A.grammar.find r = some b → ∀ j ∈ b.indices, (TState.new k).types j = .infer := by
    intro r b hb j hj
    have := H.lt (Occurs.body hb) j hj
    simp [TState.new, Nat.ne_of_lt this]
  have hid : ∀ e, Occurs A.grammar e → (TState.new k).types e.id = .infer := by
    intro e he
    have := H.lt he _ (id_mem_indices e)
    simp [TState.new, Nat.ne_of_lt this]
  have hval : ∀ j, (TState.new k).types j = .infer ∨ (TState.new k).types j = .regular (.rust spanTy) := fun j => by
    by_cases hj : j = k <;> simp [TState.new, hj]
  refine ⟨?_, ?_, ?_, ?_, ?_, ?_, by simp [TState.new], ?_, ?_, ?_, fun c => c.elim, (by intro d hd; cases hd)⟩
  · intro i
    refine .leaf ?_
    rcases hval i with h | h <;> rw [h] <;> rfl
  · intro i
    rcases hval i with h | h <;> rw [h]
    · exact .infer
    · exact .settled rfl
  · intro r b h _ _ j hj
    exact hb r b h j (zone_indices _ _ hj)
  · intro r b h _ h1
    exact absurd (hb r b h _ (id_mem_indices b)) h1
  · intro e he
    rw [hid e he]
    cases e <;> first | trivial | exact .inl rfl
  · intro _ r b h _ rs
    rw [hb r b h _ (id_mem_indices b)]
    simp
  · intro i
    rcases hval i with h | h <;> rw [h] <;> simp
  · intro _ i rs
    rcases hval i with h | h <;> rw [h] <;> simp
  · intro _ _ r b h _ h1
    exact absurd (hb r b h _ (id_mem_indices b)) h1

/-- All the rules are visited. -/
theorem surfRules_post (H : A.Ready k) {m n : Nat} (hm : k + 2 ≤ m) (hn : A.grammar.rules.length < n) (rank : String → Nat) :
    ∀ (rs : List (String × Expr)) (s : TState), (∀ x ∈ rs, x ∈ A.grammar.rules) → SInv A k False (Ranked A.grammar rank) (Strict A.grammar rank) [] s →
    Outcome (surfRules A k m n rs s) (fun s' => Good A k False (Ranked A.grammar rank) (Strict A.grammar rank) [] [] s s' ∧
      ∀ x ∈ rs, s'.types x.2.id ≠ .infer) (¬ Ranked A.grammar rank) := by
  intro rs
  induction rs with
  | nil => intro s _ h; exact ⟨Good.refl h, by simp⟩
  | cons x rs ih =>
    intro s hx h
    obtain ⟨r, b⟩ := x
    rw [List.forall_mem_cons] at hx
    have hb := body_of_mem H.names hx.1
    unfold surfRules
    refine (surfRule_post H hm rank n [] r s (by simp) (by simp) (by simpa using hn) ⟨b, hb⟩ h (by intro r h; cases h) (by simp) (by simp)).bind ?_
    rintro ⟨t, s1⟩ (⟨_, _, h1⟩ | ⟨_, h1, _, _, _, _, h2, _⟩)
    · exact absurd rfl h1
    · dsimp only at h1 h2 ⊢
      refine (ih s1 hx.2 h1.inv).mono ?_ id
      rintro s2 ⟨k1, k2⟩
      refine ⟨(h1.trans k1).mono (by simp), List.forall_mem_cons.2 ⟨?_, k2⟩⟩
      have := h2 (by simp) b hb
      dsimp only
      rw [k1.grow _ this]; exact this

instance : LawfulMonad Res := LawfulMonad.mk' Res (fun x => by cases x <;> rfl) (fun _ _ => rfl) (fun x _ _ => by cases x <;> rfl)

theorem mapM_res {α β : Type} {f : α → Res β} {l : List α} (h : ∀ x ∈ l, ∃ y, f x = .ok y) : ∃ ys, l.mapM f = .ok ys ∧ ys.length = l.length ∧
    ∀ i (hi : i < l.length) (hj : i < ys.length), f l[i] = .ok ys[i] := by
  induction l with
  | nil => exact ⟨[], rfl, rfl, by simp⟩
  | cons x l ih =>
    rw [List.forall_mem_cons] at h
    obtain ⟨y, hy⟩ := h.1
    obtain ⟨ys, h1, h2, h3⟩ := ih h.2
    refine ⟨y :: ys, by rw [List.mapM_cons, hy, Res.bind_ok, h1, Res.bind_ok]; rfl, by simp [h2], ?_⟩
    intro i hi hj
    cases i with
    | zero => exact hy
    | succ i => exact h3 i (by simpa using hi) (by simpa using hj)

theorem range_map {β : Type} {f : Nat → Res β} {n : Nat} {d : β} (h : ∀ i, i < n → ∃ y, f i = .ok y) : ∃ ys, (List.range n).mapM f = .ok ys ∧
    ∀ i, i < n → f i = .ok ((ys[i]?).getD d) := by
  obtain ⟨ys, h1, h2, h3⟩ := mapM_res (l := List.range n) (f := f) (fun x hx => h x (List.mem_range.1 hx))
  refine ⟨ys, h1, fun i hi => ?_⟩
  have hj : i < ys.length := by rw [h2]; simpa using hi
  have := h3 i (by simpa using hi) hj
  rw [List.getElem?_eq_getElem hj]
  simpa using this

theorem union_mem {a b : RecSet} {p : RecPath} (h : p ∈ RecSet.union a b) : p ∈ a ∨ p ∈ b := by
  unfold RecSet.union at h
  induction b generalizing a with
  | nil => exact .inl h
  | cons x b ih =>
    rw [List.foldl_cons] at h
    rcases ih h with h | h
    · split at h
      · exact .inl h
      · rcases List.mem_append.1 h with h | h
        · exact .inl h
        · exact .inr (by simp at h; simp [h])
    · exact .inr (by simp [h])

/-- Warnings are given without a panic. -/
theorem warn_ok {C D N : Prop} {s : TState} (h : SInv A k C D N [] s) : ∃ w, warnRecursive A.grammar s.types = .ok w := by
  unfold warnRecursive
  dsimp only
  have hall : ∀ (l : List (String × Expr)) (acc : RecSet), (∀ p ∈ acc, p.path ≠ [] ∧ ∀ x ∈ p.path, ∃ b, A.grammar.find x = some b) →
      ∀ p ∈ l.foldl (fun acc x => match s.types x.2.id with | .rec_ r => RecSet.union acc r | _ => acc) acc,
        p.path ≠ [] ∧ ∀ x ∈ p.path, ∃ b, A.grammar.find x = some b := by
    intro l
    induction l with
    | nil => exact fun _ h => h
    | cons x l ih =>
      intro acc hacc
      rw [List.foldl_cons]
      refine ih _ ?_
      split
      · rename_i r heq
        intro p hp
        rcases union_mem hp with hp | hp
        · exact hacc p hp
        · obtain ⟨h1, h2⟩ := (h.recs _ r heq).2 p hp
          exact ⟨h1, fun y hy => let ⟨b, hb, _⟩ := h2 y hy; ⟨b, hb⟩⟩
      · exact hacc
  obtain ⟨w, hw, _⟩ := mapM_res (f := fun p : RecPath => match p.path with
    | [] => .panic
    | x :: _ => if (A.grammar.find x).isSome then .ok (TMsg.recursive p.path) else .panic)
    (l := (A.grammar.rules.foldl (fun acc x => match s.types x.2.id with | .rec_ r => RecSet.union acc r | _ => acc) []).filter fun p => p.kind == .poly) (by
      intro p hp
      obtain ⟨h1, h2⟩ := hall _ [] (by simp) p (List.mem_filter.1 hp).1
      cases hpp : p.path with
      | nil => exact absurd hpp h1
      | cons x xs =>
        obtain ⟨b, hb⟩ := h2 x (by simp [hpp])
        exact ⟨TMsg.recursive (x :: xs), by simp [hb]⟩)
  exact ⟨w, hw⟩

/-- Recursive types are replaced by other types. -/
theorem reduceAllRec_post (H : A.Ready k) {C D N : Prop} {s : TState} (h : SInv A k C D N [] s) (hall : ∀ r b, A.grammar.find r = some b → s.types b.id ≠ .infer)
    (hout : ∀ j, k < j → s.types j = .infer) (w : List TMsg) : ∃ T, reduceAllRec A.grammar k s.types = .ok T ∧
      SInv A k True True N [] { s with types := T, msgs := w } ∧ (∀ i rs, T i ≠ .rec_ rs) ∧ (∀ i, (T i = .infer ↔ s.types i = .infer)) ∧
      (∀ i, (s.types i).settled = true → T i = s.types i) := by
  have hval : ∀ i, ∃ t, reduceRec A.grammar s.types (s.types i) = .ok t ∧ (∀ rs, t ≠ .rec_ rs) ∧ ((∀ rs, s.types i ≠ .rec_ rs) → t = s.types i) ∧
      (t = .infer → s.types i = .infer) ∧ (t = .invisible ∨ ∃ j, t = s.types j) := by
    intro i
    have key : (∃ rs, s.types i = .rec_ rs) ∨ ∀ rs, s.types i ≠ .rec_ rs := by cases s.types i <;> simp
    rcases key with ⟨rs, hrs⟩ | hnr
    · obtain ⟨t, h1, h2, h3⟩ := reduceRec_post (hrs ▸ h.recs i)
      refine ⟨t, hrs ▸ h1, h2, fun h => absurd hrs (h rs), ?_, h3.imp id ?_⟩
      · rintro rfl
        rcases h3 with h3 | ⟨p, hp, x, hx, b, hb, h4⟩
        · cases h3
        · exact absurd h4 (hall x b hb)
      · rintro ⟨p, hp, x, hx, b, hb, h4⟩
        exact ⟨b.id, h4.symm⟩
    · refine ⟨s.types i, ?_, hnr, fun _ => rfl, id, .inr ⟨i, rfl⟩⟩
      unfold reduceRec
      split
      · rename_i h; exact absurd h (hnr _)
      · rfl
  obtain ⟨ys, h1, h2⟩ := range_map (n := k + 1) (d := IType.infer) (f := fun i => reduceRec A.grammar s.types (s.types i))
    (fun i _ => let ⟨t, ht, _⟩ := hval i; ⟨t, ht⟩)
  let T : Nat → IType := fun i => (ys[i]?).getD .infer
  have hT : ∀ i, (∀ rs, T i ≠ .rec_ rs) ∧ ((∀ rs, s.types i ≠ .rec_ rs) → T i = s.types i) ∧ (T i = .infer → s.types i = .infer) ∧
      (T i = .invisible ∨ ∃ j, T i = s.types j) := by
    intro i
    by_cases hi : i < k + 1
    · obtain ⟨t, t1, t2, t3, t4, t5⟩ := hval i
      have : T i = t := by
        have := h2 i hi
        rw [t1] at this
        simp only [Res.ok.injEq] at this
        exact this.symm
      rw [this]
      exact ⟨t2, t3, t4, t5⟩
    · have hlen : ys.length = k + 1 := by
        obtain ⟨ys', e1, e2, _⟩ := mapM_res (l := List.range (k + 1)) (f := fun i => reduceRec A.grammar s.types (s.types i))
          (fun x hx => let ⟨t, ht, _⟩ := hval x; ⟨t, ht⟩)
        rw [h1] at e1
        cases e1
        simpa using e2
      have : T i = .infer := by
        show (ys[i]?).getD .infer = .infer
        rw [List.getElem?_eq_none (by omega)]; rfl
      have h0 := hout i (by omega)
      rw [this]
      exact ⟨by simp, fun _ => h0.symm, fun _ => h0, .inr ⟨i, h0.symm⟩⟩
  have hset : ∀ i, (s.types i).settled = true → T i = s.types i := fun i hi => (hT i).2.1 fun rs => settled_ne_rec hi
  have hle : Le s.types T := fun j hj => by rw [hset j hj]; exact ⟨hj, .inl rfl⟩
  have hinf : ∀ i, (T i = .infer ↔ s.types i = .infer) := fun i => ⟨(hT i).2.2.1, fun h0 => by rw [(hT i).2.1 (by simp [h0])]; exact h0⟩
  have hdeep : Deep k T := by
    intro i
    have hc := cnt_mono (k := k) hle
    rcases (hT i).2.2.2 with h0 | ⟨j, h0⟩
    · rw [h0]; exact .leaf rfl
    · rw [h0]; exact ((h.deep j).le hle).mono (by omega)
  refine ⟨T, ?_, ⟨hdeep, ?_, ?_, ?_, ?_, ?_, ?_, ?_, ?_, ?_, fun _ r b hb _ h0 => hall r b hb ((hinf _).1 h0), h.fine⟩, fun i => (hT i).1, hinf, hset⟩
  · unfold reduceAllRec
    rw [h1]; rfl
  · intro i rs hrs
    exact absurd hrs ((hT i).1 rs)
  · intro r b hb _ h0
    exact absurd ((hinf _).1 h0) (hall r b hb)
  · intro r b hb _ _ j hj
    exact fun h0 => h.full r b hb (by simp) (hall r b hb) j hj ((hinf j).1 h0)
  · intro e he
    have hn := h.node e he
    dsimp only
    cases e with
    | not i c =>
      have : T i = s.types i := (hT i).2.1 fun rs h0 => by
        rw [Expr.id, h0] at hn; rcases hn with hn | hn <;> cases hn
      rw [Expr.id, this]; exact hn
    | and i c =>
      have : T i = s.types i := (hT i).2.1 fun rs h0 => by
        rw [Expr.id, h0] at hn; rcases hn with hn | hn <;> cases hn
      rw [Expr.id, this]; exact hn
    | asc i c ty =>
      have : T i = s.types i := (hT i).2.1 fun rs h0 => by
        rw [Expr.id, h0] at hn
        rcases hn with hn | hn | hn
        · cases hn
        · have := H.written _ _ _ he
          rw [← hn] at this
          rcases this with h | h | ⟨_, h⟩ <;> cases h
        · cases hn
      rw [Expr.id, this]; exact hn
    | _ => trivial
  · intro _ r b hb _ rs
    exact (hT _).1 rs
  · show T k = _
    rw [hset k (by rw [h.span]; rfl)]; exact h.span
  · intro i h0
    dsimp only at h0
    rcases (hT i).2.2.2 with h3 | ⟨j, h3⟩
    · rw [h3] at h0; cases h0
    · exact h.pos j (h3 ▸ h0)
  · exact fun _ i => (hT i).1
  · intro n he r b hb hr h0
    have hsame : T = s.types := funext fun i => (hT i).2.1 (h.norec n i)
    dsimp only at he h0 ⊢
    rw [hsame] at h0 ⊢
    exact h.rules n he r b hb hr h0

end

end Typing
end Oak
