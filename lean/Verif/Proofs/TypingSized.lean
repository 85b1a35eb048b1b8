import Verif.Proofs.TypingReady
import Verif.Proofs.CodegenOk
import Verif.Proofs.Program
/-!
The inferred types tell how many values expressions give.
-/
set_option linter.constructorNameAsVariable false
set_option autoImplicit false

namespace Oak
namespace Typing

theorem pack_parts {ts : List DType} (h : ∀ t ∈ ts, t.part) : (DType.pack ts).parts.length = ts.length := by
  match ts, h with
  | [], _ => rfl
  | [t], h => rw [DType.pack, DType.parts_self (h t (by simp))]
  | _ :: _ :: _, _ => rfl

theorem Same.parts {t u : DType} (h : Same t u) : t.parts.length = u.parts.length := by
  cases h with
  | tuple h =>
    simp only [DType.parts]
    rename_i ts us
    induction ts generalizing us with
    | nil => cases h; rfl
    | cons t ts ih => cases h with | cons _ h => simp [ih h]
  | _ => rfl

section
variable {A : AGrammar} {k : Nat} {N : Prop} {U : Nat → IType} {T : Nat → Ty}

theorem final_regular (hT : ∀ i, i ≤ k → reduceFinal (U i) = .ok (T i)) {i : Nat} (hi : i ≤ k) {t : Ty} (h : U i = .regular t) : T i = t := by
  have := hT i hi
  rw [h] at this
  simpa [reduceFinal] using this.symm

/-- The number of values of a documented type. -/
theorem card_unf (hT : ∀ i, i ≤ k → reduceFinal (U i) = .ok (T i)) {i : Nat} (hi : i ≤ k) {v : DType} (h : Unf U v (U i)) : (T i).card = v.parts.length := by
  have h0 := hT i hi
  cases v <;> unfold Unf at h
  case list => obtain ⟨j, h, _⟩ := h; rw [final_regular hT hi h]; rfl
  case option => obtain ⟨j, h, _⟩ := h; rw [final_regular hT hi h]; rfl
  case tuple => obtain ⟨js, h, h'⟩ := h; rw [final_regular hT hi h]; exact h'.length
  case external => rw [h] at h0; simp only [reduceFinal, Res.ok.injEq] at h0; rw [← h0]; rfl
  case hidden => rw [h] at h0; simp only [reduceFinal, Res.ok.injEq] at h0; rw [← h0]; rfl
  all_goals rw [final_regular hT hi h]; rfl

/-- Nothing is asked under an expression of unit type. -/
theorem unit_sized (R : String → Nat) {e : Expr} (h : T e.id = .unit) : sized T true e = true ∧ coherent T R true e = true ∧ arity T true e = 0 := by
  have h1 : sized T true e = sized T false e := by cases e <;> simp only [Expr.id] at h <;> simp [sized, h]
  have h2 : coherent T R true e = coherent T R false e := by cases e <;> simp only [Expr.id] at h <;> simp [coherent, h]
  have h3 : arity T true e = arity T false e := by cases e <;> simp only [Expr.id] at h <;> simp [arity, h]
  exact ⟨h1.trans (sized_false T e), h2.trans (coherent_false T R e), h3.trans (arity_false T e)⟩

theorem aritySeq_types {es : List Expr} {ts : List DType} (h : HasTypes A es ts)
    (hc : ∀ e ∈ es, ∀ t, HasType A e t → t.Flat ∧ arity T true e = t.parts.length) :
    aritySeq T true es = (ts.flatMap DType.parts).length ∧ ∀ t ∈ ts.flatMap DType.parts, t.part := by
  induction es generalizing ts with
  | nil => cases h; exact ⟨rfl, by simp⟩
  | cons e es ih =>
    cases h with
    | cons h1 h2 =>
      rw [List.forall_mem_cons] at hc
      obtain ⟨i1, i2⟩ := ih h2 hc.2
      obtain ⟨c1, c2⟩ := hc.1 _ h1
      refine ⟨by simp [aritySeq, c2, i1], fun t ht => ?_⟩
      rw [List.flatMap_cons, List.mem_append] at ht
      rcases ht with ht | ht
      · exact c1.parts t ht
      · exact i2 t ht

theorem hasTypes_mem {es : List Expr} {ts : List DType} (h : HasTypes A es ts) {e : Expr} (he : e ∈ es) : ∃ t ∈ ts, HasType A e t := by
  induction es generalizing ts with
  | nil => cases he
  | cons d es ih =>
    cases h with
    | cons h1 h2 =>
      cases he with
      | head => exact ⟨_, by simp, h1⟩
      | tail _ he => obtain ⟨t, ht, h⟩ := ih h2 he; exact ⟨t, by simp [ht], h⟩

theorem hasTypes_mem' {es : List Expr} {ts : List DType} (h : HasTypes A es ts) {t : DType} (ht : t ∈ ts) : ∃ e ∈ es, HasType A e t := by
  induction es generalizing ts with
  | nil => cases h; cases ht
  | cons d es ih =>
    cases h with
    | cons h1 h2 =>
      cases ht with
      | head => exact ⟨_, by simp, h1⟩
      | tail _ ht => obtain ⟨e, he, h⟩ := ih h2 ht; exact ⟨e, by simp [he], h⟩

/-- The number of values of the branches of a choice. -/
theorem choice_parts {ts : List DType} {t : DType} (h : ChoiceType ts t) (hu : t ≠ .hidden) (hu' : t ≠ .unit)
    (hm : DType.external ∈ ts → ∀ us, DType.tuple us ∉ ts) : ∀ u ∈ ts, u.parts.length = t.parts.length := by
  cases h with
  | same h => exact List.forall_mem_cons.2 ⟨rfl, fun u hu => Same.parts (h u hu)⟩
  | known hts hpre hne hpost hex =>
    have h1 : t.parts.length = 1 := by
      have := hm hex
      cases t with
      | hidden => exact absurd rfl hu
      | unit => exact absurd rfl hu'
      | tuple us => exact absurd (by simp [hts]) (this us)
      | _ => rfl
    intro u hu
    rw [hts] at hu
    simp only [List.mem_append, List.mem_cons] at hu
    rcases hu with hu | rfl | hu
    · rw [hpre u hu, h1]; rfl
    · rfl
    · rcases hpost u hu with rfl | hs
      · rw [h1]; rfl
      · exact Same.parts hs
  | units => exact absurd rfl hu

theorem done_sized (H : A.Ready k) (h : Final A k N U) (hT : ∀ i, i ≤ k → reduceFinal (U i) = .ok (T i)) (nn : N) (hmix : A.Unmixed) (hran : A.PlainRanges)
    {R : String → Nat} (hR : ∀ r b, A.grammar.find r = some b → R r = (T b.id).card) {a : Bool} {e : Expr} (hd : Done A k U a e) (ho : Occurs A.grammar e)
    (hdoc : a = false → RuleDoc A k U e) : sized T true e = true ∧ coherent T R true e = true ∧ arity T true e = (T e.id).card := by
  have hle : ∀ {e}, Occurs A.grammar e → e.id ≤ k := fun ho => Nat.le_of_lt (H.lt ho _ (id_mem_indices _))
  have hunit : ∀ {e}, T e.id = .unit → sized T true e = true ∧ coherent T R true e = true ∧ arity T true e = (T e.id).card := fun {e} h0 => by
    rw [h0]; exact unit_sized R h0
  induction hd with
  | @unit e h0 => exact hunit ((unit_iff h hT (hle ho)).2 h0)
  | @node e h1 h2 _ ih =>
    by_cases hu : T e.id = .unit
    · exact hunit hu
    have hdoc := hdoc rfl
    have hnu : (U e.id).isUnitKind = false := by
      cases hc : (U e.id).isUnitKind with
      | false => rfl
      | true => exact absurd ((unit_iff h hT (hle ho)).2 hc) hu
    obtain ⟨⟨v, v1, v2, v3⟩, _⟩ := hdoc e .root
    have hv : ¬ (v = .hidden ∨ v = .unit) := fun h0 => by rw [(unf_unit v3).2 h0] at hnu; cases hnu
    have hcard := card_unf hT (hle ho) v3
    have hkid : ∀ c ∈ e.zkids, (sized T true c = true ∧ coherent T R true c = true ∧ arity T true c = (T c.id).card) ∧
        ∀ t, HasType A c t → t.Flat ∧ arity T true c = t.parts.length := by
      intro c hc
      have hoc := ho.kid (zkids_sub hc)
      have hdc : RuleDoc A k U c := fun x hx => hdoc x (live_kids.2 (.inr ⟨hnu, c, hc, hx⟩))
      have := ih c hc hoc fun _ => hdc
      refine ⟨this, fun t ht => ?_⟩
      obtain ⟨⟨w, w1, w2, w3⟩, _⟩ := hdc c .root
      have := ht.det w1
      subst this
      exact ⟨w2, by rw [this.2.2, card_unf hT (hle hoc) w3]⟩
    cases e with
    | str i l => cases v1; exact absurd (.inl rfl) hv
    | not i c => cases v1; exact absurd (.inl rfl) hv
    | and i c => cases v1; exact absurd (.inl rfl) hv
    | act i c b f => exact absurd rfl (h1 _ _ _ _)
    | asc i c t => exact absurd rfl (h2 _ _ _)
    | any i =>
      cases v1
      simp only [Expr.id] at hu hcard ⊢
      exact ⟨by simp [sized], by simp [coherent], by simp [arity, hu, hcard, DType.parts]⟩
    | cls i l =>
      cases v1
      simp only [Expr.id] at hu hcard ⊢
      exact ⟨by simp [sized], by simp [coherent], by simp [arity, hu, hcard, DType.parts]⟩
    | ext i f =>
      cases v1
      simp only [Expr.id] at hu hcard ⊢
      exact ⟨by simp [sized], by simp [coherent, hcard, DType.parts], by simp [arity, hu]⟩
    | nt i r =>
      cases v1 with
      | @nt _ _ b _ hb v1 =>
        simp only [Expr.id] at hu hcard ⊢
        obtain ⟨⟨w, w1, w2, w3⟩, _⟩ := h.rules nn r b hb b .root
        have := v1.det w1
        subst this
        have := card_unf hT (hle (.body hb)) w3
        exact ⟨by simp [sized], by simp [coherent, hcard, hR r b hb, this], by simp [arity, hu]⟩
    | star i c =>
      obtain ⟨⟨k1, k2, k3⟩, _⟩ := hkid c (by simp [Expr.zkids])
      simp only [Expr.id] at hu hcard ⊢
      have hone : v.parts.length = 1 := by cases v1 with | star => rfl | starHidden => exact absurd (.inl rfl) hv
      exact ⟨by simp [sized, hu, k1, k3], by simp [coherent, hu, k2], by simp [arity, hu, hcard, hone]⟩
    | plus i c =>
      obtain ⟨⟨k1, k2, k3⟩, _⟩ := hkid c (by simp [Expr.zkids])
      simp only [Expr.id] at hu hcard ⊢
      have hone : v.parts.length = 1 := by cases v1 with | plus => rfl | plusHidden => exact absurd (.inl rfl) hv
      exact ⟨by simp [sized, hu, k1, k3], by simp [coherent, hu, k2], by simp [arity, hu, hcard, hone]⟩
    | opt i c =>
      obtain ⟨⟨k1, k2, k3⟩, _⟩ := hkid c (by simp [Expr.zkids])
      simp only [Expr.id] at hu hcard ⊢
      have hone : v.parts.length = 1 := by cases v1 with | opt => rfl | optHidden => exact absurd (.inl rfl) hv
      exact ⟨by simp [sized, hu, k1, k3], by simp [coherent, hu, k2], by simp [arity, hu, hcard, hone]⟩
    | span i c =>
      obtain ⟨⟨k1, k2, k3⟩, k4⟩ := hkid c (by simp [Expr.zkids])
      simp only [Expr.id] at hu hcard ⊢
      refine ⟨by simp [sized, hu, k1, k3], by simp [coherent, hu, k2, k3], ?_⟩
      cases v1 with
      | @span _ _ t v1 =>
        obtain ⟨k5, k6⟩ := k4 t v1
        rw [hcard, pack_parts (List.forall_mem_cons.2 ⟨by simp [DType.part], k5.parts⟩)]
        simp [arity, hu, k6]
    | range i c =>
      obtain ⟨⟨k1, k2, k3⟩, _⟩ := hkid c (by simp [Expr.zkids])
      simp only [Expr.id] at hu hcard ⊢
      refine ⟨by simp [sized, hu, k1, k3], by simp [coherent, hu, k2, k3], ?_⟩
      obtain ⟨j, d, rfl⟩ := hran i c ho
      have hoc := ho.kid (c := .asc j d (.regular .unit)) (by simp [Expr.kids])
      have hz : T j = .unit := by
        have := h.node _ hoc
        simp only [NodeOk, Expr.id, or_self] at this
        rcases this with h0 | h0
        · exact absurd h0 (h.typed j (hle hoc))
        · exact final_regular hT (hle hoc) h0
      cases v1
      simp [arity, hu, hcard, k3, Expr.id, hz, arity_false, DType.parts]
    | seq i es =>
      simp only [Expr.id] at hu hcard ⊢
      refine ⟨?_, ?_, ?_⟩
      · simp only [sized, hu, ne_eq, not_false_eq_true, decide_true, Bool.and_self]
        exact sizedAll_iff.2 fun c hc => (hkid c hc).1.1
      · simp only [coherent, hu, ne_eq, not_false_eq_true, decide_true, Bool.and_self]
        exact coherentAll_iff.2 fun c hc => (hkid c hc).1.2.1
      · cases v1 with
        | seqHidden => exact absurd (.inl rfl) hv
        | seq v1 =>
          obtain ⟨q1, q2⟩ := aritySeq_types v1 fun c hc => (hkid c hc).2
          rw [hcard, pack_parts q2, ← q1]
          simp [arity, hu]
    | choice i es =>
      simp only [Expr.id] at hu hcard ⊢
      cases v1 with
      | @choice _ _ ts _ v1 vc =>
        have hp := choice_parts vc (fun h0 => hv (.inl h0)) (fun h0 => hv (.inr h0)) fun hex us hus => by
          obtain ⟨d, hd, hd'⟩ := hasTypes_mem' v1 hex
          obtain ⟨d2, hd2, hd2'⟩ := hasTypes_mem' v1 hus
          exact hmix i es ho ⟨d, hd, hd'⟩ d2 hd2 us hd2'
        have har : ∀ c ∈ es, arity T true c = v.parts.length := fun c hc => by
          obtain ⟨t, ht, ht'⟩ := hasTypes_mem v1 hc
          rw [((hkid c hc).2 t ht').2, hp t ht]
        have hhead : arityHead T true es = v.parts.length := by
          cases es with
          | nil => have := H.occurs_filled ho; simp [Expr.filled] at this
          | cons c es => exact har c (by simp)
        refine ⟨?_, ?_, ?_⟩
        · simp only [sized, hu, ne_eq, not_false_eq_true, decide_true, Bool.and_self, Bool.and_eq_true]
          exact ⟨sizedAll_iff.2 fun c hc => (hkid c hc).1.1, sameArity_iff.2 fun c hc => by rw [har c hc, hhead]⟩
        · simp only [coherent, hu, ne_eq, not_false_eq_true, decide_true, Bool.and_self, Bool.and_eq_true]
          exact ⟨coherentAll_iff.2 fun c hc => (hkid c hc).1.2.1, sameArity_iff.2 fun c hc => by rw [har c hc, hhead]⟩
        · simp [arity, hu, hhead, hcard]
  | @act a i c b f h1 h2 h3 ih =>
    by_cases hu : T i = .unit
    · exact hunit (e := .act i c b f) hu
    obtain ⟨k1, k2, k3⟩ := ih (ho.kid (by simp [Expr.kids])) fun _ => h1
    have hone : (T i).card = 1 := by
      cases a with
      | true => obtain ⟨s, hs⟩ := h3 rfl; rw [final_regular (i := i) hT (hle ho) hs]; rfl
      | false =>
        obtain ⟨⟨v, v1, v2, v3⟩, _⟩ := hdoc rfl _ .root
        rw [card_unf (i := i) hT (hle ho) v3]
        have hv : ¬ (v = .hidden ∨ v = .unit) := fun h0 => hu ((unit_iff h hT (hle ho)).2 ((unf_unit v3).2 h0))
        cases v1
        unfold actionType at hv ⊢
        split
        · split
          · split
            · rename_i h0; exact absurd (.inr (by simp [*])) hv
            · rfl
          · rfl
        · rfl
    exact ⟨by simp [sized, hu, k1, k3], by simp [coherent, hu, k2], by simp [arity, hu, Expr.id, hone]⟩
  | @asc a i c ty s h1 h2 _ h4 ih =>
    have hTi : T i = .rust s := final_regular hT (hle ho) h1
    have hoc := ho.kid (c := c) (by simp [Expr.kids])
    obtain ⟨k1, k2, k3⟩ := ih hoc (by simp)
    obtain ⟨x, hx⟩ := h4.rust rfl
    have : T c.id = .rust x := final_regular hT (hle hoc) hx
    exact ⟨by simp [sized, hTi, k1], by simp [coherent, hTi, k2], by
      show arity T (true && decide (T i ≠ .unit)) c = (T i).card
      rw [hTi]; simp only [ne_eq, reduceCtorEq, not_false_eq_true, decide_true, Bool.and_self]; rw [k3, this]; rfl⟩
  | @nt i r b s h1 h2 h3 =>
    have hTi : T i = .rust s := final_regular hT (hle ho) h1
    have hb : (T b.id).card = 1 := by
      rcases h3 with h3 | ⟨x, h3⟩
      · exact card_unf hT (hle (.body h2)) (v := .external) h3
      · exact card_unf hT (hle (.body h2)) (v := .rust x) h3
    exact ⟨by simp [sized], by simp only [coherent, hTi, hR r b h2, hb]; simp [Ty.card], by simp [arity, hTi, Expr.id]⟩
  | @ext i f s h1 =>
    have hTi : T i = .rust s := final_regular hT (hle ho) h1
    exact ⟨by simp [sized], by simp [coherent, hTi, Ty.card], by simp [arity, hTi, Expr.id]⟩
  | @seq i es s pre c post h1 h2 h3 h4 _ _ ih =>
    have hTi : T i = .rust s := final_regular hT (hle ho) h1
    have hoc : ∀ d ∈ es, Occurs A.grammar d := fun d hd => ho.kid (by simpa [Expr.kids] using hd)
    have hcm : c ∈ es := by simp [h2]
    obtain ⟨k1, k2, k3⟩ := ih (hoc c hcm) (by simp)
    obtain ⟨x, hx⟩ := h3.rust rfl
    have hc1 : arity T true c = 1 := by rw [k3, final_regular hT (hle (hoc c hcm)) hx]; rfl
    have hun : ∀ d ∈ pre ++ post, sized T true d = true ∧ coherent T R true d = true ∧ arity T true d = 0 := fun d hd =>
      unit_sized R ((unit_iff h hT (hle (hoc d (by rw [h2]; simp at hd ⊢; grind)))).2 (h4 d hd))
    have hsum : aritySeq T true es = 1 := by
      have h0 : ∀ l : List Expr, (∀ d ∈ l, arity T true d = 0) → aritySeq T true l = 0 := by
        intro l hl
        induction l with
        | nil => rfl
        | cons d l ih => rw [List.forall_mem_cons] at hl; simp [aritySeq, hl.1, ih hl.2]
      have happ : ∀ l l' : List Expr, aritySeq T true (l ++ l') = aritySeq T true l + aritySeq T true l' := by
        intro l l'
        induction l with
        | nil => simp [aritySeq]
        | cons d l ih => simp [aritySeq, ih, Nat.add_assoc]
      rw [h2, happ, aritySeq, h0 pre fun d hd => (hun d (by simp [hd])).2.2, h0 post fun d hd => (hun d (by simp [hd])).2.2, hc1]
    have hall : ∀ d ∈ es, sized T true d = true ∧ coherent T R true d = true := fun d hd => by
      rw [h2] at hd
      simp only [List.mem_append, List.mem_cons] at hd
      rcases hd with hd | rfl | hd
      · exact ⟨(hun d (by simp [hd])).1, (hun d (by simp [hd])).2.1⟩
      · exact ⟨k1, k2⟩
      · exact ⟨(hun d (by simp [hd])).1, (hun d (by simp [hd])).2.1⟩
    refine ⟨?_, ?_, by simp [arity, hTi, hsum, Expr.id, Ty.card]⟩
    · simp only [sized, hTi, ne_eq, reduceCtorEq, not_false_eq_true, decide_true, Bool.and_self]
      exact sizedAll_iff.2 fun d hd => (hall d hd).1
    · simp only [coherent, hTi, ne_eq, reduceCtorEq, not_false_eq_true, decide_true, Bool.and_self]
      exact coherentAll_iff.2 fun d hd => (hall d hd).2
  | @choice i es s h1 h2 ih =>
    have hTi : T i = .rust s := final_regular hT (hle ho) h1
    have hoc : ∀ d ∈ es, Occurs A.grammar d := fun d hd => ho.kid (by simpa [Expr.kids] using hd)
    have har : ∀ c ∈ es, arity T true c = 1 := fun c hc => by
      obtain ⟨x, hx⟩ := (h2 c hc).rust rfl
      rw [(ih c hc (hoc c hc) (by simp)).2.2, final_regular hT (hle (hoc c hc)) hx]; rfl
    have hhead : arityHead T true es = 1 := by
      cases es with
      | nil => have := H.occurs_filled ho; simp [Expr.filled] at this
      | cons c es => exact har c (by simp)
    refine ⟨?_, ?_, by simp [arity, hTi, hhead, Expr.id, Ty.card]⟩
    · simp only [sized, hTi, ne_eq, reduceCtorEq, not_false_eq_true, decide_true, Bool.and_self, Bool.and_eq_true]
      exact ⟨sizedAll_iff.2 fun d hd => (ih d hd (hoc d hd) (by simp)).1, sameArity_iff.2 fun c hc => by rw [har c hc, hhead]⟩
    · simp only [coherent, hTi, ne_eq, reduceCtorEq, not_false_eq_true, decide_true, Bool.and_self, Bool.and_eq_true]
      exact ⟨coherentAll_iff.2 fun d hd => (ih d hd (hoc d hd) (by simp)).2.1, sameArity_iff.2 fun c hc => by rw [har c hc, hhead]⟩
  | @range i c s h1 h2 ih =>
    obtain ⟨j, d, rfl⟩ := hran i c ho
    cases h2 with
    | asc _ h0 => cases h0

/-- The types of an accepted grammar tell how many values expressions give. -/
theorem accepted_sized (H : A.Ready k) {m : Nat} (h : Accepted A k m N T) (nn : N) (hmix : A.Unmixed) (hran : A.PlainRanges) :
    A.grammar.sized T = true ∧ A.grammar.coherent T = true := by
  obtain ⟨U, h1, h2, _⟩ := h
  have hR : ∀ r b, A.grammar.find r = some b → (fun n => match A.grammar.find n with | some b => (T b.id).card | none => 0) r = (T b.id).card := by
    intro r b hb; simp [hb]
  have hall : ∀ x ∈ A.grammar.rules, _ := fun (x : String × Expr) hx =>
    done_sized H h1 h2 nn hmix hran hR (h1.done nn x.1 x.2 (body_of_mem H.names hx)) (.body (body_of_mem H.names hx))
      fun _ => h1.rules nn x.1 x.2 (body_of_mem H.names hx)
  refine ⟨List.all_eq_true.2 fun x hx => ?_, List.all_eq_true.2 fun x hx => (hall x hx).2.1⟩
  simp [(hall x hx).1, (hall x hx).2.2]

end

end Typing
end Oak
