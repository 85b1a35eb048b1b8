import Verif.Proofs.ActionCall
import Verif.Proofs.RustFn
import Verif.Proofs.TypingSized
/-! The expressions of an accepted grammar give values of their documented types. -/
set_option autoImplicit false
set_option linter.constructorNameAsVariable false

namespace Oak
namespace Typing

mutual
/-- The Rust type is one of those of the documented type, whose unknown parts are any. -/
def Fits : DType → RTy → Prop
  | .hidden, u => u = .unit
  | .unit, u => u = .unit
  | .char, u => u = .char
  | .external, _ => True
  | .list t, u => ∃ w, u = .vec w ∧ Fits t w
  | .option t, u => ∃ w, u = .option w ∧ Fits t w
  | .tuple ts, u => ∃ us, u = .tuple us ∧ FitsAll ts us
  | .rust s, u => u = .rust s
/-- The same for lists. -/
def FitsAll : List DType → List RTy → Prop
  | [], us => us = []
  | t :: ts, us => ∃ u us', us = u :: us' ∧ Fits t u ∧ FitsAll ts us'
end

theorem FitsAll.length {ts : List DType} {us : List RTy} (h : FitsAll ts us) : us.length = ts.length := by
  induction ts generalizing us with
  | nil => rw [FitsAll] at h; subst h; rfl
  | cons t ts ih => rw [FitsAll] at h; obtain ⟨u, us', rfl, _, h⟩ := h; simp [ih h]

theorem FitsAll.append {ts ts' : List DType} {us : List RTy} (h : FitsAll (ts ++ ts') us) : ∃ vs vs', us = vs ++ vs' ∧ FitsAll ts vs ∧ FitsAll ts' vs' := by
  induction ts generalizing us with
  | nil => exact ⟨[], us, rfl, by rw [FitsAll], h⟩
  | cons t ts ih =>
    rw [List.cons_append, FitsAll] at h
    obtain ⟨u, us', rfl, h1, h⟩ := h
    obtain ⟨vs, vs', rfl, h2, h3⟩ := ih h
    exact ⟨u :: vs, vs', rfl, by rw [FitsAll]; exact ⟨u, vs, rfl, h1, h2⟩, h3⟩

theorem FitsAll.one {t : DType} {us : List RTy} (h : FitsAll [t] us) : ∃ u, us = [u] ∧ Fits t u := by
  rw [FitsAll] at h
  obtain ⟨u, us', rfl, h1, h2⟩ := h
  rw [FitsAll] at h2
  exact ⟨u, by rw [h2], h1⟩

/-- The parts of a type. -/
theorem Fits.parts {t : DType} {u : RTy} (ht : t.Flat) (h : Fits t u) : ∃ us, FitsAll t.parts us ∧ u = .pack us := by
  have one : ∀ {t}, Fits t u → ∃ us, FitsAll [t] us ∧ u = .pack us := fun h => ⟨[u], by rw [FitsAll]; exact ⟨u, [], rfl, h, by rw [FitsAll]⟩, rfl⟩
  cases t with
  | hidden => exact ⟨[], by rw [DType.parts, FitsAll], by rw [Fits] at h; exact h⟩
  | unit => exact ⟨[], by rw [DType.parts, FitsAll], by rw [Fits] at h; exact h⟩
  | tuple ts =>
    rw [Fits] at h
    obtain ⟨us, rfl, h⟩ := h
    refine ⟨us, h, ?_⟩
    have hl := h.length
    have := ht.1
    match us, hl with
    | [], hl => simp at hl; omega
    | [_], hl => simp at hl; omega
    | _ :: _ :: _, _ => rfl
  | _ => exact one h

/-- The Rust type of a documented type. -/
theorem fits_toRust : ∀ t : DType, Fits t t.toRust := by
  refine DType.ind ?_ ?_ ?_ ?_ ?_ ?_ ?_ ?_
  · rw [Fits, DType.toRust]
  · rw [Fits, DType.toRust]
  · rw [Fits, DType.toRust]
  · rw [Fits]; trivial
  · intro t ih; rw [Fits, DType.toRust]; exact ⟨_, rfl, ih⟩
  · intro t ih; rw [Fits, DType.toRust]; exact ⟨_, rfl, ih⟩
  · intro ts ih
    rw [Fits, DType.toRust]
    refine ⟨_, rfl, ?_⟩
    induction ts with
    | nil => rw [FitsAll, toRustAll]
    | cons t ts ih' => rw [FitsAll, toRustAll]; exact ⟨_, _, rfl, ih t (by simp), ih' fun t ht => ih t (by simp [ht])⟩
  · intro s; rw [Fits, DType.toRust]

/-- It is the only one when all is known. -/
theorem fits_known : ∀ (t : DType) (u : RTy), Fits t u → t.known = true → u = t.toRust := by
  refine DType.ind ?_ ?_ ?_ ?_ ?_ ?_ ?_ ?_
  · intro u h _; rw [Fits] at h; exact h
  · intro u h _; rw [Fits] at h; exact h
  · intro u h _; rw [Fits] at h; exact h
  · intro u _ h; cases h
  · intro t ih u h hk; rw [Fits] at h; obtain ⟨w, rfl, h⟩ := h; rw [ih w h hk]; rfl
  · intro t ih u h hk; rw [Fits] at h; obtain ⟨w, rfl, h⟩ := h; rw [ih w h hk]; rfl
  · intro ts ih u h hk
    rw [Fits] at h
    obtain ⟨us, rfl, h⟩ := h
    rw [DType.known] at hk
    rw [DType.toRust]
    congr 1
    induction ts generalizing us with
    | nil => rw [FitsAll] at h; rw [h, toRustAll]
    | cons t ts ih' =>
      rw [FitsAll] at h
      obtain ⟨u, us', rfl, h1, h2⟩ := h
      rw [knownAll, Bool.and_eq_true] at hk
      rw [toRustAll, ih t (by simp) u h1 hk.1, ih' (fun t ht => ih t (by simp [ht])) hk.2 us' h2]
  · intro s u h _; rw [Fits] at h; exact h

theorem fits_unpack {t : DType} {us : List RTy} (ht : t.Flat) (h : FitsAll t.parts us) : Fits t (.pack us) := by
  cases t with
  | hidden => rw [DType.parts, FitsAll] at h; subst h; rw [Fits]; rfl
  | unit => rw [DType.parts, FitsAll] at h; subst h; rw [Fits]; rfl
  | tuple ts =>
    rw [Fits]
    have hl := h.length
    have := ht.1
    rw [DType.parts] at h hl
    match us, hl with
    | [], hl => simp at hl; omega
    | [_], hl => simp at hl; omega
    | a :: b :: l, _ => exact ⟨_, rfl, h⟩
  | _ => exact (by obtain ⟨u, rfl, h'⟩ := FitsAll.one h; exact h')

theorem pack_parts_eq {ts : List DType} (h : ∀ t ∈ ts, t.part) : (DType.pack ts).parts = ts := by
  match ts, h with
  | [], _ => rfl
  | [t], h => rw [DType.pack, DType.parts_self (h t (by simp))]
  | _ :: _ :: _, _ => rfl

theorem resolvedAll_mem {G : Grammar} {es : List Expr} (h : resolvedAll G es = true) : ∀ e ∈ es, e.resolved G = true := by
  induction es with
  | nil => simp
  | cons e es ih => rw [resolvedAll, Bool.and_eq_true] at h; simpa [h.1] using ih h.2

theorem resolved_occurs {G : Grammar} {x e : Expr} (h : e.resolved G = true) (hs : Sub x e) : x.resolved G = true := by
  induction e using Expr.kidsInd with
  | h e ih =>
    rcases sub_kids.1 hs with rfl | ⟨d, hd, hs⟩
    · exact h
    · refine ih d hd ?_ hs
      cases e <;> simp only [Expr.kids, List.mem_singleton, List.not_mem_nil] at hd <;> rw [Expr.resolved] at h
      case seq => exact resolvedAll_mem h d hd
      case choice => exact resolvedAll_mem h d hd
      all_goals subst hd; exact h

section
variable {A : AGrammar} {k : Nat} {N : Prop} {U : Nat → IType} {T : Nat → Ty}

theorem unit_gives {sg : Sigs} {e : Expr} (h : T e.id = .unit) : Gives sg T true e [] := by
  have hf := gives_false (sg := sg) (T := T) e
  cases e <;> simp only [Expr.id] at h <;> simp [Gives, h] at hf ⊢ <;> exact hf

/-- The value of a semantic action of known type. -/
theorem act_rust {b : Bool} {f : Path} {u : Bool} {s : String} (h : actionType A b f = .rust s) (hv : Spec.isVariant f = true → u = true → False) :
    ActTyped (A.sigs T) b f u (.rust s) := by
  intro Γ vs ts hΓ
  unfold actionType at h
  split at h
  · rename_i name
    split at h
    · rename_i n fn hf
      split at h
      · cases h
      · rename_i t ht
        have hc : (Spec.isVariant [name] && u) = false := by
          cases h1 : Spec.isVariant [name] <;> cases h2 : u <;> simp_all
        have hcall : ValOk (A.sigs T) Γ (.call [name] vs) (.rust t) := by
          refine .call hΓ ?_
          simp only [AGrammar.sigs, hf, ht, Option.map_some]
        cases h
        rw [actionCall_eq]
        rw [hc]
        cases b
        · exact hcall
        · exact .box hcall
    · cases h
  · cases h

/-- The value of a semantic action of unknown type. -/
theorem act_unknown {f : Path} {u : Bool} {t : RTy} (h : actionType A false f = .external) : ActTyped (A.sigs T) false f u t := by
  intro Γ vs ts hΓ
  have hn : (A.sigs T).function f = none := by
    unfold actionType at h
    simp only [AGrammar.sigs]
    split at h
    · rename_i name
      split at h
      · split at h <;> cases h
      · rename_i hf; simp [hf]
    · split
      · rename_i h0; exact absurd rfl (h0 _)
      · rfl
  rw [actionCall_eq, if_neg (by decide)]
  split
  · exact .path hn
  · exact .callUnknown hΓ hn

/-- The expressions of an accepted grammar give values of their documented types. -/
theorem done_gives (H : A.Ready k) (h : Final A k N U) (hT : ∀ i, i ≤ k → reduceFinal (U i) = .ok (T i)) (nn : N) (hmix : A.Unmixed) (hran : A.PlainRanges)
    (hag : A.Agrees) (hkn : ∀ r b, A.grammar.find r = some b → ∀ v, HasType A b v → v.known = true) {a : Bool} {e : Expr} (hd : Done A k U a e)
    (ho : Occurs A.grammar e) (hdoc : a = false → RuleDoc A k U e) :
    (a = false → ∀ v, HasType A e v → ∀ us, FitsAll v.parts us → Gives (A.sigs T) T true e us) ∧
    (a = true → ∀ s, (∀ s', WrittenType A e s' → s' = s) → Gives (A.sigs T) T true e [.rust s]) := by
  have hle : ∀ {e}, Occurs A.grammar e → e.id ≤ k := fun ho => Nat.le_of_lt (H.lt ho _ (id_mem_indices _))
  -- the type of the parser of a rule
  have hrule : ∀ {r b v us}, A.grammar.find r = some b → HasType A b v → FitsAll v.parts us → (A.sigs T).parser [r] (.pack us) := by
    intro r b v us hb hv hf r' b' hr' hb'
    cases hr'
    rw [hb] at hb'; cases hb'
    obtain ⟨⟨w, w1, w2, w3⟩, _⟩ := h.rules nn r b hb b .root
    have := hv.det w1
    subst this
    obtain ⟨t, ht⟩ := h.finite hT (hle (.body hb))
    have h1 := ht (k + 2) (Nat.le_refl _)
    refine ⟨k + 2, ?_⟩
    rw [h1, compile_unf h hT v b.id _ t (hle (.body hb)) w3 h1, fits_known v _ (fits_unpack w2 hf) (hkn r b hb v hv)]
  -- the type of an external parser
  have hext : ∀ {i f t}, Occurs A.grammar (.ext i f) → (A.sigs T).parser f t := by
    intro i f t ho r b hf hb
    subst hf
    obtain ⟨r', b', hb', hs⟩ := ho
    have := resolved_occurs (H.calls _ (H.body_mem hb')) hs
    simp [Expr.resolved, hb] at this
  -- semantic actions
  have hact : ∀ {i c b f u v}, Occurs A.grammar (.act i c b f) → HasType A c v → (T c.id = .unit → v = .unit ∨ v = .hidden) →
      (actionType A b f = .external ∨ ∃ s, actionType A b f = .rust s ∧ u = .rust s) → ActTyped (A.sigs T) b f (decide (T c.id = .unit)) u := by
    intro i c b f u v ho hv hu h0
    rcases h0 with h0 | ⟨s, h0, rfl⟩
    · cases b with
      | true => exact absurd h0 (hag.boxed _ _ _ ho)
      | false => exact act_unknown h0
    · refine act_rust h0 fun h1 h2 => ?_
      have := hag.variants _ _ _ _ ho h1 (by rcases hu (by simpa using h2) with rfl | rfl <;> simp [hv])
      rw [h0] at this; cases this
  induction hd with
  | @unit e h0 =>
    refine ⟨fun _ v hv us hus => ?_, by simp⟩
    obtain ⟨⟨w, w1, _, w3⟩, _⟩ := hdoc rfl _ .root
    have := hv.det w1
    subst this
    have hus : us = [] := by
      rcases (unf_unit w3).1 h0 with rfl | rfl <;> simpa [DType.parts, FitsAll] using hus
    subst hus
    exact unit_gives ((unit_iff h hT (hle ho)).2 h0)
  | @node e h1 h2 _ ih =>
    refine ⟨fun _ v v1 us hus => ?_, by simp⟩
    have hdoc := hdoc rfl
    obtain ⟨⟨w, w1, v2, v3⟩, _⟩ := hdoc e .root
    have := v1.det w1
    subst this
    by_cases hu : T e.id = .unit
    · have h0 := (unit_iff h hT (hle ho)).1 hu
      have hus : us = [] := by
        rcases (unf_unit v3).1 h0 with rfl | rfl <;> simpa [DType.parts, FitsAll] using hus
      subst hus
      exact unit_gives hu
    have hnu : (U e.id).isUnitKind = false := by
      cases hc : (U e.id).isUnitKind with
      | false => rfl
      | true => exact absurd ((unit_iff h hT (hle ho)).2 hc) hu
    have hv : ¬ (v = .hidden ∨ v = .unit) := fun h0 => by rw [(unf_unit v3).2 h0] at hnu; cases hnu
    have hcard := card_unf hT (hle ho) v3
    have hkid : ∀ c ∈ e.zkids, ∀ t, HasType A c t → t.Flat ∧ t.parts.length = (T c.id).card ∧ ∀ us, FitsAll t.parts us → Gives (A.sigs T) T true c us := by
      intro c hc t ht
      have hoc := ho.kid (zkids_sub hc)
      have hdc : RuleDoc A k U c := fun x hx => hdoc x (live_kids.2 (.inr ⟨hnu, c, hc, hx⟩))
      obtain ⟨⟨w, w1, w2, w3⟩, _⟩ := hdc c .root
      have := ht.det w1
      subst this
      exact ⟨w2, (card_unf hT (hle hoc) w3).symm, (ih c hc hoc fun _ => hdc).1 rfl t ht⟩
    -- repetitions and options
    have hrep : ∀ {c t w}, c ∈ e.zkids → HasType A c t → Fits t w → ∃ us, Gives (A.sigs T) T true c us ∧ us.length = (T c.id).card ∧ w = .pack us := by
      intro c t w hc ht hw
      obtain ⟨k1, k2, k3⟩ := hkid c hc t ht
      obtain ⟨us, l1, l2⟩ := Fits.parts k1 hw
      exact ⟨us, k3 us l1, by rw [l1.length, k2], l2⟩
    cases e with
    | str i l => cases v1; exact absurd (.inl rfl) hv
    | not i c => cases v1; exact absurd (.inl rfl) hv
    | and i c => cases v1; exact absurd (.inl rfl) hv
    | act i c b f => exact absurd rfl (h1 _ _ _ _)
    | asc i c t => exact absurd rfl (h2 _ _ _)
    | any i =>
      cases v1
      obtain ⟨u, rfl, hu'⟩ := FitsAll.one hus
      rw [Fits] at hu'; subst hu'
      simp only [Expr.id] at hu
      simp [Gives, hu]
    | cls i l =>
      cases v1
      obtain ⟨u, rfl, hu'⟩ := FitsAll.one hus
      rw [Fits] at hu'; subst hu'
      simp only [Expr.id] at hu
      simp [Gives, hu]
    | ext i f =>
      simp only [Expr.id] at hu hcard
      have := hus.length
      simp only [Gives, hu, ne_eq, not_false_eq_true, decide_true, Bool.and_self, if_true]
      exact ⟨hext ho, by rw [this, hcard]⟩
    | nt i r =>
      simp only [Expr.id] at hu hcard
      have hl := hus.length
      simp only [Gives, hu, ne_eq, not_false_eq_true, decide_true, Bool.and_self, if_true]
      cases v1 with
      | nt hb v1 => exact ⟨hrule hb v1 hus, by rw [hl, hcard]⟩
    | star i c =>
      simp only [Expr.id] at hu
      simp only [Gives, hu, ne_eq, not_false_eq_true, decide_true, Bool.and_self, if_true]
      cases v1 with
      | starHidden => exact absurd (.inl rfl) hv
      | star v1 =>
        obtain ⟨u, rfl, hu'⟩ := FitsAll.one hus
        rw [Fits] at hu'
        obtain ⟨w, rfl, hw⟩ := hu'
        obtain ⟨us, k1, k2, rfl⟩ := hrep (by simp [Expr.zkids]) v1 hw
        exact ⟨us, k1, k2, rfl⟩
    | plus i c =>
      simp only [Expr.id] at hu
      simp only [Gives, hu, ne_eq, not_false_eq_true, decide_true, Bool.and_self, if_true]
      cases v1 with
      | plusHidden => exact absurd (.inl rfl) hv
      | plus v1 =>
        obtain ⟨u, rfl, hu'⟩ := FitsAll.one hus
        rw [Fits] at hu'
        obtain ⟨w, rfl, hw⟩ := hu'
        obtain ⟨us, k1, k2, rfl⟩ := hrep (by simp [Expr.zkids]) v1 hw
        exact ⟨us, k1, k2, rfl⟩
    | opt i c =>
      simp only [Expr.id] at hu
      simp only [Gives, hu, ne_eq, not_false_eq_true, decide_true, Bool.and_self, if_true]
      cases v1 with
      | optHidden => exact absurd (.inl rfl) hv
      | opt v1 =>
        obtain ⟨u, rfl, hu'⟩ := FitsAll.one hus
        rw [Fits] at hu'
        obtain ⟨w, rfl, hw⟩ := hu'
        obtain ⟨us, k1, k2, rfl⟩ := hrep (by simp [Expr.zkids]) v1 hw
        exact ⟨us, k1, k2, rfl⟩
    | span i c =>
      simp only [Expr.id] at hu
      simp only [Gives, hu, ne_eq, not_false_eq_true, decide_true, Bool.and_self, if_true]
      cases v1 with
      | @span _ _ t v1 =>
        obtain ⟨k1, k2, k3⟩ := hkid c (by simp [Expr.zkids]) t v1
        rw [pack_parts_eq (List.forall_mem_cons.2 ⟨by simp [DType.part], k1.parts⟩), FitsAll] at hus
        obtain ⟨u, us', rfl, hu', hus⟩ := hus
        rw [Fits] at hu'
        subst hu'
        exact ⟨us', k3 us' hus, by rw [hus.length, k2], rfl⟩
    | range i c =>
      simp only [Expr.id] at hu
      simp only [Gives, hu, ne_eq, not_false_eq_true, decide_true, Bool.and_self, if_true]
      cases v1 with
      | @range _ _ t v1 =>
        obtain ⟨u, rfl, hu'⟩ := FitsAll.one hus
        rw [Fits] at hu'
        subst hu'
        obtain ⟨j, d, rfl⟩ := hran i c ho
        have hoc := ho.kid (c := .asc j d (.regular .unit)) (by simp [Expr.kids])
        have hz : T j = .unit := by
          have := h.node _ hoc
          simp only [NodeOk, Expr.id, or_self] at this
          rcases this with h0 | h0
          · exact absurd h0 (h.typed j (hle hoc))
          · exact final_regular hT (hle hoc) h0
        exact ⟨[], unit_gives hz, by simp [Expr.id, hz, Ty.card], rfl⟩
    | seq i es =>
      simp only [Expr.id] at hu
      simp only [Gives, hu, ne_eq, not_false_eq_true, decide_true, Bool.and_self]
      cases v1 with
      | seqHidden => exact absurd (.inl rfl) hv
      | @seq _ _ ts v1 =>
        have hpart : ∀ t ∈ ts.flatMap DType.parts, t.part := by
          intro t ht
          obtain ⟨w, hw, ht⟩ := List.mem_flatMap.1 ht
          obtain ⟨c, hc, hc'⟩ := hasTypes_mem' v1 hw
          exact (hkid c hc w hc').1.parts t ht
        rw [pack_parts_eq hpart] at hus
        have key : ∀ (ds : List Expr) (ts : List DType) (us : List RTy), (∀ d ∈ ds, d ∈ es) → HasTypes A ds ts → FitsAll (ts.flatMap DType.parts) us →
            GivesSeq (A.sigs T) T true ds us := by
          intro ds
          induction ds with
          | nil =>
            intro ts us _ hts hus
            cases hts
            simpa [FitsAll, GivesSeq] using hus
          | cons d ds ihd =>
            intro ts us hsub hts hus
            cases hts with
            | cons hd hts =>
              rw [List.flatMap_cons] at hus
              obtain ⟨vs, vs', rfl, l1, l2⟩ := hus.append
              rw [GivesSeq]
              exact ⟨vs, vs', (hkid d (hsub d (by simp)) _ hd).2.2 vs l1, ihd _ _ (fun x hx => hsub x (by simp [hx])) hts l2, rfl⟩
        exact key es ts us (fun _ h => h) v1 hus
    | choice i es =>
      simp only [Expr.id] at hu
      simp only [Gives, hu, ne_eq, not_false_eq_true, decide_true, Bool.and_self]
      refine ⟨fun h0 => ?_, givesAll_iff.2 fun c hc => ?_⟩
      · have := H.occurs_filled ho; simp [Expr.filled, h0] at this
      · cases v1 with
        | @choice _ _ ts _ v1 vc =>
          obtain ⟨t, ht, ht'⟩ := hasTypes_mem v1 hc
          refine (hkid c hc t ht').2.2 us ?_
          have hsame : v ∈ ts → Same t v → t = v := fun hvt hs => by
            obtain ⟨d, hd, hd'⟩ := hasTypes_mem' v1 hvt
            exact hag.branches i es ho c hc d hd t v ht' hd' hs
          -- the branch has the type of the choice, or is unknown
          have hcase : t = v ∨ (t = .external ∧ v.parts.length = 1) := by
            have hp := choice_parts vc (fun h0 => hv (.inl h0)) (fun h0 => hv (.inr h0)) fun hex us hus => by
              obtain ⟨d, hd, hd'⟩ := hasTypes_mem' v1 hex
              obtain ⟨d2, hd2, hd2'⟩ := hasTypes_mem' v1 hus
              exact hmix i es ho ⟨d, hd, hd'⟩ d2 hd2 us hd2'
            cases vc with
            | same hs =>
              simp only [List.mem_cons] at ht
              rcases ht with rfl | ht
              · exact .inl rfl
              · exact .inl (hsame (by simp) (hs t ht))
            | known hts hpre hne hpost hex =>
              rw [hts] at ht
              simp only [List.mem_append, List.mem_cons] at ht
              rcases ht with ht | rfl | ht
              · have := hpre t ht; subst this
                exact .inr ⟨rfl, (hp .external (by rw [hts]; simp [ht])).symm⟩
              · exact .inl rfl
              · rcases hpost t ht with rfl | hs
                · exact .inr ⟨rfl, (hp .external (by rw [hts]; simp [ht])).symm⟩
                · exact .inl (hsame (by simp [hts]) hs)
            | units => exact absurd (.inl rfl) hv
          rcases hcase with rfl | ⟨rfl, hone⟩
          · exact hus
          · have hl := hus.length
            match us, hl.trans hone with
            | [u], _ => exact (show FitsAll [.external] [u] by rw [FitsAll]; exact ⟨u, [], rfl, by rw [Fits]; trivial, by rw [FitsAll]⟩)
  | @act a i c b f h1 h2 h3 ih =>
    obtain ⟨k1, _⟩ := ih (ho.kid (by simp [Expr.kids])) fun _ => h1
    obtain ⟨⟨w, w1, w2, w3⟩, _⟩ := h1 c .root
    have hoc := ho.kid (c := c) (by simp [Expr.kids])
    have hcu : T c.id = .unit → w = .unit ∨ w = .hidden := fun h0 => ((unf_unit w3).1 ((unit_iff h hT (hle hoc)).1 h0)).symm
    obtain ⟨us', l1, l2⟩ := Fits.parts w2 (fits_toRust w)
    have hgive : ∀ u, T i ≠ .unit → (actionType A b f = .external ∨ ∃ s, actionType A b f = .rust s ∧ u = .rust s) →
        Gives (A.sigs T) T true (.act i c b f) [u] := by
      intro u hu h0
      simp only [Gives, hu, ne_eq, not_false_eq_true, decide_true, Bool.and_self, if_true]
      exact ⟨us', u, k1 rfl w w1 us' l1, by rw [l1.length, card_unf hT (hle hoc) w3], rfl, hact ho w1 hcu h0⟩
    have hex : actionType A b f = .external ∨ ∃ s, actionType A b f = .rust s := by
      have := hag.valued _ _ _ _ ho
      unfold actionType at this ⊢
      split
      · split
        · split
          · simp_all
          · exact .inr ⟨_, rfl⟩
        · exact .inl rfl
      · exact .inl rfl
    refine ⟨fun ha v hv us hus => ?_, fun ha s hs => ?_⟩
    · obtain ⟨⟨x, x1, x2, x3⟩, _⟩ := hdoc ha _ .root
      have := hv.det x1
      subst this
      cases hv
      have hu : T i ≠ .unit := fun h0 => by
        have := (unf_unit x3).1 ((unit_iff h hT (hle ho)).1 h0)
        rcases hex with hex | ⟨s, hex⟩ <;> rw [hex] at this <;> simp at this
      rcases hex with hex | ⟨s, hex⟩
      · rw [hex] at hus
        obtain ⟨u, rfl, _⟩ := FitsAll.one hus
        exact hgive u hu (.inl hex)
      · rw [hex] at hus
        obtain ⟨u, rfl, hu'⟩ := FitsAll.one hus
        rw [Fits] at hu'
        exact hgive u hu (.inr ⟨s, hex, hu'⟩)
    · obtain ⟨x, hx⟩ := h3 ha
      have hu : T i ≠ .unit := by rw [final_regular (i := i) hT (hle ho) hx]; simp
      rcases hex with hex | ⟨s', hex⟩
      · exact hgive _ hu (.inl hex)
      · exact hgive _ hu (.inr ⟨s', hex, by rw [hs s' (.act hex)]⟩)
  | @asc a i c ty s h1 h2 _ h4 ih =>
    subst h2
    have hTi : T i = .rust s := final_regular hT (hle ho) h1
    have hoc := ho.kid (c := c) (by simp [Expr.kids])
    have key : Gives (A.sigs T) T true (.asc i c (.regular (.rust s))) [.rust s] := by
      simp only [Gives, hTi, ne_eq, reduceCtorEq, not_false_eq_true, decide_true, Bool.and_self]
      exact (ih hoc (by simp)).2 rfl s (hag.ascribed i c s ho)
    refine ⟨fun _ v hv us hus => ?_, fun _ s' hs => ?_⟩
    · cases hv with
      | asc ht =>
        cases ht
        obtain ⟨u, rfl, hu'⟩ := FitsAll.one hus
        rw [Fits] at hu'
        subst hu'
        exact key
    · rw [← hs s .asc]; exact key
  | @nt i r b s h1 h2 h3 =>
    have hTi : T i = .rust s := final_regular hT (hle ho) h1
    refine ⟨by simp, fun _ s' hs => ?_⟩
    simp only [Gives, hTi, ne_eq, reduceCtorEq, not_false_eq_true, decide_true, Bool.and_self, if_true]
    refine ⟨?_, rfl⟩
    obtain ⟨⟨w, w1, w2, w3⟩, _⟩ := h.rules nn r b h2 b .root
    have hw : ∃ x, w = .rust x := by
      rcases h3 with h3 | ⟨x, h3⟩
      · rw [h3] at w3
        cases w <;> unfold Unf at w3
        case external => have := hkn r b h2 _ w1; simp [DType.known] at this
        case list => obtain ⟨_, h0, _⟩ := w3; cases h0
        case option => obtain ⟨_, h0, _⟩ := w3; cases h0
        case tuple => obtain ⟨_, h0, _⟩ := w3; cases h0
        all_goals cases w3
      · rw [h3] at w3
        cases w <;> unfold Unf at w3
        case rust => exact ⟨_, rfl⟩
        case list => obtain ⟨_, h0, _⟩ := w3; cases h0
        case option => obtain ⟨_, h0, _⟩ := w3; cases h0
        case tuple => obtain ⟨_, h0, _⟩ := w3; cases h0
        all_goals cases w3
    obtain ⟨x, rfl⟩ := hw
    rw [← hs x (.nt h2 w1)]
    exact hrule (us := [.rust x]) h2 w1 (show FitsAll [.rust x] [.rust x] by rw [FitsAll]; exact ⟨_, [], rfl, by rw [Fits], by rw [FitsAll]⟩)
  | @ext i f s h1 =>
    have hTi : T i = .rust s := final_regular hT (hle ho) h1
    refine ⟨by simp, fun _ s' hs => ?_⟩
    simp only [Gives, hTi, ne_eq, reduceCtorEq, not_false_eq_true, decide_true, Bool.and_self, if_true]
    exact ⟨hext ho, rfl⟩
  | @seq i es s pre c post h1 h2 h3 h4 _ _ ih =>
    have hTi : T i = .rust s := final_regular hT (hle ho) h1
    have hoc : ∀ d ∈ es, Occurs A.grammar d := fun d hd => ho.kid (by simpa [Expr.kids] using hd)
    have hcm : c ∈ es := by simp [h2]
    refine ⟨by simp, fun _ s' hs => ?_⟩
    have hc := (ih (hoc c hcm) (by simp)).2 rfl s' fun x hx => hs x (.seq hcm hx)
    have hun : ∀ d ∈ pre ++ post, Gives (A.sigs T) T true d [] := fun d hd =>
      unit_gives ((unit_iff h hT (hle (hoc d (by rw [h2]; simp at hd ⊢; grind)))).2 (h4 d hd))
    simp only [Gives, hTi, ne_eq, reduceCtorEq, not_false_eq_true, decide_true, Bool.and_self]
    rw [h2]
    have hnil : ∀ l : List Expr, (∀ d ∈ l, Gives (A.sigs T) T true d []) → GivesSeq (A.sigs T) T true l [] := by
      intro l hl
      induction l with
      | nil => rw [GivesSeq]
      | cons d l ih => rw [List.forall_mem_cons] at hl; rw [GivesSeq]; exact ⟨[], [], hl.1, ih hl.2, rfl⟩
    have hpre : ∀ l : List Expr, (∀ d ∈ l, Gives (A.sigs T) T true d []) → GivesSeq (A.sigs T) T true (l ++ c :: post) [.rust s'] := by
      intro l hl
      induction l with
      | nil => rw [List.nil_append, GivesSeq]; exact ⟨_, [], hc, hnil post fun d hd => hun d (by simp [hd]), rfl⟩
      | cons d l ih => rw [List.forall_mem_cons] at hl; rw [List.cons_append, GivesSeq]; exact ⟨[], _, hl.1, ih hl.2, rfl⟩
    exact hpre pre fun d hd => hun d (by simp [hd])
  | @choice i es s h1 h2 ih =>
    have hTi : T i = .rust s := final_regular hT (hle ho) h1
    have hoc : ∀ d ∈ es, Occurs A.grammar d := fun d hd => ho.kid (by simpa [Expr.kids] using hd)
    refine ⟨by simp, fun _ s' hs => ?_⟩
    simp only [Gives, hTi, ne_eq, reduceCtorEq, not_false_eq_true, decide_true, Bool.and_self]
    refine ⟨fun h0 => ?_, givesAll_iff.2 fun c hc => ?_⟩
    · have := H.occurs_filled ho; simp [Expr.filled, h0] at this
    · exact (ih c hc (hoc c hc) (by simp)).2 rfl s' fun x hx => hs x (.choice hc hx)
  | @range i c s h1 h2 ih =>
    obtain ⟨j, d, rfl⟩ := hran i c ho
    cases h2 with
    | asc _ h0 => cases h0

/-- The functions generated for an accepted grammar are well typed. -/
theorem accepted_fnTyped (H : A.Ready k) {m : Nat} (h : Accepted A k m N T) (nn : N) (hmix : A.Unmixed) (hran : A.PlainRanges) (hag : A.Agrees)
    {fs : List (FnRef × Fn)} (hc : compileGrammar T A.grammar.rules = .ok fs) (hsc : A.grammar.scopable T = true) (hr : ∀ f ∈ fs, f.2.refOk = true) :
    ∀ f ∈ fs, ∃ ty : Name → VTy, if f.1.parser then ∃ t, (A.sigs T).parser f.1.path t ∧ FnTyped (A.sigs T) (fun x t => ty x = t) f.2 t
      else FnTyped (A.sigs T) (fun x t => ty x = t) f.2 .unit := by
  obtain ⟨U, h1, h2, h3⟩ := h
  have hle : ∀ {e}, Occurs A.grammar e → e.id ≤ k := fun ho => Nat.le_of_lt (H.lt ho _ (id_mem_indices _))
  have hkn : ∀ r b, A.grammar.find r = some b → ∀ v, HasType A b v → v.known = true := by
    intro r b hb v hv
    obtain ⟨⟨w, w1, _, w3⟩, _⟩ := h1.rules nn r b hb b .root
    have := hv.det w1
    subst this
    exact known_of_contains v _ m w3 (h3 r b hb)
  -- the type of a rule
  have htype : ∀ x ∈ A.grammar.rules, ∃ v, HasType A x.2 v ∧ v.Flat ∧ Unf U v (U x.2.id) ∧ (A.sigs T).parser [x.1] v.toRust := by
    rintro ⟨r, b⟩ hx
    have hb := body_of_mem H.names hx
    obtain ⟨⟨w, w1, w2, w3⟩, _⟩ := h1.rules nn r b hb b .root
    refine ⟨w, w1, w2, w3, ?_⟩
    intro r' b' hr' hb'
    cases hr'
    rw [hb] at hb'; cases hb'
    obtain ⟨t, ht⟩ := h1.finite h2 (hle (.body hb))
    have h4 := ht (k + 2) (Nat.le_refl _)
    exact ⟨k + 2, by rw [h4, compile_unf h1 h2 w b.id _ t (hle (.body hb)) w3 h4]⟩
  refine grammar_fnTyped hc ?_ ?_ ?_ hr
  · rintro ⟨r, b⟩ hx hu
    have hb := body_of_mem H.names hx
    obtain ⟨w, w1, w2, w3, w4⟩ := htype _ hx
    obtain ⟨us, l1, l2⟩ := Fits.parts w2 (fits_toRust w)
    refine ⟨us, (done_gives H h1 h2 nn hmix hran hag hkn (h1.done nn r b hb) (.body hb) fun _ => h1.rules nn r b hb).1 rfl w w1 us l1, ?_, ?_⟩
    · rw [l1.length, card_unf h2 (hle (.body hb)) w3]
    · rw [← l2]; exact w4
  · rintro ⟨r, b⟩ hx hu
    obtain ⟨w, w1, w2, w3, w4⟩ := htype _ hx
    have hb := body_of_mem H.names hx
    have := (unf_unit w3).1 ((unit_iff h1 h2 (hle (.body hb))).1 hu)
    rcases this with rfl | rfl <;> exact w4
  · simpa [Grammar.scopable, List.all_eq_true] using hsc

theorem accepted_fnOk (H : A.Ready k) {m : Nat} (h : Accepted A k m N T) (nn : N) (hmix : A.Unmixed) (hran : A.PlainRanges) (hag : A.Agrees)
    {fs : List (FnRef × Fn)} (hc : compileGrammar T A.grammar.rules = .ok fs) (hsc : A.grammar.scopable T = true) (hr : ∀ f ∈ fs, f.2.refOk = true) :
    ∀ f ∈ fs, if f.1.parser then ∃ t, (A.sigs T).parser f.1.path t ∧ FnOk (A.sigs T) f.2 t else FnOk (A.sigs T) f.2 .unit := by
  intro f hf
  obtain ⟨ty, h1⟩ := accepted_fnTyped H h nn hmix hran hag hc hsc hr f hf
  split at h1
  · obtain ⟨t, h1, h2⟩ := h1; rw [if_pos ‹_›]; exact ⟨t, h1, h2.ok⟩
  · rw [if_neg ‹_›]; exact h1.ok

end

end Typing
end Oak
