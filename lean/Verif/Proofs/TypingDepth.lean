import Verif.Proofs.TypingDepthInv
/-!
The depth inference.
-/
set_option linter.constructorNameAsVariable false
set_option autoImplicit false

namespace Oak
namespace Typing

section
variable (A : AGrammar) (k : Nat) (N : Prop) (L : Nat → Prop)

/-- Before the depth inference of `e`. -/
structure DPre (u : Bool) (a : Option IType) (e : Expr) (s : TState) : Prop where
  inv : DInv A k N L s
  occ : Occurs A.grammar e
  hid : ∀ j ∈ e.indices, j ∉ e.zone → s.types j = .infer
  zone : s.error = false → u = false → ∀ j ∈ e.zone, s.types j ≠ .infer
  writ : ∀ t, a = some t → t.Written
  rust : s.error = false → u = false → ∀ t, a = some t → ∃ x, t = .regular (.rust x)
  low : (u = true ∨ a ≠ none) → ∀ j ∈ e.indices, ¬ L j
  high : ∀ j ∈ e.indices, L j → ∃ y, Live s.types e y ∧ y.id = j
  doc : N → s.error = false → u = false → RuleDoc A k s.types e
  ctx : ∀ t, a = some t → ∃ j c, Occurs A.grammar (.asc j c t) ∧ Under c e ∧ (N → s.error = false → u = false → AscPart A c e)

/-- After the depth inference of `e`. -/
structure DPost (u : Bool) (a : Option IType) (e : Expr) (s s' : TState) : Prop where
  inv : DInv A k N L s'
  frame : ∀ j, s'.types j ≠ s.types j → j ∈ e.indices ∧ ¬ L j
  keep : u = false → a = none → ∀ y, Live s.types e y → s'.types y.id = s.types y.id
  own : u = false → s'.types e.id = s.types e.id ∨ s.types e.id = .external
  err : s.error = true → s'.error = true
  full : s'.error = false → ∀ j ∈ e.indices, s'.types j ≠ .infer
  done : N → s'.error = false → u = false → (a = none → Done A k s'.types false e) ∧ (a ≠ none → Done A k s'.types true e)
  just : N → Sane A s → Sane A s'

/-- Before the depth inference of the children of `e`. -/
structure DMid (u : Bool) (a : Option IType) (e : Expr) (s : TState) : Prop where
  inv : DInv A k N L s
  occ : Occurs A.grammar e
  hid : ∀ j ∈ e.indices, j ∉ e.zone → s.types j = .infer
  self : s.error = false → s.types e.id ≠ .infer
  zone : s.error = false → u = false → ∀ c ∈ e.zkids, ∀ j ∈ c.zone, s.types j ≠ .infer
  writ : ∀ t, a = some t → t.Written
  rust : s.error = false → u = false → ∀ t, a = some t → ∃ x, t = .regular (.rust x)
  low : (u = true ∨ a ≠ none) → ∀ j ∈ e.indices, j ≠ e.id → ¬ L j
  high : ∀ j ∈ e.indices, L j → ∃ y, Live s.types e y ∧ y.id = j
  nonunit : s.error = false → u = false → (s.types e.id).isUnitKind = false
  arust : s.error = false → u = false → a ≠ none → ∃ x, s.types e.id = .regular (.rust x)
  doc : N → s.error = false → u = false → ∀ c ∈ e.zkids, RuleDoc A k s.types c
  docA : N → s.error = false → u = false → a ≠ none → ∃ v, HasType A e v ∧ (v = .external ∨ ∃ x, v = .rust x)
  ctx : ∀ t, a = some t → ∃ j c, Occurs A.grammar (.asc j c t) ∧ Under c e ∧ (N → s.error = false → u = false → AscPart A c e)

/-- After the depth inference of the children of `e`. -/
structure WPost (u : Bool) (a : Option IType) (e : Expr) (s s' : TState) : Prop where
  inv : DInv A k N L s'
  frame : ∀ j, s'.types j ≠ s.types j → j ∈ e.indices ∧ j ≠ e.id ∧ ¬ L j
  keep : u = false → a = none → ∀ y, Live s.types e y → s'.types y.id = s.types y.id
  err : s.error = true → s'.error = true
  full : s'.error = false → ∀ j ∈ e.indices, j ≠ e.id → s'.types j ≠ .infer
  done : N → s'.error = false → u = false → (a = none → Done A k s'.types false e) ∧ (a ≠ none → Done A k s'.types true e)
  just : N → Sane A s → Sane A s'

end

section
variable {A : AGrammar} {k : Nat} {N : Prop} {L : Nat → Prop}

theorem err_back {s s' : TState} (h : s.error = true → s'.error = true) (h' : s'.error = false) : s.error = false := by
  cases he : s.error with
  | false => rfl
  | true => exact absurd (h'.symm.trans (h he)) (by simp)

theorem live_unit {T : Nat → IType} {e y : Expr} (hu : (T e.id).isUnitKind = true) (h : Live T e y) : y = e := by
  rcases live_kids.1 h with h | ⟨h, _⟩
  · exact h
  · rw [hu] at h; cases h

theorem live_leaf {T : Nat → IType} {e y : Expr} (hk : e.zkids = []) (h : Live T e y) : y = e := by
  rcases live_kids.1 h with h | ⟨_, c, hc, _⟩
  · exact h
  · rw [hk] at hc; cases hc

theorem id_not_kid (H : A.Ready k) {e c : Expr} (ho : Occurs A.grammar e) (hc : c ∈ e.kids) : e.id ∉ c.indices := fun h =>
  (kids_nodup (H.occurs_nodup ho)).2 (mem_indicesAll.2 ⟨c, hc, h⟩)

theorem live_in_kid (H : A.Ready k) {T : Nat → IType} {e c y : Expr} (ho : Occurs A.grammar e) (hc : c ∈ e.zkids) (h : Live T e y) (hy : y.id ∈ c.indices) :
    Live T c y := by
  rcases live_kids.1 h with rfl | ⟨_, d, hd, h⟩
  · exact absurd hy (id_not_kid H ho (zkids_sub hc))
  · have := indicesAll_unique (kids_nodup (H.occurs_nodup ho)).1 (zkids_sub hc) (zkids_sub hd) hy (live_ids h)
    rw [this]; exact h

theorem zone_kid (H : A.Ready k) {e c : Expr} (ho : Occurs A.grammar e) (hc : c ∈ e.zkids) {j : Nat} (hj : j ∈ c.indices) (h : j ∈ e.zone) : j ∈ c.zone := by
  rcases mem_zone.1 h with rfl | ⟨d, hd, h⟩
  · exact absurd hj (id_not_kid H ho (zkids_sub hc))
  · have := indicesAll_unique (kids_nodup (H.occurs_nodup ho)).1 (zkids_sub hc) (zkids_sub hd) hj (zone_indices _ _ h)
    rw [this]; exact h

theorem synEq_rust {T : Nat → IType} {m : Nat} {t : IType} {x : String} (h : synEq T m t (.regular (.rust x)) = .ok true) : ∃ y, t = .regular (.rust y) := by
  cases m with
  | zero => cases h
  | succ m =>
    unfold synEq at h
    cases t with
    | regular t =>
      cases t with
      | rust y => exact ⟨y, rfl⟩
      | _ => cases h
    | _ => cases h

theorem synEq_alike {T : Nat → IType} {m : Nat} {t a : IType} (ht : t.Written) (h : Alike a t) (hs : synEq T m t a = .ok false) : False := by
  cases m with
  | zero => cases hs
  | succ m =>
    rcases h with rfl | ⟨x, y, rfl, rfl⟩
    · rcases ht with rfl | rfl | ⟨s, rfl⟩ <;> cases hs
    · cases hs

/-- The test of ascriptions. -/
theorem match_post {m i n : Nat} {s : TState} {t a : IType} (h : DInv A k N L s) (ht : Dp s.types n t) (hm : n ≤ m)
    (hf : TFine A (.ascription i t a s.types))
    (hj : N → s.error = false → synEq s.types m t a = .ok false → TDoc A (.ascription i t a s.types)) :
    Outcome (matchAscription m i t a s) (fun s' => s'.types = s.types ∧ DInv A k N L s' ∧ (s.error = true → s'.error = true) ∧
      (s'.error = false → ∀ x, a = .regular (.rust x) → ∃ y, t = .regular (.rust y)) ∧ (N → Sane A s → Sane A s')) False := by
  unfold matchAscription
  obtain ⟨b, hb⟩ := synEq_total ht m a hm
  rw [hb]
  cases b with
  | true => exact ⟨rfl, h, id, fun _ x hx => synEq_rust (hx ▸ hb), fun _ h => h⟩
  | false =>
    refine ⟨rfl, h.setMsgs (fun _ => rfl) fun d hd => ?_, fun _ => rfl, fun h => absurd h (by simp), fun n hs => hs.fail rfl rfl fun he => hj n he hb⟩
    rcases List.mem_append.1 hd with hd | hd
    · exact h.sinv.fine d hd
    · rw [List.mem_singleton] at hd; subst hd; exact hf

/-- The visit of an expression, from the visit of its children. -/
theorem depthStep_post (H : A.Ready k) {m : Nat} (hm : k + 2 ≤ m) {u : Bool} {a : Option IType} {e : Expr} {s : TState} {walk : Bool → TState → Res TState}
    (h : DPre A k N L u a e s) (hw : ∀ u s1, DMid A k N L u a e s1 → Outcome (walk u s1) (WPost A k N L u a e s1) False) :
    Outcome (depthStep m e.id u a s walk) (DPost A k N L u a e s) False := by
  have hzid : ∀ j ∈ e.indices, j ∉ e.zone → j ≠ e.id := fun j _ hj he => hj (he ▸ id_mem_zone e)
  have hne : ∀ t j, j ≠ e.id → (s.set e.id t).types j = s.types j := fun t j hj => by simp [TState.set, hj]
  have heq : ∀ t, (s.set e.id t).types e.id = t := fun t => by simp [TState.set]
  have hzk : ∀ c ∈ e.zkids, ∀ j ∈ c.zone, j ≠ e.id := fun c hc j hj he => id_not_kid H h.occ (zkids_sub hc) (he ▸ zone_indices _ _ hj)
  unfold depthStep
  cases u with
  | true =>
    rw [if_pos rfl]
    have hlow := h.low (.inl rfl)
    have hmid : DMid A k N L true a e (s.set e.id (.regular .unit)) := by
      refine ⟨h.inv.set H h.occ (hlow _ (id_mem_indices e)) rfl rfl (by simp) (nodeOk_unit e), h.occ, ?_, by simp [heq], by simp, h.writ, by simp,
        fun _ j hj _ => hlow j hj, fun j hj hL => absurd hL (hlow j hj), by simp, by simp, by simp, by simp,
        fun t ht => (h.ctx t ht).imp fun j hc => hc.imp fun c hc => ⟨hc.1, hc.2.1, by simp⟩⟩
      intro j hj hz
      rw [hne _ j (hzid j hj hz)]; exact h.hid j hj hz
    refine (hw true _ hmid).mono ?_ id
    intro s' q
    refine ⟨q.inv, fun j hj => ?_, by simp, by simp, fun he => q.err he, fun he j hj => ?_, by simp, fun n hs => q.just n (hs.types _)⟩
    · by_cases hje : j = e.id
      · subst hje; exact ⟨id_mem_indices e, hlow _ (id_mem_indices e)⟩
      · rw [← hne (.regular .unit) j hje] at hj
        exact ⟨(q.frame j hj).1, (q.frame j hj).2.2⟩
    · by_cases hje : j = e.id
      · subst hje
        by_cases hs : s'.types e.id = (s.set e.id (.regular .unit)).types e.id
        · rw [hs, heq]; simp
        · exact absurd rfl (q.frame _ hs).2.1
      · exact q.full he j hj hje
  | false =>
    rw [if_neg (by simp)]
    have hpost : ∀ (u : Bool) (s1 s' : TState), (∀ j, s1.types j ≠ s.types j → j = e.id ∧ ¬ L e.id) → (a = none → s1.types e.id = s.types e.id) →
        (s1.types e.id = s.types e.id ∨ s.types e.id = .external) →
        (s.error = true → s1.error = true) → (s1.error = false → s1.types e.id ≠ .infer) → (u = true → a = none ∧ (s.types e.id).isUnitKind = true) →
        (N → Sane A s → Sane A s1) → WPost A k N L u a e s1 s' → DPost A k N L false a e s s' := by
      intro u s1 s' h1 h2 h2' h3 h4 h5 h6 q
      have hid : s'.types e.id = s1.types e.id := by
        by_cases hs : s'.types e.id = s1.types e.id
        · exact hs
        · exact absurd rfl (q.frame _ hs).2.1
      refine ⟨q.inv, fun j hj => ?_, fun _ ha y hy => ?_, fun _ => ?_, fun he => q.err (h3 he), fun he j hj => ?_, fun n he _ => ?_,
        fun n hs => q.just n (h6 n hs)⟩
      · by_cases hs : s'.types j = s1.types j
        · obtain ⟨rfl, hl⟩ := h1 j (hs ▸ hj)
          exact ⟨id_mem_indices e, hl⟩
        · exact ⟨(q.frame j hs).1, (q.frame j hs).2.2⟩
      · have hs1 : ∀ j, s1.types j = s.types j := fun j => by
          by_cases hs : s1.types j = s.types j
          · exact hs
          · obtain ⟨rfl, _⟩ := h1 j hs
            exact h2 ha
        cases u with
        | true =>
          rw [live_unit (h5 rfl).2 hy, hid, hs1]
        | false =>
          have hts : s1.types = s.types := funext hs1
          have := q.keep rfl ha y (hts ▸ hy)
          rw [this, hts]
      · rw [hid]; exact h2'
      · by_cases hje : j = e.id
        · rw [hje, hid]; exact h4 (err_back q.err he)
        · exact q.full he j hj hje
      · cases u with
        | true =>
          obtain ⟨ha, hu⟩ := h5 rfl
          refine ⟨fun _ => .unit (by rw [hid, h2 ha]; exact hu), fun h => absurd ha h⟩
        | false => exact q.done n he rfl
    by_cases hun : ((s.types e.id).isUnitKind && a.isNone) = true
    · rw [if_pos hun]
      rw [Bool.and_eq_true, Option.isNone_iff_eq_none] at hun
      obtain ⟨hu, rfl⟩ := hun
      have hni : s.types e.id ≠ .infer := fun h0 => by rw [h0] at hu; cases hu
      have hmid : DMid A k N L true none e s := by
        refine ⟨h.inv, h.occ, h.hid, fun _ => hni, by simp, by simp, by simp, ?_, h.high, by simp, by simp, by simp, by simp, by simp⟩
        intro _ j hj hje hL
        obtain ⟨y, hy, rfl⟩ := h.high j hj hL
        exact hje (by rw [live_unit hu hy])
      exact (hw true s hmid).mono (fun s' q => hpost true s s' (fun j hj => absurd rfl hj) (fun _ => rfl) (.inl rfl) id (fun _ => hni) (fun _ => ⟨rfl, hu⟩) (fun _ h => h) q) id
    · rw [if_neg hun]
      cases a with
      | none =>
        have hu : (s.types e.id).isUnitKind = false := by simpa using hun
        have hmid : DMid A k N L false none e s := by
          refine ⟨h.inv, h.occ, h.hid, fun he => h.zone he rfl _ (id_mem_zone e), fun he _ c hc j hj => h.zone he rfl j (mem_zone.2 (.inr ⟨c, hc, hj⟩)), by simp, by simp, by simp, h.high,
            fun _ _ => hu, by simp, fun n he _ c hc x hx => h.doc n he rfl x (live_kids.2 (.inr ⟨hu, c, hc, hx⟩)), by simp, by simp⟩
        exact (hw false s hmid).mono (fun s' q => hpost false s s' (fun j hj => absurd rfl hj) (fun _ => rfl) (.inl rfl) id
          (fun he => h.zone he rfl _ (id_mem_zone e)) (by simp) (fun _ h => h) q) id
      | some a =>
        dsimp only
        have hlow := h.low (.inr (by simp))
        have hwr := written_settled (h.writ a rfl)
        by_cases hext : s.types e.id = .external
        · rw [if_pos hext]
          have hnl := hlow _ (id_mem_indices e)
          have hinv : DInv A k N L (s.set e.id a) := h.inv.set H h.occ hnl hwr.1 hwr.2.1 hwr.2.2
            (nodeOk_external (hext ▸ h.inv.sinv.node e h.occ) (fun i c t he => H.written i c t (he ▸ h.occ)) a)
          have hru : ∀ {t : IType}, (∃ x, t = .regular (.rust x)) → t.isUnitKind = false := by rintro t ⟨x, rfl⟩; simp [IType.isUnitKind]
          have hmid : DMid A k N L false (some a) e (s.set e.id a) := by
            refine ⟨hinv, h.occ, ?_, fun _ => by rw [heq]; exact settled_ne_infer hwr.1, ?_, h.writ, fun he _ => h.rust he rfl, fun _ j hj _ => hlow j hj,
              fun j hj hL => absurd hL (hlow j hj), ?_, fun he _ _ => by rw [heq]; exact h.rust he rfl a rfl, ?_, ?_,
              fun t ht => (h.ctx t ht).imp fun j hc => hc.imp fun c hc => ⟨hc.1, hc.2.1, fun n he _ => hc.2.2 n he rfl⟩⟩
            · intro j hj hz
              rw [hne _ j (hzid j hj hz)]; exact h.hid j hj hz
            · intro he _ c hc j hj
              rw [hne _ j (hzk c hc j hj)]
              exact h.zone he rfl j (mem_zone.2 (.inr ⟨c, hc, hj⟩))
            · intro he _
              rw [heq]; exact hru (h.rust he rfl a rfl)
            · intro n he _ c hc
              refine RuleDoc.stable h.inv.sinv.span (h.inv.rules n he) hinv.full ?_ ?_ (fun x hx => h.doc n he rfl x (live_kids.2 (.inr ⟨by rw [hext]; rfl, c, hc, hx⟩)))
              · exact fun j hj => hne _ j fun h0 => hnl (h0 ▸ (h.inv.prot j).2 hj)
              · intro y hy
                exact hne _ _ fun h0 => id_not_kid H h.occ (zkids_sub hc) (h0 ▸ live_ids hy)
            · intro n he _ _
              obtain ⟨⟨v, v1, v2, v3⟩, _⟩ := h.doc n he rfl e .root
              exact ⟨v, v1, .inl ((unf_external v3).1 hext)⟩
          refine (hw false _ hmid).mono (fun s' q => hpost false (s.set e.id a) s' ?_ (by simp) (.inr hext) (fun he => he) (fun _ => by rw [heq]; exact settled_ne_infer hwr.1) (by simp) (fun _ hs => hs.types _) q) id
          intro j hj
          by_cases hje : j = e.id
          · exact ⟨hje, hnl⟩
          · exact absurd (hne a j hje) hj
        · rw [if_neg hext]
          have hfine : TFine A (.ascription e.id (s.types e.id) a s.types) := ⟨⟨e, h.occ, rfl⟩, ⟨_, h.inv.sinv.deep e.id⟩, h.writ a rfl⟩
          have hjust : N → s.error = false → synEq s.types m (s.types e.id) a = .ok false → TDoc A (.ascription e.id (s.types e.id) a s.types) := by
            intro n he hs
            obtain ⟨x, rfl⟩ := h.rust he rfl a rfl
            obtain ⟨j, c, c1, _, c3⟩ := h.ctx _ rfl
            obtain ⟨⟨v, v1, v2, v3⟩, _⟩ := h.doc n he rfl e .root
            refine .inl ⟨j, c, x, e, v, c1, c3 n he rfl, rfl, v1, v2, fun h => hext ((unf_external v3).2 h), ?_, v3, rfl⟩
            rintro y rfl
            unfold Unf at v3
            rw [v3] at hs
            exact synEq_alike (.inr (.inr ⟨y, rfl⟩)) (.inr ⟨x, y, rfl, rfl⟩) hs
          refine (match_post h.inv (h.inv.sinv.deep e.id) (by have := cnt_le k s.types; omega) hfine hjust).bind ?_
          rintro s1 ⟨m1, m2, m3, m4, m5⟩
          have hru : s1.error = false → ∃ y, s.types e.id = .regular (.rust y) := fun he => by
            obtain ⟨x, hx⟩ := h.rust (err_back m3 he) rfl a rfl
            exact m4 he x hx
          have hun : s1.error = false → (s.types e.id).isUnitKind = false := fun he => by
            obtain ⟨y, hy⟩ := hru he
            rw [hy]; rfl
          have hmid : DMid A k N L false (some a) e s1 := by
            refine ⟨m2, h.occ, ?_, ?_, ?_, h.writ, fun he _ => h.rust (err_back m3 he) rfl, fun _ j hj _ => hlow j hj,
              fun j hj hL => absurd hL (hlow j hj), ?_, ?_, ?_, ?_,
              fun t ht => (h.ctx t ht).imp fun j hc => hc.imp fun c hc => ⟨hc.1, hc.2.1, fun n he _ => hc.2.2 n (err_back m3 he) rfl⟩⟩
            · rw [m1]; exact h.hid
            · rw [m1]; exact fun he => h.zone (err_back m3 he) rfl _ (id_mem_zone e)
            · rw [m1]; exact fun he _ c hc j hj => h.zone (err_back m3 he) rfl j (mem_zone.2 (.inr ⟨c, hc, hj⟩))
            · rw [m1]; exact fun he _ => hun he
            · rw [m1]; exact fun he _ _ => hru he
            · rw [m1]; exact fun n he _ c hc x hx => h.doc n (err_back m3 he) rfl x (live_kids.2 (.inr ⟨hun he, c, hc, hx⟩))
            · intro n he _ _
              obtain ⟨⟨v, v1, v2, v3⟩, _⟩ := h.doc n (err_back m3 he) rfl e .root
              obtain ⟨y, hy⟩ := hru he
              refine ⟨v, v1, .inr ?_⟩
              rw [hy] at v3
              cases v <;> simp [Unf] at v3 ⊢
          refine (hw false _ hmid).mono (fun s' q => hpost false _ s' ?_ (by simp) (.inl (by rw [m1])) m3 (by rw [m1]; exact fun he => h.zone (err_back m3 he) rfl _ (id_mem_zone e)) (by simp) m5 q) id
          intro j hj
          exact absurd (by rw [m1]) hj

end

end Typing
end Oak
