import Verif.Proofs.TypingRegion
import Verif.Proofs.TypingSane
/-!
The surface inference: it stops; it does not panic when the recursion is direct; it gives a type to everything it sees.
-/
set_option linter.constructorNameAsVariable false
set_option autoImplicit false

namespace Oak

/-- The rules of a recursive type are declared, and they are being visited or already typed. -/
def RecOk (G : Grammar) (path : List String) (T : Nat → IType) (t : IType) : Prop :=
  ∀ rs, t = .rec_ rs → rs ≠ [] ∧ ∀ p ∈ rs, p.path ≠ [] ∧ ∀ x ∈ p.path, ∃ b, G.find x = some b ∧ (x ∈ path ∨ T b.id ≠ .infer)

/-- The rules of a recursive type satisfy `W`. -/
def RecIn (W : String → Prop) (t : IType) : Prop := ∀ rs, t = .rec_ rs → ∀ p ∈ rs, ∀ x ∈ p.path, W x

theorem RecFrom.recOk {G : Grammar} {path : List String} {T : Nat → IType} {ts : List IType} {t : IType} (h : RecFrom ts t)
    (hts : ∀ t ∈ ts, RecOk G path T t) : RecOk G path T t := by
  intro rs hrs
  obtain ⟨h1, h2⟩ := h rs hrs
  refine ⟨h1, fun p hp => ?_⟩
  obtain ⟨rs', h3, q, h4, h5⟩ := h2 p hp
  rw [← h5]
  exact (hts _ h3 rs' rfl).2 q h4

theorem RecFrom.recIn {W : String → Prop} {ts : List IType} {t : IType} (h : RecFrom ts t) (hts : ∀ t ∈ ts, RecIn W t) : RecIn W t := by
  intro rs hrs p hp
  obtain ⟨rs', h3, q, h4, h5⟩ := (h rs hrs).2 p hp
  rw [← h5]
  exact hts _ h3 rs' rfl q h4

theorem RecOk.settled {G : Grammar} {path : List String} {T : Nat → IType} {t : IType} (h : t.settled = true) : RecOk G path T t := by
  intro rs hrs; subst hrs; cases h

theorem RecIn.settled {W : String → Prop} {t : IType} (h : t.settled = true) : RecIn W t := by
  intro rs hrs; subst hrs; cases h

theorem RecOk.infer {G : Grammar} {path : List String} {T : Nat → IType} : RecOk G path T .infer := by
  intro rs hrs; cases hrs

/-- What the types of some expressions can be. -/
def NodeOk (e : Expr) (t : IType) : Prop :=
  match e with
  | .not _ _ | .and _ _ => t = .infer ∨ t.isUnitKind = true
  | .asc _ _ ty => t = .infer ∨ t = ty ∨ t = .regular .unit
  | _ => True

theorem RecOk.le {path : List String} {G : Grammar} {T T' : Nat → IType} {t : IType} (h : RecOk G path T t) (hg : ∀ j, T j ≠ .infer → T' j ≠ .infer) : RecOk G path T' t := by
  intro rs hrs
  obtain ⟨h1, h2⟩ := h rs hrs
  refine ⟨h1, fun p hp => ⟨(h2 p hp).1, fun x hx => ?_⟩⟩
  obtain ⟨b, hb, hx⟩ := (h2 p hp).2 x hx
  exact ⟨b, hb, hx.imp id (hg _)⟩

namespace Typing

section
variable (A : AGrammar) (k : Nat) (C D N : Prop)

/-- What holds of the types during the surface inference; `path` are the rules being visited. -/
structure SInv (path : List String) (s : TState) : Prop where
  deep : Deep k s.types
  recs : ∀ i, RecOk A.grammar path s.types (s.types i)
  fresh : ∀ r b, A.grammar.find r = some b → r ∉ path → s.types b.id = .infer → ∀ j ∈ b.zone, s.types j = .infer
  full : ∀ r b, A.grammar.find r = some b → r ∉ path → s.types b.id ≠ .infer → ∀ j ∈ b.zone, s.types j ≠ .infer
  node : ∀ e, Occurs A.grammar e → NodeOk e (s.types e.id)
  direct : D → ∀ r b, A.grammar.find r = some b → r ∉ path → ∀ rs, s.types b.id ≠ .rec_ rs
  span : s.types k = .regular (.rust spanTy)
  pos : ∀ i, s.types i ≠ .regular (.tuple [])
  norec : N → ∀ i rs, s.types i ≠ .rec_ rs
  rules : N → s.error = false → ∀ r b, A.grammar.find r = some b → r ∉ path → s.types b.id ≠ .infer → RuleDoc A k s.types b
  all : C → ∀ r b, A.grammar.find r = some b → r ∉ path → s.types b.id ≠ .infer
  fine : ∀ d ∈ s.log, TFine A d

/-- What the surface inference changes: only unknown types, of the expressions `Z` and of rules that are not being visited and get a type. -/
structure Good (path : List String) (Z : List Nat) (s s' : TState) : Prop where
  inv : SInv A k C D N path s'
  grow : ∀ j, s.types j ≠ .infer → s'.types j = s.types j
  frame : ∀ j, s'.types j ≠ s.types j → j ∈ Z ∨
    ∃ r b, A.grammar.find r = some b ∧ r ∉ path ∧ j ∈ b.zone ∧ s.types b.id = .infer ∧ s'.types b.id ≠ .infer
  err : s.error = true → s'.error = true
  just : N → Sane A s → Sane A s'

/-- The rules being visited have no type yet. -/
def PathInfer (path : List String) (T : Nat → IType) : Prop := ∀ r ∈ path, ∀ b, A.grammar.find r = some b → T b.id = .infer

/-- When the expression `e` is visited. -/
structure Pre (path : List String) (e : Expr) (s : TState) : Prop where
  occ : Occurs A.grammar e
  inv : SInv A k C D N path s
  pinf : PathInfer A path s.types
  fresh : ∀ j ∈ e.zone, s.types j = .infer
  own : ∀ j ∈ e.zone, ∀ r b, A.grammar.find r = some b → j ∈ b.zone → r ∈ path
  root : ∀ r b, A.grammar.find r = some b → b.id ∈ e.zone → b.id = e.id

/-- The result of the visit of `e`. -/
def SurfQ (path : List String) (W : String → Prop) (e : Expr) (s : TState) (x : IType × TState) : Prop :=
  Good A k C D N path e.zone s x.2 ∧ x.2.types e.id = x.1 ∧ (∀ j ∈ e.zone, x.2.types j ≠ .infer ∧ RecIn W (x.2.types j)) ∧
    (N → x.2.error = false → ∀ y, ZSub e y → NodeDoc A k x.2.types y)

/-- The result of a call. -/
def CallQ (path : List String) (W : String → Prop) (r : String) (s : TState) (x : IType × TState) : Prop :=
  (x.1 = .infer ∧ ¬ D) ∨ (x.1 ≠ .infer ∧ Good A k C D N path [] s x.2 ∧ RecOk A.grammar path x.2.types x.1 ∧ RecIn W x.1 ∧
    (∀ j ∈ x.1.refs, (x.2.types j).settled = true) ∧ x.1 ≠ .regular (.tuple []) ∧
    (N → x.2.error = false → ∃ b, A.grammar.find r = some b ∧ x.1 = x.2.types b.id ∧ NodeDoc A k x.2.types b ∧ ∀ j ∈ b.zone, x.2.types j ≠ .infer))

/-- What is known of the type `t` of `e` when it is recorded. -/
def StepDoc (T : Nat → IType) (e : Expr) (t : IType) : Prop :=
  (∃ v, HasType A e v ∧ v.Flat ∧ Unf T v t) ∧ ∀ j ∈ t.refs, j = k ∨ (∃ c ∈ e.zkids, ∃ y, Live T c y ∧ y.id = j) ∨ InRules A T j

end

section
variable {A : AGrammar} {k : Nat} {C D N : Prop} {path : List String}

theorem SInv.recFilled {s : TState} (h : SInv A k C D N path s) : RecFilled s.types := fun i rs hi => (h.recs i rs hi).1

theorem Good.refl {s : TState} (h : SInv A k C D N path s) : Good A k C D N path [] s s :=
  ⟨h, fun _ _ => rfl, fun _ h => absurd rfl h, fun h => h, fun _ h => h⟩

theorem Good.mono {Z Z' : List Nat} {s s' : TState} (h : Good A k C D N path Z s s') (hz : ∀ j ∈ Z, j ∈ Z') : Good A k C D N path Z' s s' :=
  ⟨h.inv, h.grow, fun j hj => (h.frame j hj).imp (hz j) id, h.err, h.just⟩

theorem Good.trans {Z Z' : List Nat} {s s' s'' : TState} (h : Good A k C D N path Z s s') (h' : Good A k C D N path Z' s' s'') :
    Good A k C D N path (Z ++ Z') s s'' where
  inv := h'.inv
  grow := fun j hj => by
    have := h.grow j hj
    rw [h'.grow j (by rwa [this]), this]
  frame := fun j hj => by
    by_cases h1 : s'.types j = s.types j
    · rw [← h1] at hj
      rcases h'.frame j hj with h2 | ⟨r, b, h2, h3, h4, h5, h6⟩
      · exact .inl (List.mem_append_right _ h2)
      · refine .inr ⟨r, b, h2, h3, h4, ?_, h6⟩
        by_cases h7 : s.types b.id = .infer
        · exact h7
        · exact absurd (h.grow _ h7 ▸ h5) h7
    · rcases h.frame j h1 with h2 | ⟨r, b, h2, h3, h4, h5, h6⟩
      · exact .inl (List.mem_append_left _ h2)
      · exact .inr ⟨r, b, h2, h3, h4, h5, by rw [h'.grow _ h6]; exact h6⟩
  err := fun he => h'.err (h.err he)
  just := fun n hs => h'.just n (h.just n hs)

/-- The expressions of the rules being visited do not change. -/
theorem Good.same {Z : List Nat} {s s' : TState} (h : Good A k C D N path Z s s') {j : Nat} (hj : j ∉ Z)
    (ho : ∀ r b, A.grammar.find r = some b → j ∈ b.zone → r ∈ path) : s'.types j = s.types j := by
  by_cases h1 : s'.types j = s.types j
  · exact h1
  · rcases h.frame j h1 with h2 | ⟨r, b, h2, h3, h4, _⟩
    · exact absurd h2 hj
    · exact absurd (ho r b h2 h4) h3

theorem Good.pathInfer (H : A.Ready k) {Z : List Nat} {s s' : TState} (h : Good A k C D N path Z s s') (hp : PathInfer A path s.types)
    (hz : ∀ r b, A.grammar.find r = some b → b.id ∉ Z) : PathInfer A path s'.types := by
  intro r hr b hb
  rw [h.same (hz r b hb)]
  · exact hp r hr b hb
  · intro r' b' hb' hj
    rw [H.disjoint hb' hb (zone_indices _ _ hj) (id_mem_indices b)]
    exact hr

theorem Good.le {Z : List Nat} {s s' : TState} (h : Good A k C D N path Z s s') : Le s.types s'.types := fun j hj => by
  rw [h.grow j (settled_ne_infer hj)]
  exact ⟨hj, .inl rfl⟩

/-- Before the visit of a child. -/
theorem Pre.kid (H : A.Ready k) {e c : Expr} {s s1 : TState} (h : Pre A k C D N path e s) (hc : c ∈ e.zkids) {Z : List Nat} (hg : Good A k C D N path Z s s1)
    (hZ : ∀ j ∈ Z, ∃ d ∈ e.zkids, j ∈ d.zone) (hd : ∀ j ∈ Z, j ∉ c.zone) : Pre A k C D N path c s1 := by
  have hsub : ∀ j ∈ c.zone, j ∈ e.zone := fun j hj => mem_zone.2 (.inr ⟨c, hc, hj⟩)
  have hid : ∀ d ∈ e.zkids, e.id ∉ d.zone := fun d hd he =>
    (kids_nodup (H.occurs_nodup h.occ)).2 (mem_indicesAll.2 ⟨d, zkids_sub hd, zone_indices _ _ he⟩)
  have hnr : ∀ d ∈ e.zkids, ∀ r b, A.grammar.find r = some b → b.id ∉ d.zone := fun d hd r b hb hj => by
    have := h.root r b hb (mem_zone.2 (.inr ⟨d, hd, hj⟩))
    exact hid d hd (this ▸ hj)
  refine ⟨h.occ.kid (zkids_sub hc), hg.inv, ?_, ?_, fun j hj => h.own j (hsub j hj), fun r b hb hj => absurd hj (hnr c hc r b hb)⟩
  · refine hg.pathInfer H h.pinf fun r b hb hj => ?_
    obtain ⟨d, hd, hj⟩ := hZ _ hj
    exact hnr d hd r b hb hj
  · intro j hj
    rw [hg.same (fun h => hd j h hj) (h.own j (hsub j hj))]
    exact h.fresh j (hsub j hj)

theorem nodeOk_set (H : A.Ready k) {T : Nat → IType} {e : Expr} {t : IType} (ho : Occurs A.grammar e) (hT : ∀ e, Occurs A.grammar e → NodeOk e (T e.id))
    (ht : NodeOk e t) : ∀ e', Occurs A.grammar e' → NodeOk e' (if e'.id = e.id then t else T e'.id) := by
  intro e' he'
  split
  · rename_i h
    rw [H.unique he' ho h]; exact ht
  · exact hT e' he'

/-- The end of the visit of an expression: its type is recorded. -/
theorem Good.set (H : A.Ready k) {e : Expr} {s s1 : TState} {t : IType} (h : Pre A k C D N path e s) (hg : Good A k C D N path (zoneAll e.zkids) s s1)
    (ht : t ≠ .infer) (hr : ∀ j ∈ t.refs, (s1.types j).settled = true) (hrec : RecOk A.grammar path s1.types t) (hn : NodeOk e t)
    (hpos : t ≠ .regular (.tuple [])) (hnr : N → ∀ rs, t ≠ .rec_ rs) :
    Good A k C D N path e.zone s (s1.set e.id t) ∧ ∀ j, s1.types j ≠ .infer → (s1.set e.id t).types j = s1.types j := by
  have hz : e.id ∉ zoneAll e.zkids := fun hj => by
    obtain ⟨d, hd, hj⟩ := mem_zoneAll.1 hj
    exact (kids_nodup (H.occurs_nodup h.occ)).2 (mem_indicesAll.2 ⟨d, zkids_sub hd, zone_indices _ _ hj⟩)
  have hi : s1.types e.id = .infer := by
    rw [hg.same hz (h.own _ (id_mem_zone e))]
    exact h.fresh _ (id_mem_zone e)
  have hlt : e.id < k := H.lt h.occ _ (id_mem_indices e)
  have hne : ∀ j, j ≠ e.id → (s1.set e.id t).types j = s1.types j := fun j hj => by simp [TState.set, hj]
  have heq : (s1.set e.id t).types e.id = t := by simp [TState.set]
  have hgr : ∀ j, s1.types j ≠ .infer → (s1.set e.id t).types j = s1.types j := fun j hj => hne j fun h => hj (h ▸ hi)
  have hmono : ∀ j, s1.types j ≠ .infer → (s1.set e.id t).types j ≠ .infer := fun j hj => by rwa [hgr j hj]
  obtain ⟨hdeep, _⟩ := hg.inv.deep.update (T' := (s1.set e.id t).types) (Nat.le_of_lt hlt) (by rw [hi]; rfl) hr heq hne
  have hroot : ∀ r b, A.grammar.find r = some b → r ∉ path → b.id ≠ e.id := fun r b hb hr hbe =>
    hr (h.own _ (id_mem_zone e) r b hb (hbe ▸ id_mem_zone b))
  refine ⟨⟨⟨hdeep, ?_, ?_, ?_, ?_, ?_, ?_, ?_, ?_, ?_, fun c r b hb hr => hmono _ (hg.inv.all c r b hb hr), hg.inv.fine⟩, ?_, ?_, fun he => hg.err he,
    fun n hs => (hg.just n hs).types _⟩, hgr⟩
  · intro j
    by_cases hj : j = e.id
    · rw [hj, heq]; exact hrec.le hmono
    · rw [hne j hj]; exact (hg.inv.recs j).le hmono
  · intro r b hb hr hT j hj
    rw [hne _ (hroot r b hb hr)] at hT
    rw [hne]
    · exact hg.inv.fresh r b hb hr hT j hj
    · rintro rfl
      exact hr (h.own _ (id_mem_zone e) r b hb hj)
  · intro r b hb hr hT j hj
    rw [hne _ (hroot r b hb hr)] at hT
    exact hmono j (hg.inv.full r b hb hr hT j hj)
  · intro e' he'
    exact nodeOk_set H h.occ hg.inv.node hn e' he'
  · intro d r b hb hr rs
    rw [hne _ (hroot r b hb hr)]
    exact hg.inv.direct d r b hb hr rs
  · rw [hne k (by omega)]; exact hg.inv.span
  · intro j
    by_cases hj : j = e.id
    · rw [hj, heq]; exact hpos
    · rw [hne j hj]; exact hg.inv.pos j
  · intro n j rs
    by_cases hj : j = e.id
    · rw [hj, heq]; exact hnr n rs
    · rw [hne j hj]; exact hg.inv.norec n j rs
  · intro n he r b hb hr hT
    rw [hne _ (hroot r b hb hr)] at hT
    exact (hg.inv.rules n he r b hb hr hT).grow hgr (hg.inv.full r b hb hr hT)
  · intro j hj
    have := hg.grow j hj
    rw [hgr j (by rwa [this]), this]
  · intro j hj
    by_cases hje : j = e.id
    · exact .inl (hje ▸ id_mem_zone e)
    · rw [hne j hje] at hj
      rcases hg.frame j hj with h2 | ⟨r, b, h2, h3, h4, h5, h6⟩
      · exact .inl (by rw [zone_eq]; exact List.mem_append_left _ h2)
      · exact .inr ⟨r, b, h2, h3, h4, h5, hmono _ h6⟩

/-- What the visit of the children of an expression must give. -/
def WalkQ (A : AGrammar) (k : Nat) (C D N : Prop) (path : List String) (W : String → Prop) (e : Expr) (s : TState) (x : IType × TState) : Prop :=
  (x.1 = .infer ∧ ¬ D) ∨ (Good A k C D N path (zoneAll e.zkids) s x.2 ∧ (∀ j ∈ zoneAll e.zkids, x.2.types j ≠ .infer ∧ RecIn W (x.2.types j)) ∧
    x.1 ≠ .infer ∧ x.1 ≠ .regular (.tuple []) ∧ (∀ j ∈ x.1.refs, x.2.types j ≠ .infer) ∧ RecOk A.grammar path x.2.types x.1 ∧ RecIn W x.1 ∧
    (∀ j ∈ x.1.refs, RecIn W (x.2.types j)) ∧ (∀ t, reduce x.2.types x.1 = .ok t → NodeOk e t) ∧
    (N → x.2.error = false → (∀ c ∈ e.zkids, ∀ y, ZSub c y → NodeDoc A k x.2.types y) ∧
      ∀ t, reduce x.2.types x.1 = .ok t → StepDoc A k x.2.types e t))

theorem norec_of {W : String → Prop} (hW : ∀ x, W x → ¬ N) {G : Grammar} {T : Nat → IType} {t : IType} (h1 : RecOk G path T t) (h2 : RecIn W t) :
    N → ∀ rs, t ≠ .rec_ rs := by
  intro n rs hrs
  obtain ⟨h3, h4⟩ := h1 rs hrs
  obtain ⟨p, hp⟩ := List.exists_mem_of_ne_nil rs h3
  obtain ⟨x, hx⟩ := List.exists_mem_of_ne_nil p.path (h4 p hp).1
  exact hW x (h2 rs hrs p hp x hx) n

/-- The visit of an expression, from the visit of its children. -/
theorem surfStep_post (H : A.Ready k) {W : String → Prop} (hW : ∀ x, W x → ¬ N) {e : Expr} {s : TState} {walk : Res (IType × TState)} (h : Pre A k C D N path e s)
    (hw : Outcome walk (WalkQ A k C D N path W e s) (¬ D)) :
    Outcome (surfStep e.id s walk) (SurfQ A k C D N path W e s) (¬ D) := by
  unfold surfStep
  rw [if_pos (h.fresh _ (id_mem_zone e))]
  refine hw.bind ?_
  rintro ⟨t0, s1⟩ (⟨h1, hD⟩ | ⟨hg, hz, h1, h2, h3, h4, h5, h6, h7, h8⟩)
  · dsimp only at h1; subst h1; exact hD
  · dsimp only at hg hz h1 h2 h3 h4 h5 h6 h7 h8 ⊢
    obtain ⟨t, r1, r2, r3, r4, r5⟩ := reduce_post hg.inv.deep hg.inv.recFilled hg.inv.pos h1 h2 h3 fun rs hrs => (h4 rs hrs).1
    rw [r1]
    have hrok : RecOk A.grammar path s1.types t := r4.recOk (by
      intro t' ht'
      rcases List.mem_cons.1 ht' with rfl | ht'
      · exact h4
      · obtain ⟨j, hj, rfl⟩ := List.mem_map.1 ht'
        exact hg.inv.recs j)
    have hrin : RecIn W t := r4.recIn (by
      intro t' ht'
      rcases List.mem_cons.1 ht' with rfl | ht'
      · exact h5
      · obtain ⟨j, hj, rfl⟩ := List.mem_map.1 ht'
        exact h6 j hj)
    obtain ⟨hgood, hgr⟩ := hg.set H h r2 r3 hrok (h7 t r1) r5 (norec_of hW hrok hrin)
    have heq : (s1.set e.id t).types e.id = t := by simp [TState.set]
    refine ⟨hgood, heq, ?_, ?_⟩
    · intro j hj
      by_cases hje : j = e.id
      · rw [hje]
        dsimp only
        rw [heq]
        exact ⟨r2, hrin⟩
      · rw [zone_eq, List.mem_append, List.mem_singleton] at hj
        simp only [TState.set, if_neg hje]
        exact hz j (hj.resolve_right hje)
    · intro n he y hy
      dsimp only at he ⊢
      obtain ⟨d1, d2⟩ := h8 n he
      obtain ⟨⟨v, v1, v2, v3⟩, d4⟩ := d2 t r1
      have hzt : ∀ c ∈ e.zkids, ∀ j ∈ c.zone, s1.types j ≠ .infer := fun c hc j hj => (hz j (mem_zoneAll.2 ⟨c, hc, hj⟩)).1
      rcases zsub_kids.1 hy with rfl | ⟨c, hc, hy⟩
      · refine ⟨⟨v, v1, v2, by rw [heq]; exact Unf.grow hgr v _ v3⟩, fun j hj => ?_⟩
        rw [heq] at hj
        rcases d4 j hj with h | ⟨c, hc, y', hy', h⟩ | h
        · exact .inl h
        · refine .inr (.inl ⟨y', live_kids.2 (.inr ⟨?_, c, hc, hy'.zoneCongr fun j hj => hgr j (hzt c hc j hj)⟩), h⟩)
          rw [heq]
          cases t with
          | invisible => cases hj
          | regular t => cases t <;> first | rfl | cases hj
          | _ => rfl
        · exact .inr (.inr (h.grow hgr))
      · exact (d1 c hc y hy).grow hgr fun j hj => hzt c hc j (hy.zone j hj)

theorem SInv.setMsgs {s1 : TState} {err : Bool} {ms : List TMsg} {l : List TDiag} (h : SInv A k C D N path s1) (he : s1.error = true → err = true)
    (hl : ∀ d ∈ l, TFine A d) : SInv A k C D N path ⟨s1.types, err, ms, l⟩ :=
  ⟨h.deep, h.recs, h.fresh, h.full, h.node, h.direct, h.span, h.pos, h.norec, fun n h1 => h.rules n (by
    cases h2 : s1.error with
    | false => rfl
    | true => exact absurd (h1.symm.trans (he h2)) (by simp)), h.all, hl⟩

theorem Good.setMsgs {Z : List Nat} {s s1 : TState} {err : Bool} {ms : List TMsg} {l : List TDiag} (h : Good A k C D N path Z s s1) (he : s1.error = true → err = true)
    (hj : N → Sane A s1 → Sane A ⟨s1.types, err, ms, l⟩) (hl : ∀ d ∈ l, TFine A d) : Good A k C D N path Z s ⟨s1.types, err, ms, l⟩ :=
  ⟨h.inv.setMsgs he hl, h.grow, h.frame, fun h1 => he (h.err h1), fun n hs => hj n (h.just n hs)⟩

/-- The visit of an expression without visible children. -/
theorem surfLeaf_post (H : A.Ready k) {W : String → Prop} (hW : ∀ x, W x → ¬ N) {e : Expr} {s : TState} {t : IType} {ms : List TMsg}
    (h : Pre A k C D N path e s) (hk : e.zkids = [])
    (ht : t.settled = true) (hr : t.refs = []) (hp : t ≠ .regular (.tuple [])) (hn : NodeOk e t) {v : DType} (hv : HasType A e v) (hv2 : v.Flat)
    (hv3 : ∀ T, Unf T v t) (hms : N → ∀ x ∈ ms, x.blocking = false ∧ x.Justified A) :
    Outcome (surfStep e.id s (.ok (t, { s with msgs := s.msgs ++ ms }))) (SurfQ A k C D N path W e s) (¬ D) := by
  refine surfStep_post H hW h (.inr ⟨?_, ?_, settled_ne_infer ht, hp, by simp [hr], .settled ht, .settled ht, by simp [hr], ?_, ?_⟩)
  · rw [hk]; exact (Good.refl h.inv).setMsgs (fun h => h) (fun n hs => hs.more (hms n)) h.inv.fine
  · simp [hk, zoneAll]
  · intro t' ht'
    rw [reduce_leaf ht hr hp] at ht'
    cases ht'
    exact hn
  · intro _ _
    refine ⟨by simp [hk], fun t' ht' => ?_⟩
    rw [reduce_leaf ht hr hp] at ht'
    cases ht'
    exact ⟨⟨v, hv, hv2, hv3 _⟩, by simp [hr]⟩

/-- The same, without messages. -/
theorem surfLeaf_post' (H : A.Ready k) {W : String → Prop} (hW : ∀ x, W x → ¬ N) {e : Expr} {s : TState} {t : IType}
    (h : Pre A k C D N path e s) (hk : e.zkids = [])
    (ht : t.settled = true) (hr : t.refs = []) (hp : t ≠ .regular (.tuple [])) (hn : NodeOk e t) {v : DType} (hv : HasType A e v) (hv2 : v.Flat)
    (hv3 : ∀ T, Unf T v t) : Outcome (surfStep e.id s (.ok (t, s))) (SurfQ A k C D N path W e s) (¬ D) := by
  have := surfLeaf_post (ms := []) H hW h hk ht hr hp hn hv hv2 hv3 (by simp)
  simpa using this

/-- The visit of an expression with one visible child. -/
theorem surfUnary_post (H : A.Ready k) {W : String → Prop} (hW : ∀ x, W x → ¬ N) {e c : Expr} {s : TState} {x : Res (IType × TState)} {t : IType}
    (h : Pre A k C D N path e s)
    (hk : e.zkids = [c]) (hx : Outcome x (SurfQ A k C D N path W c s) (¬ D)) (h1 : t.settled = true) (h2 : t ≠ .regular (.tuple []))
    (h3 : ∀ j ∈ t.refs, j = k ∨ j = c.id) (hn : ∀ t, NodeOk e t)
    (hd : ∀ T v, T k = .regular (.rust spanTy) → HasType A c v → v.Flat → Unf T v (T c.id) → ∀ t', reduce T t = .ok t' →
      (∃ w, HasType A e w ∧ w.Flat ∧ Unf T w t') ∧ ∀ j ∈ t'.refs, j = k ∨ j = c.id ∨ ((T c.id).isUnitKind = false ∧ j ∈ (T c.id).refs)) :
    Outcome (surfStep e.id s (x >>= fun p => .ok (t, p.2))) (SurfQ A k C D N path W e s) (¬ D) := by
  refine surfStep_post H hW h (hx.bind ?_)
  rintro ⟨t0, s1⟩ ⟨hg, g1, g4, g5⟩
  dsimp only at g1 g4 g5 hg ⊢
  have hz : zoneAll e.zkids = c.zone := by simp [hk, zoneAll]
  have hspan : (s1.types k).settled = true := by rw [hg.inv.span]; rfl
  rw [Outcome, WalkQ, hz]
  refine .inr ⟨hg, g4, settled_ne_infer h1, h2, ?_, .settled h1, .settled h1, ?_, fun t _ => hn t, ?_⟩
  · intro j hj
    rcases h3 j hj with rfl | rfl
    · exact settled_ne_infer hspan
    · exact (g4 _ (id_mem_zone c)).1
  · intro j hj
    rcases h3 j hj with rfl | rfl
    · exact .settled hspan
    · exact (g4 _ (id_mem_zone c)).2
  · intro n he
    rw [hk]
    have hdoc := g5 n he
    refine ⟨by simpa using hdoc, fun t' ht' => ?_⟩
    obtain ⟨⟨v, v1, v2, v3⟩, v4⟩ := hdoc c .root
    obtain ⟨d1, d2⟩ := hd s1.types v hg.inv.span v1 v2 v3 t' ht'
    refine ⟨d1, fun j hj => ?_⟩
    rw [hk]
    rcases d2 j hj with h | rfl | ⟨_, h⟩
    · exact .inl h
    · exact .inr (.inl ⟨c, by simp, c, .root, rfl⟩)
    · rcases v4 j h with h | ⟨y, hy, h⟩ | h
      · exact .inl h
      · exact .inr (.inl ⟨c, by simp, y, hy, h⟩)
      · exact .inr (.inr h)

/-- The result of the visit of several expressions. -/
def AllQ (A : AGrammar) (k : Nat) (C D N : Prop) (path : List String) (W : String → Prop) (es : List Expr) (s : TState) (x : List IType × TState) : Prop :=
  Good A k C D N path (zoneAll es) s x.2 ∧ x.1 = es.map (fun e => x.2.types e.id) ∧ (∀ j ∈ zoneAll es, x.2.types j ≠ .infer ∧ RecIn W (x.2.types j)) ∧
    (N → x.2.error = false → ∀ e ∈ es, ∀ y, ZSub e y → NodeDoc A k x.2.types y)

theorem surfAll_post (H : A.Ready k) {W : String → Prop} {m : Nat} {call : String → TState → Res (IType × TState)} {e : Expr} {s : TState}
    (h : Pre A k C D N path e s) (ih : ∀ c ∈ e.zkids, ∀ s, Pre A k C D N path c s → Outcome (surfExpr A k m call c s) (SurfQ A k C D N path W c s) (¬ D)) :
    ∀ (pre es : List Expr), e.zkids = pre ++ es → ∀ s1, Good A k C D N path (zoneAll pre) s s1 →
      Outcome (surfAll A k m call es s1) (AllQ A k C D N path W es s1) (¬ D) := by
  have hnd : (indicesAll e.zkids).Nodup := by
    have := (kids_nodup (H.occurs_nodup h.occ)).1
    revert this
    cases e <;> simp [Expr.kids, Expr.zkids, indicesAll]
  intro pre es
  induction es generalizing pre with
  | nil =>
    intro hz s1 hg
    unfold surfAll
    exact ⟨Good.refl hg.inv, rfl, by simp [zoneAll], by simp⟩
  | cons c es ihl =>
    intro hz s1 hg
    have hc : c ∈ e.zkids := by rw [hz]; simp
    have hdis : ∀ d ∈ pre ++ es, ∀ j ∈ d.zone, j ∉ c.zone := by
      intro d hd j hj hj'
      have hdz : d ∈ e.zkids := by rw [hz]; simp at hd ⊢; grind
      rw [hz] at hnd
      have heq := indicesAll_unique (hz ▸ hnd) hc hdz (zone_indices _ _ hj') (zone_indices _ _ hj)
      subst heq
      have hall : ∀ l : List Expr, indicesAll l = l.flatMap Expr.indices := by
        intro l; induction l with
        | nil => rfl
        | cons x l ih => rw [indicesAll, ih]; rfl
      rw [hall, List.flatMap_append, List.flatMap_cons, List.nodup_append] at hnd
      obtain ⟨n1, n2, n3⟩ := hnd
      rw [List.nodup_append] at n2
      have hjc := zone_indices _ _ hj
      rcases List.mem_append.1 hd with hd | hd
      · exact n3 j (List.mem_flatMap.2 ⟨c, hd, hjc⟩) j (List.mem_append_left _ hjc) rfl
      · exact n2.2.2 j hjc j (List.mem_flatMap.2 ⟨c, hd, hjc⟩) rfl
    have hp : Pre A k C D N path c s1 := by
      refine h.kid H hc hg ?_ ?_
      · intro j hj
        obtain ⟨d, hd, hj⟩ := mem_zoneAll.1 hj
        exact ⟨d, by rw [hz]; simp [hd], hj⟩
      · intro j hj
        obtain ⟨d, hd, hj⟩ := mem_zoneAll.1 hj
        exact hdis d (by simp [hd]) j hj
    rw [surfAll]
    refine (ih c hc s1 hp).bind ?_
    rintro ⟨t, s2⟩ ⟨g1, g2, g5, g6⟩
    dsimp only at g1 g2 g5 g6 ⊢
    have hg2 : Good A k C D N path (zoneAll (pre ++ [c])) s s2 := by
      have := hg.trans g1
      refine this.mono ?_
      intro j hj
      rcases List.mem_append.1 hj with hj | hj
      · obtain ⟨d, hd, hj⟩ := mem_zoneAll.1 hj
        exact mem_zoneAll.2 ⟨d, by simp [hd], hj⟩
      · exact mem_zoneAll.2 ⟨c, by simp, hj⟩
    refine (ihl (pre ++ [c]) (by rw [hz]; simp) s2 hg2).bind ?_
    rintro ⟨ts, s3⟩ ⟨k1, k2, k4, k5⟩
    dsimp only at k1 k2 k4 k5 ⊢
    have hsame : ∀ j ∈ c.zone, s3.types j = s2.types j := fun j hj => k1.grow j (g5 j hj).1
    have hcid := hsame _ (id_mem_zone c)
    refine ⟨(g1.trans k1).mono (by simp [zoneAll]), ?_, ?_, ?_⟩
    · rw [List.map_cons, hcid, g2, ← k2]
    · intro j hj
      rw [zoneAll, List.mem_append] at hj
      rcases hj with hj | hj
      · show s3.types j ≠ .infer ∧ RecIn W (s3.types j)
        rw [hsame j hj]; exact g5 j hj
      · exact k4 j hj
    · intro n he
      refine List.forall_mem_cons.2 ⟨fun y hy => ?_, k5 n he⟩
      have he2 : s2.error = false := by
        cases h2 : s2.error with
        | false => rfl
        | true => exact absurd (he.symm.trans (k1.err h2)) (by simp)
      exact (g6 n he2 y hy).grow k1.grow fun j hj => (g5 j (hy.zone j hj)).1

theorem written_settled {t : IType} (h : t.Written) : t.settled = true ∧ t.refs = [] ∧ t ≠ .regular (.tuple []) := by
  rcases h with rfl | rfl | ⟨s, rfl⟩ <;> exact ⟨rfl, rfl, by simp⟩

theorem resolveAction_settled (A : AGrammar) (i : Nat) (boxed : Bool) (f : Path) :
    (resolveAction A i boxed f).1.settled = true ∧ (resolveAction A i boxed f).1.refs = [] ∧ (resolveAction A i boxed f).1 ≠ .regular (.tuple []) := by
  unfold resolveAction
  split
  · split
    · split <;> exact ⟨rfl, rfl, by simp⟩
    · exact ⟨rfl, rfl, by simp⟩
  · exact ⟨rfl, rfl, by simp⟩

theorem actionType_unf (A : AGrammar) (i : Nat) (boxed : Bool) (f : Path) : (actionType A boxed f).Flat ∧ ∀ T, Unf T (actionType A boxed f) (resolveAction A i boxed f).1 := by
  unfold actionType resolveAction
  split
  · split
    · split <;> exact ⟨trivial, fun T => by simp [Unf, *]⟩
    · exact ⟨trivial, fun T => by simp [Unf, *]⟩
  · exact ⟨trivial, fun T => by simp [Unf]⟩

theorem ascribed_unf {ty : IType} (h : ty.Written) : ∃ v, AscribedType ty v ∧ v.Flat ∧ ∀ T, Unf T v ty := by
  rcases h with rfl | rfl | ⟨s, rfl⟩
  · exact ⟨_, .hidden, trivial, fun T => by simp [Unf]⟩
  · exact ⟨_, .unit, trivial, fun T => by simp [Unf]⟩
  · exact ⟨_, .rust, trivial, fun T => by simp [Unf]⟩

theorem list_doc {e : Expr} {c : Nat} {T : Nat → IType} {v : DType} (hv : Unf T v (T c)) (h1 : v ≠ .hidden → HasType A e (.list v))
    (h2 : v = .hidden → HasType A e .hidden) : ∀ t', reduce T (.regular (.list c)) = .ok t' →
      (∃ w, HasType A e w ∧ w.Flat ∧ Unf T w t') ∧ ∀ j ∈ t'.refs, j = k ∨ j = c ∨ ((T c).isUnitKind = false ∧ j ∈ (T c).refs) := by
  intro t' ht'
  unfold reduce at ht'
  dsimp only at ht'
  cases ht'
  rcases reduceUnary_unf (.regular (.list c)) hv with ⟨a, b⟩ | ⟨a, b⟩
  · rw [b]; exact ⟨⟨.hidden, h2 a, trivial, by simp [Unf]⟩, by simp [IType.refs]⟩
  · rw [b]; exact ⟨⟨.list v, h1 a, a, by unfold Unf; exact ⟨c, rfl, hv⟩⟩, by simp [IType.refs]⟩

theorem option_doc {e : Expr} {c : Nat} {T : Nat → IType} {v : DType} (hv : Unf T v (T c)) (h1 : v ≠ .hidden → HasType A e (.option v))
    (h2 : v = .hidden → HasType A e .hidden) : ∀ t', reduce T (.regular (.optional c)) = .ok t' →
      (∃ w, HasType A e w ∧ w.Flat ∧ Unf T w t') ∧ ∀ j ∈ t'.refs, j = k ∨ j = c ∨ ((T c).isUnitKind = false ∧ j ∈ (T c).refs) := by
  intro t' ht'
  unfold reduce at ht'
  dsimp only at ht'
  cases ht'
  rcases reduceUnary_unf (.regular (.optional c)) hv with ⟨a, b⟩ | ⟨a, b⟩
  · rw [b]; exact ⟨⟨.hidden, h2 a, trivial, by simp [Unf]⟩, by simp [IType.refs]⟩
  · rw [b]; exact ⟨⟨.option v, h1 a, a, by unfold Unf; exact ⟨c, rfl, hv⟩⟩, by simp [IType.refs]⟩

theorem span_doc {i c : Nat} {e : Expr} {T : Nat → IType} {v : DType} (hk : T k = .regular (.rust spanTy)) (h : HasType A e v) (hf : v.Flat) (hv : Unf T v (T c)) :
    ∀ t', reduce T (.regular (.tuple [k, c])) = .ok t' →
      (∃ w, HasType A (.span i e) w ∧ w.Flat ∧ Unf T w t') ∧ ∀ j ∈ t'.refs, j = k ∨ j = c ∨ ((T c).isUnitKind = false ∧ j ∈ (T c).refs) := by
  intro t' ht'
  unfold reduce at ht'
  dsimp only at ht'
  have hall : UnfAll T [.rust spanTy, v] [k, c] := ⟨k, [c], rfl, by rw [hk]; simp [Unf], c, [], rfl, hv, rfl⟩
  rcases reduceTuple_unf hall (by simpa [DType.Flat] using hf) (by simp) ht' with ⟨h1, _⟩ | ⟨_, h2, h3, h4⟩
  · exact absurd (h1 (.rust spanTy) (by simp)) (by simp)
  · refine ⟨⟨_, .span h, ?_, ?_⟩, fun j hj => ?_⟩
    · simpa [DType.parts, spanTy] using h3
    · simpa [DType.parts, spanTy] using h2
    · obtain ⟨x, hx, hu, hx'⟩ := h4 j hj
      simp only [List.mem_cons, List.not_mem_nil, or_false] at hx
      rcases hx with rfl | rfl
      · rcases hx' with h | h
        · exact .inl h
        · rw [hk] at h; cases h
      · rcases hx' with h | h
        · exact .inr (.inl h)
        · exact .inr (.inr ⟨hu, h⟩)

/-- The types of several expressions. -/
theorem hasTypes_of {T : Nat → IType} (es : List Expr) (h : ∀ e ∈ es, Doc A T e) :
    ∃ vs, HasTypes A es vs ∧ (∀ v ∈ vs, v.Flat) ∧ UnfAll T vs (es.map Expr.id) ∧ UnfL T vs (es.map fun e => T e.id) := by
  induction es with
  | nil => exact ⟨[], .nil, by simp, rfl, .nil⟩
  | cons e es ih =>
    rw [List.forall_mem_cons] at h
    obtain ⟨v, h1, h2, h3⟩ := h.1
    obtain ⟨vs, h4, h5, h6, h7⟩ := ih h.2
    exact ⟨v :: vs, .cons h1 h4, List.forall_mem_cons.2 ⟨h2, h5⟩, ⟨e.id, es.map Expr.id, rfl, h3, h6⟩, .cons h3 h7⟩

theorem action_justified {i : Nat} {c : Expr} {b : Bool} {f : Path} (ho : Occurs A.grammar (.act i c b f)) :
    ∀ x ∈ (resolveAction A i b f).2, x.blocking = false ∧ x.Justified A := by
  intro x hx
  unfold resolveAction at hx
  split at hx
  · rename_i f
    split at hx
    · rename_i d fn hf
      split at hx
      · rename_i hr
        simp only [List.mem_singleton] at hx
        subst hx
        exact ⟨rfl, c, b, f, d, fn, ho, hf, .inl hr⟩
      · rename_i t hr
        dsimp only at hx
        split at hx
        · rename_i ht
          simp only [List.mem_singleton] at hx
          subst hx
          exact ⟨rfl, c, b, f, d, fn, ho, hf, .inr (by rw [hr, ht])⟩
        · cases hx
    · cases hx
  · cases hx

/-- The visit of an expression. -/
theorem surfExpr_post (H : A.Ready k) {W : String → Prop} {m : Nat} (hm : k + 2 ≤ m) (hW : ∀ x, W x → ¬ N) {call : String → TState → Res (IType × TState)}
    (e : Expr)
    (hcall : ∀ r ∈ e.seenCalls, (∃ b, A.grammar.find r = some b) → ∀ s, SInv A k C D N path s → PathInfer A path s.types →
      Outcome (call r s) (CallQ A k C D N path W r s) (¬ D)) :
    ∀ s, Pre A k C D N path e s → Outcome (surfExpr A k m call e s) (SurfQ A k C D N path W e s) (¬ D) := by
  induction e using Expr.kidsInd with
  | _ e ih =>
    intro s h
    have hkid : ∀ c ∈ e.zkids, ∀ s, Pre A k C D N path c s → Outcome (surfExpr A k m call c s) (SurfQ A k C D N path W c s) (¬ D) :=
      fun c hc => ih c (zkids_sub hc) fun r hr => hcall r (kids_seenCalls hc hr)
    have hpre : ∀ c ∈ e.zkids, Pre A k C D N path c s := fun c hc => h.kid H hc (Good.refl h.inv) (by simp) (by simp)
    have hfill := H.occurs_filled h.occ
    cases e with
    | str i l => unfold surfExpr; exact surfLeaf_post' H hW h rfl rfl rfl (by simp) trivial .str trivial (by simp [Unf])
    | any i => unfold surfExpr; exact surfLeaf_post' H hW h rfl rfl rfl (by simp) trivial .any trivial (by simp [Unf])
    | cls i l => unfold surfExpr; exact surfLeaf_post' H hW h rfl rfl rfl (by simp) trivial .cls trivial (by simp [Unf])
    | ext i l => unfold surfExpr; exact surfLeaf_post' H hW h rfl rfl rfl (by simp) trivial .ext trivial (by simp [Unf])
    | not i c => unfold surfExpr; exact surfLeaf_post' H hW h rfl rfl rfl (by simp) (.inr rfl) .not trivial (by simp [Unf])
    | and i c => unfold surfExpr; exact surfLeaf_post' H hW h rfl rfl rfl (by simp) (.inr rfl) .and trivial (by simp [Unf])
    | act i c b f =>
      unfold surfExpr
      obtain ⟨h1, h2, h3⟩ := resolveAction_settled A i b f
      obtain ⟨h4, h5⟩ := actionType_unf A i b f
      exact surfLeaf_post H hW h rfl h1 h2 h3 trivial .act h4 h5 fun _ => action_justified h.occ
    | asc i c ty =>
      unfold surfExpr
      have hw := written_settled (H.written i c ty h.occ)
      obtain ⟨v, h4, h5, h6⟩ := ascribed_unf (H.written i c ty h.occ)
      exact surfLeaf_post' H hW h rfl hw.1 hw.2.1 hw.2.2 (.inr (.inl rfl)) (.asc h4) h5 h6
    | nt i r =>
      unfold surfExpr
      refine surfStep_post H hW h ?_
      refine (hcall r (by simp [Expr.seenCalls]) (H.declared h.occ) s h.inv h.pinf).mono ?_ id
      rintro ⟨t, s1⟩ (hq | ⟨h1, h2, h3, h4, h5, h6, h7⟩)
      · exact .inl hq
      · refine .inr ⟨h2, by simp [Expr.zkids, zoneAll], h1, h6, fun j hj => settled_ne_infer (h5 j hj), h3, h4, fun j hj => .settled (h5 j hj), fun _ _ => trivial,
          fun n he => ⟨by simp [Expr.zkids], fun t' ht' => ?_⟩⟩
        dsimp only at ht' ⊢
        obtain ⟨b, b1, b2, ⟨⟨v, v1, v2, v3⟩, v4⟩, b4⟩ := h7 n he
        dsimp only at b2
        subst b2
        rw [reduce_flat v2 v3] at ht'
        cases ht'
        refine ⟨⟨v, .nt b1 v1, v2, v3⟩, fun j hj => ?_⟩
        rcases v4 j hj with h | ⟨y, hy, h⟩ | h
        · exact .inl h
        · exact .inr (.inr ⟨r, b, y, b1, b4, hy, h⟩)
        · exact .inr (.inr h)
    | star i c =>
      unfold surfExpr
      exact surfUnary_post H hW h rfl (hkid c (by simp [Expr.zkids]) s (hpre c (by simp [Expr.zkids]))) rfl (by simp) (by simp [IType.refs]) (fun _ => trivial)
        fun T v _ v1 v2 v3 => list_doc v3 (.star v1) fun h => .starHidden (h ▸ v1)
    | plus i c =>
      unfold surfExpr
      exact surfUnary_post H hW h rfl (hkid c (by simp [Expr.zkids]) s (hpre c (by simp [Expr.zkids]))) rfl (by simp) (by simp [IType.refs]) (fun _ => trivial)
        fun T v _ v1 v2 v3 => list_doc v3 (.plus v1) fun h => .plusHidden (h ▸ v1)
    | opt i c =>
      unfold surfExpr
      exact surfUnary_post H hW h rfl (hkid c (by simp [Expr.zkids]) s (hpre c (by simp [Expr.zkids]))) rfl (by simp) (by simp [IType.refs]) (fun _ => trivial)
        fun T v _ v1 v2 v3 => option_doc v3 (.opt v1) fun h => .optHidden (h ▸ v1)
    | span i c =>
      unfold surfExpr
      exact surfUnary_post H hW h rfl (hkid c (by simp [Expr.zkids]) s (hpre c (by simp [Expr.zkids]))) rfl (by simp) (by simp [IType.refs]) (fun _ => trivial)
        fun T v hk v1 v2 v3 => span_doc hk v1 v2 v3
    | range i c =>
      unfold surfExpr
      exact surfUnary_post H hW h rfl (hkid c (by simp [Expr.zkids]) s (hpre c (by simp [Expr.zkids]))) rfl (by simp) (by simp [IType.refs]) (fun _ => trivial)
        fun T v _ v1 v2 v3 t' ht' => by
          cases ht'
          exact ⟨⟨_, .range v1, trivial, by simp [Unf, rangeTy]⟩, by simp [IType.refs]⟩
    | seq i es =>
      unfold surfExpr
      have hne : es ≠ [] := by
        simp only [Expr.filled, Bool.and_eq_true, Bool.not_eq_true', List.isEmpty_eq_false_iff] at hfill
        exact hfill.1
      refine surfStep_post H hW h ((surfAll_post H h hkid [] es rfl s (Good.refl h.inv)).bind ?_)
      rintro ⟨tys, s1⟩ ⟨g1, g2, g4, g5⟩
      dsimp only at g1 g2 g4 g5 ⊢
      have g3 : ∀ e ∈ es, s1.types e.id ≠ .infer ∧ RecIn W (s1.types e.id) := fun e he => g4 _ (mem_zoneAll.2 ⟨e, he, id_mem_zone e⟩)
      refine .inr ⟨g1, g4, by simp, by simpa using hne, ?_, .settled rfl, .settled rfl, ?_, fun _ _ => trivial, fun n he => ⟨g5 n he, fun t ht => ?_⟩⟩
      · intro j hj
        obtain ⟨e, he, rfl⟩ := List.mem_map.1 hj
        exact (g3 e he).1
      · intro j hj
        obtain ⟨e, he, rfl⟩ := List.mem_map.1 hj
        exact (g3 e he).2
      · dsimp only at ht ⊢
        have hdoc := g5 n he
        obtain ⟨vs, v1, v2, v3, v4⟩ := hasTypes_of es fun e he => (hdoc e he e .root).1
        unfold reduce at ht
        dsimp only at ht
        rcases reduceTuple_unf v3 v2 (by simpa using hne) ht with ⟨a1, rfl⟩ | ⟨a1, a2, a3, a4⟩
        · exact ⟨⟨_, .seqHidden v1 a1, trivial, by simp [Unf]⟩, by simp [IType.refs]⟩
        · refine ⟨⟨_, .seq v1 a1, a3, a2⟩, fun j hj => ?_⟩
          obtain ⟨x, hx, hu, hj⟩ := a4 j hj
          obtain ⟨e, he, rfl⟩ := List.mem_map.1 hx
          rcases hj with rfl | hj
          · exact .inr (.inl ⟨e, he, e, .root, rfl⟩)
          · rcases (hdoc e he e .root).2 j hj with h | ⟨y, hy, h⟩ | h
            · exact .inl h
            · exact .inr (.inl ⟨e, he, y, hy, h⟩)
            · exact .inr (.inr h)
    | choice i es =>
      unfold surfExpr
      have hne : es ≠ [] := by
        simp only [Expr.filled, Bool.and_eq_true, Bool.not_eq_true', List.isEmpty_eq_false_iff] at hfill
        exact hfill.1
      refine surfStep_post H hW h ((surfAll_post H h hkid [] es rfl s (Good.refl h.inv)).bind ?_)
      rintro ⟨tys, s1⟩ ⟨g1, g2, g4, g5⟩
      dsimp only at g1 g2 g4 g5 ⊢
      have g3 : ∀ e ∈ es, s1.types e.id ≠ .infer ∧ RecIn W (s1.types e.id) := fun e he => g4 _ (mem_zoneAll.2 ⟨e, he, id_mem_zone e⟩)
      subst g2
      obtain ⟨o, ho, ho'⟩ := reduceSum_post (T := s1.types) (m := m) (n := cnt k s1.types + 1) (by have := cnt_le k s1.types; omega)
        (tys := es.map fun e => s1.types e.id) (by simpa using hne)
        (by intro t ht; obtain ⟨e, he, rfl⟩ := List.mem_map.1 ht; exact g1.inv.deep _)
        (by intro t ht; obtain ⟨e, he, rfl⟩ := List.mem_map.1 ht; exact (g3 e he).1)
        (by intro rs hrs; obtain ⟨e, he, h⟩ := List.mem_map.1 hrs; exact g1.inv.recFilled _ _ h)
      unfold surfChoice
      rw [ho]
      cases o with
      | none =>
        have hj : N → s1.error = false → TDoc A (.mismatch i (es.map fun e => s1.types e.id) s1.types) := fun n he => by
          obtain ⟨vs, v1, v2, v3, v4⟩ := hasTypes_of es fun e he' => (g5 n he e he' e .root).1
          exact ⟨es, vs, h.occ, v1, v2, reduceSum_none v4 ho, v4⟩
        have hl : ∀ d ∈ s1.log ++ [.mismatch i (es.map fun e => s1.types e.id) s1.types], TFine A d := by
          intro d hd
          rcases List.mem_append.1 hd with hd | hd
          · exact g1.inv.fine d hd
          · rw [List.mem_singleton] at hd
            subst hd
            refine ⟨⟨es, h.occ, by simp⟩, fun t ht => ?_, fun rs hrs => ?_⟩
            · obtain ⟨e, he, rfl⟩ := List.mem_map.1 ht
              exact ⟨(g3 e he).1, _, g1.inv.deep _⟩
            · obtain ⟨e, he, h⟩ := List.mem_map.1 hrs
              obtain ⟨r1, r2⟩ := g1.inv.recs _ _ h
              exact ⟨r1, fun p hp => ⟨(r2 p hp).1, fun x hx => let ⟨b, hb, _⟩ := (r2 p hp).2 x hx; ⟨b, hb⟩⟩⟩
        exact .inr ⟨g1.setMsgs (fun _ => rfl) (fun n hs => hs.fail rfl rfl (hj n)) hl, g4, by simp, by simp, by simp [IType.refs], .settled rfl, .settled rfl, by simp [IType.refs], fun _ _ => trivial,
          fun _ he => absurd he (by simp)⟩
      | some t =>
        obtain ⟨o1, o2, o3, o4⟩ := ho' t rfl
        have hs : ∀ j ∈ t.refs, (s1.types j).settled = true := by
          rcases o3 with o3 | o3
          · obtain ⟨e, he, rfl⟩ := List.mem_map.1 o3
            exact fun j hj => g1.inv.deep.ref hj
          · simp [o3]
        refine .inr ⟨g1, g4, o1, ?_, fun j hj => settled_ne_infer (hs j hj), o2.recOk ?_, o2.recIn ?_, fun j hj => .settled (hs j hj), fun _ _ => trivial,
          fun n he => ⟨g5 n he, fun t' ht' => ?_⟩⟩
        · by_cases o5 : t ∈ es.map fun e => s1.types e.id
          · obtain ⟨e, he, rfl⟩ := List.mem_map.1 o5
            exact g1.inv.pos _
          · exact o4 o5
        · intro t ht; obtain ⟨e, he, rfl⟩ := List.mem_map.1 ht; exact g1.inv.recs _
        · intro t ht; obtain ⟨e, he, rfl⟩ := List.mem_map.1 ht; exact (g3 e he).2
        · dsimp only at ht' he ⊢
          have hdoc := g5 n he
          obtain ⟨vs, v1, v2, v3, v4⟩ := hasTypes_of es fun e he => (hdoc e he e .root).1
          obtain ⟨v, w1, w2, w3⟩ := reduceSum_unf v4 (by simpa using hne) ho
          have hf := w1.flat v2
          rw [reduce_flat hf w2] at ht'
          cases ht'
          refine ⟨⟨v, .choice v1 w1, hf, w2⟩, fun j hj => ?_⟩
          rcases w3 with rfl | ⟨w3, _⟩
          · cases hj
          · obtain ⟨e, he, rfl⟩ := List.mem_map.1 w3
            rcases (hdoc e he e .root).2 j hj with h | ⟨y, hy, h⟩ | h
            · exact .inl h
            · exact .inr (.inl ⟨e, he, y, hy, h⟩)
            · exact .inr (.inr h)

end

end Typing

end Oak
