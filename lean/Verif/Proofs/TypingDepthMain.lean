import Verif.Proofs.TypingDepth
/-!
The depth inference of all the expressions.
-/
set_option linter.constructorNameAsVariable false
set_option autoImplicit false

namespace Oak
namespace Typing

section
variable {A : AGrammar} {k : Nat} {N : Prop} {L : Nat → Prop}

/-- Progress of the depth inference in the expressions `Z`. -/
structure Prog (A : AGrammar) (k : Nat) (N : Prop) (L : Nat → Prop) (Z : List Nat) (s s' : TState) : Prop where
  inv : DInv A k N L s'
  frame : ∀ j, s'.types j ≠ s.types j → j ∈ Z ∧ ¬ L j
  err : s.error = true → s'.error = true
  just : N → Sane A s → Sane A s'

theorem Prog.same {Z : List Nat} {s s' : TState} (h : Prog A k N L Z s s') {j : Nat} (hj : j ∉ Z) : s'.types j = s.types j := by
  by_cases hs : s'.types j = s.types j
  · exact hs
  · exact absurd (h.frame j hs).1 hj

theorem Prog.prot {Z : List Nat} {s s' : TState} (h : Prog A k N L Z s s') (h0 : DInv A k N L s) : ∀ j, Prot A k s.types j → s'.types j = s.types j := by
  intro j hj
  by_cases hs : s'.types j = s.types j
  · exact hs
  · exact absurd ((h0.prot j).2 hj) (h.frame j hs).2

theorem Prog.refl {s : TState} (h : DInv A k N L s) : Prog A k N L [] s s := ⟨h, fun _ h => absurd rfl h, id, fun _ h => h⟩

theorem Prog.trans {Z Z' : List Nat} {s s' s'' : TState} (h : Prog A k N L Z s s') (h' : Prog A k N L Z' s' s'') : Prog A k N L (Z ++ Z') s s'' := by
  refine ⟨h'.inv, fun j hj => ?_, fun he => h'.err (h.err he), fun n hs => h'.just n (h.just n hs)⟩
  by_cases hs : s''.types j = s'.types j
  · rw [hs] at hj
    exact ⟨List.mem_append_left _ (h.frame j hj).1, (h.frame j hj).2⟩
  · exact ⟨List.mem_append_right _ (h'.frame j hs).1, (h'.frame j hs).2⟩

theorem DPost.prog {u : Bool} {a : Option IType} {e : Expr} {s s' : TState} (h : DPost A k N L u a e s s') : Prog A k N L e.indices s s' :=
  ⟨h.inv, h.frame, h.err, h.just⟩

theorem Prog.doc {Z : List Nat} {s s' : TState} (h : Prog A k N L Z s s') (h0 : DInv A k N L s) (n : N) (he : s'.error = false) {c : Expr}
    (hc : ∀ j ∈ c.indices, j ∉ Z) (hd : RuleDoc A k s.types c) : RuleDoc A k s'.types c :=
  RuleDoc.stable h0.sinv.span (h0.rules n (err_back h.err he)) h.inv.full (h.prot h0) (fun y hy => h.same (hc _ (live_ids hy))) hd

theorem Prog.done {Z : List Nat} {s s' : TState} (h : Prog A k N L Z s s') (h0 : DInv A k N L s) (n : N) (he : s'.error = false) {c : Expr} {a : Bool}
    (hc : ∀ j ∈ c.indices, j ∉ Z) (hd : Done A k s.types a c) : Done A k s'.types a c :=
  hd.congr h0.sinv.span (h0.rules n (err_back h.err he)) h.inv.full (h.prot h0) fun j hj => h.same (hc j hj)

theorem _root_.Oak.Under.zkid {c e d : Expr} (h : Under c e) (hd : d ∈ e.zkids) : Under c d := by
  cases e <;> simp only [Expr.zkids, List.mem_singleton, List.not_mem_nil] at hd
  case seq => exact .seq h hd
  case choice => exact .choice h hd
  case star => subst hd; exact .star h
  case plus => subst hd; exact .plus h
  case opt => subst hd; exact .opt h
  case span => subst hd; exact .span h
  case range => subst hd; exact .range h

/-- Before the visit of a child whose type was inferred with that of the expression. -/
theorem DMid.kid (H : A.Ready k) {u : Bool} {a a' : Option IType} {e c : Expr} {s s2 : TState} {Z : List Nat} (h : DMid A k N L u a e s) (hc : c ∈ e.zkids)
    (hp : Prog A k N L Z s s2) (hZ : ∀ j ∈ c.indices, j ∉ Z) (ha : a' = a ∨ a' = none)
    (hpart : a' ≠ none → N → s2.error = false → s.error = false → u = false → ∀ d, AscPart A d e → AscPart A d c) : DPre A k N L u a' c s2 := by
  have hne : ∀ j ∈ c.indices, j ≠ e.id := fun j hj he => id_not_kid H h.occ (zkids_sub hc) (he ▸ hj)
  have hsub : ∀ j ∈ c.indices, j ∈ e.indices := sub_indices (.kid (zkids_sub hc))
  have hane : ∀ t, a' = some t → a = some t := fun t ht => by
    rcases ha with rfl | rfl
    · exact ht
    · cases ht
  refine ⟨hp.inv, h.occ.kid (zkids_sub hc), ?_, ?_, fun t ht => h.writ t (hane t ht), fun he hu t ht => h.rust (err_back hp.err he) hu t (hane t ht), ?_, ?_, ?_, ?_⟩
  · intro j hj hz
    rw [hp.same (hZ j hj)]
    exact h.hid j (hsub j hj) fun h0 => hz (zone_kid H h.occ hc hj h0)
  · intro he hu j hj
    rw [hp.same (hZ j (zone_indices _ _ hj))]
    exact h.zone (err_back hp.err he) hu c hc j hj
  · intro hua j hj
    refine h.low ?_ j (hsub j hj) (hne j hj)
    rcases hua with h0 | h0
    · exact .inl h0
    · rcases ha with rfl | rfl
      · exact .inr h0
      · exact absurd rfl h0
  · intro j hj hL
    obtain ⟨y, hy, rfl⟩ := h.high j (hsub j hj) hL
    exact ⟨y, (live_in_kid H h.occ hc hy hj).zoneCongr fun i hi => hp.same (hZ i (zone_indices _ _ hi)), rfl⟩
  · intro n he hu
    exact hp.doc h.inv n he hZ (h.doc n (err_back hp.err he) hu c hc)
  · intro t ht
    obtain ⟨j, d, d1, d2, d3⟩ := h.ctx t (hane t ht)
    refine ⟨j, d, d1, d2.zkid hc, fun n he hu => ?_⟩
    have he1 := err_back hp.err he
    exact hpart (by rw [ht]; simp) n he he1 hu d (d3 n he1 hu)

/-- After the visit of several expressions; `all` tells that the ascription holds for all of them. -/
structure LPost (A : AGrammar) (k : Nat) (N : Prop) (L : Nat → Prop) (all : Prop) (u : Bool) (a : Option IType) (es : List Expr) (s s' : TState) : Prop where
  prog : Prog A k N L (indicesAll es) s s'
  keep : u = false → a = none → ∀ c ∈ es, ∀ y, Live s.types c y → s'.types y.id = s.types y.id
  full : s'.error = false → ∀ c ∈ es, ∀ j ∈ c.indices, s'.types j ≠ .infer
  done : N → s'.error = false → u = false → ∀ c ∈ es, (a = none → Done A k s'.types false c) ∧
    (a ≠ none → (Done A k s'.types true c ∧ (s.types c.id).isUnitKind = false) ∨
      ((s.types c.id).isUnitKind = true ∧ (s'.types c.id).isUnitKind = true ∧ ¬ all))

theorem list_post {all : Prop} {m : Nat} {surf : Expr → TState → Res (IType × TState)} {u : Bool} {a : Option IType} {F : List Expr → TState → Res TState}
    {g : TState → Expr → Option IType} (hF0 : ∀ s, F [] s = .ok s) (hF : ∀ c cs s, F (c :: cs) s = depthExpr m surf u (g s c) c s >>= F cs)
    (hg : ∀ s c, g s c = a ∨ (g s c = none ∧ (s.types c.id).isUnitKind = true ∧ ¬ all)) :
    ∀ (es : List Expr) (s : TState), DInv A k N L s → (indicesAll es).Nodup →
    (∀ c ∈ es, ∀ s2 Z, Prog A k N L Z s s2 → (∀ j ∈ c.indices, j ∉ Z) → DPre A k N L u (g s2 c) c s2) →
    (∀ c ∈ es, ∀ a' s2, DPre A k N L u a' c s2 → Outcome (depthExpr m surf u a' c s2) (DPost A k N L u a' c s2) False) →
    Outcome (F es s) (LPost A k N L all u a es s) False := by
  intro es
  induction es with
  | nil =>
    intro s h _ _ _
    rw [hF0]
    exact ⟨Prog.refl h, by simp, by simp, by simp⟩
  | cons c es ih =>
    intro s h hn hpre hih
    rw [indicesAll, List.nodup_append] at hn
    rw [List.forall_mem_cons] at hpre hih
    have hga : g s c = a ∨ g s c = none := (hg s c).imp id And.left
    have hcz : ∀ d ∈ es, ∀ j ∈ d.indices, j ∉ c.indices := fun d hd j hj hj' => hn.2.2 j hj' j (mem_indicesAll.2 ⟨d, hd, hj⟩) rfl
    have hzc : ∀ j ∈ c.indices, j ∉ indicesAll es := fun j hj hj' => hn.2.2 j hj j hj' rfl
    rw [hF]
    have hp0 : DPre A k N L u (g s c) c s := hpre.1 s [] (Prog.refl h) (by simp)
    refine (hih.1 (g s c) s hp0).bind ?_
    intro s1 q
    refine (ih s1 q.inv hn.2.1 ?_ hih.2).mono ?_ id
    · intro d hd s2 Z hp hZ
      refine hpre.2 d hd s2 _ (q.prog.trans hp) ?_
      intro j hj hj'
      rcases List.mem_append.1 hj' with hj' | hj'
      · exact hcz d hd j hj hj'
      · exact hZ j hj hj'
    · intro s2 p
      have hlive : ∀ d ∈ es, ∀ y, Live s.types d y → Live s1.types d y := fun d hd y hy =>
        hy.zoneCongr fun j hj => q.prog.same (hcz d hd j (zone_indices _ _ hj))
      refine ⟨by rw [indicesAll]; exact q.prog.trans p.prog, ?_, ?_, ?_⟩
      · intro hu ha
        have hgn : g s c = none := by
          rcases hga with h | h
          · rw [h, ha]
          · exact h
        refine List.forall_mem_cons.2 ⟨fun y hy => ?_, fun d hd y hy => ?_⟩
        · rw [p.prog.same (hzc _ (live_ids hy))]
          exact q.keep hu hgn y hy
        · rw [p.keep hu ha d hd y (hlive d hd y hy)]
          exact q.prog.same (hcz d hd _ (live_ids hy))
      · intro he
        refine List.forall_mem_cons.2 ⟨fun j hj => ?_, p.full he⟩
        rw [p.prog.same (hzc j hj)]
        exact q.full (err_back p.prog.err he) j hj
      · intro n he hu
        refine List.forall_mem_cons.2 ⟨?_, fun d hd => ?_⟩
        · have hd := q.done n (err_back p.prog.err he) hu
          have hst : ∀ {b}, Done A k s1.types b c → Done A k s2.types b c := fun h => p.prog.done q.inv n he hzc h
          refine ⟨fun ha => hst (hd.1 ?_), fun ha => ?_⟩
          · rcases hga with h | h
            · rw [h, ha]
            · exact h
          · rcases hg s c with h | ⟨h, hun, hall⟩
            · have hdt := hd.2 (by rw [h]; exact ha)
              refine .inl ⟨hst hdt, ?_⟩
              obtain ⟨x, hx⟩ := hdt.rust rfl
              rcases q.own hu with ho | ho
              · rw [← ho, hx]; rfl
              · rw [ho]; rfl
            · refine .inr ⟨hun, ?_, hall⟩
              rw [p.prog.same (hzc _ (id_mem_indices c)), q.keep hu h c .root]
              exact hun
        · obtain ⟨d1, d2⟩ := p.done n he hu d hd
          refine ⟨d1, fun ha => ?_⟩
          rw [← q.prog.same (hcz d hd _ (id_mem_indices d))]
          exact d2 ha

/-- After the visit of the children, if they were inferred with the expression. -/
theorem LPost.wpost (H : A.Ready k) {all : Prop} {u : Bool} {a : Option IType} {e : Expr} {s s' : TState} (h : DMid A k N L u a e s) (hk : e.kids = e.zkids)
    (p : LPost A k N L all u a e.zkids s s') (hd : N → s'.error = false → u = false → a ≠ none → Done A k s'.types true e) :
    WPost A k N L u a e s s' := by
  have hsub : ∀ {j}, j ∈ indicesAll e.zkids → j ∈ e.indices ∧ j ≠ e.id := fun {j} hj => by
    obtain ⟨c, hc, hj⟩ := mem_indicesAll.1 hj
    exact ⟨sub_indices (.kid (zkids_sub hc)) j hj, fun he => id_not_kid H h.occ (zkids_sub hc) (he ▸ hj)⟩
  refine ⟨p.prog.inv, fun j hj => ⟨(hsub (p.prog.frame j hj).1).1, (hsub (p.prog.frame j hj).1).2, (p.prog.frame j hj).2⟩, ?_, p.prog.err, ?_, ?_, p.prog.just⟩
  · intro hu ha y hy
    rcases live_kids.1 hy with rfl | ⟨_, c, hc, hy⟩
    · exact p.prog.same fun h0 => (hsub h0).2 rfl
    · exact p.keep hu ha c hc y hy
  · intro he j hj hje
    rw [indices_eq, List.mem_append, hk, List.mem_singleton] at hj
    obtain ⟨c, hc, hj⟩ := mem_indicesAll.1 (hj.resolve_right hje)
    exact p.full he c hc j hj
  · intro n he hu
    refine ⟨fun ha => .node ?_ ?_ fun c hc => (p.done n he hu c hc).1 ha, hd n he hu⟩
    · rintro i c b f rfl; cases hk
    · rintro i c t rfl; cases hk

theorem parts_unit {T : Nat → IType} {v : DType} {t : IType} (hf : v.Flat) (h : Unf T v t) : t.isUnitKind = true ↔ v.parts = [] := by
  rw [unf_unit h]
  cases v <;> simp [DType.parts]
  rintro rfl
  simp [DType.Flat] at hf

theorem split_none {T : Nat → IType} {es : List Expr} {ts : List DType} (h : HasTypes A es ts) (hd : ∀ e ∈ es, Doc A T e) (hl : ts.flatMap DType.parts = []) :
    ∀ d ∈ es, (T d.id).isUnitKind = true := by
  induction es generalizing ts with
  | nil => simp
  | cons e es ih =>
    cases h with
    | cons h1 h2 =>
      rw [List.forall_mem_cons] at hd
      rw [List.flatMap_cons, List.append_eq_nil_iff] at hl
      obtain ⟨v, v1, v2, v3⟩ := hd.1
      refine List.forall_mem_cons.2 ⟨(parts_unit v2 v3).2 ?_, ih h2 hd.2 hl.2⟩
      rw [v1.det h1]; exact hl.1

theorem split_one {T : Nat → IType} {es : List Expr} {ts : List DType} (h : HasTypes A es ts) (hd : ∀ e ∈ es, Doc A T e) {w : DType}
    (hl : ts.flatMap DType.parts = [w]) :
    ∃ pre c post, es = pre ++ c :: post ∧ (T c.id).isUnitKind = false ∧ ∀ d ∈ pre ++ post, (T d.id).isUnitKind = true := by
  induction es generalizing ts with
  | nil => cases h; cases hl
  | cons e es ih =>
    cases h with
    | cons h1 h2 =>
      rw [List.forall_mem_cons] at hd
      rw [List.flatMap_cons, List.append_eq_singleton_iff] at hl
      obtain ⟨v, v1, v2, v3⟩ := hd.1
      rw [← v1.det h1] at hl
      rcases hl with ⟨a1, a2⟩ | ⟨a1, a2⟩
      · obtain ⟨pre, c, post, e1, e2, e3⟩ := ih h2 hd.2 a2
        exact ⟨e :: pre, c, post, by rw [e1]; rfl, e2, List.forall_mem_cons.2 ⟨(parts_unit v2 v3).2 a1, e3⟩⟩
      · refine ⟨[], e, es, rfl, ?_, split_none h2 hd.2 a2⟩
        cases hu : (T e.id).isUnitKind with
        | false => rfl
        | true => rw [(parts_unit v2 v3).1 hu] at a1; cases a1

/-- A child that was not inferred with the expression. -/
theorem DMid.hidden {u : Bool} {a : Option IType} {e c : Expr} {s : TState} (h : DMid A k N L u a e s) (hk : e.zkids = []) (hc : e.kids = [c]) (H : A.Ready k) :
    Occurs A.grammar c ∧ (∀ j ∈ c.indices, s.types j = .infer ∧ ¬ L j ∧ j ∈ e.indices ∧ j ≠ e.id) ∧ (∀ j ∈ e.indices, j ≠ e.id → j ∈ c.indices) := by
  have hck : c ∈ e.kids := by simp [hc]
  refine ⟨h.occ.kid hck, fun j hj => ?_, fun j hj hje => ?_⟩
  · have h1 := sub_indices (.kid hck) j hj
    have h2 : j ≠ e.id := fun he => id_not_kid H h.occ hck (he ▸ hj)
    refine ⟨h.hid j h1 ?_, ?_, h1, h2⟩
    · rw [zone_eq, hk]
      simpa [zoneAll] using h2
    · intro hL
      obtain ⟨y, hy, rfl⟩ := h.high j h1 hL
      exact h2 (by rw [live_leaf hk hy])
  · rw [indices_eq, hc, List.mem_append, List.mem_singleton] at hj
    obtain ⟨d, hd, hj⟩ := mem_indicesAll.1 (hj.resolve_right hje)
    rw [List.mem_singleton] at hd
    exact hd ▸ hj

theorem pack_one {l : List DType} (h : DType.pack l = .external ∨ ∃ x, DType.pack l = .rust x) : ∃ w, l = [w] := by
  match l with
  | [] => simp [DType.pack] at h
  | [w] => exact ⟨w, rfl⟩
  | _ :: _ :: _ => simp [DType.pack] at h

/-- The visit of an expression. -/
theorem depthExpr_post (H : A.Ready k) {m n : Nat} (hm : k + 2 ≤ m) (e : Expr) : ∀ (u : Bool) (a : Option IType) (s : TState), DPre A k N L u a e s →
    Outcome (depthExpr m (surfHere A k m (n + 1)) u a e s) (DPost A k N L u a e s) False := by
  induction e using Expr.kidsInd with
  | _ e ih =>
    intro u a s h
    -- expressions without children
    have hleaf : e.kids = [] → (∀ u s1, DMid A k N L u a e s1 → N → s1.error = false → u = false → a ≠ none → Done A k s1.types true e) →
        Outcome (depthStep m e.id u a s fun _ s => .ok s) (DPost A k N L u a e s) False := by
      intro hk hd
      refine depthStep_post H hm h fun u s1 hmid => ?_
      have hz : e.zkids = [] := List.eq_nil_iff_forall_not_mem.2 fun c hc => by have := zkids_sub hc; rw [hk] at this; cases this
      refine ⟨hmid.inv, fun j hj => absurd rfl hj, fun _ _ _ _ => rfl, id, fun _ j hj hje => ?_, fun n he hu => ⟨fun _ => .node ?_ ?_ (by simp [hz]), hd u s1 hmid n he hu⟩, fun _ h => h⟩
      · rw [indices_eq, hk] at hj
        simp [indicesAll] at hj
        exact absurd hj hje
      · rintro i c b f rfl; cases hk
      · rintro i c t rfl; cases hk
    -- expressions with one child
    have hunary : ∀ c, e.kids = [c] → e.zkids = [c] → (∀ (u : Bool) (s1 s' : TState), DMid A k N L u a e s1 → N → s'.error = false → s1.error = false → u = false → a ≠ none →
        Done A k s'.types true c → (s1.types c.id).isUnitKind = false → s'.types e.id = s1.types e.id → Done A k s'.types true e) →
        (∀ (u : Bool) (s1 : TState), DMid A k N L u a e s1 → N → s1.error = false → u = false → a ≠ none → ∀ d, AscPart A d e → AscPart A d c) →
        Outcome (depthStep m e.id u a s fun u s => depthExpr m (surfHere A k m (n + 1)) u a c s) (DPost A k N L u a e s) False := by
      intro c hk hz hd hap
      refine depthStep_post H hm h fun u s1 hmid => ?_
      have hl := list_post (all := True) (m := m) (surf := surfHere A k m (n + 1)) (u := u) (a := a) (F := depthAll m (surfHere A k m (n + 1)) u a) (g := fun _ _ => a)
        (fun s => by rw [depthAll]) (fun c cs s => by rw [depthAll]) (fun _ _ => .inl rfl) e.zkids s1 hmid.inv
        (by rw [hz, ← hk]; exact (kids_nodup (H.occurs_nodup h.occ)).1) (fun c' hc s2 Z hp hZ => hmid.kid H hc hp hZ (.inl rfl) fun ha n _ he hu => by
          have hcc : c' = c := by simpa [hz] using hc
          rw [hcc]; exact hap u s1 hmid n he hu ha)
        (fun c hc a' s2 hp => ih c (zkids_sub hc) u a' s2 hp)
      have he : depthAll m (surfHere A k m (n + 1)) u a e.zkids s1 = depthExpr m (surfHere A k m (n + 1)) u a c s1 := by
        rw [hz, depthAll]
        cases depthExpr m (surfHere A k m (n + 1)) u a c s1 <;> first | rfl | (rw [Res.bind_ok, depthAll])
      rw [he] at hl
      refine hl.mono (fun s' p => p.wpost H hmid (by rw [hk, hz]) fun nn he hu ha => ?_) id
      have := (p.done nn he hu c (by rw [hz]; simp)).2 ha
      rcases this with ⟨h1, h2⟩ | ⟨_, _, h3⟩
      · refine hd u s1 s' hmid nn he (err_back p.prog.err he) hu ha h1 h2 (p.prog.same ?_)
        rw [hz, ← hk]
        exact (kids_nodup (H.occurs_nodup h.occ)).2
      · exact absurd trivial h3
    -- predicates
    have hpred : ∀ c, e.kids = [c] → e.zkids = [] → (∀ s1, DMid A k N L false a e s1 → s1.error = false → False) → (∀ d, Under d e → Under d c) →
        Outcome (depthStep m e.id u a s fun u s => depthExpr m (surfHere A k m (n + 1)) u a c s) (DPost A k N L u a e s) False := by
      intro c hk hz hd hun
      refine depthStep_post H hm h fun u s1 hmid => ?_
      obtain ⟨o1, o2, o3⟩ := hmid.hidden hz hk H
      have hfe : u = false → s1.error = false → False := fun hu he => by subst hu; exact hd s1 hmid he
      have hpre : DPre A k N L u a c s1 := ⟨hmid.inv, o1, fun j hj _ => (o2 j hj).1, fun he hu => (hfe hu he).elim, hmid.writ, hmid.rust,
        fun _ j hj => (o2 j hj).2.1, fun j hj hL => absurd hL (o2 j hj).2.1, fun _ he hu => (hfe hu he).elim,
        fun t ht => (hmid.ctx t ht).imp fun j hc => hc.imp fun d hc => ⟨hc.1, hun d hc.2.1, fun _ he hu => (hfe hu he).elim⟩⟩
      refine (ih c (by simp [hk]) u a s1 hpre).mono (fun s' q => ?_) id
      refine ⟨q.inv, fun j hj => ?_, fun _ _ y hy => ?_, q.err, fun he j hj hje => q.full he j (o3 j hj hje), fun nn he hu => (hfe hu (err_back q.err he)).elim, q.just⟩
      · obtain ⟨f1, f2⟩ := q.frame j hj
        exact ⟨(o2 j f1).2.2.1, (o2 j f1).2.2.2, f2⟩
      · rw [live_leaf hz hy]
        exact q.prog.same fun h0 => (o2 _ h0).2.2.2 rfl
    have hnone : ∀ {u s1}, DMid A k N L u a e s1 → N → s1.error = false → u = false → a ≠ none → (∀ v, HasType A e v → v ≠ .external ∧ ∀ x, v ≠ .rust x) → False := by
      intro u s1 hmid nn he hu ha hv
      obtain ⟨v, v1, v2⟩ := hmid.docA nn he hu ha
      rcases v2 with rfl | ⟨x, rfl⟩
      · exact (hv _ v1).1 rfl
      · exact (hv _ v1).2 x rfl
    cases e with
    | str i l =>
      unfold depthExpr
      exact hleaf rfl fun u s1 hmid nn he hu ha => (hnone hmid nn he hu ha (by intro v hv; cases hv; simp)).elim
    | any i =>
      unfold depthExpr
      exact hleaf rfl fun u s1 hmid nn he hu ha => (hnone hmid nn he hu ha (by intro v hv; cases hv; simp)).elim
    | cls i l =>
      unfold depthExpr
      exact hleaf rfl fun u s1 hmid nn he hu ha => (hnone hmid nn he hu ha (by intro v hv; cases hv; simp)).elim
    | nt i r =>
      unfold depthExpr
      refine hleaf rfl fun u s1 hmid nn he hu ha => ?_
      obtain ⟨x, hx⟩ := hmid.arust he hu ha
      obtain ⟨v, v1, v2⟩ := hmid.docA nn he hu ha
      cases v1 with
      | @nt _ _ b _ hb hbt =>
        refine .nt hx hb ?_
        obtain ⟨w, w1, w2, w3⟩ := (hmid.inv.rules nn he r b hb b .root).1
        rw [w1.det hbt] at w3
        rcases v2 with rfl | ⟨x, rfl⟩
        · exact .inl ((unf_external w3).2 rfl)
        · unfold Unf at w3; exact .inr ⟨x, w3⟩
    | ext i f =>
      unfold depthExpr
      refine hleaf rfl fun u s1 hmid nn he hu ha => ?_
      obtain ⟨x, hx⟩ := hmid.arust he hu ha
      exact .ext hx
    | star i c =>
      unfold depthExpr
      exact hunary c rfl rfl (fun u s1 s' hmid nn he' he hu ha _ _ _ => (hnone hmid nn he hu ha (by intro v hv; cases hv <;> simp)).elim)
        fun u s1 hmid nn he hu ha => (hnone hmid nn he hu ha (by intro v hv; cases hv <;> simp)).elim
    | plus i c =>
      unfold depthExpr
      exact hunary c rfl rfl (fun u s1 s' hmid nn he' he hu ha _ _ _ => (hnone hmid nn he hu ha (by intro v hv; cases hv <;> simp)).elim)
        fun u s1 hmid nn he hu ha => (hnone hmid nn he hu ha (by intro v hv; cases hv <;> simp)).elim
    | opt i c =>
      unfold depthExpr
      exact hunary c rfl rfl (fun u s1 s' hmid nn he' he hu ha _ _ _ => (hnone hmid nn he hu ha (by intro v hv; cases hv <;> simp)).elim)
        fun u s1 hmid nn he hu ha => (hnone hmid nn he hu ha (by intro v hv; cases hv <;> simp)).elim
    | span i c =>
      unfold depthExpr
      refine hunary c rfl rfl (fun u s1 s' hmid nn he' he hu ha _ hun _ => ?_) fun _ _ _ _ _ _ _ d hd => .span hd
      obtain ⟨v, v1, v2⟩ := hmid.docA nn he hu ha
      cases v1 with
      | @span _ _ t hct =>
        obtain ⟨w, hw⟩ := pack_one v2
        simp only [List.cons.injEq] at hw
        obtain ⟨⟨x, x1, x2, x3⟩, _⟩ := hmid.doc nn he hu c (by simp [Expr.zkids]) c .root
        rw [x1.det hct] at x2 x3
        rw [(parts_unit x2 x3).2 hw.2] at hun
        cases hun
    | range i c =>
      unfold depthExpr
      refine hunary c rfl rfl (fun u s1 s' hmid nn he' he hu ha hd _ hs => ?_) fun _ _ _ _ _ _ _ d hd => .range hd
      obtain ⟨x, hx⟩ := hmid.arust he hu ha
      exact .range (hs.trans hx) hd
    | not i c =>
      unfold depthExpr
      refine hpred c rfl rfl (fun s1 hmid he => ?_) fun d hd => .not hd
      have h1 := hmid.nonunit he rfl
      have h2 := hmid.self he
      rcases hmid.inv.sinv.node _ hmid.occ with h3 | h3
      · exact h2 h3
      · rw [h3] at h1; cases h1
    | and i c =>
      unfold depthExpr
      refine hpred c rfl rfl (fun s1 hmid he => ?_) fun d hd => .and hd
      have h1 := hmid.nonunit he rfl
      have h2 := hmid.self he
      rcases hmid.inv.sinv.node _ hmid.occ with h3 | h3
      · exact h2 h3
      · rw [h3] at h1; cases h1
    | seq i es =>
      unfold depthExpr
      refine depthStep_post H hm h fun u s1 hmid => ?_
      have hl := list_post (all := False) (m := m) (surf := surfHere A k m (n + 1)) (u := u) (a := a) (F := depthSeq m (surfHere A k m (n + 1)) u a)
        (g := fun s c => if (s.types c.id).isUnitKind then none else a)
        (fun s => by rw [depthSeq]) (fun c cs s => by rw [depthSeq])
        (fun s c => by
          by_cases hu : (s.types c.id).isUnitKind = true
          · exact .inr ⟨by rw [if_pos hu], hu, id⟩
          · exact .inl (by rw [if_neg hu])) es s1 hmid.inv
        ((kids_nodup (H.occurs_nodup h.occ)).1) (fun c hc s2 Z hp hZ => hmid.kid H hc hp hZ (by split <;> simp) fun ha nn _ he hu d hd => by
          split at ha
          · exact absurd rfl ha
          · rename_i hun
            obtain ⟨⟨v, v1, v2, v3⟩, _⟩ := hmid.doc nn he hu c hc c .root
            rw [hp.same (hZ _ (id_mem_indices c))] at hun
            refine .seq hd hc v1 ?_ ?_
            · rintro rfl; exact hun ((unf_unit v3).2 (.inl rfl))
            · rintro rfl; exact hun ((unf_unit v3).2 (.inr rfl)))
        (fun c hc a' s2 hp => ih c hc u a' s2 hp)
      refine hl.mono (fun s' p => LPost.wpost (e := .seq i es) H hmid rfl p fun nn he hu ha => ?_) id
      have he1 := err_back p.prog.err he
      obtain ⟨x, hx⟩ := hmid.arust he1 hu ha
      have hdoc : ∀ c ∈ es, Doc A s1.types c := fun c hc => (hmid.doc nn he1 hu c hc c .root).1
      have hone : ∃ ts w, HasTypes A es ts ∧ ts.flatMap DType.parts = [w] := by
        obtain ⟨v, v1, v2⟩ := hmid.docA nn he1 hu ha
        cases v1 with
        | @seq _ _ ts hts hex =>
          obtain ⟨w, hw⟩ := pack_one v2
          exact ⟨ts, w, hts, hw⟩
        | seqHidden => simp at v2
      obtain ⟨ts, w, hts, hw⟩ := hone
      obtain ⟨pre, c, post, e1, e2, e3⟩ := split_one hts hdoc hw
      have hs : s'.types i = s1.types i := p.prog.same (kids_nodup (H.occurs_nodup h.occ)).2
      refine .seq (hs.trans hx) e1 ?_ (fun d hd => ?_) ?_ fun d hd => ?_
      · rcases (p.done nn he hu c (by rw [e1]; simp)).2 ha with ⟨h1, _⟩ | ⟨h1, _⟩
        · exact h1
        · rw [e2] at h1; cases h1
      · rcases (p.done nn he hu d (by rw [e1]; simp at hd ⊢; grind)).2 ha with ⟨_, h1⟩ | ⟨_, h1, _⟩
        · rw [e3 d hd] at h1; cases h1
        · exact h1
      · obtain ⟨v, v1, _, v3⟩ := hdoc c (by rw [e1]; simp)
        refine ⟨v, v1, fun h0 => ?_⟩
        rw [(unf_unit v3).2 h0] at e2; cases e2
      · obtain ⟨v, v1, _, v3⟩ := hdoc d (by rw [e1]; simp at hd ⊢; grind)
        exact ⟨v, v1, (unf_unit v3).1 (e3 d hd)⟩
    | choice i es =>
      unfold depthExpr
      refine depthStep_post H hm h fun u s1 hmid => ?_
      have hl := list_post (all := True) (m := m) (surf := surfHere A k m (n + 1)) (u := u) (a := a) (F := depthAll m (surfHere A k m (n + 1)) u a)
        (g := fun s c => a)
        (fun s => by rw [depthAll]) (fun c cs s => by rw [depthAll])
        (fun s c => .inl rfl) es s1 hmid.inv
        ((kids_nodup (H.occurs_nodup h.occ)).1) (fun c hc s2 Z hp hZ => hmid.kid H hc hp hZ (.inl rfl) fun _ _ _ _ _ d hd => .choice hd hc)
        (fun c hc a' s2 hp => ih c hc u a' s2 hp)
      refine hl.mono (fun s' p => LPost.wpost (e := .choice i es) H hmid rfl p fun nn he hu ha => ?_) id
      have he1 := err_back p.prog.err he
      obtain ⟨x, hx⟩ := hmid.arust he1 hu ha
      have hs : s'.types i = s1.types i := p.prog.same (kids_nodup (H.occurs_nodup h.occ)).2
      refine .choice (hs.trans hx) fun c hc => ?_
      rcases (p.done nn he hu c hc).2 ha with ⟨h1, _⟩ | ⟨_, _, h1⟩
      · exact h1
      · exact absurd trivial h1
    | act i c bx f =>
      unfold depthExpr
      refine depthStep_post H hm h fun u s1 hmid => ?_
      obtain ⟨o1, o2, o3⟩ := hmid.hidden rfl rfl H
      refine (surfHere_post H hm hmid.inv o1 fun j hj => (o2 j hj).1).bind ?_
      rintro ⟨t, s2⟩ ⟨g1, g2, g3, g4, g5, g6⟩
      dsimp only at g1 g2 g3 g4 g5 g6 ⊢
      have hsame : ∀ j, j ∉ c.zone → s2.types j = s1.types j := fun j hj => by
        by_cases hs : s2.types j = s1.types j
        · exact hs
        · exact absurd (g2 j hs) hj
      have hpre : DPre A k N L u none c s2 := ⟨g1, o1, fun j hj hz => by rw [hsame j hz]; exact (o2 j hj).1, fun _ _ => g3, by simp, by simp,
        fun _ j hj => (o2 j hj).2.1, fun j hj hL => absurd hL (o2 j hj).2.1, fun nn he _ => g5 nn he, by simp⟩
      refine (ih c (by simp [Expr.kids]) u none s2 hpre).mono (fun s' q => ?_) id
      have hprog : Prog A k N L c.indices s1 s' := by
        refine ⟨q.inv, fun j hj => ?_, fun he => q.err (g4 he), fun nn hs => q.just nn (g6 nn hs)⟩
        by_cases hs : s'.types j = s2.types j
        · have hz := zone_indices _ _ (g2 j (hs ▸ hj))
          exact ⟨hz, (o2 j hz).2.1⟩
        · exact q.frame j hs
      have hid : s'.types i = s1.types i := hprog.same fun h0 => (o2 _ h0).2.2.2 rfl
      refine ⟨q.inv, fun j hj => ?_, fun _ _ y hy => ?_, hprog.err, fun he j hj hje => q.full he j (o3 j hj hje), fun nn he hu => ?_, hprog.just⟩
      · obtain ⟨f1, f2⟩ := hprog.frame j hj
        exact ⟨(o2 j f1).2.2.1, (o2 j f1).2.2.2, f2⟩
      · rw [live_leaf rfl hy]; exact hid
      · have he2 := err_back q.err he
        have hd := (q.done nn he hu).1 rfl
        have hrd : RuleDoc A k s'.types c := RuleDoc.stable g1.sinv.span (g1.rules nn he2) q.inv.full (q.prog.prot g1) (fun y hy => q.keep hu rfl y hy) (g5 nn he2)
        refine ⟨fun _ => .act hrd hd (by simp), fun ha => .act hrd hd fun _ => ?_⟩
        rw [hid]
        exact hmid.arust (err_back hprog.err he) hu ha
    | asc i c ty =>
      unfold depthExpr
      refine depthStep_post H hm h fun u s1 hmid => ?_
      obtain ⟨o1, o2, o3⟩ := hmid.hidden rfl rfl H
      have hw := H.written i c ty hmid.occ
      suffices hK : ∀ s2 : TState, s2.types = s1.types ∧ DInv A k N L s2 ∧ (s1.error = true → s2.error = true) ∧ (N → Sane A s1 → Sane A s2) →
          Outcome (if u = true then depthExpr m (surfHere A k m (n + 1)) u (some ty) c s2 else surfHere A k m (n + 1) c s2 >>= fun x =>
            depthExpr m (surfHere A k m (n + 1)) u (some ty) c x.2) (WPost A k N L u a (.asc i c ty) s1) False by
        cases a with
        | none => exact hK s1 ⟨rfl, hmid.inv, id, fun _ h => h⟩
        | some a =>
          refine (match_post hmid.inv (n := 1) (.leaf (written_settled hw).2.1) (by omega) ?_ fun nn he hs => ?_).bind ?_
          · exact ⟨⟨_, hmid.occ, rfl⟩, ⟨1, .leaf (written_settled hw).2.1⟩, hmid.writ a rfl⟩
          · obtain ⟨j, d, d1, d2, _⟩ := hmid.ctx a rfl
            exact .inr ⟨j, d, a, c, ty, d1, d2, fun h => synEq_alike hw h hs, rfl, rfl⟩
          · rintro s2 ⟨m1, m2, m3, _, m5⟩
            exact hK s2 ⟨m1, m2, m3, m5⟩
      rintro s2 ⟨m1, m2, m3, m4⟩
      suffices hJ : ∀ s3 : TState, DInv A k N L s3 ∧ (∀ j, s3.types j ≠ s2.types j → j ∈ c.zone) ∧ (u = false → ∀ j ∈ c.zone, s3.types j ≠ .infer) ∧
          (s2.error = true → s3.error = true) ∧ (N → s3.error = false → u = false → RuleDoc A k s3.types c) ∧ (N → Sane A s2 → Sane A s3) →
          Outcome (depthExpr m (surfHere A k m (n + 1)) u (some ty) c s3) (WPost A k N L u a (.asc i c ty) s1) False by
        cases u with
        | true => exact hJ s2 ⟨m2, fun _ h => absurd rfl h, by simp, id, by simp, fun _ h => h⟩
        | false =>
          rw [if_neg (by simp)]
          refine (surfHere_post H hm m2 o1 fun j hj => by rw [m1]; exact (o2 j hj).1).bind ?_
          rintro ⟨t, s3⟩ ⟨g1, g2, g3, g4, g5, g6⟩
          exact hJ s3 ⟨g1, g2, fun _ => g3, g4, fun nn he _ => g5 nn he, g6⟩
      rintro s3 ⟨g1, g2, g3, g4, g5, g6⟩
      have hsame : ∀ j, j ∉ c.zone → s3.types j = s1.types j := fun j hj => by
        by_cases hs : s3.types j = s2.types j
        · rw [hs, m1]
        · exact absurd (g2 j hs) hj
      have hty : s1.error = false → u = false → ∃ x, s1.types i = .regular (.rust x) ∧ ty = .regular (.rust x) := by
        intro he hu
        have h1 := hmid.nonunit he hu
        have h2 := hmid.self he
        rcases hmid.inv.sinv.node _ hmid.occ with h3 | h3 | h3
        · exact absurd h3 h2
        · rw [h3] at h1
          rcases hw with rfl | rfl | ⟨x, rfl⟩
          · cases h1
          · cases h1
          · exact ⟨x, h3, rfl⟩
        · rw [h3] at h1; cases h1
      have hback : s3.error = false → s1.error = false := fun he => err_back m3 (err_back g4 he)
      have hpre : DPre A k N L u (some ty) c s3 := by
        refine ⟨g1, o1, fun j hj hz => by rw [hsame j hz]; exact (o2 j hj).1, fun _ hu => g3 hu, ?_, ?_,
          fun _ j hj => (o2 j hj).2.1, fun j hj hL => absurd hL (o2 j hj).2.1, g5, ?_⟩
        · intro t ht; cases ht; exact hw
        · intro he hu t ht
          cases ht
          obtain ⟨x, _, hx⟩ := hty (hback he) hu
          exact ⟨x, hx⟩
        · intro t ht
          cases ht
          exact ⟨i, c, hmid.occ, .self, fun _ _ _ => .self⟩
      refine (ih c (by simp [Expr.kids]) u (some ty) s3 hpre).mono (fun s' q => ?_) id
      have hprog : Prog A k N L c.indices s1 s' := by
        refine ⟨q.inv, fun j hj => ?_, fun he => q.err (g4 (m3 he)), fun nn hs => q.just nn (g6 nn (m4 nn hs))⟩
        by_cases hs : s'.types j = s3.types j
        · have hz := zone_indices _ _ (g2 j (by rw [← hs, m1]; exact hj))
          exact ⟨hz, (o2 j hz).2.1⟩
        · exact q.frame j hs
      have hid : s'.types i = s1.types i := hprog.same fun h0 => (o2 _ h0).2.2.2 rfl
      refine ⟨q.inv, fun j hj => ?_, fun _ _ y hy => ?_, hprog.err, fun he j hj hje => q.full he j (o3 j hj hje), fun nn he hu => ?_, hprog.just⟩
      · obtain ⟨f1, f2⟩ := hprog.frame j hj
        exact ⟨(o2 j f1).2.2.1, (o2 j f1).2.2.2, f2⟩
      · rw [live_leaf rfl hy]; exact hid
      · obtain ⟨x, hx, hx'⟩ := hty (err_back hprog.err he) hu
        have hd := (q.done nn he hu).2 (by simp)
        have hv : ∃ v, HasType A c v ∧ (v = .external ∨ ∃ x, v = .rust x) := by
          obtain ⟨⟨v, v1, v2, v3⟩, _⟩ := g5 nn (err_back q.err he) hu c .root
          refine ⟨v, v1, ?_⟩
          obtain ⟨z, hz⟩ := hd.rust rfl
          rcases q.own hu with ho | ho
          · rw [ho] at hz
            rw [hz] at v3
            cases v <;> simp [Unf] at v3 ⊢
          · exact .inl ((unf_external v3).1 ho)
        exact ⟨fun _ => .asc (hid.trans hx) hx' hv hd, fun _ => .asc (hid.trans hx) hx' hv hd⟩

end

end Typing
end Oak
