import Verif.Proofs.TypingDepthMain
/-!
The whole inference.
-/
set_option linter.constructorNameAsVariable false
set_option autoImplicit false

namespace Oak
namespace Typing

section
variable {A : AGrammar} {k : Nat}

/-- What holds of the types at the end of the depth inference. -/
structure Final (A : AGrammar) (k : Nat) (N : Prop) (T : Nat → IType) : Prop where
  deep : Deep k T
  norec : ∀ i rs, T i ≠ .rec_ rs
  typed : ∀ i, i ≤ k → T i ≠ .infer
  rules : N → ∀ r b, A.grammar.find r = some b → RuleDoc A k T b
  done : N → ∀ r b, A.grammar.find r = some b → Done A k T false b
  node : ∀ e, Occurs A.grammar e → NodeOk e (T e.id)
  full : ∀ r b, A.grammar.find r = some b → ∀ j ∈ b.zone, T j ≠ .infer
  out : ∀ j, k < j → T j = .infer
  span : T k = .regular (.rust spanTy)

/-- The depth inference of all the rules. -/
theorem depthAll_top (H : A.Ready k) {m n : Nat} (hm : k + 2 ≤ m) {N : Prop} {L : Nat → Prop} {s : TState} (h : DInv A k N L s)
    (hhid : ∀ r b, A.grammar.find r = some b → ∀ j ∈ b.indices, j ∉ b.zone → s.types j = .infer) :
    Outcome (depthAll m (surfHere A k m (n + 1)) false none (A.grammar.rules.map (·.2)) s)
      (LPost A k N L True false none (A.grammar.rules.map (·.2)) s) False := by
  refine list_post (m := m) (surf := surfHere A k m (n + 1)) (F := fun es s => depthAll m (surfHere A k m (n + 1)) false none es s) (g := fun _ _ => none) (fun _ => by simp [depthAll]) (fun c cs s => ?_) (fun _ _ => .inl rfl) _ s h
    H.all_nodup ?_ ?_
  · show depthAll _ _ _ _ _ _ = _
    rw [depthAll]
  · intro c hc s2 Z hp hZ
    obtain ⟨⟨r, b⟩, hrb, rfl⟩ := List.mem_map.1 hc
    have hb := body_of_mem H.names hrb
    dsimp only at hZ ⊢
    refine ⟨hp.inv, .body hb, fun j hj hz => ?_, fun _ _ => hp.inv.full r b hb, by simp, by simp, by simp, fun j hj hL => ?_,
      fun nn he _ => hp.inv.rules nn he r b hb, by simp⟩
    · rw [hp.same (hZ j hj)]; exact hhid r b hb j hj hz
    · rcases (hp.inv.prot j).1 hL with rfl | ⟨r', b', y, hb', hy, rfl⟩
      · exact absurd (H.lt (.body hb) _ hj) (Nat.lt_irrefl _)
      · have := H.disjoint hb hb' hj (live_ids hy)
        subst this
        rw [hb] at hb'
        cases hb'
        exact ⟨y, hy, rfl⟩
  · intro c _ a' s2 hpre
    exact depthExpr_post H hm c _ _ _ hpre

theorem numbered_body (H : A.Ready k) {i : Nat} (hi : i < k) : ∃ r b, A.grammar.find r = some b ∧ i ∈ b.indices := by
  have : i ∈ indicesAll (A.grammar.rules.map (·.2)) := by rw [H.numbered]; exact List.mem_range.2 hi
  obtain ⟨e, he, hi⟩ := mem_indicesAll.1 this
  obtain ⟨⟨r, b⟩, hrb, rfl⟩ := List.mem_map.1 he
  exact ⟨r, b, body_of_mem H.names hrb, hi⟩

theorem known_all {vs : List DType} : knownAll vs = true ↔ ∀ v ∈ vs, v.known = true := by
  induction vs with
  | nil => simp [knownAll]
  | cons v vs ih => simp [knownAll, ih]

theorem anyRes_true {α : Type} {f : α → Res Bool} {l : List α} (h : anyRes f l = .ok true) : ∃ x ∈ l, f x = .ok true := by
  induction l with
  | nil => cases h
  | cons x l ih =>
    rw [anyRes] at h
    obtain ⟨b, h1, h2⟩ := Res.bind_eq_ok h
    cases b with
    | true => exact ⟨x, by simp, h1⟩
    | false =>
      obtain ⟨y, hy, h3⟩ := ih h2
      exact ⟨y, by simp [hy], h3⟩

/-- The types that are refused are not known. -/
theorem unknown_of_contains {U : Nat → IType} : ∀ (v : DType) (t : IType) (m : Nat), Unf U v t → containsExternal U m t = .ok true → v.known = false := by
  refine DType.ind ?_ ?_ ?_ ?_ ?_ ?_ ?_ ?_
  · intro t m hu hc; unfold Unf at hu; subst hu; cases m <;> cases hc
  · intro t m hu hc; unfold Unf at hu; subst hu; cases m <;> cases hc
  · intro t m hu hc; unfold Unf at hu; subst hu; cases m <;> cases hc
  · intros; rfl
  · rintro v ih t m ⟨j, rfl, hu⟩ hc
    cases m with
    | zero => cases hc
    | succ m => exact ih _ m hu hc
  · rintro v ih t m ⟨j, rfl, hu⟩ hc
    cases m with
    | zero => cases hc
    | succ m => exact ih _ m hu hc
  · rintro vs ih t m ⟨js, rfl, hu⟩ hc
    cases m with
    | zero => cases hc
    | succ m =>
      rw [containsExternal] at hc
      obtain ⟨j, hj, hc⟩ := anyRes_true hc
      obtain ⟨w, hw, hwu⟩ := hu.mem hj
      have := ih w hw _ m hwu hc
      rw [DType.known]
      cases hk : knownAll vs with
      | false => rfl
      | true => rw [known_all.1 hk w hw] at this; cases this
  · intro s t m hu hc; unfold Unf at hu; subst hu; cases m <;> cases hc

/-- The check that types are known. -/
theorem checkRules_post {N : Prop} {m : Nat} (hm : k + 2 ≤ m) {T : Nat → IType} (hd : Deep k T) : ∀ (rs : List (String × Expr)) (s : TState), s.types = T →
    (N → ∀ x ∈ rs, containsExternal T m (T x.2.id) = .ok true → TMsg.Justified A (.untyped x.1)) → (∀ x ∈ rs, TFine A (.untyped x.1)) →
    Outcome (checkRules m rs s) (fun s' => s'.types = T ∧ (s.error = true → s'.error = true) ∧
      (s'.error = false → ∀ x ∈ rs, containsExternal T m (T x.2.id) = .ok false) ∧ (N → Sane A s → Sane A s') ∧
      ((∀ d ∈ s.log, TFine A d) → ∀ d ∈ s'.log, TFine A d)) False := by
  intro rs
  induction rs with
  | nil => intro s hs _ _; exact ⟨hs, id, by simp, fun _ h => h, id⟩
  | cons x rs ih =>
    obtain ⟨r, b⟩ := x
    intro s hs hj hf
    obtain ⟨c, hc⟩ := containsExternal_total (hd b.id) m (by have := cnt_le k T; omega)
    rw [checkRules, hs, hc, Res.bind_ok]
    cases c with
    | true =>
      rw [if_pos rfl]
      refine (ih _ rfl (fun n x hx => hj n x (by simp [hx])) fun x hx => hf x (by simp [hx])).mono ?_ id
      rintro s' ⟨h1, h2, h3, h4, h5⟩
      refine ⟨h1, fun _ => h2 rfl, (by intro he; rw [h2 rfl] at he; cases he), fun n hs => h4 n (hs.fail rfl rfl fun _ => hj n (r, b) (by simp) hc), fun hl => h5 ?_⟩
      intro d hd
      rcases List.mem_append.1 hd with hd | hd
      · exact hl d hd
      · rw [List.mem_singleton] at hd; subst hd; exact hf (r, b) (by simp)
    | false =>
      rw [if_neg (by simp)]
      refine (ih s hs (fun n x hx => hj n x (by simp [hx])) fun x hx => hf x (by simp [hx])).mono ?_ id
      rintro s' ⟨h1, h2, h3, h4, h5⟩
      exact ⟨h1, h2, fun he => List.forall_mem_cons.2 ⟨hc, h3 he⟩, h4, h5⟩

/-- The final types of the expressions. -/
def Accepted (A : AGrammar) (k m : Nat) (N : Prop) (T : Nat → Ty) : Prop :=
  ∃ U, Final A k N U ∧ (∀ i, i ≤ k → reduceFinal (U i) = .ok (T i)) ∧ ∀ r b, A.grammar.find r = some b → containsExternal U m (U b.id) = .ok false

theorem sane_new : Sane A (.new k) := ⟨fun _ => ⟨rfl, rfl⟩, (by intro h; cases h), (by intro x hx; cases hx)⟩

/-- No warning without recursive types. -/
theorem warn_norec {T : Nat → IType} (h : ∀ i rs, T i ≠ .rec_ rs) : warnRecursive A.grammar T = .ok [] := by
  unfold warnRecursive
  dsimp only
  rw [foldl_same]
  · rfl
  · intro x _ a
    split
    · rename_i r hr; exact absurd hr (h _ r)
    · rfl

/-- The messages are those of a state where the first error, if any, is justified. -/
def Told (A : AGrammar) (x : Partial (Nat → Ty) × List TMsg) : Prop :=
  ∃ s, Sane A s ∧ s.msgs = x.2 ∧ (s.error = true ↔ x.1 = .nothing)

theorem typingRun_post (H : A.Ready k) {m n : Nat} (hm : k + 2 ≤ m) (hn : A.grammar.rules.length < n) (rank : String → Nat) :
    Outcome (typingRun A k m n) (fun x => (∀ T, x.1 = .value T → Accepted A k m (Strict A.grammar rank) T) ∧
      (Strict A.grammar rank → Sane A x.2 ∧ (x.2.error = true ↔ x.1 = .nothing)) ∧ ∀ d ∈ x.2.log, TFine A d) (¬ Ranked A.grammar rank) := by
  obtain ⟨n, rfl⟩ : ∃ n', n = n' + 1 := ⟨n - 1, by omega⟩
  unfold typingRun
  refine (surfRules_post H hm hn rank A.grammar.rules _ (fun _ h => h) (sinv_new H)).bind ?_
  rintro s ⟨g1, g2⟩
  by_cases he : s.error = true
  · rw [if_pos he]; exact ⟨(by intro T hT; cases hT), fun nn => ⟨g1.just nn sane_new, by simp [he]⟩, g1.inv.fine⟩
  rw [if_neg he]
  have hall : ∀ r b, A.grammar.find r = some b → s.types b.id ≠ .infer := fun r b hb => g2 _ (H.body_mem hb)
  have hch : ∀ j, s.types j ≠ .infer → j = k ∨ ∃ r b, A.grammar.find r = some b ∧ j ∈ b.zone := by
    intro j hj
    by_cases hs : s.types j = (TState.new k).types j
    · exact .inl (new_ne (hs ▸ hj))
    · rcases g1.frame j hs with h | ⟨r, b, hb, _, hjz, _⟩
      · cases h
      · exact .inr ⟨r, b, hb, hjz⟩
  have hout : ∀ j, k < j → s.types j = .infer := by
    intro j hj
    by_cases h0 : s.types j = .infer
    · exact h0
    · rcases hch j h0 with rfl | ⟨r, b, hb, hz⟩
      · omega
      · have := H.lt (.body hb) _ (zone_indices _ _ hz)
        omega
  obtain ⟨w, hw⟩ := warn_ok g1.inv
  rw [hw, Res.bind_ok]
  obtain ⟨T, t1, t2, t3, t4, t5⟩ := reduceAllRec_post H g1.inv hall hout (s.msgs ++ w)
  rw [t1, Res.bind_ok]
  have hinv : DInv A k (Strict A.grammar rank) (Prot A k T) { s with types := T, msgs := s.msgs ++ w } :=
    ⟨t2, fun r b hb h0 => hall r b hb ((t4 _).1 h0), t3, fun _ => Iff.rfl⟩
  have hhid : ∀ r b, A.grammar.find r = some b → ∀ j ∈ b.indices, j ∉ b.zone → T j = .infer := by
    intro r b hb j hj hz
    rw [t4]
    by_cases h0 : s.types j = .infer
    · exact h0
    · rcases hch j h0 with rfl | ⟨r', b', hb', hz'⟩
      · exact absurd (H.lt (.body hb) _ hj) (Nat.lt_irrefl _)
      · have := H.disjoint hb hb' hj (zone_indices _ _ hz')
        subst this
        rw [hb] at hb'; cases hb'
        exact absurd hz' hz
  refine ((depthAll_top H hm hinv hhid).mono (fun _ h => h) (fun h => h.elim)).bind ?_
  intro s1 p
  have hsane1 : Strict A.grammar rank → Sane A s1 := fun nn => by
    have hw0 := warn_norec (A := A) (g1.inv.norec nn)
    rw [hw] at hw0
    simp only [Res.ok.injEq] at hw0
    refine p.prog.just nn ?_
    have := (g1.just nn sane_new).types T
    rw [hw0, List.append_nil]
    exact this
  by_cases he1 : s1.error = true
  · rw [if_pos he1]; exact ⟨(by intro T hT; cases hT), fun nn => ⟨hsane1 nn, by simp [he1]⟩, p.prog.inv.sinv.fine⟩
  rw [if_neg he1]
  have he1 : s1.error = false := by simpa using he1
  have hbody : ∀ {r b}, A.grammar.find r = some b → b ∈ A.grammar.rules.map (·.2) := fun hb =>
    List.mem_map_of_mem (f := Prod.snd) (H.body_mem hb)
  have hd : LPost A k (Strict A.grammar rank) (Prot A k T) True false none (A.grammar.rules.map (·.2)) { s with types := T, msgs := s.msgs ++ w } s1 := p
  have hfin : Final A k (Strict A.grammar rank) s1.types := by
    refine ⟨p.prog.inv.sinv.deep, p.prog.inv.norec, fun i hi => ?_, fun nn => p.prog.inv.rules nn he1, fun nn r b hb => ?_, p.prog.inv.sinv.node, p.prog.inv.full, fun j hj => ?_, p.prog.inv.sinv.span⟩
    · rcases Nat.lt_or_eq_of_le hi with hi | rfl
      · obtain ⟨r, b, hb, hi⟩ := numbered_body H hi
        exact p.full he1 b (hbody hb) i hi
      · rw [p.prog.inv.sinv.span]; simp
    · exact (p.done nn he1 rfl b (hbody hb)).1 rfl
    · rw [p.prog.same fun hj' => by rw [H.numbered, List.mem_range] at hj'; omega]
      exact (t4 j).2 (hout j hj)
  obtain ⟨ys, y1, y2⟩ := range_map (n := k + 1) (d := Ty.unit) (f := fun i => reduceFinal (s1.types i)) (fun i hi => by
    have h1 := hfin.typed i (by omega)
    have h2 := hfin.norec i
    cases hT : s1.types i with
    | infer => exact absurd hT h1
    | rec_ rs => exact absurd hT (h2 rs)
    | _ => exact ⟨_, rfl⟩)
  have hred : reduceAllFinal k s1.types = .ok fun i => (ys[i]?).getD .unit := by
    unfold reduceAllFinal; rw [y1]; rfl
  rw [hred, Res.bind_ok]
  have hun : Strict A.grammar rank → ∀ x ∈ A.grammar.rules, containsExternal s1.types m (s1.types x.2.id) = .ok true → TMsg.Justified A (.untyped x.1) := by
    rintro nn ⟨r, b⟩ hx hc
    have hb := body_of_mem H.names hx
    obtain ⟨⟨v, v1, _, v3⟩, _⟩ := hfin.rules nn r b hb b .root
    exact ⟨b, v, hb, v1, unknown_of_contains v _ m v3 hc⟩
  refine ((checkRules_post (A := A) (N := Strict A.grammar rank) hm hfin.deep A.grammar.rules s1 rfl hun
    (fun x hx => ⟨x.2, body_of_mem H.names hx⟩)).mono (fun _ h => h) (fun h => h.elim)).bind ?_
  rintro s2 ⟨c1, c2, c3, c4, c5⟩
  by_cases he2 : s2.error = true
  · rw [if_pos he2]; exact ⟨(by intro T hT; cases hT), fun nn => ⟨c4 nn (hsane1 nn), by simp [he2]⟩, c5 p.prog.inv.sinv.fine⟩
  · rw [if_neg he2]
    refine ⟨?_, fun nn => ⟨c4 nn (hsane1 nn), by simp [he2]⟩, c5 p.prog.inv.sinv.fine⟩
    intro T' hT'
    cases hT'
    refine ⟨s1.types, hfin, fun i hi => y2 i (by omega), fun r b hb => ?_⟩
    exact c3 (by simpa using he2) _ (H.body_mem hb)

theorem typeInference_post (H : A.Ready k) {m n : Nat} (hm : k + 2 ≤ m) (hn : A.grammar.rules.length < n) (rank : String → Nat) :
    Outcome (typeInference A k m n) (fun x => (∀ T, x.1 = .value T → Accepted A k m (Strict A.grammar rank) T) ∧
      (Strict A.grammar rank → Told A x)) (¬ Ranked A.grammar rank) := by
  unfold typeInference
  refine (typingRun_post H hm hn rank).bind ?_
  rintro ⟨p, s⟩ ⟨h1, h2, _⟩
  exact ⟨h1, fun nn => ⟨s, (h2 nn).1, rfl, (h2 nn).2⟩⟩

end

end Typing
end Oak
