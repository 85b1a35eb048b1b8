import Verif.Proofs.TypingEnd
import Verif.Proofs.TypingDet
/-!
The depth inference: what it keeps.
-/
set_option linter.constructorNameAsVariable false
set_option autoImplicit false

namespace Oak
namespace Typing

section
variable (A : AGrammar) (k : Nat)

/-- The types that the depth inference does not change: those of the expressions of rules that are under no expression of unit type. -/
def Prot (T : Nat → IType) (j : Nat) : Prop := j = k ∨ ∃ r b y, A.grammar.find r = some b ∧ Live T b y ∧ y.id = j

/-- What holds of the types after the depth inference of an expression, which is under an ascription if the flag is true. -/
inductive Done (T : Nat → IType) : Bool → Expr → Prop where
  | unit {e} : (T e.id).isUnitKind = true → Done T false e
  | node {e} : (∀ i c b f, e ≠ .act i c b f) → (∀ i c t, e ≠ .asc i c t) → (∀ c ∈ e.zkids, Done T false c) → Done T false e
  | act {a i c b f} : RuleDoc A k T c → Done T false c → (a = true → ∃ s, T i = .regular (.rust s)) → Done T a (.act i c b f)
  | asc {a i c ty s} : T i = .regular (.rust s) → ty = .regular (.rust s) → (∃ v, HasType A c v ∧ (v = .external ∨ ∃ x, v = .rust x)) → Done T true c →
      Done T a (.asc i c ty)
  | nt {i r b s} : T i = .regular (.rust s) → A.grammar.find r = some b → (T b.id = .external ∨ ∃ s', T b.id = .regular (.rust s')) → Done T true (.nt i r)
  | ext {i f s} : T i = .regular (.rust s) → Done T true (.ext i f)
  | seq {i es s pre c post} : T i = .regular (.rust s) → es = pre ++ c :: post → Done T true c → (∀ d ∈ pre ++ post, (T d.id).isUnitKind = true) →
      (∃ v, HasType A c v ∧ ¬ (v = .hidden ∨ v = .unit)) → (∀ d ∈ pre ++ post, ∃ v, HasType A d v ∧ (v = .hidden ∨ v = .unit)) →
      Done T true (.seq i es)
  | choice {i es s} : T i = .regular (.rust s) → (∀ c ∈ es, Done T true c) → Done T true (.choice i es)
  | range {i c s} : T i = .regular (.rust s) → Done T true c → Done T true (.range i c)

/-- The invariant of the depth inference. -/
structure DInv (N : Prop) (L : Nat → Prop) (s : TState) : Prop where
  sinv : SInv A k True True N [] s
  typed : ∀ r b, A.grammar.find r = some b → s.types b.id ≠ .infer
  norec : ∀ i rs, s.types i ≠ .rec_ rs
  prot : ∀ j, L j ↔ Prot A k s.types j

end

section
variable {A : AGrammar} {k : Nat} {N : Prop} {L : Nat → Prop}

theorem Done.rust {T : Nat → IType} {e : Expr} {a : Bool} (h : Done A k T a e) (ha : a = true) : ∃ s, T e.id = .regular (.rust s) := by
  cases h with
  | unit => cases ha
  | node => cases ha
  | act _ _ h => exact h ha
  | _ h => exact ⟨_, h⟩

theorem Prot.mono {T T' : Nat → IType} (h : ∀ j, Prot A k T j → T' j = T j) (j : Nat) : Prot A k T j ↔ Prot A k T' j := by
  have hl : ∀ {r b}, A.grammar.find r = some b → ∀ y, Live T b y → T' y.id = T y.id := fun hb y hy => h _ (.inr ⟨_, _, y, hb, hy, rfl⟩)
  constructor
  · rintro (h1 | ⟨r, b, y, hb, hy, h1⟩)
    · exact .inl h1
    · exact .inr ⟨r, b, y, hb, hy.congr (hl hb), h1⟩
  · rintro (h1 | ⟨r, b, y, hb, hy, h1⟩)
    · exact .inl h1
    · exact .inr ⟨r, b, y, hb, hy.congr' (hl hb), h1⟩

/-- What is known of the types of an expression depends on the types of the protected expressions and of its own. -/
theorem RuleDoc.stable {T T' : Nat → IType} {c : Expr} (hk : T k = .regular (.rust spanTy)) (hr : ∀ r b, A.grammar.find r = some b → RuleDoc A k T b)
    (hf : ∀ r b, A.grammar.find r = some b → ∀ j ∈ b.zone, T' j ≠ .infer) (hP : ∀ j, Prot A k T j → T' j = T j)
    (hc : ∀ y, Live T c y → T' y.id = T y.id) (h : RuleDoc A k T c) : RuleDoc A k T' c := by
  have hin : ∀ {j}, InRules A T j → Prot A k T j := fun ⟨r, b, y, h1, _, h3, h4⟩ => .inr ⟨r, b, y, h1, h3, h4⟩
  have hin' : ∀ {j}, InRules A T j → InRules A T' j := fun ⟨r, b, y, h1, _, h3, h4⟩ =>
    ⟨r, b, y, h1, hf r b h1, h3.congr fun y hy => hP _ (.inr ⟨r, b, y, h1, hy, rfl⟩), h4⟩
  let P : Nat → Prop := fun j => Prot A k T j ∨ ∃ y, Live T c y ∧ y.id = j
  have hPT : ∀ j, P j → T' j = T j := by
    rintro j (h1 | ⟨y, hy, rfl⟩)
    · exact hP j h1
    · exact hc y hy
  have hrefs : ∀ y, Live T c y → ∀ i ∈ (T y.id).refs, P i := by
    intro y hy i hi
    rcases (h y hy).2 i hi with h1 | ⟨z, hz, h1⟩ | h1
    · exact .inl (.inl h1)
    · exact .inr ⟨z, hy.trans hz, h1⟩
    · exact .inl (hin h1)
  have hcl : ∀ j, P j → ∀ i ∈ (T j).refs, P i := by
    rintro j (h1 | ⟨y, hy, rfl⟩) i hi
    · rcases h1 with rfl | ⟨r, b, y, hb, hy, rfl⟩
      · rw [hk] at hi; cases hi
      · rcases (hr r b hb y hy).2 i hi with h1 | ⟨z, hz, h1⟩ | h1
        · exact .inl (.inl h1)
        · exact .inl (.inr ⟨r, b, z, hb, hy.trans hz, h1⟩)
        · exact .inl (hin h1)
    · exact hrefs y hy i hi
  intro x hx
  have hx := hx.congr' hc
  obtain ⟨⟨v, h1, h2, h3⟩, h4⟩ := h x hx
  have hid := hc x hx
  refine ⟨⟨v, h1, h2, by rw [hid]; exact Unf.congr hPT hcl v _ (hrefs x hx) h3⟩, fun j hj => ?_⟩
  rw [hid] at hj
  rcases h4 j hj with h | ⟨y, hy, h⟩ | h
  · exact .inl h
  · exact .inr (.inl ⟨y, hy.congr fun z hz => hc z (hx.trans hz), h⟩)
  · exact .inr (.inr (hin' h))

theorem live_ids {T : Nat → IType} {c y : Expr} (h : Live T c y) : y.id ∈ c.indices := zone_indices _ _ (h.zsub.zone _ (id_mem_zone y))

theorem Done.congr {T T' : Nat → IType} {a : Bool} {e : Expr} (hk : T k = .regular (.rust spanTy)) (hr : ∀ r b, A.grammar.find r = some b → RuleDoc A k T b)
    (hf : ∀ r b, A.grammar.find r = some b → ∀ j ∈ b.zone, T' j ≠ .infer) (hP : ∀ j, Prot A k T j → T' j = T j) (h : Done A k T a e)
    (he : ∀ j ∈ e.indices, T' j = T j) : Done A k T' a e := by
  have hsub : ∀ {e c : Expr}, (∀ j ∈ e.indices, T' j = T j) → c ∈ e.kids → ∀ j ∈ c.indices, T' j = T j := fun he hc j hj =>
    he j (sub_indices (.kid hc) j hj)
  induction h with
  | unit h => exact .unit (by rw [he _ (id_mem_indices _)]; exact h)
  | node h1 h2 _ ih => exact .node h1 h2 fun c hc => ih c hc (hsub he (zkids_sub hc))
  | @act a i c b f h1 _ h3 ih =>
    have hc := hsub he (c := c) (by simp [Expr.kids])
    have hi := he i (by simpa [Expr.id] using id_mem_indices (.act i c b f))
    exact .act (RuleDoc.stable hk hr hf hP (fun y hy => hc _ (live_ids hy)) h1) (ih hc) (by rw [hi]; exact h3)
  | @asc a i c ty s h1 h2 h3 _ ih =>
    have hi := he i (by simpa [Expr.id] using id_mem_indices (.asc i c ty))
    exact .asc (by rw [hi]; exact h1) h2 h3 (ih (hsub he (by simp [Expr.kids])))
  | @nt i r b s h1 h2 h3 =>
    have hi := he i (by simpa [Expr.id] using id_mem_indices (.nt i r))
    have hb := hP b.id (.inr ⟨r, b, b, h2, .root, rfl⟩)
    exact .nt (by rw [hi]; exact h1) h2 (by rw [hb]; exact h3)
  | @ext i f s h1 =>
    have hi := he i (by simpa [Expr.id] using id_mem_indices (.ext i f))
    exact .ext (by rw [hi]; exact h1)
  | @seq i es s pre c post h1 h2 _ h4 h5 h6 ih =>
    have hi := he i (by simpa [Expr.id] using id_mem_indices (.seq i es))
    refine .seq (by rw [hi]; exact h1) h2 (ih (hsub he (by simp [Expr.kids, h2]))) (fun d hd => ?_) h5 h6
    rw [hsub he (c := d) (by simp at hd; simp [Expr.kids, h2]; grind) _ (id_mem_indices d)]
    exact h4 d hd
  | @choice i es s h1 _ ih =>
    have hi := he i (by simpa [Expr.id] using id_mem_indices (.choice i es))
    exact .choice (by rw [hi]; exact h1) fun c hc => ih c hc (hsub he (by simpa [Expr.kids] using hc))
  | @range i c s h1 _ ih =>
    have hi := he i (by simpa [Expr.id] using id_mem_indices (.range i c))
    exact .range (by rw [hi]; exact h1) (ih (hsub he (by simp [Expr.kids])))

theorem DInv.full {s : TState} (h : DInv A k N L s) : ∀ r b, A.grammar.find r = some b → ∀ j ∈ b.zone, s.types j ≠ .infer := fun r b hb =>
  h.sinv.full r b hb (by simp) (h.typed r b hb)

theorem DInv.rules {s : TState} (h : DInv A k N L s) (n : N) (he : s.error = false) : ∀ r b, A.grammar.find r = some b → RuleDoc A k s.types b := fun r b hb =>
  h.sinv.rules n he r b hb (by simp) (h.typed r b hb)

/-- Messages and errors. -/
theorem DInv.setMsgs {s : TState} {err : Bool} {ms : List TMsg} {l : List TDiag} (h : DInv A k N L s) (he : s.error = true → err = true)
    (hl : ∀ d ∈ l, TFine A d) : DInv A k N L ⟨s.types, err, ms, l⟩ :=
  ⟨h.sinv.setMsgs he hl, h.typed, h.norec, h.prot⟩

/-- The type of an expression that is not protected is changed. -/
theorem DInv.set (H : A.Ready k) {s : TState} {e : Expr} {t : IType} (h : DInv A k N L s) (ho : Occurs A.grammar e) (hl : ¬ L e.id) (ht : t.settled = true)
    (hr : t.refs = []) (hp : t ≠ .regular (.tuple [])) (hn : NodeOk e t) : DInv A k N L (s.set e.id t) := by
  have hlt : e.id < k := H.lt ho _ (id_mem_indices e)
  have hne : ∀ j, j ≠ e.id → (s.set e.id t).types j = s.types j := fun j hj => by simp [TState.set, hj]
  have heq : (s.set e.id t).types e.id = t := by simp [TState.set]
  have hmono : ∀ j, s.types j ≠ .infer → (s.set e.id t).types j ≠ .infer := fun j hj => by
    by_cases hje : j = e.id
    · rw [hje, heq]; exact settled_ne_infer ht
    · rwa [hne j hje]
  have hle : Le s.types (s.set e.id t).types := fun j hj => by
    by_cases hje : j = e.id
    · rw [hje, heq]; exact ⟨ht, .inr hr⟩
    · rw [hne j hje]; exact ⟨hj, .inl rfl⟩
  have hPT : ∀ j, Prot A k s.types j → (s.set e.id t).types j = s.types j := fun j hj => hne j fun h1 => hl (h1 ▸ (h.prot j).2 hj)
  have hnr : ∀ i rs, (s.set e.id t).types i ≠ .rec_ rs := fun i rs => by
    by_cases hi : i = e.id
    · rw [hi, heq]; exact settled_ne_rec ht
    · rw [hne i hi]; exact h.norec i rs
  have hty : ∀ r b, A.grammar.find r = some b → (s.set e.id t).types b.id ≠ .infer := fun r b hb => hmono _ (h.typed r b hb)
  have hfull : ∀ r b, A.grammar.find r = some b → ∀ j ∈ b.zone, (s.set e.id t).types j ≠ .infer := fun r b hb j hj => hmono _ (h.full r b hb j hj)
  refine ⟨⟨?_, ?_, ?_, ?_, ?_, ?_, ?_, ?_, fun _ => hnr, ?_, fun _ r b hb _ => hty r b hb, h.sinv.fine⟩, hty, hnr, fun j => (h.prot j).trans (Prot.mono hPT j)⟩
  · intro i
    by_cases hi : i = e.id
    · rw [hi, heq]; exact .leaf hr
    · rw [hne i hi]
      exact ((h.sinv.deep i).le hle).mono (by have := cnt_mono (k := k) hle; omega)
  · intro i rs hrs
    exact absurd hrs (hnr i rs)
  · intro r b hb _ h0
    exact absurd h0 (hty r b hb)
  · intro r b hb _ _
    exact hfull r b hb
  · exact fun e' he' => nodeOk_set H ho h.sinv.node hn e' he'
  · exact fun _ _ b _ _ rs => hnr b.id rs
  · rw [hne k (by omega)]; exact h.sinv.span
  · intro i
    by_cases hi : i = e.id
    · rw [hi, heq]; exact hp
    · rw [hne i hi]; exact h.sinv.pos i
  · intro n he r b hb _ _
    have hd := h.rules n he
    exact RuleDoc.stable h.sinv.span hd hfull hPT (fun y hy => hPT _ (.inr ⟨r, b, y, hb, hy, rfl⟩)) (hd r b hb)

theorem nodeOk_unit (e : Expr) : NodeOk e (.regular .unit) := by
  cases e <;> simp [NodeOk, IType.isUnitKind]

theorem nodeOk_external {e : Expr} (h : NodeOk e .external) (hw : ∀ i c t, e = .asc i c t → t.Written) (t : IType) : NodeOk e t := by
  cases e with
  | not => rcases h with h | h <;> cases h
  | and => rcases h with h | h <;> cases h
  | asc i c ty =>
    rcases h with h | h | h
    · cases h
    · have := hw _ _ _ rfl
      rw [← h] at this
      rcases this with h | h | ⟨_, h⟩ <;> cases h
    · cases h
  | _ => trivial

/-- The surface inference of an expression that is not visited yet, when all the rules are typed. -/
theorem surfHere_post (H : A.Ready k) {m n : Nat} (hm : k + 2 ≤ m) {s : TState} {c : Expr} (h : DInv A k N L s) (ho : Occurs A.grammar c)
    (hi : ∀ j ∈ c.indices, s.types j = .infer) :
    Outcome (surfHere A k m (n + 1) c s) (fun x => DInv A k N L x.2 ∧ (∀ j, x.2.types j ≠ s.types j → j ∈ c.zone) ∧ (∀ j ∈ c.zone, x.2.types j ≠ .infer) ∧
      (s.error = true → x.2.error = true) ∧ (N → x.2.error = false → RuleDoc A k x.2.types c) ∧ (N → Sane A s → Sane A x.2)) False := by
  have hzone : ∀ j ∈ c.zone, ∀ r b, A.grammar.find r = some b → j ∉ b.zone := fun j hj r b hb hj' => h.full r b hb j hj' (hi j (zone_indices _ _ hj))
  have hpre : Pre A k True True N [] c s := ⟨ho, h.sinv, fun r hr => absurd hr (by simp), fun j hj => hi j (zone_indices _ _ hj),
    fun j hj r b hb hj' => absurd hj' (hzone j hj r b hb), fun r b hb hj => absurd (id_mem_zone b) (hzone _ hj r b hb)⟩
  have hcall : ∀ r ∈ c.seenCalls, (∃ b, A.grammar.find r = some b) → ∀ s, SInv A k True True N [] s → PathInfer A [] s.types →
      Outcome (surfRule A k m (n + 1) [] r s) (CallQ A k True True N [] (fun _ => False) r s) (¬ True) := by
    rintro r _ ⟨b, hb⟩ s2 h2 _
    have h3 := h2.all trivial r b hb (by simp)
    unfold surfRule
    rw [hb]
    dsimp only
    rw [if_neg h3]
    refine .inr ⟨h3, Good.refl h2, h2.recs _, fun rs hrs => absurd hrs (h2.direct trivial r b hb (by simp) rs), fun j hj => h2.deep.ref hj, h2.pos _,
      fun nn he => ?_⟩
    exact ⟨b, hb, rfl, h2.rules nn he r b hb (by simp) h3 b .root, h2.full r b hb (by simp) h3⟩
  refine (surfExpr_post H hm (fun _ h => h.elim) c hcall s hpre).mono ?_ (fun h => h trivial)
  rintro ⟨t, s1⟩ ⟨g1, g2, g3, g4⟩
  dsimp only at g1 g2 g3 g4 ⊢
  have hch : ∀ j, s1.types j ≠ s.types j → j ∈ c.zone := fun j hj => by
    rcases g1.frame j hj with h1 | ⟨r, b, h1, _, _, h2, _⟩
    · exact h1
    · exact absurd h2 (h.typed r b h1)
  refine ⟨⟨g1.inv, fun r b hb => g1.inv.all trivial r b hb (by simp), ?_, ?_⟩, hch, fun j hj => (g3 j hj).1, g1.err,
    fun nn he x hx => g4 nn he x hx.zsub, g1.just⟩
  · intro i rs hrs
    by_cases hi : s1.types i = s.types i
    · exact h.norec i rs (hi ▸ hrs)
    · obtain ⟨h1, h2⟩ := g1.inv.recs i rs hrs
      obtain ⟨p, hp⟩ := List.exists_mem_of_ne_nil rs h1
      obtain ⟨x, hx⟩ := List.exists_mem_of_ne_nil p.path (h2 p hp).1
      exact (g3 i (hch i hi)).2 rs hrs p hp x hx
  · intro j
    refine (h.prot j).trans (Prot.mono (fun j hj => ?_) j)
    rcases hj with rfl | ⟨r, b, y, hb, hy, rfl⟩
    · exact g1.grow _ (by rw [h.sinv.span]; simp)
    · exact g1.grow _ (h.full r b hb _ (hy.zsub.zone _ (id_mem_zone y)))

end

end Typing
end Oak
