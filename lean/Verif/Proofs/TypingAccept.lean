import Verif.Proofs.TypingTop
import Verif.Proofs.TypingDet
/-!
Grammars without errors of type are accepted: no message is justified.
-/
set_option linter.constructorNameAsVariable false
set_option autoImplicit false

namespace Oak
namespace Typing

/-- Tuples have at least two components, and are flat. -/
def Norm (v : DType) : Prop := ∀ ts, v = .tuple ts → 2 ≤ ts.length ∧ ∀ t ∈ ts, t.part

theorem Norm.parts {v : DType} (h : Norm v) : ∀ u ∈ v.parts, u.part := by
  cases v <;> simp_all [DType.parts, DType.part, Norm]

theorem Norm.pack {l : List DType} (h : ∀ t ∈ l, t.part) : Norm (.pack l) := by
  match l with
  | [] => intro ts h; cases h
  | [w] => intro ts hw; exact absurd hw ((h w (by simp)).2.2 ts)
  | _ :: _ :: _ => intro ts hw; cases hw; exact ⟨by simp, h⟩

theorem Norm.ne_nil {v : DType} (h : Norm v) (h1 : v ≠ .hidden) (h2 : v ≠ .unit) : v.parts ≠ [] := by
  cases v <;> simp_all [DType.parts, Norm]
  rintro rfl; simp at h

theorem Norm.single {v w : DType} (h : Norm v) (hp : v.parts = [w]) : v = w := by
  cases v <;> simp_all [DType.parts, Norm]

theorem ChoiceType.mem {ts : List DType} {t : DType} (h : ChoiceType ts t) : t ∈ ts := by
  cases h with
  | same => simp
  | known h => subst h; simp
  | units _ h => exact h

mutual
theorem norm_of {A : AGrammar} {e : Expr} {t : DType} (h : HasType A e t) : Norm t := by
  match h with
  | .str | .not | .and | .any | .cls | .ext => intro ts h; cases h
  | .nt _ h => exact norm_of h
  | .act =>
    intro ts h; unfold actionType at h
    split at h
    · split at h
      · split at h <;> cases h
      · cases h
    · cases h
  | .asc h => intro ts h'; subst h'; cases h
  | .star _ _ | .plus _ _ | .opt _ _ | .starHidden _ | .plusHidden _ | .optHidden _ | .range _ | .seqHidden _ _ => intro ts h; cases h
  | .span h =>
    refine Norm.pack fun u hu => ?_
    rcases List.mem_cons.1 hu with rfl | hu
    · exact ⟨(by intro h; cases h), (by intro h; cases h), (by intro ts h; cases h)⟩
    · exact (norm_of h).parts u hu
  | .seq h _ =>
    refine Norm.pack fun u hu => ?_
    obtain ⟨v, hv, hu⟩ := List.mem_flatMap.1 hu
    exact (norm_all h v hv).parts u hu
  | .choice h h' => exact norm_all h _ (ChoiceType.mem h')
theorem norm_all {A : AGrammar} {es : List Expr} {ts : List DType} (h : HasTypes A es ts) : ∀ t ∈ ts, Norm t := by
  match h with
  | .nil => intro t ht; cases ht
  | .cons h1 h2 =>
    exact List.forall_mem_cons.2 ⟨norm_of h1, norm_all h2⟩
end

theorem hasTypes_mem {A : AGrammar} {es : List Expr} {ts : List DType} (h : HasTypes A es ts) {e : Expr} (he : e ∈ es) : ∃ t ∈ ts, HasType A e t := by
  induction es generalizing ts with
  | nil => cases he
  | cons c cs ih =>
    cases h with
    | cons h1 h2 =>
      rcases List.mem_cons.1 he with rfl | he
      · exact ⟨_, by simp, h1⟩
      · obtain ⟨t, ht, h⟩ := ih h2 he
        exact ⟨t, by simp [ht], h⟩

theorem AscPart.under {A : AGrammar} {c e : Expr} (h : AscPart A c e) : Under c e := by
  induction h with
  | self => exact .self
  | seq _ h _ _ _ ih => exact .seq ih h
  | choice _ h ih => exact .choice ih h
  | span _ ih => exact .span ih
  | range _ ih => exact .range ih

/-- Types that can be ascribed a Rust type. -/
def Fine (v : DType) : Prop := v = .external ∨ ∃ x, v = .rust x

theorem fine_same {u t : DType} (h : Same u t) (ht : Fine t) : Fine u := by
  rcases ht with rfl | ⟨x, rfl⟩ <;> cases h
  · exact .inl rfl
  · exact .inr ⟨_, rfl⟩

/-- The parts of what has a Rust type or an unknown type have such types. -/
theorem ascPart_fine {A : AGrammar} {c e : Expr} (hs : ∀ j d, ¬ Under c (.span j d) ∧ ¬ Under c (.range j d)) (hc : ∃ v, HasType A c v ∧ Fine v) (h : AscPart A c e) :
    ∃ v, HasType A e v ∧ Fine v := by
  induction h with
  | self => exact hc
  | @seq i es e v h1 he hv n1 n2 ih =>
    obtain ⟨t, ht, hf⟩ := ih
    refine ⟨v, hv, ?_⟩
    cases ht with
    | @seq _ _ ts hts _ =>
      obtain ⟨w, hw⟩ := pack_one hf
      rw [hw] at hf
      obtain ⟨v', hv', hv2⟩ := hasTypes_mem hts he
      cases hv.det hv2
      have hn := norm_all hts v hv'
      have hsub : ∀ u ∈ v.parts, u = w := fun u hu => by
        have : u ∈ ts.flatMap DType.parts := List.mem_flatMap.2 ⟨v, hv', hu⟩
        rw [hw] at this; simpa using this
      have hlen : v.parts.length ≤ 1 := by
        have : (v.parts).length ≤ (ts.flatMap DType.parts).length := by
          obtain ⟨a, b, rfl⟩ := List.append_of_mem hv'
          simp only [List.flatMap_append, List.flatMap_cons, List.length_append]
          omega
        rw [hw] at this; exact this
      have h0 := hn.ne_nil n1 n2
      match hp : v.parts, hsub, hlen, h0 with
      | [], _, _, h0 => exact absurd rfl h0
      | [u], hsub, _, _ =>
        rw [hn.single hp, hsub u (by simp)]
        exact hf
      | _ :: _ :: _, _, hlen, _ => simp at hlen
    | seqHidden => rcases hf with h | ⟨x, h⟩ <;> cases h
  | @choice i es e h1 he ih =>
    obtain ⟨t, ht, hf⟩ := ih
    cases ht with
    | @choice _ _ ts _ hts hch =>
      obtain ⟨v, hv, hv2⟩ := hasTypes_mem hts he
      refine ⟨v, hv2, ?_⟩
      cases hch with
      | same h =>
        rcases List.mem_cons.1 hv with rfl | hv
        · exact hf
        · exact fine_same (h v hv) hf
      | known h0 hpre hne hpost =>
        subst h0
        rcases List.mem_append.1 hv with hv | hv
        · exact .inl (hpre v hv)
        · rcases List.mem_cons.1 hv with rfl | hv
          · exact hf
          · rcases hpost v hv with h | h
            · exact .inl h
            · exact fine_same h hf
      | units => rcases hf with h | ⟨x, h⟩ <;> cases h
  | span h _ => exact absurd (AscPart.under h) (hs _ _).1
  | range h _ => exact absurd (AscPart.under h) (hs _ _).2

/-- No message that stops the inference is justified. -/
theorem no_error {A : AGrammar} (h : A.TypeCorrect) (hu : A.Untangled) {x : TMsg} (hb : x.blocking = true) : ¬ x.Justified A := by
  intro hj
  cases x with
  | mismatch i =>
    obtain ⟨es, ts, ho, hts, hn⟩ := hj
    obtain ⟨t, ht⟩ := h.choices i es ho
    cases ht with
    | choice h1 h2 => rw [h1.det hts] at h2; exact hn _ h2
  | ascription i =>
    rcases hj with ⟨j, c, x, e, v, ho, hp, _, hv, h1, h2⟩ | ⟨j, c, ty, d, ty', ho, hd, hn⟩
    · have hc : ∃ v, HasType A c v ∧ Fine v := by
        rcases h.ascriptions j c x ho with h | ⟨y, h⟩
        · exact ⟨_, h, .inl rfl⟩
        · exact ⟨_, h, .inr ⟨_, rfl⟩⟩
      obtain ⟨w, hw, hf⟩ := ascPart_fine (hu.spans j c x ho) hc hp
      cases hv.det hw
      rcases hf with h | ⟨y, h⟩
      · exact h1 h
      · exact h2 y h
    · exact hn (hu.alike j c ty ho i d ty' hd)
  | untyped r =>
    obtain ⟨b, t, hb, ht, hk⟩ := hj
    obtain ⟨t', ht', hk'⟩ := h.rules r b hb
    cases ht.det ht'
    rw [hk] at hk'; cases hk'
  | unitAction i => cases hb
  | recursive i => cases hb

/-! ### For the examples -/

mutual
/-- The parts of an expression. -/
def subs (e : Expr) : List Expr :=
  e :: match e with
  | .str _ _ | .any _ | .cls _ _ | .ext _ _ | .nt _ _ => []
  | .seq _ es | .choice _ es => subsAll es
  | .star _ e | .plus _ e | .opt _ e | .span _ e | .range _ e | .not _ e | .and _ e | .act _ e _ _ | .asc _ e _ => subs e
/-- The same for lists. -/
def subsAll (es : List Expr) : List Expr :=
  match es with
  | [] => []
  | e :: es => subs e ++ subsAll es
end

mutual
/-- The parts of an expression that are under no semantic action or ascription. -/
def unders (e : Expr) : List Expr :=
  e :: match e with
  | .str _ _ | .any _ | .cls _ _ | .ext _ _ | .nt _ _ | .act _ _ _ _ | .asc _ _ _ => []
  | .seq _ es | .choice _ es => undersAll es
  | .star _ e | .plus _ e | .opt _ e | .span _ e | .range _ e | .not _ e | .and _ e => unders e
/-- The same for lists. -/
def undersAll (es : List Expr) : List Expr :=
  match es with
  | [] => []
  | e :: es => unders e ++ undersAll es
end

theorem subsAll_mem {es : List Expr} {e x : Expr} (he : e ∈ es) (hx : x ∈ subs e) : x ∈ subsAll es := by
  induction he with
  | head => rw [subsAll]; simp [hx]
  | tail _ _ ih => rw [subsAll]; simp [ih]

theorem undersAll_mem {es : List Expr} {x : Expr} : x ∈ undersAll es ↔ ∃ e ∈ es, x ∈ unders e := by
  induction es with
  | nil => simp [undersAll]
  | cons c cs ih => simp [undersAll, ih]

theorem sub_mem {x e : Expr} (h : Sub x e) : x ∈ subs e := by
  induction h with
  | refl => unfold subs; simp
  | seq he _ ih => rw [subs]; exact .tail _ (subsAll_mem he ih)
  | choice he _ ih => rw [subs]; exact .tail _ (subsAll_mem he ih)
  | _ _ ih => rw [subs]; exact .tail _ ih

theorem occurs_mem {G : Grammar} {x : Expr} (h : Occurs G x) : x ∈ G.rules.flatMap fun r => subs r.2 := by
  obtain ⟨r, e, he, hs⟩ := h
  exact List.mem_flatMap.2 ⟨_, grammar_find_mem he, sub_mem hs⟩

/-- The parts of the parts of an expression are its parts. -/
theorem unders_trans (c : Expr) : ∀ x ∈ unders c, ∀ y ∈ unders x, y ∈ unders c := by
  induction c using Expr.kidsInd with
  | _ c ih =>
    intro x hx y hy
    cases c <;> simp only [unders, List.mem_cons, List.not_mem_nil, or_false] at hx <;> rcases hx with rfl | hx <;> first | exact hy | skip
    case h.seq.inr i es =>
      obtain ⟨e, he, hx⟩ := undersAll_mem.1 hx
      rw [unders]; exact .tail _ (undersAll_mem.2 ⟨e, he, ih e (by simpa [Expr.kids] using he) x hx y hy⟩)
    case h.choice.inr i es =>
      obtain ⟨e, he, hx⟩ := undersAll_mem.1 hx
      rw [unders]; exact .tail _ (undersAll_mem.2 ⟨e, he, ih e (by simpa [Expr.kids] using he) x hx y hy⟩)
    all_goals exact .tail _ (ih _ (by simp [Expr.kids]) x hx y hy)

theorem unders_self (e : Expr) : e ∈ unders e := by unfold unders; simp

theorem under_mem {c x : Expr} (h : Under c x) : x ∈ unders c := by
  induction h with
  | self => exact unders_self _
  | seq _ he ih => exact unders_trans c _ ih _ (by rw [unders]; exact .tail _ (undersAll_mem.2 ⟨_, he, unders_self _⟩))
  | choice _ he ih => exact unders_trans c _ ih _ (by rw [unders]; exact .tail _ (undersAll_mem.2 ⟨_, he, unders_self _⟩))
  | _ _ ih => exact unders_trans c _ ih _ (by rw [unders]; exact .tail _ (unders_self _))

end Typing
end Oak
