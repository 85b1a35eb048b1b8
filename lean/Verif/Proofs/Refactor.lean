import Verif.Spec.Refactor
import Verif.Proofs.PegOps
import Verif.Proofs.PegBasic
/-!
Refactoring of grammars: the laws hold, and a match of a refactored grammar is a match of the grammar.
-/
set_option linter.constructorNameAsVariable false
set_option autoImplicit false

namespace Oak.Spec
open Oak

variable {G G' : Grammar} {X : ExtSpec} {E : Expr → Expr → Prop}

/-- Laws are used from the root to the leaves. -/
inductive Descend (E : Expr → Expr → Prop) : Expr → Expr → Prop where
  | law {a b c} : E a b → Descend E b c → Descend E a c
  | str {i j l} : Descend E (.str i l) (.str j l)
  | any {i j} : Descend E (.any i) (.any j)
  | cls {i j v} : Descend E (.cls i v) (.cls j v)
  | nt {i j r} : Descend E (.nt i r) (.nt j r)
  | ext {i j p} : Descend E (.ext i p) (.ext j p)
  | seq_nil {i j} : Descend E (.seq i []) (.seq j [])
  | seq_cons {i j e e' es es'} : Descend E e e' → Descend E (.seq i es) (.seq j es') → Descend E (.seq i (e :: es)) (.seq j (e' :: es'))
  | choice_nil {i j} : Descend E (.choice i []) (.choice j [])
  | choice_cons {i j e e' es es'} : Descend E e e' → Descend E (.choice i es) (.choice j es') →
      Descend E (.choice i (e :: es)) (.choice j (e' :: es'))
  | star {i j e e'} : Descend E e e' → Descend E (.star i e) (.star j e')
  | plus {i j e e'} : Descend E e e' → Descend E (.plus i e) (.plus j e')
  | opt {i j e e'} : Descend E e e' → Descend E (.opt i e) (.opt j e')
  | not {i j e e'} : Descend E e e' → Descend E (.not i e) (.not j e')
  | and {i j e e'} : Descend E e e' → Descend E (.and i e) (.and j e')
  | act {i j e e' b b' f f'} : Descend E e e' → Descend E (.act i e b f) (.act j e' b' f')
  | asc {i j e e' t t'} : Descend E e e' → Descend E (.asc i e t) (.asc j e' t')
  | span {i j e e'} : Descend E e e' → Descend E (.span i e) (.span j e')
  | range {i j e e'} : Descend E e e' → Descend E (.range i e) (.range j e')

theorem Descend.refl (e : Expr) : Descend E e e := by
  induction e using Expr.ind with
  | str => exact .str
  | any => exact .any
  | cls => exact .cls
  | nt => exact .nt
  | ext => exact .ext
  | seq i es ih =>
    induction es with
    | nil => exact .seq_nil
    | cons e es ih' => exact .seq_cons (ih _ (by simp)) (ih' fun e he => ih e (by simp [he]))
  | choice i es ih =>
    induction es with
    | nil => exact .choice_nil
    | cons e es ih' => exact .choice_cons (ih _ (by simp)) (ih' fun e he => ih e (by simp [he]))
  | star _ _ ih => exact .star ih
  | plus _ _ ih => exact .plus ih
  | opt _ _ ih => exact .opt ih
  | not _ _ ih => exact .not ih
  | and _ _ ih => exact .and ih
  | act _ _ _ _ ih => exact .act ih
  | asc _ _ _ ih => exact .asc ih
  | span _ _ ih => exact .span ih
  | range _ _ ih => exact .range ih

/-- The last step of a refactoring that is not a law. -/
inductive Congr (E : Expr → Expr → Prop) : Expr → Expr → Prop where
  | str {i j l} : Congr E (.str i l) (.str j l)
  | any {i j} : Congr E (.any i) (.any j)
  | cls {i j v} : Congr E (.cls i v) (.cls j v)
  | nt {i j r} : Congr E (.nt i r) (.nt j r)
  | ext {i j p} : Congr E (.ext i p) (.ext j p)
  | seq_nil {i j} : Congr E (.seq i []) (.seq j [])
  | seq_cons {i j e e' es es'} : Descend E e e' → Descend E (.seq i es) (.seq j es') → Congr E (.seq i (e :: es)) (.seq j (e' :: es'))
  | choice_nil {i j} : Congr E (.choice i []) (.choice j [])
  | choice_cons {i j e e' es es'} : Descend E e e' → Descend E (.choice i es) (.choice j es') →
      Congr E (.choice i (e :: es)) (.choice j (e' :: es'))
  | star {i j e e'} : Descend E e e' → Congr E (.star i e) (.star j e')
  | plus {i j e e'} : Descend E e e' → Congr E (.plus i e) (.plus j e')
  | opt {i j e e'} : Descend E e e' → Congr E (.opt i e) (.opt j e')
  | not {i j e e'} : Descend E e e' → Congr E (.not i e) (.not j e')
  | and {i j e e'} : Descend E e e' → Congr E (.and i e) (.and j e')
  | act {i j e e' b b' f f'} : Descend E e e' → Congr E (.act i e b f) (.act j e' b' f')
  | asc {i j e e' t t'} : Descend E e e' → Congr E (.asc i e t) (.asc j e' t')
  | span {i j e e'} : Descend E e e' → Congr E (.span i e) (.span j e')
  | range {i j e e'} : Descend E e e' → Congr E (.range i e) (.range j e')

theorem Descend.elim {P : Expr → Prop} {e e' : Expr} (h : Descend E e e') (hl : ∀ a b, E a b → P b → P a)
    (hc : ∀ m, Congr E m e' → P m) : P e := by
  induction h with
  | law h1 _ ih => exact hl _ _ h1 (ih hc)
  | str => exact hc _ .str
  | any => exact hc _ .any
  | cls => exact hc _ .cls
  | nt => exact hc _ .nt
  | ext => exact hc _ .ext
  | seq_nil => exact hc _ .seq_nil
  | seq_cons h1 h2 => exact hc _ (.seq_cons h1 h2)
  | choice_nil => exact hc _ .choice_nil
  | choice_cons h1 h2 => exact hc _ (.choice_cons h1 h2)
  | star h => exact hc _ (.star h)
  | plus h => exact hc _ (.plus h)
  | opt h => exact hc _ (.opt h)
  | not h => exact hc _ (.not h)
  | and h => exact hc _ (.and h)
  | act h => exact hc _ (.act h)
  | asc h => exact hc _ (.asc h)
  | span h => exact hc _ (.span h)
  | range h => exact hc _ (.range h)

theorem outcome_ok {e s s' L} (h : Outcome G X e s (some s') L) : ∃ t, Peg G X e s (.ok s' t) L := by
  obtain ⟨o, h, ho⟩ := h
  cases o with
  | fail => cases ho
  | ok s t => cases ho; exact ⟨t, h⟩

theorem outcome_fail {e s L} (h : Outcome G X e s none L) : Peg G X e s .fail L := by
  obtain ⟨o, h, ho⟩ := h
  cases o with
  | fail => exact h
  | ok s t => cases ho

/-- Every outcome of the refactored grammar is an outcome of the grammar; `K` relates the failed terminals. -/
theorem descend_sound {K : Log → Log → Prop} (hr : ∀ L, K L L) (ha : ∀ {A A' B B'}, K A A' → K B B' → K (A ++ B) (A' ++ B'))
    (hE : ∀ a b, E a b → ∀ s x L, Outcome G X b s x L → ∃ L', Outcome G X a s x L' ∧ K L L') (ht : ∀ {A B C}, K A B → K B C → K A C)
    (hG : ∀ r e', G'.find r = some e' → ∃ e, G.find r = some e ∧ Descend E e e') {e' s o L} (h : Peg G' X e' s o L) : ∀ {e}, Descend E e e' → ∃ L', Outcome G X e s o.stop L' ∧ K L L' := by
  have hlaw : ∀ s x L a b, E a b → (∃ L', Outcome G X b s x L' ∧ K L L') → ∃ L', Outcome G X a s x L' ∧ K L L' := by
    rintro s x L a b h ⟨L1, h1, k1⟩
    obtain ⟨L2, h2, k2⟩ := hE a b h s x L1 h1
    exact ⟨L2, h2, ht k1 k2⟩
  induction h with
  | str_ok =>
    intro e hf; refine hf.elim (hlaw _ _ _) ?_; rintro m ⟨⟩
    exact ⟨_, ⟨_, .str_ok, rfl⟩, hr _⟩
  | str_fail h =>
    intro e hf; refine hf.elim (hlaw _ _ _) ?_; rintro m ⟨⟩
    exact ⟨_, ⟨_, .str_fail h, rfl⟩, hr _⟩
  | any_ok =>
    intro e hf; refine hf.elim (hlaw _ _ _) ?_; rintro m ⟨⟩
    exact ⟨_, ⟨_, .any_ok, rfl⟩, hr _⟩
  | any_fail =>
    intro e hf; refine hf.elim (hlaw _ _ _) ?_; rintro m ⟨⟩
    exact ⟨_, ⟨_, .any_fail, rfl⟩, hr _⟩
  | cls_ok h =>
    intro e hf; refine hf.elim (hlaw _ _ _) ?_; rintro m ⟨⟩
    exact ⟨_, ⟨_, .cls_ok h, rfl⟩, hr _⟩
  | cls_fail h =>
    intro e hf; refine hf.elim (hlaw _ _ _) ?_; rintro m ⟨⟩
    exact ⟨_, ⟨_, .cls_fail h, rfl⟩, hr _⟩
  | cls_eof =>
    intro e hf; refine hf.elim (hlaw _ _ _) ?_; rintro m ⟨⟩
    exact ⟨_, ⟨_, .cls_eof, rfl⟩, hr _⟩
  | nt_ok he _ ih =>
    intro e hf; refine hf.elim (hlaw _ _ _) ?_; rintro m ⟨⟩
    obtain ⟨b, hb, hb'⟩ := hG _ _ he
    obtain ⟨L', h1, k⟩ := ih hb'
    obtain ⟨t, h1⟩ := outcome_ok h1
    exact ⟨L', ⟨_, .nt_ok hb h1, rfl⟩, k⟩
  | nt_fail he _ ih =>
    intro e hf; refine hf.elim (hlaw _ _ _) ?_; rintro m ⟨⟩
    obtain ⟨b, hb, hb'⟩ := hG _ _ he
    obtain ⟨L', h1, k⟩ := ih hb'
    exact ⟨L', ⟨_, .nt_fail hb (outcome_fail h1), rfl⟩, k⟩
  | @ext i p s o L hx =>
    intro e hf; refine hf.elim (hlaw _ _ _) ?_; rintro m ⟨⟩
    exact ⟨_, ⟨_, .ext hx, rfl⟩, hr _⟩
  | seq_nil =>
    intro e hf; refine hf.elim (hlaw _ _ _) ?_; rintro m ⟨⟩
    exact ⟨_, ⟨_, .seq_nil, rfl⟩, hr _⟩
  | seq_cons _ _ ih1 ih2 =>
    intro e hf; refine hf.elim (hlaw _ _ _) ?_; intro m hc
    cases hc with
    | seq_cons c1 c2 =>
      obtain ⟨L1, h1, k1⟩ := ih1 c1
      obtain ⟨L2, h2, k2⟩ := ih2 c2
      obtain ⟨t, h1⟩ := outcome_ok h1
      obtain ⟨u, h2⟩ := outcome_ok h2
      obtain ⟨ts, rfl⟩ := seq_ok_seq h2
      exact ⟨_, ⟨_, .seq_cons h1 h2, rfl⟩, ha k1 k2⟩
  | seq_fail _ ih1 =>
    intro e hf; refine hf.elim (hlaw _ _ _) ?_; intro m hc
    cases hc with
    | seq_cons c1 c2 =>
      obtain ⟨L1, h1, k1⟩ := ih1 c1
      exact ⟨_, ⟨_, .seq_fail (outcome_fail h1), rfl⟩, k1⟩
  | seq_later _ _ ih1 ih2 =>
    intro e hf; refine hf.elim (hlaw _ _ _) ?_; intro m hc
    cases hc with
    | seq_cons c1 c2 =>
      obtain ⟨L1, h1, k1⟩ := ih1 c1
      obtain ⟨L2, h2, k2⟩ := ih2 c2
      obtain ⟨t, h1⟩ := outcome_ok h1
      exact ⟨_, ⟨_, .seq_later h1 (outcome_fail h2), rfl⟩, ha k1 k2⟩
  | choice_nil =>
    intro e hf; refine hf.elim (hlaw _ _ _) ?_; rintro m ⟨⟩
    exact ⟨_, ⟨_, .choice_nil, rfl⟩, hr _⟩
  | choice_first _ ih1 =>
    intro e hf; refine hf.elim (hlaw _ _ _) ?_; intro m hc
    cases hc with
    | choice_cons c1 c2 =>
      obtain ⟨L1, h1, k1⟩ := ih1 c1
      obtain ⟨t, h1⟩ := outcome_ok h1
      exact ⟨_, ⟨_, .choice_first h1, rfl⟩, k1⟩
  | choice_next _ _ ih1 ih2 =>
    intro e hf; refine hf.elim (hlaw _ _ _) ?_; intro m hc
    cases hc with
    | choice_cons c1 c2 =>
      obtain ⟨L1, h1, k1⟩ := ih1 c1
      obtain ⟨L2, h2, k2⟩ := ih2 c2
      obtain ⟨t, h2⟩ := outcome_ok h2
      obtain ⟨k, u, rfl⟩ := choice_ok_alt h2
      exact ⟨_, ⟨_, .choice_next (outcome_fail h1) h2, rfl⟩, ha k1 k2⟩
  | choice_fail _ _ ih1 ih2 =>
    intro e hf; refine hf.elim (hlaw _ _ _) ?_; intro m hc
    cases hc with
    | choice_cons c1 c2 =>
      obtain ⟨L1, h1, k1⟩ := ih1 c1
      obtain ⟨L2, h2, k2⟩ := ih2 c2
      exact ⟨_, ⟨_, .choice_fail (outcome_fail h1) (outcome_fail h2), rfl⟩, ha k1 k2⟩
  | star_stop _ ih =>
    intro e hf; refine hf.elim (hlaw _ _ _) ?_; intro m hc
    cases hc with
    | star c =>
      obtain ⟨L1, h1, k1⟩ := ih c
      exact ⟨_, ⟨_, .star_stop (outcome_fail h1), rfl⟩, k1⟩
  | star_more _ _ ih1 ih2 =>
    intro e hf; refine hf.elim (hlaw _ _ _) ?_; intro m hc
    cases hc with
    | @star i _ _ _ c =>
      obtain ⟨L1, h1, k1⟩ := ih1 c
      obtain ⟨L2, h2, k2⟩ := ih2 (.star (i := i) c)
      obtain ⟨t, h1⟩ := outcome_ok h1
      obtain ⟨u, h2⟩ := outcome_ok h2
      obtain ⟨ts, rfl⟩ := star_ok_rep h2
      exact ⟨_, ⟨_, .star_more h1 h2, rfl⟩, ha k1 k2⟩
  | plus_fail _ ih =>
    intro e hf; refine hf.elim (hlaw _ _ _) ?_; intro m hc
    cases hc with
    | plus c =>
      obtain ⟨L1, h1, k1⟩ := ih c
      exact ⟨_, ⟨_, .plus_fail (outcome_fail h1), rfl⟩, k1⟩
  | plus_ok _ _ ih1 ih2 =>
    intro e hf; refine hf.elim (hlaw _ _ _) ?_; intro m hc
    cases hc with
    | @plus i _ _ _ c =>
      obtain ⟨L1, h1, k1⟩ := ih1 c
      obtain ⟨L2, h2, k2⟩ := ih2 (.star (i := i) c)
      obtain ⟨t, h1⟩ := outcome_ok h1
      obtain ⟨u, h2⟩ := outcome_ok h2
      obtain ⟨ts, rfl⟩ := star_ok_rep h2
      exact ⟨_, ⟨_, .plus_ok h1 h2, rfl⟩, ha k1 k2⟩
  | opt_some _ ih =>
    intro e hf; refine hf.elim (hlaw _ _ _) ?_; intro m hc
    cases hc with
    | opt c =>
      obtain ⟨L1, h1, k1⟩ := ih c
      obtain ⟨t, h1⟩ := outcome_ok h1
      exact ⟨_, ⟨_, .opt_some h1, rfl⟩, k1⟩
  | opt_none _ ih =>
    intro e hf; refine hf.elim (hlaw _ _ _) ?_; intro m hc
    cases hc with
    | opt c =>
      obtain ⟨L1, h1, k1⟩ := ih c
      exact ⟨_, ⟨_, .opt_none (outcome_fail h1), rfl⟩, k1⟩
  | not_ok _ ih =>
    intro e hf; refine hf.elim (hlaw _ _ _) ?_; intro m hc
    cases hc with
    | not c =>
      obtain ⟨L1, h1, k1⟩ := ih c
      exact ⟨_, ⟨_, .not_ok (outcome_fail h1), rfl⟩, k1⟩
  | not_fail _ ih =>
    intro e hf; refine hf.elim (hlaw _ _ _) ?_; intro m hc
    cases hc with
    | not c =>
      obtain ⟨L1, h1, k1⟩ := ih c
      obtain ⟨t, h1⟩ := outcome_ok h1
      exact ⟨_, ⟨_, .not_fail h1, rfl⟩, k1⟩
  | and_ok _ ih =>
    intro e hf; refine hf.elim (hlaw _ _ _) ?_; intro m hc
    cases hc with
    | and c =>
      obtain ⟨L1, h1, k1⟩ := ih c
      obtain ⟨t, h1⟩ := outcome_ok h1
      exact ⟨_, ⟨_, .and_ok h1, rfl⟩, k1⟩
  | and_fail _ ih =>
    intro e hf; refine hf.elim (hlaw _ _ _) ?_; intro m hc
    cases hc with
    | and c =>
      obtain ⟨L1, h1, k1⟩ := ih c
      exact ⟨_, ⟨_, .and_fail (outcome_fail h1), rfl⟩, k1⟩
  | act_ok _ ih =>
    intro e hf; refine hf.elim (hlaw _ _ _) ?_; intro m hc
    cases hc with
    | act c =>
      obtain ⟨L1, h1, k1⟩ := ih c
      obtain ⟨t, h1⟩ := outcome_ok h1
      exact ⟨_, ⟨_, .act_ok h1, rfl⟩, k1⟩
  | act_fail _ ih =>
    intro e hf; refine hf.elim (hlaw _ _ _) ?_; intro m hc
    cases hc with
    | act c =>
      obtain ⟨L1, h1, k1⟩ := ih c
      exact ⟨_, ⟨_, .act_fail (outcome_fail h1), rfl⟩, k1⟩
  | asc_ok _ ih =>
    intro e hf; refine hf.elim (hlaw _ _ _) ?_; intro m hc
    cases hc with
    | asc c =>
      obtain ⟨L1, h1, k1⟩ := ih c
      obtain ⟨t, h1⟩ := outcome_ok h1
      exact ⟨_, ⟨_, .asc_ok h1, rfl⟩, k1⟩
  | asc_fail _ ih =>
    intro e hf; refine hf.elim (hlaw _ _ _) ?_; intro m hc
    cases hc with
    | asc c =>
      obtain ⟨L1, h1, k1⟩ := ih c
      exact ⟨_, ⟨_, .asc_fail (outcome_fail h1), rfl⟩, k1⟩
  | span_ok _ ih =>
    intro e hf; refine hf.elim (hlaw _ _ _) ?_; intro m hc
    cases hc with
    | span c =>
      obtain ⟨L1, h1, k1⟩ := ih c
      obtain ⟨t, h1⟩ := outcome_ok h1
      exact ⟨_, ⟨_, .span_ok h1, rfl⟩, k1⟩
  | span_fail _ ih =>
    intro e hf; refine hf.elim (hlaw _ _ _) ?_; intro m hc
    cases hc with
    | span c =>
      obtain ⟨L1, h1, k1⟩ := ih c
      exact ⟨_, ⟨_, .span_fail (outcome_fail h1), rfl⟩, k1⟩
  | range_ok _ ih =>
    intro e hf; refine hf.elim (hlaw _ _ _) ?_; intro m hc
    cases hc with
    | range c =>
      obtain ⟨L1, h1, k1⟩ := ih c
      obtain ⟨t, h1⟩ := outcome_ok h1
      exact ⟨_, ⟨_, .range_ok h1, rfl⟩, k1⟩
  | range_fail _ ih =>
    intro e hf; refine hf.elim (hlaw _ _ _) ?_; intro m hc
    cases hc with
    | range c =>
      obtain ⟨L1, h1, k1⟩ := ih c
      exact ⟨_, ⟨_, .range_fail (outcome_fail h1), rfl⟩, k1⟩

/-- Outcomes at `b` are outcomes at `a`; `K` relates the failed terminals. -/
def Covered (G : Grammar) (X : ExtSpec) (K : Log → Log → Prop) (a b : Expr) : Prop :=
  ∀ s x L, Outcome G X b s x L → ∃ L', Outcome G X a s x L' ∧ K L L'

theorem covered_refl {K : Log → Log → Prop} (hr : ∀ L, K L L) (e : Expr) : Covered G X K e e := fun _ _ L h => ⟨L, h, hr L⟩

/-- A refactoring keeps the outcomes in the same grammar. -/
theorem refactor_covered {K : Log → Log → Prop} (hr : ∀ L, K L L) (ha : ∀ {A A' B B'}, K A A' → K B B' → K (A ++ B) (A' ++ B'))
    (ht : ∀ {A B C}, K A B → K B C → K A C) (hE : ∀ a b, E a b → Covered G X K a b) {e e' : Expr} (h : Refactor E e e') : Covered G X K e e' := by
  have up : ∀ {a b}, Covered G X K a b → Descend (Covered G X K) a b := fun h => .law h (.refl _)
  have down : ∀ {a b}, Descend (Covered G X K) a b → Covered G X K a b := by
    rintro a b h s x L ⟨o, hp, rfl⟩
    exact descend_sound hr ha (fun a b h => h) ht (fun r e he => ⟨e, he, .refl _⟩) hp h
  induction h with
  | law h => exact hE _ _ h
  | refl => exact covered_refl hr _
  | trans _ _ h1 h2 =>
    intro s x L h
    obtain ⟨M, h3, k3⟩ := h2 s x L h
    obtain ⟨N, h4, k4⟩ := h1 s x M h3
    exact ⟨N, h4, ht k3 k4⟩
  | str => exact down .str
  | any => exact down .any
  | cls => exact down .cls
  | nt => exact down .nt
  | ext => exact down .ext
  | seq_nil => exact down .seq_nil
  | seq_cons _ _ h1 h2 => exact down (.seq_cons (up h1) (up h2))
  | choice_nil => exact down .choice_nil
  | choice_cons _ _ h1 h2 => exact down (.choice_cons (up h1) (up h2))
  | star _ h => exact down (.star (up h))
  | plus _ h => exact down (.plus (up h))
  | opt _ h => exact down (.opt (up h))
  | not _ h => exact down (.not (up h))
  | and _ h => exact down (.and (up h))
  | act _ h => exact down (.act (up h))
  | asc _ h => exact down (.asc (up h))
  | span _ h => exact down (.span (up h))
  | range _ h => exact down (.range (up h))

/-- Every outcome of the refactored grammar is an outcome of the grammar. -/
theorem refactor_sound {K : Log → Log → Prop} (hr : ∀ L, K L L) (ha : ∀ {A A' B B'}, K A A' → K B B' → K (A ++ B) (A' ++ B'))
    (hE : ∀ a b, E a b → Covered G X K a b) (ht : ∀ {A B C}, K A B → K B C → K A C)
    (hG : Refactored E G G') {e e' s o L} (h : Peg G' X e' s o L) (hre : Refactor E e e') : ∃ L', Outcome G X e s o.stop L' ∧ K L L' := by
  refine descend_sound (E := Covered G X K) hr ha (fun a b h => h) ht ?_ h (.law (refactor_covered hr ha ht hE hre) (.refl _))
  intro r e' he'
  obtain ⟨e, he, hr'⟩ := hG r e' he'
  exact ⟨e, he, .law (refactor_covered hr ha ht hE hr') (.refl _)⟩

/-! ### Outcomes of the operators -/

theorem Outcome.mk {e s o L} (h : Peg G X e s o L) : Outcome G X e s o.stop L := ⟨o, h, rfl⟩

theorem outcome_nt {i r e s x L} (he : G.find r = some e) : Outcome G X (.nt i r) s x L ↔ Outcome G X e s x L := by
  constructor
  · rintro ⟨o, h, rfl⟩
    cases h with
    | nt_ok h1 h2 => rw [he] at h1; cases h1; exact ⟨_, h2, rfl⟩
    | nt_fail h1 h2 => rw [he] at h1; cases h1; exact ⟨_, h2, rfl⟩
  · rintro ⟨o, h, rfl⟩
    cases o with
    | fail => exact ⟨_, .nt_fail he h, rfl⟩
    | ok s t => exact ⟨_, .nt_ok he h, rfl⟩

theorem outcome_empty {i s x L} : Outcome G X (.str i "") s x L ↔ x = some s ∧ L = [] := by
  constructor
  · rintro ⟨o, h, rfl⟩
    rcases h.str_inv with ⟨r, h1, rfl, rfl⟩ | ⟨h1, _⟩
    · have h1 : s = r := h1
      subst h1; exact ⟨rfl, rfl⟩
    · exact absurd List.nil_prefix h1
  · rintro ⟨rfl, rfl⟩
    exact ⟨_, .str_ok (lit := ""), rfl⟩

theorem outcome_seq_nil {i s x L} : Outcome G X (.seq i []) s x L ↔ x = some s ∧ L = [] := by
  constructor
  · rintro ⟨o, h, rfl⟩; cases h; exact ⟨rfl, rfl⟩
  · rintro ⟨rfl, rfl⟩; exact ⟨_, .seq_nil, rfl⟩

theorem outcome_seq_cons {i e es s x L} : Outcome G X (.seq i (e :: es)) s x L ↔
    (x = none ∧ Outcome G X e s none L) ∨
    ∃ s1 L1 L2, L = L1 ++ L2 ∧ Outcome G X e s (some s1) L1 ∧ Outcome G X (.seq i es) s1 x L2 := by
  constructor
  · rintro ⟨o, h, rfl⟩
    cases h with
    | seq_cons h1 h2 => exact .inr ⟨_, _, _, rfl, ⟨_, h1, rfl⟩, _, h2, rfl⟩
    | seq_fail h1 => exact .inl ⟨rfl, _, h1, rfl⟩
    | seq_later h1 h2 => exact .inr ⟨_, _, _, rfl, ⟨_, h1, rfl⟩, _, h2, rfl⟩
  · rintro (⟨rfl, h⟩ | ⟨s1, L1, L2, rfl, h1, o, h2, rfl⟩)
    · exact ⟨_, .seq_fail (outcome_fail h), rfl⟩
    · obtain ⟨t, h1⟩ := outcome_ok h1
      cases o with
      | fail => exact ⟨_, .seq_later h1 h2, rfl⟩
      | ok s u =>
        obtain ⟨ts, rfl⟩ := seq_ok_seq h2
        exact ⟨_, .seq_cons h1 h2, rfl⟩

theorem outcome_seq_append {i es fs s x L} : Outcome G X (.seq i (es ++ fs)) s x L ↔
    (x = none ∧ Outcome G X (.seq i es) s none L) ∨
    ∃ s1 L1 L2, L = L1 ++ L2 ∧ Outcome G X (.seq i es) s (some s1) L1 ∧ Outcome G X (.seq i fs) s1 x L2 := by
  induction es generalizing s L with
  | nil =>
    simp only [List.nil_append, outcome_seq_nil]
    constructor
    · intro h; exact .inr ⟨s, [], L, rfl, ⟨rfl, rfl⟩, h⟩
    · rintro (⟨_, h, _⟩ | ⟨s1, L1, L2, rfl, ⟨h1, rfl⟩, h⟩)
      · cases h
      · cases h1; exact h
  | cons e es ih =>
    rw [List.cons_append, outcome_seq_cons]
    constructor
    · rintro (⟨rfl, h⟩ | ⟨s1, L1, L2, rfl, h1, h2⟩)
      · exact .inl ⟨rfl, outcome_seq_cons.2 (.inl ⟨rfl, h⟩)⟩
      · rcases ih.1 h2 with ⟨rfl, h⟩ | ⟨s2, L3, L4, rfl, h3, h4⟩
        · exact .inl ⟨rfl, outcome_seq_cons.2 (.inr ⟨_, _, _, rfl, h1, h⟩)⟩
        · exact .inr ⟨s2, L1 ++ L3, L4, by simp, outcome_seq_cons.2 (.inr ⟨_, _, _, rfl, h1, h3⟩), h4⟩
    · rintro (⟨rfl, h⟩ | ⟨s1, L1, L2, rfl, h1, h2⟩)
      · rcases outcome_seq_cons.1 h with ⟨_, h⟩ | ⟨s1, L1, L2, rfl, h1, h2⟩
        · exact .inl ⟨rfl, h⟩
        · exact .inr ⟨_, _, _, rfl, h1, ih.2 (.inl ⟨rfl, h2⟩)⟩
      · rcases outcome_seq_cons.1 h1 with ⟨h, _⟩ | ⟨s3, L3, L4, rfl, h3, h4⟩
        · cases h
        · exact .inr ⟨s3, L3, L4 ++ L2, by simp, h3, ih.2 (.inr ⟨_, _, _, rfl, h4, h2⟩)⟩

theorem outcome_seq_one {i e s x L} : Outcome G X (.seq i [e]) s x L ↔ Outcome G X e s x L := by
  rw [outcome_seq_cons]
  constructor
  · rintro (⟨rfl, h⟩ | ⟨s1, L1, L2, rfl, h1, h2⟩)
    · exact h
    · obtain ⟨rfl, rfl⟩ := outcome_seq_nil.1 h2; simpa using h1
  · intro h
    cases x with
    | none => exact .inl ⟨rfl, h⟩
    | some s1 => exact .inr ⟨s1, L, [], by simp, h, outcome_seq_nil.2 ⟨rfl, rfl⟩⟩

theorem outcome_seq_id {i j es s x L} : Outcome G X (.seq i es) s x L ↔ Outcome G X (.seq j es) s x L := by
  induction es generalizing s L with
  | nil => rw [outcome_seq_nil, outcome_seq_nil]
  | cons e es ih => simp only [outcome_seq_cons, ih]

theorem outcome_choice_cons {i e es s x L} : Outcome G X (.choice i (e :: es)) s x L ↔
    (x ≠ none ∧ Outcome G X e s x L) ∨ ∃ L1 L2, L = L1 ++ L2 ∧ Outcome G X e s none L1 ∧ Outcome G X (.choice i es) s x L2 := by
  rw [show e :: es = [e] ++ es from rfl, outcome_choice_append]
  simp only [outcome_choice_single]

theorem outcome_choice_nil {i s x L} : Outcome G X (.choice i []) s x L ↔ x = none ∧ L = [] := by
  constructor
  · rintro ⟨o, h, rfl⟩; cases h; exact ⟨rfl, rfl⟩
  · rintro ⟨rfl, rfl⟩; exact ⟨_, .choice_nil, rfl⟩

theorem outcome_star {i e s x L} : Outcome G X (.star i e) s x L ↔
    (x = some s ∧ Outcome G X e s none L) ∨
    ∃ s1 L1 L2, L = L1 ++ L2 ∧ Outcome G X e s (some s1) L1 ∧ Outcome G X (.star i e) s1 x L2 := by
  constructor
  · rintro ⟨o, h, rfl⟩
    cases h with
    | star_stop h => exact .inl ⟨rfl, _, h, rfl⟩
    | star_more h1 h2 => exact .inr ⟨_, _, _, rfl, ⟨_, h1, rfl⟩, _, h2, rfl⟩
  · rintro (⟨rfl, h⟩ | ⟨s1, L1, L2, rfl, h1, o, h2, rfl⟩)
    · exact ⟨_, .star_stop (outcome_fail h), rfl⟩
    · obtain ⟨t, h1⟩ := outcome_ok h1
      cases o with
      | fail => exact absurd ⟨_, h2⟩ star_not_fails
      | ok s u =>
        obtain ⟨ts, rfl⟩ := star_ok_rep h2
        exact ⟨_, .star_more h1 h2, rfl⟩

theorem outcome_star_some {i e s x L} (h : Outcome G X (.star i e) s x L) : x ≠ none := by
  rintro rfl
  exact star_not_fails ⟨_, outcome_fail h⟩

theorem outcome_star_id {i j e s x L} : Outcome G X (.star i e) s x L → Outcome G X (.star j e) s x L := by
  rintro ⟨o, h, rfl⟩
  cases o with
  | fail => exact absurd ⟨_, h⟩ star_not_fails
  | ok s' t =>
    obtain ⟨ts, rfl⟩ := star_ok_rep h
    have key : ∀ ts s L, Peg G X (.star i e) s (.ok s' (.rep ts)) L → Peg G X (.star j e) s (.ok s' (.rep ts)) L := by
      intro ts
      induction ts with
      | nil => intro s L h; cases h with | star_stop h => exact .star_stop h
      | cons t ts ih => intro s L h; cases h with | star_more h1 h2 => exact .star_more h1 (ih _ _ h2)
    exact ⟨_, key _ _ _ h, rfl⟩

theorem outcome_plus {i j e s x L} : Outcome G X (.plus i e) s x L ↔
    (x = none ∧ Outcome G X e s none L) ∨
    ∃ s1 L1 L2, L = L1 ++ L2 ∧ Outcome G X e s (some s1) L1 ∧ Outcome G X (.star j e) s1 x L2 := by
  constructor
  · rintro ⟨o, h, rfl⟩
    cases h with
    | plus_fail h => exact .inl ⟨rfl, _, h, rfl⟩
    | plus_ok h1 h2 => exact .inr ⟨_, _, _, rfl, ⟨_, h1, rfl⟩, outcome_star_id ⟨_, h2, rfl⟩⟩
  · rintro (⟨rfl, h⟩ | ⟨s1, L1, L2, rfl, h1, h2⟩)
    · exact ⟨_, .plus_fail (outcome_fail h), rfl⟩
    · obtain ⟨t, h1⟩ := outcome_ok h1
      replace h2 := outcome_star_id (j := i) h2
      obtain ⟨o, h3, rfl⟩ := h2
      cases o with
      | fail => exact absurd ⟨_, h3⟩ star_not_fails
      | ok s u =>
        obtain ⟨ts, rfl⟩ := star_ok_rep h3
        exact ⟨_, .plus_ok h1 h3, rfl⟩

theorem outcome_opt {i e s x L} : Outcome G X (.opt i e) s x L ↔
    (x ≠ none ∧ Outcome G X e s x L) ∨ (x = some s ∧ Outcome G X e s none L) := by
  constructor
  · rintro ⟨o, h, rfl⟩
    cases h with
    | opt_some h => exact .inl ⟨nofun, _, h, rfl⟩
    | opt_none h => exact .inr ⟨rfl, _, h, rfl⟩
  · rintro (⟨hx, h⟩ | ⟨rfl, h⟩)
    · cases x with
      | none => exact absurd rfl hx
      | some s1 => obtain ⟨t, h⟩ := outcome_ok h; exact ⟨_, .opt_some h, rfl⟩
    · exact ⟨_, .opt_none (outcome_fail h), rfl⟩

theorem outcome_not {i e s x L} : Outcome G X (.not i e) s x L ↔
    (x = some s ∧ Outcome G X e s none L) ∨ (x = none ∧ ∃ s1, Outcome G X e s (some s1) L) := by
  constructor
  · rintro ⟨o, h, rfl⟩
    cases h with
    | not_ok h => exact .inl ⟨rfl, _, h, rfl⟩
    | not_fail h => exact .inr ⟨rfl, _, _, h, rfl⟩
  · rintro (⟨rfl, h⟩ | ⟨rfl, s1, h⟩)
    · exact ⟨_, .not_ok (outcome_fail h), rfl⟩
    · obtain ⟨t, h⟩ := outcome_ok h; exact ⟨_, .not_fail h, rfl⟩

theorem outcome_and {i e s x L} : Outcome G X (.and i e) s x L ↔
    (x = none ∧ Outcome G X e s none L) ∨ (x = some s ∧ ∃ s1, Outcome G X e s (some s1) L) := by
  constructor
  · rintro ⟨o, h, rfl⟩
    cases h with
    | and_ok h => exact .inr ⟨rfl, _, _, h, rfl⟩
    | and_fail h => exact .inl ⟨rfl, _, h, rfl⟩
  · rintro (⟨rfl, h⟩ | ⟨rfl, s1, h⟩)
    · exact ⟨_, .and_fail (outcome_fail h), rfl⟩
    · obtain ⟨t, h⟩ := outcome_ok h; exact ⟨_, .and_ok h, rfl⟩

/-- Actions, ascriptions and spans. -/
theorem outcome_wrap {w e s x L} (hw : (∃ i b f, w = .act i e b f) ∨ (∃ i t, w = .asc i e t) ∨ (∃ i, w = .span i e) ∨ ∃ i, w = .range i e) :
    Outcome G X w s x L ↔ Outcome G X e s x L := by
  constructor
  · rintro ⟨o, h, rfl⟩
    rcases hw with ⟨i, b, f, rfl⟩ | ⟨i, t, rfl⟩ | ⟨i, rfl⟩ | ⟨i, rfl⟩ <;> cases h <;> (rename_i h; exact ⟨_, h, rfl⟩)
  · rintro ⟨o, h, rfl⟩
    rcases hw with ⟨i, b, f, rfl⟩ | ⟨i, t, rfl⟩ | ⟨i, rfl⟩ | ⟨i, rfl⟩ <;> cases o
    · exact ⟨_, .act_fail h, rfl⟩
    · exact ⟨_, .act_ok h, rfl⟩
    · exact ⟨_, .asc_fail h, rfl⟩
    · exact ⟨_, .asc_ok h, rfl⟩
    · exact ⟨_, .span_fail h, rfl⟩
    · exact ⟨_, .span_ok h, rfl⟩
    · exact ⟨_, .range_fail h, rfl⟩
    · exact ⟨_, .range_ok h, rfl⟩

theorem outcome_unreachable {i as bs w s x L} (hw : ∀ s L, ¬ Outcome G X w s none L) :
    Outcome G X (.choice i (as ++ w :: bs)) s x L ↔ Outcome G X (.choice i (as ++ [w])) s x L := by
  rw [outcome_choice_append, outcome_choice_append]
  have : ∀ L, Outcome G X (.choice i (w :: bs)) s x L ↔ Outcome G X (.choice i [w]) s x L := by
    intro L
    rw [outcome_choice_cons, outcome_choice_single]
    constructor
    · rintro (⟨_, h⟩ | ⟨L1, L2, rfl, h, _⟩)
      · exact h
      · exact absurd h (hw _ _)
    · intro h
      refine .inl ⟨?_, h⟩
      rintro rfl; exact hw _ _ h
  simp only [this]

/-- The laws of `ReportLaw` hold. -/
theorem reportLaw_sound {a b : Expr} (h : ReportLaw G a b) : SameReports G X a b := by
  intro s x L
  cases h with
  | inline he => exact outcome_nt he
  | @seq_flat i j as bs cs =>
    rw [outcome_seq_append, outcome_seq_append (es := as) (fs := bs ++ cs)]
    have : ∀ s L, Outcome G X (.seq i (.seq j bs :: cs)) s x L ↔ Outcome G X (.seq i (bs ++ cs)) s x L := by
      intro s L
      rw [outcome_seq_cons, outcome_seq_append]
      simp only [outcome_seq_id (i := j) (j := i)]
    simp only [this]
  | choice_flat => exact outcome_choice_nest
  | seq_one => exact outcome_seq_one
  | choice_one => exact outcome_choice_single
  | @seq_empty i j as bs =>
    rw [outcome_seq_append, outcome_seq_append (es := as)]
    have : ∀ s L, Outcome G X (.seq i (.str j "" :: bs)) s x L ↔ Outcome G X (.seq i bs) s x L := by
      intro s L
      rw [outcome_seq_cons]
      simp only [outcome_empty]
      constructor
      · rintro (⟨_, h, _⟩ | ⟨s1, L1, L2, rfl, ⟨h, rfl⟩, h2⟩)
        · cases h
        · cases h; exact h2
      · intro h; exact .inr ⟨s, [], L, rfl, ⟨rfl, rfl⟩, h⟩
    simp only [this]
  | @plus i j k e =>
    rw [outcome_plus (j := k), outcome_seq_cons]
    simp only [outcome_seq_one]
  | @star i j k l m e =>
    rw [outcome_star, outcome_choice_cons, outcome_seq_cons]
    simp only [outcome_seq_one, outcome_choice_single, outcome_empty]
    constructor
    · rintro (⟨rfl, h⟩ | ⟨s1, L1, L2, rfl, h1, h2⟩)
      · exact .inr ⟨L, [], by simp, outcome_seq_cons.2 (.inl ⟨rfl, h⟩), rfl, rfl⟩
      · exact .inl ⟨outcome_star_some h2, .inr ⟨_, _, _, rfl, h1, outcome_star_id h2⟩⟩
    · rintro (⟨hx, ⟨rfl, _⟩ | ⟨s1, L1, L2, rfl, h1, h2⟩⟩ | ⟨L1, L2, rfl, h1, rfl, rfl⟩)
      · exact absurd rfl hx
      · exact .inr ⟨_, _, _, rfl, h1, outcome_star_id h2⟩
      · rcases outcome_seq_cons.1 h1 with ⟨_, h⟩ | ⟨s1, L3, L4, rfl, h3, h4⟩
        · exact .inl ⟨rfl, by simpa using h⟩
        · exact absurd rfl (outcome_star_some (outcome_seq_one.1 h4))
  | @opt i j k e =>
    rw [outcome_opt, outcome_choice_cons]
    simp only [outcome_choice_single, outcome_empty]
    constructor
    · rintro (h | ⟨rfl, h⟩)
      · exact .inl h
      · exact .inr ⟨L, [], by simp, h, rfl, rfl⟩
    · rintro (h | ⟨L1, L2, rfl, h, rfl, rfl⟩)
      · exact .inl h
      · exact .inr ⟨rfl, by simpa using h⟩
  | @opt_opt i j k e =>
    rw [outcome_opt, outcome_opt (i := k)]
    simp only [outcome_opt]
    constructor
    · rintro (⟨_, h⟩ | ⟨rfl, (⟨h, _⟩ | ⟨h, _⟩)⟩)
      · exact h
      · exact absurd rfl h
      · cases h
    · rintro (⟨hx, h⟩ | ⟨rfl, h⟩)
      · exact .inl ⟨hx, .inl ⟨hx, h⟩⟩
      · exact .inl ⟨nofun, .inr ⟨rfl, h⟩⟩
  | @plus_opt i j k e =>
    rw [outcome_opt, outcome_star]
    simp only [outcome_plus (j := k)]
    constructor
    · rintro (⟨hx, ⟨rfl, _⟩ | h⟩ | ⟨rfl, ⟨_, h⟩ | ⟨s1, L1, L2, rfl, h1, h2⟩⟩)
      · exact absurd rfl hx
      · exact .inr h
      · exact .inl ⟨rfl, h⟩
      · exact absurd rfl (outcome_star_some h2)
    · rintro (⟨rfl, h⟩ | ⟨s1, L1, L2, rfl, h1, h2⟩)
      · exact .inr ⟨rfl, .inl ⟨trivial, h⟩⟩
      · exact .inl ⟨outcome_star_some h2, .inr ⟨_, _, _, rfl, h1, h2⟩⟩
  | @and i j k e =>
    rw [outcome_and, outcome_not]
    simp only [outcome_not]
    constructor
    · rintro (⟨rfl, h⟩ | ⟨rfl, s1, h⟩)
      · exact .inr ⟨rfl, s, .inl ⟨rfl, h⟩⟩
      · exact .inl ⟨rfl, .inr ⟨trivial, s1, h⟩⟩
    · rintro (⟨rfl, ⟨h, _⟩ | ⟨_, s1, h⟩⟩ | ⟨rfl, s1, ⟨_, h⟩ | ⟨h, _⟩⟩)
      · cases h
      · exact .inr ⟨rfl, s1, h⟩
      · exact .inl ⟨rfl, h⟩
      · cases h
  | @not i j k l e =>
    simp only [outcome_not]
    constructor
    · rintro (⟨rfl, ⟨h, _⟩ | ⟨_, s1, ⟨_, h⟩ | ⟨h, _⟩⟩⟩ | ⟨rfl, s1, ⟨_, ⟨h, _⟩ | ⟨_, h⟩⟩ | ⟨h, _⟩⟩)
      · cases h
      · exact .inl ⟨rfl, h⟩
      · cases h
      · cases h
      · exact .inr ⟨rfl, h⟩
      · cases h
    · rintro (⟨rfl, h⟩ | ⟨rfl, h⟩)
      · exact .inl ⟨rfl, .inr ⟨trivial, s, .inl ⟨rfl, h⟩⟩⟩
      · exact .inr ⟨rfl, s, .inl ⟨rfl, .inr ⟨trivial, h⟩⟩⟩
  | act => exact outcome_wrap (.inl ⟨_, _, _, rfl⟩)
  | asc => exact outcome_wrap (.inr (.inl ⟨_, _, rfl⟩))
  | span => exact outcome_wrap (.inr (.inr (.inl ⟨_, rfl⟩)))
  | range => exact outcome_wrap (.inr (.inr (.inr ⟨_, rfl⟩)))
  | unreachable => exact outcome_unreachable fun _ _ h => outcome_star_some h rfl
  | unreachable' => exact outcome_unreachable fun _ _ h => opt_not_fails ⟨_, outcome_fail h⟩

theorem matches_iff_outcome {e s s'} : Matches G X e s s' ↔ ∃ L, Outcome G X e s (some s') L :=
  ⟨fun ⟨_, L, h⟩ => ⟨L, _, h, rfl⟩, fun ⟨L, h⟩ => (outcome_ok h).imp fun _ h => ⟨L, h⟩⟩

theorem fails_iff_outcome {e s} : Fails G X e s ↔ ∃ L, Outcome G X e s none L :=
  ⟨fun ⟨L, h⟩ => ⟨L, _, h, rfl⟩, fun ⟨L, h⟩ => ⟨L, outcome_fail h⟩⟩

/-- The same in terms of outcomes. -/
theorem sameMatches_iff {a b : Expr} : SameMatches G X a b ↔ ∀ s x, (∃ L, Outcome G X a s x L) ↔ ∃ L, Outcome G X b s x L := by
  simp only [SameMatches, matches_iff_outcome, fails_iff_outcome]
  constructor
  · intro h s x
    cases x with
    | none => exact (h s).2
    | some s' => exact (h s).1 s'
  · intro h s; exact ⟨fun s' => h s _, h s _⟩

theorem SameReports.matches {a b : Expr} (h : SameReports G X a b) : SameMatches G X a b :=
  sameMatches_iff.2 fun s x => by simp only [h s x]

theorem Outcome.det (hX : X.Det) {e s x y L M} (h : Outcome G X e s x L) (h' : Outcome G X e s y M) : x = y ∧ L = M := by
  obtain ⟨o, h, rfl⟩ := h
  obtain ⟨o', h', rfl⟩ := h'
  obtain ⟨rfl, rfl⟩ := h.det hX h'
  exact ⟨rfl, rfl⟩

theorem matches_str {i l s s'} : Matches G X (.str i l) s s' ↔ s = l.toList ++ s' := by
  constructor
  · rintro ⟨t, L, h⟩
    rcases h.str_inv with ⟨r, h1, h2, _⟩ | ⟨_, h2, _⟩
    · cases h2; exact h1
    · cases h2
  · rintro rfl; exact ⟨_, _, .str_ok⟩

theorem fails_str {i l s} : Fails G X (.str i l) s ↔ ¬ l.toList <+: s := by
  constructor
  · rintro ⟨L, h⟩
    rcases h.str_inv with ⟨r, h1, h2, _⟩ | ⟨h1, _, _⟩
    · cases h2
    · exact h1
  · intro h; exact ⟨_, .str_fail h⟩

theorem matches_cls {i v s s'} : Matches G X (.cls i v) s s' ↔ ∃ c, s = c :: s' ∧ InClass v c := by
  constructor
  · rintro ⟨t, L, h⟩; cases h with | cls_ok h => exact ⟨_, rfl, h⟩
  · rintro ⟨c, rfl, h⟩; exact ⟨_, _, .cls_ok h⟩

theorem fails_cls {i v s} : Fails G X (.cls i v) s ↔ ∀ c s', s = c :: s' → ¬ InClass v c := by
  constructor
  · rintro ⟨L, h⟩
    cases h with
    | cls_fail h => rintro c s' he; cases he; exact h
    | cls_eof => rintro c s' he; cases he
  · intro h
    cases s with
    | nil => exact ⟨_, .cls_eof⟩
    | cons c s => exact ⟨_, .cls_fail (h c s rfl)⟩

theorem inClass_append {u v : List Interval} {c : Char} : InClass (u ++ v) c ↔ InClass u c ∨ InClass v c := by
  simp only [InClass, List.mem_append]
  constructor
  · rintro ⟨iv, h | h, hc⟩
    · exact .inl ⟨iv, h, hc⟩
    · exact .inr ⟨iv, h, hc⟩
  · rintro (⟨iv, h, hc⟩ | ⟨iv, h, hc⟩)
    · exact ⟨iv, .inl h, hc⟩
    · exact ⟨iv, .inr h, hc⟩

theorem inClass_one {c d : Char} : InClass [⟨c, c⟩] d ↔ d = c := by
  simp only [InClass, List.mem_singleton]
  constructor
  · rintro ⟨iv, rfl, h1, h2⟩; exact Char.le_antisymm h2 h1
  · rintro rfl; exact ⟨_, rfl, Char.le_refl _, Char.le_refl _⟩

/-- Has an outcome, whatever the failed terminals. -/
def Stops (G : Grammar) (X : ExtSpec) (e : Expr) (s : List Char) (x : Option (List Char)) : Prop := ∃ L, Outcome G X e s x L

theorem stops_seq_cons {i e es s x} : Stops G X (.seq i (e :: es)) s x ↔
    (x = none ∧ Stops G X e s none) ∨ ∃ s1, Stops G X e s (some s1) ∧ Stops G X (.seq i es) s1 x := by
  simp only [Stops, outcome_seq_cons]
  constructor
  · rintro ⟨L, ⟨rfl, h⟩ | ⟨s1, L1, L2, rfl, h1, h2⟩⟩
    · exact .inl ⟨rfl, _, h⟩
    · exact .inr ⟨s1, ⟨_, h1⟩, _, h2⟩
  · rintro (⟨rfl, L, h⟩ | ⟨s1, ⟨L1, h1⟩, L2, h2⟩)
    · exact ⟨L, .inl ⟨rfl, h⟩⟩
    · exact ⟨_, .inr ⟨s1, _, _, rfl, h1, h2⟩⟩

theorem stops_seq_one {i e s x} : Stops G X (.seq i [e]) s x ↔ Stops G X e s x := by simp only [Stops, outcome_seq_one]

theorem stops_seq_id {i j es s x} : Stops G X (.seq i es) s x ↔ Stops G X (.seq j es) s x := by
  simp only [Stops, outcome_seq_id (i := i) (j := j)]

theorem stops_choice_cons {i e es s x} : Stops G X (.choice i (e :: es)) s x ↔
    (x ≠ none ∧ Stops G X e s x) ∨ (Stops G X e s none ∧ Stops G X (.choice i es) s x) := by
  simp only [Stops, outcome_choice_cons]
  constructor
  · rintro ⟨L, ⟨hx, h⟩ | ⟨L1, L2, rfl, h1, h2⟩⟩
    · exact .inl ⟨hx, _, h⟩
    · exact .inr ⟨⟨_, h1⟩, _, h2⟩
  · rintro (⟨hx, L, h⟩ | ⟨⟨L1, h1⟩, L2, h2⟩)
    · exact ⟨L, .inl ⟨hx, h⟩⟩
    · exact ⟨_, .inr ⟨_, _, rfl, h1, h2⟩⟩

theorem stops_choice_append {i es fs s x} : Stops G X (.choice i (es ++ fs)) s x ↔
    (x ≠ none ∧ Stops G X (.choice i es) s x) ∨ (Stops G X (.choice i es) s none ∧ Stops G X (.choice i fs) s x) := by
  simp only [Stops, outcome_choice_append]
  constructor
  · rintro ⟨L, ⟨hx, h⟩ | ⟨L1, L2, rfl, h1, h2⟩⟩
    · exact .inl ⟨hx, _, h⟩
    · exact .inr ⟨⟨_, h1⟩, _, h2⟩
  · rintro (⟨hx, L, h⟩ | ⟨⟨L1, h1⟩, L2, h2⟩)
    · exact ⟨L, .inl ⟨hx, h⟩⟩
    · exact ⟨_, .inr ⟨_, _, rfl, h1, h2⟩⟩

theorem stops_choice_one {i e s x} : Stops G X (.choice i [e]) s x ↔ Stops G X e s x := by simp only [Stops, outcome_choice_single]

theorem Stops.det (hX : X.Det) {e s x y} (h : Stops G X e s x) (h' : Stops G X e s y) : x = y := by
  obtain ⟨L, h⟩ := h
  obtain ⟨M, h'⟩ := h'
  exact (h.det hX h').1

theorem stops_str {i l s x} : Stops G X (.str i l) s x ↔ (∃ r, s = l.toList ++ r ∧ x = some r) ∨ (¬ l.toList <+: s ∧ x = none) := by
  cases x with
  | none =>
    rw [Stops, ← fails_iff_outcome, fails_str]; simp
  | some s' =>
    rw [Stops, ← matches_iff_outcome, matches_str]; simp

theorem stops_cls {i v s x} : Stops G X (.cls i v) s x ↔
    (∃ c r, s = c :: r ∧ InClass v c ∧ x = some r) ∨ ((∀ c r, s = c :: r → ¬ InClass v c) ∧ x = none) := by
  cases x with
  | none => rw [Stops, ← fails_iff_outcome, fails_cls]; simp
  | some s' =>
    rw [Stops, ← matches_iff_outcome, matches_cls]
    simp only [Option.some.injEq, reduceCtorEq, and_false, or_false]
    constructor
    · rintro ⟨c, h1, h2⟩; exact ⟨c, s', h1, h2, rfl⟩
    · rintro ⟨c, r, h1, h2, rfl⟩; exact ⟨c, h1, h2⟩

theorem stops_cls_nil {i v x} : Stops G X (.cls i v) [] x ↔ x = none := by
  rw [stops_cls]; simp

theorem stops_cls_cons {i v c s x} : Stops G X (.cls i v) (c :: s) x ↔ (InClass v c ∧ x = some s) ∨ (¬ InClass v c ∧ x = none) := by
  rw [stops_cls]
  constructor
  · rintro (⟨d, r, h, h1, rfl⟩ | ⟨h, rfl⟩)
    · cases h; exact .inl ⟨h1, rfl⟩
    · exact .inr ⟨h c s rfl, rfl⟩
  · rintro (⟨h, rfl⟩ | ⟨h, rfl⟩)
    · exact .inl ⟨c, s, rfl, h, rfl⟩
    · exact .inr ⟨fun d r he => by cases he; exact h, rfl⟩

/-- The laws of `MatchLaw` hold. -/
theorem matchLaw_sound (hX : X.Det) {a b : Expr} (h : MatchLaw a b) : SameMatches G X a b := by
  rw [sameMatches_iff]
  intro s x
  show Stops G X a s x ↔ Stops G X b s x
  cases h with
  | @factor i j k l m n a bs cs =>
    rw [stops_choice_cons, stops_choice_one, stops_seq_cons, stops_seq_cons, stops_seq_cons, stops_seq_cons]
    have hch : ∀ s1, Stops G X (.seq l [.choice m [.seq n bs, .seq n cs]]) s1 x ↔
        (x ≠ none ∧ Stops G X (.seq n bs) s1 x) ∨ (Stops G X (.seq n bs) s1 none ∧ Stops G X (.seq n cs) s1 x) := by
      intro s1; rw [stops_seq_one, stops_choice_cons, stops_choice_one]
    simp only [hch, stops_seq_id (i := j) (j := n), stops_seq_id (i := k) (j := n)]
    constructor
    · rintro (⟨hx, ⟨rfl, _⟩ | ⟨s1, h1, h2⟩⟩ | ⟨⟨_, h⟩ | ⟨s1, h1, h2⟩, ⟨rfl, h3⟩ | ⟨s2, h3, h4⟩⟩)
      · exact absurd rfl hx
      · exact .inr ⟨s1, h1, .inl ⟨hx, h2⟩⟩
      · exact .inl ⟨rfl, h⟩
      · cases h.det hX h3
      · cases h1.det hX h3
      · cases h1.det hX h3; exact .inr ⟨s1, h1, .inr ⟨h2, h4⟩⟩
    · rintro (⟨rfl, h⟩ | ⟨s1, h1, ⟨hx, h2⟩ | ⟨h2, h3⟩⟩)
      · exact .inr ⟨.inl ⟨trivial, h⟩, .inl ⟨rfl, h⟩⟩
      · exact .inl ⟨hx, .inr ⟨s1, h1, h2⟩⟩
      · exact .inr ⟨.inr ⟨s1, h1, h2⟩, .inr ⟨s1, h1, h3⟩⟩
  | @again i as bs cs e =>
    rw [stops_choice_append, stops_choice_append (es := as), stops_choice_cons, stops_choice_cons, stops_choice_append, stops_choice_append,
      stops_choice_cons]
    constructor
    · rintro (h | ⟨h, h1 | ⟨h1, h2 | ⟨h2, ⟨hx, h3⟩ | ⟨_, h4⟩⟩⟩⟩)
      · exact .inl h
      · exact .inr ⟨h, .inl h1⟩
      · exact .inr ⟨h, .inr ⟨h1, .inl h2⟩⟩
      · exact absurd (h3.det hX h1) hx
      · exact .inr ⟨h, .inr ⟨h1, .inr ⟨h2, h4⟩⟩⟩
    · rintro (h | ⟨h, h1 | ⟨h1, h2 | ⟨h2, h3⟩⟩⟩)
      · exact .inl h
      · exact .inr ⟨h, .inl h1⟩
      · exact .inr ⟨h, .inr ⟨h1, .inl h2⟩⟩
      · exact .inr ⟨h, .inr ⟨h1, .inr ⟨h2, .inr ⟨h1, h3⟩⟩⟩⟩
  | @literal i j k l u v =>
    rw [stops_seq_cons]
    simp only [stops_seq_one, stops_str, String.toList_append]
    constructor
    · rintro (⟨r, rfl, rfl⟩ | ⟨h, rfl⟩)
      · exact .inr ⟨v.toList ++ r, .inl ⟨_, by simp, rfl⟩, .inl ⟨r, rfl, rfl⟩⟩
      · by_cases hu : u.toList <+: s
        · obtain ⟨r, rfl⟩ := hu
          refine .inr ⟨r, .inl ⟨r, rfl, rfl⟩, .inr ⟨fun hv => h ?_, rfl⟩⟩
          obtain ⟨q, rfl⟩ := hv
          exact ⟨q, by simp⟩
        · exact .inl ⟨rfl, .inr ⟨hu, trivial⟩⟩
    · rintro (⟨rfl, ⟨r, _, h⟩ | ⟨h, _⟩⟩ | ⟨s1, ⟨r, rfl, h⟩ | ⟨_, h⟩, h2⟩)
      · cases h
      · exact .inr ⟨fun hp => h ((List.prefix_append _ _).trans hp), rfl⟩
      · cases h
        rcases h2 with ⟨r, rfl, rfl⟩ | ⟨h, rfl⟩
        · exact .inl ⟨r, by simp, rfl⟩
        · refine .inr ⟨fun hp => h ?_, rfl⟩
          obtain ⟨q, hq⟩ := hp
          rw [List.append_assoc] at hq
          exact ⟨q, List.append_cancel_left hq⟩
      · cases h
  | @cls i j k l u v =>
    rw [stops_choice_cons, stops_choice_one]
    cases s with
    | nil => simp only [stops_cls_nil]; simp
    | cons c s =>
      simp only [stops_cls_cons, inClass_append]
      by_cases hu : InClass u c
      · simp only [hu, true_or, true_and, not_true, false_and, or_false, reduceCtorEq]
        constructor
        · rintro rfl; exact ⟨nofun, rfl⟩
        · rintro ⟨_, h⟩; exact h
      · simp only [hu, false_or, not_false_eq_true, true_and, false_and, and_true]
        constructor
        · intro h; exact .inr h
        · rintro (⟨h, h'⟩ | h)
          · exact absurd h' h
          · exact h
  | @char i j c =>
    have : (String.singleton c).toList = [c] := by simp
    rw [stops_str, this]
    cases s with
    | nil => rw [stops_cls_nil]; simp
    | cons d s =>
      rw [stops_cls_cons, inClass_one]
      by_cases hd : d = c
      · subst hd; simp
      · have h2 : ¬ c = d := fun h => hd h.symm
        simp [hd, h2]

end Oak.Spec
