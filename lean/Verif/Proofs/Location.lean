import Verif.Proofs.CallsLL1
import Verif.Proofs.PegSpans
import Verif.Proofs.Analysis
/-!
The farthest failure: what comes after it does not matter, and what comes before it begins a text.
-/
set_option linter.constructorNameAsVariable false
set_option autoImplicit false

namespace Oak
open Spec

variable {G : Grammar} {r0 : String}

theorem shaped_sub {x e : Expr} (h : Sub x e) : e.shaped = true → x.shaped = true := by
  induction h with
  | refl => exact id
  | seq he _ ih => intro h; rw [Expr.shaped] at h; exact ih (shapedAll_all h _ he)
  | choice he _ ih => intro h; rw [Expr.shaped, Bool.and_eq_true] at h; exact ih (shapedAll_all h.2 _ he)
  | star _ ih | plus _ ih | opt _ ih | not _ ih | and _ ih | act _ ih | asc _ ih | span _ ih | range _ ih => intro h; rw [Expr.shaped] at h; exact ih h

theorem no_empty_choice (hsh : G.shaped = true) (i : Nat) : ¬ Occurs G (.choice i []) := by
  rintro ⟨r, b, hb, hs⟩
  have h := shaped_sub hs (List.all_eq_true.1 hsh _ (grammar_find_mem hb))
  simp [Expr.shaped] at h

/-- Without predicates a failure comes from a terminal. -/
theorem fail_nonempty (hn : NoPredicates G) (hc : ∀ i, ¬ Occurs G (.choice i [])) {e : Expr} {s : List Char} {o : Out} {L : Log} (h : Peg G noExt e s o L) :
    Part G e → (∀ i, e ≠ .choice i []) → o = .fail → L ≠ [] := by
  have hne : ∀ {e}, Occurs G e → ∀ i, e ≠ .choice i [] := fun h i he => hc i (he ▸ h)
  induction h with
  | str_ok | any_ok | cls_ok _ | nt_ok _ _ _ | seq_nil | seq_cons _ _ _ _ | choice_first _ _ | choice_next _ _ _ _ | star_stop _ _ | star_more _ _ _ _
  | plus_ok _ _ _ _ | opt_some _ _ | opt_none _ _ | not_ok _ _ | and_ok _ _ | act_ok _ _ | asc_ok _ _ | span_ok _ _ | range_ok _ _ =>
    intro _ _ ho; cases ho
  | str_fail _ | any_fail | cls_fail _ | cls_eof => intro _ _ _; simp
  | ext hx => exact hx.elim
  | nt_fail hf _ ih => exact fun _ _ _ => ih (.here ⟨_, _, hf, .refl⟩) (hne ⟨_, _, hf, .refl⟩) rfl
  | not_fail _ _ => exact fun hp _ _ => absurd (hp.whole nofun nofun nofun) (hn _ _).1
  | and_fail _ _ => exact fun hp _ _ => absurd (hp.whole nofun nofun nofun) (hn _ _).2
  | seq_fail _ ih => exact fun hp _ _ => ih (.here (hp.elems _ (by simp))) (hne (hp.elems _ (by simp))) rfl
  | seq_later _ _ _ ih =>
    intro hp _ _
    have := ih (.seq fun x hx => hp.elems x (by simp [hx])) nofun rfl
    simp [this]
  | choice_nil => exact fun _ h => absurd rfl (h _)
  | choice_fail _ _ ih _ =>
    intro hp _ _
    have := ih (.here (hp.branches _ (by simp))) (hne (hp.branches _ (by simp))) rfl
    simp [this]
  | plus_fail _ ih => intro hp _ _; have := occurs_sub (hp.whole nofun nofun nofun) (.plus .refl); exact ih (.here this) (hne this) rfl
  | act_fail _ ih => intro hp _ _; have := occurs_sub (hp.whole nofun nofun nofun) (.act .refl); exact ih (.here this) (hne this) rfl
  | asc_fail _ ih => intro hp _ _; have := occurs_sub (hp.whole nofun nofun nofun) (.asc .refl); exact ih (.here this) (hne this) rfl
  | span_fail _ ih => intro hp _ _; have := occurs_sub (hp.whole nofun nofun nofun) (.span .refl); exact ih (.here this) (hne this) rfl
  | range_fail _ ih => intro hp _ _; have := occurs_sub (hp.whole nofun nofun nofun) (.range .refl); exact ih (.here this) (hne this) rfl

/-! ### What comes after does not matter -/

/-- The same position, in a text that ends with `z'` instead of `z`. -/
def Swapped (z z' a a' : List Char) : Prop := ∃ v, a = v ++ z ∧ a' = v ++ z'

/-- The same failed terminals. -/
inductive SwappedLog (z z' : List Char) : Log → Log → Prop where
  | nil : SwappedLog z z' [] []
  | cons {x x' L L'} : x'.2 = x.2 ∧ Swapped z z' x.1 x'.1 → SwappedLog z z' L L' → SwappedLog z z' (x :: L) (x' :: L')

/-- The same outcome, up to the positions in the tree. -/
def SwappedOut (z z' : List Char) : Out → Out → Prop
  | .fail, o' => o' = .fail
  | .ok s t, o' => ∃ s' t', o' = .ok s' t' ∧ Swapped z z' s s' ∧ ((∃ ts, t = .seq ts) → ∃ ts, t' = .seq ts) ∧ ((∃ ts, t = .rep ts) → ∃ ts, t' = .rep ts) ∧
      ∀ k u, t = .alt k u → ∃ u', t' = .alt k u'

theorem Swapped.same {z z' v a : List Char} (h : Swapped z z' (v ++ z) a) : a = v ++ z' := by
  obtain ⟨w, h1, h2⟩ := h
  rw [List.append_cancel_right h1, h2]

theorem swapped_suffix {z a b : List Char} (h : a <:+ b) (ha : ∃ v, a = v ++ z) : ∃ v, b = v ++ z := by
  obtain ⟨w, rfl⟩ := h
  obtain ⟨v, rfl⟩ := ha
  exact ⟨w ++ v, by simp⟩

theorem take_swap {z z' u : List Char} {m n : Nat} (hm : z'.take m = z.take m) (hn : n ≤ m) : (u ++ z').take n = (u ++ z).take n := by
  rw [List.take_append, List.take_append]
  have : z'.take (n - u.length) = z.take (n - u.length) := by
    have h1 := congrArg (List.take (n - u.length)) hm
    rwa [List.take_take, List.take_take, Nat.min_eq_left (by omega)] at h1
  rw [this]

theorem prefix_swap {z z' u l : List Char} {m : Nat} (hm : z'.take m = z.take m) (hl : l.length ≤ m) (h : l <+: u ++ z') : l <+: u ++ z := by
  have h1 := (List.prefix_iff_eq_take.1 h)
  rw [take_swap hm hl] at h1
  rw [h1]
  exact List.take_prefix _ _

theorem swap_peg (hn : NoPredicates G) (hc : ∀ i, ¬ Occurs G (.choice i [])) {m : Nat} (h1 : 1 ≤ m) (hlit : ∀ i l, Occurs G (.str i l) → l.toList.length ≤ m)
    {z z' : List Char} (hm : z'.take m = z.take m) {e : Expr} {s : List Char} {o : Out} {L : Log} (h : Peg G noExt e s o L) :
    Part G e → ∀ u, s = u ++ z → (∀ x ∈ L, ∃ v, x.1 = v ++ z) → (∀ s1 t, o = .ok s1 t → ∃ v, s1 = v ++ z) →
      ∃ o' L', Peg G noExt e (u ++ z') o' L' ∧ SwappedOut z z' o o' ∧ SwappedLog z z' L L' := by
  have hne : ∀ {e}, Occurs G e → ∀ i, e ≠ .choice i [] := fun h i he => hc i (he ▸ h)
  have hz : z = [] → z' = [] := by
    rintro rfl
    cases z' with
    | nil => rfl
    | cons c z' =>
      cases m with
      | zero => omega
      | succ m => simp at hm
  have hcons : ∀ {u c cs}, c :: cs = u ++ z → ∃ cs', u ++ z' = c :: cs' := by
    intro u c cs h
    cases u with
    | cons d u => cases h; exact ⟨_, rfl⟩
    | nil =>
      rw [List.nil_append] at h
      subst h
      cases m with
      | zero => omega
      | succ m =>
        cases z' with
        | nil => simp at hm
        | cons d z' => simp at hm; exact ⟨z', by simp [hm.1]⟩
  have hsuf : ∀ {e s o L}, Peg G noExt e s o L → (∀ s' t, o = .ok s' t → s' <:+ s) ∧ ∀ x ∈ L, x.1 <:+ s := fun h => h.forward noExt_fwd
  -- a failure after a success tells where the success stopped
  have later : ∀ {e s L}, Peg G noExt e s .fail L → Part G e → (∀ i, e ≠ .choice i []) → (∀ x ∈ L, ∃ v, x.1 = v ++ z) → ∃ v, s = v ++ z := by
    intro e s L h hp hi hL
    have := fail_nonempty hn hc h hp hi rfl
    cases L with
    | nil => exact absurd rfl this
    | cons x L => exact swapped_suffix ((hsuf h).2 x (by simp)) (hL x (by simp))
  have app : ∀ {L1 L2 L1' L2'}, SwappedLog z z' L1 L1' → SwappedLog z z' L2 L2' → SwappedLog z z' (L1 ++ L2) (L1' ++ L2') := by
    intro L1 L2 L1' L2' a b
    induction a with
    | nil => exact b
    | cons h _ ih => exact .cons h ih
  induction h with
  | @str_ok i l r =>
    intro hp u hu _ ho
    obtain ⟨v, rfl⟩ := ho _ _ rfl
    rw [← List.append_assoc] at hu
    have := List.append_cancel_right hu
    subst this
    refine ⟨_, _, by rw [List.append_assoc]; exact .str_ok, ⟨_, _, rfl, ⟨v, rfl, rfl⟩, by simp, by simp, by simp⟩, .nil⟩
  | @str_fail i l s hf =>
    rintro hp u rfl _ _
    exact ⟨_, _, .str_fail fun h => hf (prefix_swap hm (hlit i l (hp.whole nofun nofun nofun)) h), rfl, .cons ⟨rfl, u, rfl, rfl⟩ .nil⟩
  | @any_ok i c cs =>
    intro hp u hu _ ho
    obtain ⟨v, rfl⟩ := ho _ _ rfl
    have := List.append_cancel_right (as := c :: v) (by simpa using hu)
    subst this
    exact ⟨_, _, .any_ok, ⟨_, _, rfl, ⟨v, rfl, rfl⟩, by simp, by simp, by simp⟩, .nil⟩
  | any_fail =>
    intro hp u hu _ _
    have := List.nil_eq_append_iff.1 hu
    obtain ⟨rfl, h0⟩ := this
    have := hz h0
    subst h0
    subst this
    exact ⟨_, _, .any_fail, rfl, .cons ⟨rfl, [], rfl, rfl⟩ .nil⟩
  | @cls_ok i ivs c cs hin =>
    intro hp u hu _ ho
    obtain ⟨v, rfl⟩ := ho _ _ rfl
    have := List.append_cancel_right (as := c :: v) (by simpa using hu)
    subst this
    exact ⟨_, _, .cls_ok hin, ⟨_, _, rfl, ⟨v, rfl, rfl⟩, by simp, by simp, by simp⟩, .nil⟩
  | @cls_fail i ivs c cs hin =>
    intro hp u hu _ _
    obtain ⟨cs', h'⟩ := hcons hu
    rw [h']
    exact ⟨_, _, .cls_fail hin, rfl, .cons ⟨rfl, u, hu, h'.symm⟩ .nil⟩
  | cls_eof =>
    intro hp u hu _ _
    have := List.nil_eq_append_iff.1 hu
    obtain ⟨rfl, h0⟩ := this
    have := hz h0
    subst h0
    subst this
    exact ⟨_, _, .cls_eof, rfl, .cons ⟨rfl, [], rfl, rfl⟩ .nil⟩
  | nt_ok hf _ ih =>
    intro hp u hu hL ho
    obtain ⟨o', L', h, hs, hl⟩ := ih (.here ⟨_, _, hf, .refl⟩) u hu hL fun _ _ h => by cases h; exact ho _ _ rfl
    obtain ⟨s', t', rfl, h1, _⟩ := hs
    exact ⟨_, _, .nt_ok hf h, ⟨_, _, rfl, h1, by simp, by simp, by simp⟩, hl⟩
  | nt_fail hf _ ih =>
    intro hp u hu hL _
    obtain ⟨o', L', h, hs, hl⟩ := ih (.here ⟨_, _, hf, .refl⟩) u hu hL nofun
    cases hs
    exact ⟨_, _, .nt_fail hf h, rfl, hl⟩
  | ext hx => exact hx.elim
  | seq_nil =>
    rintro hp u rfl _ _
    exact ⟨_, _, .seq_nil, ⟨_, _, rfl, ⟨u, rfl, rfl⟩, by simp, by simp, by simp⟩, .nil⟩
  | seq_cons p1 p2 ih1 ih2 =>
    intro hp u hu hL ho
    obtain ⟨v, hv⟩ := ho _ _ rfl
    obtain ⟨v1, hv1⟩ := swapped_suffix ((hsuf p2).1 _ _ rfl) ⟨v, hv⟩
    obtain ⟨o1, L1, h1, hs1, hl1⟩ := ih1 (.here (hp.elems _ (by simp))) u hu (fun x hx => hL x (by simp [hx])) fun _ _ h => by cases h; exact ⟨v1, hv1⟩
    obtain ⟨s1', t1', rfl, ha1, _⟩ := hs1
    rw [hv1] at ha1
    have := ha1.same
    subst this
    obtain ⟨o2, L2, h2, hs2, hl2⟩ := ih2 (.seq fun x hx => hp.elems x (by simp [hx])) v1 hv1 (fun x hx => hL x (by simp [hx])) fun _ _ h => by cases h; exact ⟨v, hv⟩
    obtain ⟨s2', t2', rfl, ha2, hseq, _⟩ := hs2
    obtain ⟨ts, rfl⟩ := hseq ⟨_, rfl⟩
    exact ⟨_, _, .seq_cons h1 h2, ⟨_, _, rfl, ha2, by simp, by simp, by simp⟩, app hl1 hl2⟩
  | seq_fail _ ih =>
    intro hp u hu hL _
    obtain ⟨o', L', h, hs, hl⟩ := ih (.here (hp.elems _ (by simp))) u hu hL nofun
    cases hs
    exact ⟨_, _, .seq_fail h, rfl, hl⟩
  | @seq_later i e es s s1 t L1 L2 p1 p2 ih1 ih2 =>
    intro hp u hu hL _
    have hp2 : Part G (.seq i es) := .seq fun x hx => hp.elems x (by simp [hx])
    obtain ⟨v1, hv1⟩ := later p2 hp2 nofun fun x hx => hL x (by simp [hx])
    obtain ⟨o1, L1, h1, hs1, hl1⟩ := ih1 (.here (hp.elems _ (by simp))) u hu (fun x hx => hL x (by simp [hx])) fun _ _ h => by cases h; exact ⟨v1, hv1⟩
    obtain ⟨s1', t1', rfl, ha1, _⟩ := hs1
    rw [hv1] at ha1
    have := ha1.same
    subst this
    obtain ⟨o2, L2, h2, hs2, hl2⟩ := ih2 hp2 v1 hv1 (fun x hx => hL x (by simp [hx])) nofun
    cases hs2
    exact ⟨_, _, .seq_later h1 h2, rfl, app hl1 hl2⟩
  | choice_nil => exact fun _ u _ _ _ => ⟨_, _, .choice_nil, rfl, .nil⟩
  | choice_first _ ih =>
    intro hp u hu hL ho
    obtain ⟨o', L', h, hs, hl⟩ := ih (.here (hp.branches _ (by simp))) u hu hL fun _ _ h => by cases h; exact ho _ _ rfl
    obtain ⟨s', t', rfl, h1, _⟩ := hs
    exact ⟨_, _, .choice_first h, ⟨_, _, rfl, h1, by simp, by simp, fun k v h => by cases h; exact ⟨_, rfl⟩⟩, hl⟩
  | choice_next _ _ ih1 ih2 =>
    intro hp u hu hL ho
    obtain ⟨o1, L1, h1, hs1, hl1⟩ := ih1 (.here (hp.branches _ (by simp))) u hu (fun x hx => hL x (by simp [hx])) nofun
    cases hs1
    obtain ⟨o2, L2, h2, hs2, hl2⟩ := ih2 (.choice fun x hx => hp.branches x (by simp [hx])) u hu (fun x hx => hL x (by simp [hx])) fun _ _ h => by cases h; exact ho _ _ rfl
    obtain ⟨s', t', rfl, ha, _, _, halt⟩ := hs2
    obtain ⟨u', rfl⟩ := halt _ _ rfl
    exact ⟨_, _, .choice_next h1 h2, ⟨_, _, rfl, ha, by simp, by simp, fun k v h => by cases h; exact ⟨_, rfl⟩⟩, app hl1 hl2⟩
  | choice_fail _ _ ih1 ih2 =>
    intro hp u hu hL _
    obtain ⟨o1, L1, h1, hs1, hl1⟩ := ih1 (.here (hp.branches _ (by simp))) u hu (fun x hx => hL x (by simp [hx])) nofun
    cases hs1
    obtain ⟨o2, L2, h2, hs2, hl2⟩ := ih2 (.choice fun x hx => hp.branches x (by simp [hx])) u hu (fun x hx => hL x (by simp [hx])) nofun
    cases hs2
    exact ⟨_, _, .choice_fail h1 h2, rfl, app hl1 hl2⟩
  | star_stop _ ih =>
    rintro hp u rfl hL _
    obtain ⟨o', L', h, hs, hl⟩ := ih (.here hp.again) u rfl hL nofun
    cases hs
    exact ⟨_, _, .star_stop h, ⟨_, _, rfl, ⟨u, rfl, rfl⟩, by simp, fun _ => ⟨_, rfl⟩, by simp⟩, hl⟩
  | star_more p1 p2 ih1 ih2 =>
    intro hp u hu hL ho
    obtain ⟨v, hv⟩ := ho _ _ rfl
    obtain ⟨v1, hv1⟩ := swapped_suffix ((hsuf p2).1 _ _ rfl) ⟨v, hv⟩
    obtain ⟨o1, L1, h1, hs1, hl1⟩ := ih1 (.here hp.again) u hu (fun x hx => hL x (by simp [hx])) fun _ _ h => by cases h; exact ⟨v1, hv1⟩
    obtain ⟨s1', t1', rfl, ha1, _⟩ := hs1
    rw [hv1] at ha1
    have := ha1.same
    subst this
    obtain ⟨o2, L2, h2, hs2, hl2⟩ := ih2 hp v1 hv1 (fun x hx => hL x (by simp [hx])) fun _ _ h => by cases h; exact ⟨v, hv⟩
    obtain ⟨s2', t2', rfl, ha2, _, hrep, _⟩ := hs2
    obtain ⟨ts, rfl⟩ := hrep ⟨_, rfl⟩
    exact ⟨_, _, .star_more h1 h2, ⟨_, _, rfl, ha2, by simp, by simp, by simp⟩, app hl1 hl2⟩
  | plus_fail _ ih =>
    intro hp u hu hL _
    obtain ⟨o', L', h, hs, hl⟩ := ih (.here (occurs_sub (hp.whole nofun nofun nofun) (.plus .refl))) u hu hL nofun
    cases hs
    exact ⟨_, _, .plus_fail h, rfl, hl⟩
  | plus_ok p1 p2 ih1 ih2 =>
    intro hp u hu hL ho
    have hin := occurs_sub (hp.whole nofun nofun nofun) (.plus .refl)
    obtain ⟨v, hv⟩ := ho _ _ rfl
    obtain ⟨v1, hv1⟩ := swapped_suffix ((hsuf p2).1 _ _ rfl) ⟨v, hv⟩
    obtain ⟨o1, L1, h1, hs1, hl1⟩ := ih1 (.here hin) u hu (fun x hx => hL x (by simp [hx])) fun _ _ h => by cases h; exact ⟨v1, hv1⟩
    obtain ⟨s1', t1', rfl, ha1, _⟩ := hs1
    rw [hv1] at ha1
    have := ha1.same
    subst this
    obtain ⟨o2, L2, h2, hs2, hl2⟩ := ih2 (.star hin) v1 hv1 (fun x hx => hL x (by simp [hx])) fun _ _ h => by cases h; exact ⟨v, hv⟩
    obtain ⟨s2', t2', rfl, ha2, _, hrep, _⟩ := hs2
    obtain ⟨ts, rfl⟩ := hrep ⟨_, rfl⟩
    exact ⟨_, _, .plus_ok h1 h2, ⟨_, _, rfl, ha2, by simp, by simp, by simp⟩, app hl1 hl2⟩
  | opt_some _ ih =>
    intro hp u hu hL ho
    obtain ⟨o', L', h, hs, hl⟩ := ih (.here (occurs_sub (hp.whole nofun nofun nofun) (.opt .refl))) u hu hL fun _ _ h => by cases h; exact ho _ _ rfl
    obtain ⟨s', t', rfl, h1, _⟩ := hs
    exact ⟨_, _, .opt_some h, ⟨_, _, rfl, h1, by simp, by simp, by simp⟩, hl⟩
  | opt_none _ ih =>
    rintro hp u rfl hL _
    obtain ⟨o', L', h, hs, hl⟩ := ih (.here (occurs_sub (hp.whole nofun nofun nofun) (.opt .refl))) u rfl hL nofun
    cases hs
    exact ⟨_, _, .opt_none h, ⟨_, _, rfl, ⟨u, rfl, rfl⟩, by simp, by simp, by simp⟩, hl⟩
  | not_ok | not_fail => exact fun hp => absurd (hp.whole nofun nofun nofun) (hn _ _).1
  | and_ok | and_fail => exact fun hp => absurd (hp.whole nofun nofun nofun) (hn _ _).2
  | act_ok _ ih =>
    intro hp u hu hL ho
    obtain ⟨o', L', h, hs, hl⟩ := ih (.here (occurs_sub (hp.whole nofun nofun nofun) (.act .refl))) u hu hL fun _ _ h => by cases h; exact ho _ _ rfl
    obtain ⟨s', t', rfl, h1, _⟩ := hs
    exact ⟨_, _, .act_ok h, ⟨_, _, rfl, h1, by simp, by simp, by simp⟩, hl⟩
  | asc_ok _ ih =>
    intro hp u hu hL ho
    obtain ⟨o', L', h, hs, hl⟩ := ih (.here (occurs_sub (hp.whole nofun nofun nofun) (.asc .refl))) u hu hL fun _ _ h => by cases h; exact ho _ _ rfl
    obtain ⟨s', t', rfl, h1, _⟩ := hs
    exact ⟨_, _, .asc_ok h, ⟨_, _, rfl, h1, by simp, by simp, by simp⟩, hl⟩
  | span_ok _ ih =>
    intro hp u hu hL ho
    obtain ⟨o', L', h, hs, hl⟩ := ih (.here (occurs_sub (hp.whole nofun nofun nofun) (.span .refl))) u hu hL fun _ _ h => by cases h; exact ho _ _ rfl
    obtain ⟨s', t', rfl, h1, _⟩ := hs
    exact ⟨_, _, .span_ok h, ⟨_, _, rfl, h1, by simp, by simp, by simp⟩, hl⟩
  | range_ok _ ih =>
    intro hp u hu hL ho
    obtain ⟨o', L', h, hs, hl⟩ := ih (.here (occurs_sub (hp.whole nofun nofun nofun) (.range .refl))) u hu hL fun _ _ h => by cases h; exact ho _ _ rfl
    obtain ⟨s', t', rfl, h1, _⟩ := hs
    exact ⟨_, _, .range_ok h, ⟨_, _, rfl, h1, by simp, by simp, by simp⟩, hl⟩
  | act_fail _ ih =>
    intro hp u hu hL _
    obtain ⟨o', L', h, hs, hl⟩ := ih (.here (occurs_sub (hp.whole nofun nofun nofun) (.act .refl))) u hu hL nofun
    cases hs
    exact ⟨_, _, .act_fail h, rfl, hl⟩
  | asc_fail _ ih =>
    intro hp u hu hL _
    obtain ⟨o', L', h, hs, hl⟩ := ih (.here (occurs_sub (hp.whole nofun nofun nofun) (.asc .refl))) u hu hL nofun
    cases hs
    exact ⟨_, _, .asc_fail h, rfl, hl⟩
  | span_fail _ ih =>
    intro hp u hu hL _
    obtain ⟨o', L', h, hs, hl⟩ := ih (.here (occurs_sub (hp.whole nofun nofun nofun) (.span .refl))) u hu hL nofun
    cases hs
    exact ⟨_, _, .span_fail h, rfl, hl⟩
  | range_fail _ ih =>
    intro hp u hu hL _
    obtain ⟨o', L', h, hs, hl⟩ := ih (.here (occurs_sub (hp.whole nofun nofun nofun) (.range .refl))) u hu hL nofun
    cases hs
    exact ⟨_, _, .range_fail h, rfl, hl⟩

theorem SwappedLog.mem {z z' : List Char} {L L' : Log} (h : SwappedLog z z' L L') : (∀ x ∈ L, ∃ x' ∈ L', Swapped z z' x.1 x'.1) ∧ ∀ x' ∈ L', ∃ x ∈ L, Swapped z z' x.1 x'.1 := by
  induction h with
  | nil => exact ⟨nofun, nofun⟩
  | cons hx _ ih =>
    constructor
    · intro x hm
      rcases List.mem_cons.1 hm with rfl | hm
      · exact ⟨_, by simp, hx.2⟩
      · obtain ⟨x', h1, h2⟩ := ih.1 x hm
        exact ⟨x', by simp [h1], h2⟩
    · intro x hm
      rcases List.mem_cons.1 hm with rfl | hm
      · exact ⟨_, by simp, hx.2⟩
      · obtain ⟨x', h1, h2⟩ := ih.2 x hm
        exact ⟨x', by simp [h1], h2⟩

theorem SwappedLog.expected {z z' : List Char} {L L' : Log} (h : SwappedLog z z' L L') : expectedAt z' L' = expectedAt z L := by
  induction h with
  | nil => rfl
  | @cons x x' L L' hx _ ih =>
    obtain ⟨hd, v, h1, h2⟩ := hx
    simp only [expectedAt] at ih ⊢
    have : x'.1 = z' ↔ x.1 = z := by
      rw [h1, h2]
      constructor <;> intro h <;> have := congrArg List.length h <;> simp only [List.length_append] at this <;>
        (have : v = [] := List.length_eq_zero_iff.1 (by omega)) <;> simp [this]
    simp only [List.filter_cons, this, decide_eq_true_eq]
    by_cases hz : x.1 = z
    · simp only [hz, if_true, List.map_cons, hd, ih]
    · simp only [hz, if_false, ih]

theorem SwappedLog.farthest {u z z' : List Char} {L L' : Log} (h : SwappedLog z z' L L') (hf : Spec.farthest (u ++ z) L = z) : Spec.farthest (u ++ z') L' = z' := by
  obtain ⟨h1, h2⟩ := farthest_le (s := u ++ z') (L := L')
  have hle : (Spec.farthest (u ++ z') L').length ≤ z'.length := by
    rcases farthest_mem (s := u ++ z) (L := L) with h0 | ⟨x, hx, h0⟩
    · rw [hf] at h0
      have : u = [] := by
        have := congrArg List.length h0
        simp only [List.length_append] at this
        exact List.length_eq_zero_iff.1 (by omega)
      subst this
      exact h1
    · rw [hf] at h0
      obtain ⟨x', hx', v, e1, e2⟩ := h.mem.1 x hx
      have : v = [] := by
        rw [h0] at e1
        have := congrArg List.length e1
        simp only [List.length_append] at this
        exact List.length_eq_zero_iff.1 (by omega)
      subst this
      have := h2 x' hx'
      rwa [e2] at this
  have hv : ∃ v, Spec.farthest (u ++ z') L' = v ++ z' := by
    rcases farthest_mem (s := u ++ z') (L := L') with h0 | ⟨x', hx', h0⟩
    · exact ⟨u, h0⟩
    · obtain ⟨x, hx, v, e1, e2⟩ := h.mem.2 x' hx'
      exact ⟨v, h0.symm.trans e2⟩
  obtain ⟨v, hv⟩ := hv
  rw [hv] at hle ⊢
  have : v = [] := by
    simp only [List.length_append] at hle
    exact List.length_eq_zero_iff.1 (by omega)
  simp [this]

/-! ### What comes before begins a text -/

/-- The text, followed by anything, is read by `e`. -/
def TextOf (G : Grammar) (e : Expr) (y : List Char) : Prop := ∀ z, ∃ t, Derives G noExt e (y ++ z) z t

theorem textOf_derives {e : Expr} {s s' : List Char} {t : Tree} (h : Derives G noExt e s s' t) : ∃ y, s = y ++ s' ∧ TextOf G e y := by
  obtain ⟨w, _, hw, _⟩ := h.rebase []
  refine ⟨w, hw, fun z => ?_⟩
  obtain ⟨w', t', hw', d, _⟩ := h.rebase z
  have : w' = w := List.append_cancel_right (hw'.symm.trans hw)
  subst this
  exact ⟨t', d⟩

theorem TextOf.lift {e e' : Expr} (h : ∀ s s' t, Derives G noExt e s s' t → ∃ t', Derives G noExt e' s s' t') {y : List Char} (hy : TextOf G e y) : TextOf G e' y := by
  intro z
  obtain ⟨t, ht⟩ := hy z
  exact h _ _ _ ht

theorem TextOf.seq {i : Nat} {e : Expr} {es : List Expr} {y1 y2 : List Char} (h1 : TextOf G e y1) (h2 : TextOf G (.seq i es) y2) : TextOf G (.seq i (e :: es)) (y1 ++ y2) := by
  intro z
  obtain ⟨t2, d2⟩ := h2 z
  obtain ⟨ts, rfl⟩ := seq_tree d2
  obtain ⟨t1, d1⟩ := h1 (y2 ++ z)
  exact ⟨_, by rw [List.append_assoc]; exact .seq_cons d1 d2⟩

theorem TextOf.star {i : Nat} {e : Expr} {y1 y2 : List Char} (h1 : TextOf G e y1) (h2 : TextOf G (.star i e) y2) : TextOf G (.star i e) (y1 ++ y2) := by
  intro z
  obtain ⟨t2, d2⟩ := h2 z
  obtain ⟨ts, rfl⟩ := star_tree d2
  obtain ⟨t1, d1⟩ := h1 (y2 ++ z)
  exact ⟨_, by rw [List.append_assoc]; exact .star_cons d1 d2⟩

theorem TextOf.plus {i : Nat} {e : Expr} {y1 y2 : List Char} (h1 : TextOf G e y1) (h2 : TextOf G (.star i e) y2) : TextOf G (.plus i e) (y1 ++ y2) := by
  intro z
  obtain ⟨t2, d2⟩ := h2 z
  obtain ⟨ts, rfl⟩ := star_tree d2
  obtain ⟨t1, d1⟩ := h1 (y2 ++ z)
  exact ⟨_, by rw [List.append_assoc]; exact .plus d1 d2⟩

theorem textOf_productive (hp : Productive G noExt) {e : Expr} (h : Occurs G e) : ∃ y, TextOf G e y := by
  obtain ⟨s, s', t, hd⟩ := hp e h
  obtain ⟨y, _, hy⟩ := textOf_derives hd
  exact ⟨y, hy⟩

/-- Failed terminals come after the beginning of a text. -/
theorem viable_log (hn : NoPredicates G) (hp : Productive G noExt) (V : List Char → Prop) (hV : ∀ a b, V (a ++ b) → V a) {e : Expr} {s : List Char} {o : Out} {L : Log} (h : Peg G noExt e s o L) :
    Part G e → ∀ w, (∀ y, TextOf G e y → V (w ++ y)) → ∀ x ∈ L, ∃ v, s = v ++ x.1 ∧ V (w ++ v) := by
  have term : ∀ {e : Expr} {s : List Char} {d : String}, Occurs G e → ∀ w, (∀ y, TextOf G e y → V (w ++ y)) → ∀ x ∈ [(s, d)], ∃ v, s = v ++ x.1 ∧ V (w ++ v) := by
    intro e s d ho w hw x hx
    cases List.mem_singleton.1 hx
    obtain ⟨y, hy⟩ := textOf_productive hp ho
    exact ⟨[], rfl, by rw [List.append_nil]; exact hV _ _ (hw y hy)⟩
  -- after a success
  have next : ∀ {e e2 : Expr} {s s1 : List Char} {t : Tree} {L1 L2 : Log} {w : List Char}, Peg G noExt e s (.ok s1 t) L1 →
      (∀ x ∈ L1, ∃ v, s = v ++ x.1 ∧ V (w ++ v)) → (∀ w, (∀ y, TextOf G e2 y → V (w ++ y)) → ∀ x ∈ L2, ∃ v, s1 = v ++ x.1 ∧ V (w ++ v)) →
      (∀ y1 y2, TextOf G e y1 → TextOf G e2 y2 → V (w ++ (y1 ++ y2))) → ∀ x ∈ L1 ++ L2, ∃ v, s = v ++ x.1 ∧ V (w ++ v) := by
    intro e e2 s s1 t L1 L2 w h1 hL1 ih2 hw x hx
    rcases List.mem_append.1 hx with hx | hx
    · exact hL1 x hx
    · obtain ⟨y1, rfl, hy1⟩ := textOf_derives (peg_derives h1 _ _ rfl)
      obtain ⟨v, rfl, hv⟩ := ih2 (w ++ y1) (fun y hy => by rw [List.append_assoc]; exact hw y1 y hy1 hy) x hx
      exact ⟨y1 ++ v, by rw [List.append_assoc], by rw [← List.append_assoc]; exact hv⟩
  induction h with
  | str_ok | any_ok | cls_ok | seq_nil | choice_nil => exact fun _ w _ x hx => absurd hx (by simp)
  | str_fail | any_fail | cls_fail | cls_eof => exact fun hpart => term (hpart.whole nofun nofun nofun)
  | ext hx => exact hx.elim
  | nt_ok hf _ ih | nt_fail hf _ ih => exact fun _ w hw => ih (.here ⟨_, _, hf, .refl⟩) w fun y hy => hw y (hy.lift fun _ _ _ h => ⟨_, .nt hf h⟩)
  | @seq_fail i e es s L _ ih =>
    intro hpart w hw
    obtain ⟨y2, h2⟩ := seq_text hp (i := i) (es := es) (fun x hx => hpart.elems x (by simp [hx]))
    refine ih (.here (hpart.elems _ (by simp))) w fun y hy => hV _ y2 ?_
    rw [List.append_assoc]
    exact hw _ (hy.seq fun z => by obtain ⟨ts, h⟩ := h2 z; exact ⟨_, h⟩)
  | @seq_cons i e es s s1 s2 t ts L1 L2 p1 p2 ih1 ih2 =>
    intro hpart w hw
    obtain ⟨y2, h2⟩ := seq_text hp (i := i) (es := es) (fun x hx => hpart.elems x (by simp [hx]))
    refine next p1 (ih1 (.here (hpart.elems _ (by simp))) w fun y hy => hV _ y2 ?_) (ih2 (.seq fun x hx => hpart.elems x (by simp [hx]))) fun y1 y2 h1 h2 => hw _ (h1.seq h2)
    rw [List.append_assoc]
    exact hw _ (hy.seq fun z => by obtain ⟨ts, h⟩ := h2 z; exact ⟨_, h⟩)
  | @seq_later i e es s s1 t L1 L2 p1 p2 ih1 ih2 =>
    intro hpart w hw
    obtain ⟨y2, h2⟩ := seq_text hp (i := i) (es := es) (fun x hx => hpart.elems x (by simp [hx]))
    refine next p1 (ih1 (.here (hpart.elems _ (by simp))) w fun y hy => hV _ y2 ?_) (ih2 (.seq fun x hx => hpart.elems x (by simp [hx]))) fun y1 y2 h1 h2 => hw _ (h1.seq h2)
    rw [List.append_assoc]
    exact hw _ (hy.seq fun z => by obtain ⟨ts, h⟩ := h2 z; exact ⟨_, h⟩)
  | choice_first _ ih => exact fun hpart w hw => ih (.here (hpart.branches _ (by simp))) w fun y hy => hw y (hy.lift fun _ _ _ h => ⟨_, .choice (k := 0) rfl h⟩)
  | choice_next _ _ ih1 ih2 | choice_fail _ _ ih1 ih2 =>
    intro hpart w hw x hx
    rcases List.mem_append.1 hx with hx | hx
    · exact ih1 (.here (hpart.branches _ (by simp))) w (fun y hy => hw y (hy.lift fun _ _ _ h => ⟨_, .choice (k := 0) rfl h⟩)) x hx
    · refine ih2 (.choice fun x hx => hpart.branches x (by simp [hx])) w (fun y hy => hw y (hy.lift fun _ _ _ h => ?_)) x hx
      cases h with
      | choice hk h => exact ⟨_, .choice (k := _ + 1) (by simpa using hk) h⟩
  | star_stop _ ih => exact fun hpart w hw => ih (.here hpart.again) w fun y hy => hw y (hy.lift fun _ _ _ h => ⟨_, .star_cons h .star_nil⟩)
  | star_more p1 _ ih1 ih2 =>
    intro hpart w hw
    exact next p1 (ih1 (.here hpart.again) w fun y hy => hw y (hy.lift fun _ _ _ h => ⟨_, .star_cons h .star_nil⟩)) (ih2 hpart) fun y1 y2 h1 h2 => hw _ (h1.star h2)
  | plus_fail _ ih =>
    intro hpart w hw
    exact ih (.here (occurs_sub (hpart.whole nofun nofun nofun) (.plus .refl))) w fun y hy => hw y (hy.lift fun _ _ _ h => ⟨_, .plus h .star_nil⟩)
  | plus_ok p1 _ ih1 ih2 =>
    intro hpart w hw
    have ho := occurs_sub (hpart.whole nofun nofun nofun) (.plus .refl)
    exact next p1 (ih1 (.here ho) w fun y hy => hw y (hy.lift fun _ _ _ h => ⟨_, .plus h .star_nil⟩)) (ih2 (.star ho)) fun y1 y2 h1 h2 => hw _ (h1.plus h2)
  | opt_some _ ih | opt_none _ ih =>
    exact fun hpart w hw => ih (.here (occurs_sub (hpart.whole nofun nofun nofun) (.opt .refl))) w fun y hy => hw y (hy.lift fun _ _ _ h => ⟨_, .opt_some h⟩)
  | not_ok | not_fail => exact fun hpart => absurd (hpart.whole nofun nofun nofun) (hn _ _).1
  | and_ok | and_fail => exact fun hpart => absurd (hpart.whole nofun nofun nofun) (hn _ _).2
  | act_ok _ ih | act_fail _ ih =>
    exact fun hpart w hw => ih (.here (occurs_sub (hpart.whole nofun nofun nofun) (.act .refl))) w fun y hy => hw y (hy.lift fun _ _ _ h => ⟨_, .act h⟩)
  | asc_ok _ ih | asc_fail _ ih =>
    exact fun hpart w hw => ih (.here (occurs_sub (hpart.whole nofun nofun nofun) (.asc .refl))) w fun y hy => hw y (hy.lift fun _ _ _ h => ⟨_, .asc h⟩)
  | span_ok _ ih | span_fail _ ih =>
    exact fun hpart w hw => ih (.here (occurs_sub (hpart.whole nofun nofun nofun) (.span .refl))) w fun y hy => hw y (hy.lift fun _ _ _ h => ⟨_, .span h⟩)
  | range_ok _ ih | range_fail _ ih =>
    exact fun hpart w hw => ih (.here (occurs_sub (hpart.whole nofun nofun nofun) (.range .refl))) w fun y hy => hw y (hy.lift fun _ _ _ h => ⟨_, .range h⟩)

end Oak
