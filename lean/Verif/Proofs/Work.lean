import Verif.Spec.Work
import Verif.Proofs.WFAccept
import Verif.Proofs.WFTotal
/-!
The work of a parser: it is determined by the match, and bounded.
-/
set_option linter.constructorNameAsVariable false
set_option autoImplicit false

namespace Oak
open Spec
variable {G : Grammar} {X : ExtSpec}

/-- What is counted is the work of a match. -/
theorem work_peg {e : Expr} {s : List Char} {o : Option (List Char)} {v : Visits} (h : Work G X e s o v) : ∃ o' L, Peg G X e s o' L ∧ o'.rest = o ∧
    ((∃ i es, e = .seq i es) → o' = .fail ∨ ∃ s' ts, o' = .ok s' (.seq ts)) ∧ ((∃ i es, e = .choice i es) → o' = .fail ∨ ∃ s' k t, o' = .ok s' (.alt k t)) ∧
    ((∃ i c, e = .star i c) → ∃ s' ts, o' = .ok s' (.rep ts)) := by
  have some_inv : ∀ {o' : Out} {s1}, o'.rest = some s1 → ∃ t, o' = .ok s1 t := by
    intro o' s1 h
    cases o' with
    | fail => cases h
    | ok s t => cases h; exact ⟨t, rfl⟩
  have none_inv : ∀ {o' : Out}, o'.rest = none → o' = .fail := by
    intro o' h
    cases o' with
    | fail => rfl
    | ok s t => cases h
  induction h with
  | str_ok => exact ⟨_, _, .str_ok, rfl, by simp, by simp, by simp⟩
  | str_fail h => exact ⟨_, _, .str_fail h, rfl, by simp, by simp, by simp⟩
  | any_ok => exact ⟨_, _, .any_ok, rfl, by simp, by simp, by simp⟩
  | any_fail => exact ⟨_, _, .any_fail, rfl, by simp, by simp, by simp⟩
  | cls_ok h => exact ⟨_, _, .cls_ok h, rfl, by simp, by simp, by simp⟩
  | cls_fail h => exact ⟨_, _, .cls_fail h, rfl, by simp, by simp, by simp⟩
  | cls_eof => exact ⟨_, _, .cls_eof, rfl, by simp, by simp, by simp⟩
  | nt hf _ ih =>
    obtain ⟨o', L, h, rfl, _⟩ := ih
    cases o' with
    | fail => exact ⟨_, _, .nt_fail hf h, rfl, by simp, by simp, by simp⟩
    | ok s t => exact ⟨_, _, .nt_ok hf h, rfl, by simp, by simp, by simp⟩
  | ext_ok h => exact ⟨_, _, .ext h, rfl, by simp, by simp, by simp⟩
  | ext_fail h => exact ⟨_, _, .ext h, rfl, by simp, by simp, by simp⟩
  | seq_nil => exact ⟨_, _, .seq_nil, rfl, fun _ => .inr ⟨_, _, rfl⟩, by simp, by simp⟩
  | seq_cons _ _ ih1 ih2 =>
    obtain ⟨o1, L1, h1, k1, _⟩ := ih1
    obtain ⟨t, rfl⟩ := some_inv k1
    obtain ⟨o2, L2, h2, rfl, k2, _⟩ := ih2
    rcases k2 ⟨_, _, rfl⟩ with rfl | ⟨s', ts, rfl⟩
    · exact ⟨_, _, .seq_later h1 h2, rfl, fun _ => .inl rfl, by simp, by simp⟩
    · exact ⟨_, _, .seq_cons h1 h2, rfl, fun _ => .inr ⟨_, _, rfl⟩, by simp, by simp⟩
  | seq_fail _ ih =>
    obtain ⟨o1, L1, h1, k1, _⟩ := ih
    cases none_inv k1
    exact ⟨_, _, .seq_fail h1, rfl, fun _ => .inl rfl, by simp, by simp⟩
  | choice_nil => exact ⟨_, _, .choice_nil, rfl, by simp, fun _ => .inl rfl, by simp⟩
  | choice_first _ ih =>
    obtain ⟨o1, L1, h1, k1, _⟩ := ih
    obtain ⟨t, rfl⟩ := some_inv k1
    exact ⟨_, _, .choice_first h1, rfl, by simp, fun _ => .inr ⟨_, _, _, rfl⟩, by simp⟩
  | choice_next _ _ ih1 ih2 =>
    obtain ⟨o1, L1, h1, k1, _⟩ := ih1
    cases none_inv k1
    obtain ⟨o2, L2, h2, rfl, _, k2, _⟩ := ih2
    rcases k2 ⟨_, _, rfl⟩ with rfl | ⟨s', k, t, rfl⟩
    · exact ⟨_, _, .choice_fail h1 h2, rfl, by simp, fun _ => .inl rfl, by simp⟩
    · exact ⟨_, _, .choice_next h1 h2, rfl, by simp, fun _ => .inr ⟨_, _, _, rfl⟩, by simp⟩
  | star_stop _ ih =>
    obtain ⟨o1, L1, h1, k1, _⟩ := ih
    cases none_inv k1
    exact ⟨_, _, .star_stop h1, rfl, by simp, by simp, fun _ => ⟨_, _, rfl⟩⟩
  | star_more _ _ ih1 ih2 =>
    obtain ⟨o1, L1, h1, k1, _⟩ := ih1
    obtain ⟨t, rfl⟩ := some_inv k1
    obtain ⟨o2, L2, h2, rfl, _, _, k2⟩ := ih2
    obtain ⟨s', ts, rfl⟩ := k2 ⟨_, _, rfl⟩
    exact ⟨_, _, .star_more h1 h2, rfl, by simp, by simp, fun _ => ⟨_, _, rfl⟩⟩
  | plus_fail _ ih =>
    obtain ⟨o1, L1, h1, k1, _⟩ := ih
    cases none_inv k1
    exact ⟨_, _, .plus_fail h1, rfl, by simp, by simp, by simp⟩
  | plus_ok _ _ ih1 ih2 =>
    obtain ⟨o1, L1, h1, k1, _⟩ := ih1
    obtain ⟨t, rfl⟩ := some_inv k1
    obtain ⟨o2, L2, h2, rfl, _, _, k2⟩ := ih2
    obtain ⟨s', ts, rfl⟩ := k2 ⟨_, _, rfl⟩
    exact ⟨_, _, .plus_ok h1 h2, rfl, by simp, by simp, by simp⟩
  | opt_some _ ih =>
    obtain ⟨o1, L1, h1, k1, _⟩ := ih
    obtain ⟨t, rfl⟩ := some_inv k1
    exact ⟨_, _, .opt_some h1, rfl, by simp, by simp, by simp⟩
  | opt_none _ ih =>
    obtain ⟨o1, L1, h1, k1, _⟩ := ih
    cases none_inv k1
    exact ⟨_, _, .opt_none h1, rfl, by simp, by simp, by simp⟩
  | not_ok _ ih =>
    obtain ⟨o1, L1, h1, k1, _⟩ := ih
    cases none_inv k1
    exact ⟨_, _, .not_ok h1, rfl, by simp, by simp, by simp⟩
  | not_fail _ ih =>
    obtain ⟨o1, L1, h1, k1, _⟩ := ih
    obtain ⟨t, rfl⟩ := some_inv k1
    exact ⟨_, _, .not_fail h1, rfl, by simp, by simp, by simp⟩
  | and_ok _ ih =>
    obtain ⟨o1, L1, h1, k1, _⟩ := ih
    obtain ⟨t, rfl⟩ := some_inv k1
    exact ⟨_, _, .and_ok h1, rfl, by simp, by simp, by simp⟩
  | and_fail _ ih =>
    obtain ⟨o1, L1, h1, k1, _⟩ := ih
    cases none_inv k1
    exact ⟨_, _, .and_fail h1, rfl, by simp, by simp, by simp⟩
  | act _ ih =>
    obtain ⟨o', L, h, rfl, _⟩ := ih
    cases o' with
    | fail => exact ⟨_, _, .act_fail h, rfl, by simp, by simp, by simp⟩
    | ok s t => exact ⟨_, _, .act_ok h, rfl, by simp, by simp, by simp⟩
  | asc _ ih =>
    obtain ⟨o', L, h, rfl, _⟩ := ih
    cases o' with
    | fail => exact ⟨_, _, .asc_fail h, rfl, by simp, by simp, by simp⟩
    | ok s t => exact ⟨_, _, .asc_ok h, rfl, by simp, by simp, by simp⟩
  | span _ ih =>
    obtain ⟨o', L, h, rfl, _⟩ := ih
    cases o' with
    | fail => exact ⟨_, _, .span_fail h, rfl, by simp, by simp, by simp⟩
    | ok s t => exact ⟨_, _, .span_ok h, rfl, by simp, by simp, by simp⟩
  | range _ ih =>
    obtain ⟨o', L, h, rfl, _⟩ := ih
    cases o' with
    | fail => exact ⟨_, _, .range_fail h, rfl, by simp, by simp, by simp⟩
    | ok s t => exact ⟨_, _, .range_ok h, rfl, by simp, by simp, by simp⟩

/-- Every match has its work; every terminal that is tried in vain is visited. -/
theorem peg_work {e : Expr} {s : List Char} {o : Out} {L : Log} (h : Peg G X e s o L) : ∃ v, Work G X e s o.rest v := by
  induction h with
  | str_ok => exact ⟨_, .str_ok⟩
  | str_fail h => exact ⟨_, .str_fail h⟩
  | any_ok => exact ⟨_, .any_ok⟩
  | any_fail => exact ⟨_, .any_fail⟩
  | cls_ok h => exact ⟨_, .cls_ok h⟩
  | cls_fail h => exact ⟨_, .cls_fail h⟩
  | cls_eof => exact ⟨_, .cls_eof⟩
  | nt_ok hf _ ih => exact ih.elim fun _ h => ⟨_, .nt hf h⟩
  | nt_fail hf _ ih => exact ih.elim fun _ h => ⟨_, .nt hf h⟩
  | @ext i p s o L h =>
    cases o with
    | fail => exact ⟨_, .ext_fail h⟩
    | ok s' t => exact ⟨_, .ext_ok h⟩
  | seq_nil => exact ⟨_, .seq_nil⟩
  | seq_cons _ _ ih1 ih2 => exact ih1.elim fun _ h1 => ih2.elim fun _ h2 => ⟨_, .seq_cons h1 h2⟩
  | seq_fail _ ih => exact ih.elim fun _ h => ⟨_, .seq_fail h⟩
  | seq_later _ _ ih1 ih2 => exact ih1.elim fun _ h1 => ih2.elim fun _ h2 => ⟨_, .seq_cons h1 h2⟩
  | choice_nil => exact ⟨_, .choice_nil⟩
  | choice_first _ ih => exact ih.elim fun _ h => ⟨_, .choice_first h⟩
  | choice_next _ _ ih1 ih2 => exact ih1.elim fun _ h1 => ih2.elim fun _ h2 => ⟨_, .choice_next h1 h2⟩
  | choice_fail _ _ ih1 ih2 => exact ih1.elim fun _ h1 => ih2.elim fun _ h2 => ⟨_, .choice_next h1 h2⟩
  | star_stop _ ih => exact ih.elim fun _ h => ⟨_, .star_stop h⟩
  | star_more _ _ ih1 ih2 => exact ih1.elim fun _ h1 => ih2.elim fun _ h2 => ⟨_, .star_more h1 h2⟩
  | plus_fail _ ih => exact ih.elim fun _ h => ⟨_, .plus_fail h⟩
  | plus_ok _ _ ih1 ih2 => exact ih1.elim fun _ h1 => ih2.elim fun _ h2 => ⟨_, .plus_ok h1 h2⟩
  | opt_some _ ih => exact ih.elim fun _ h => ⟨_, .opt_some h⟩
  | opt_none _ ih => exact ih.elim fun _ h => ⟨_, .opt_none h⟩
  | not_ok _ ih => exact ih.elim fun _ h => ⟨_, .not_ok h⟩
  | not_fail _ ih => exact ih.elim fun _ h => ⟨_, .not_fail h⟩
  | and_ok _ ih => exact ih.elim fun _ h => ⟨_, .and_ok h⟩
  | and_fail _ ih => exact ih.elim fun _ h => ⟨_, .and_fail h⟩
  | act_ok _ ih | act_fail _ ih => exact ih.elim fun _ h => ⟨_, .act h⟩
  | asc_ok _ ih | asc_fail _ ih => exact ih.elim fun _ h => ⟨_, .asc h⟩
  | span_ok _ ih | span_fail _ ih => exact ih.elim fun _ h => ⟨_, .span h⟩
  | range_ok _ ih | range_fail _ ih => exact ih.elim fun _ h => ⟨_, .range h⟩

/-- The position where a match ends is the only one. -/
theorem work_end (hX : X.Det) {e : Expr} {s : List Char} {o o' : Option (List Char)} {v v' : Visits} (h : Work G X e s o v) (h' : Work G X e s o' v') : o = o' := by
  obtain ⟨a, L, h1, rfl, _⟩ := work_peg h
  obtain ⟨b, L', h2, rfl, _⟩ := work_peg h'
  have := (Peg.det hX h1 h2).1
  rw [this]

/-- The work is determined. -/
theorem work_det (hX : X.Det) {e : Expr} {s : List Char} {o o' : Option (List Char)} {v v' : Visits} (h : Work G X e s o v) (h' : Work G X e s o' v') : v = v' := by
  induction h generalizing o' v' with
  | @str_ok i lit r =>
    generalize hs : lit.toList ++ r = s at h'
    cases h' with
    | str_ok => rfl
    | str_fail h => exact absurd ⟨r, hs⟩ h
  | str_fail h => cases h' with
    | str_ok => exact absurd (List.prefix_append _ _) h
    | str_fail => rfl
  | any_ok => cases h'; rfl
  | any_fail => cases h'; rfl
  | cls_ok h => cases h' with
    | cls_ok => rfl
    | cls_fail h' => exact absurd h h'
  | cls_fail h => cases h' with
    | cls_ok h' => exact absurd h' h
    | cls_fail => rfl
  | cls_eof => cases h'; rfl
  | nt hf _ ih => cases h' with | nt hf' h => rw [hf] at hf'; cases hf'; rw [ih h]
  | ext_ok h => cases h' with
    | ext_ok h' => have := (hX _ _ _ _ _ _ h h').1; cases this; rfl
    | ext_fail h' => have := (hX _ _ _ _ _ _ h h').1; cases this
  | ext_fail h => cases h' with
    | ext_ok h' => have := (hX _ _ _ _ _ _ h h').1; cases this
    | ext_fail h' => rfl
  | seq_nil => cases h'; rfl
  | seq_cons h1 _ ih1 ih2 => cases h' with
    | seq_cons k1 k2 => have := work_end hX h1 k1; cases this; rw [ih1 k1, ih2 k2]
    | seq_fail k => have := work_end hX h1 k; cases this
  | seq_fail h1 ih => cases h' with
    | seq_cons k1 k2 => have := work_end hX h1 k1; cases this
    | seq_fail k => rw [ih k]
  | choice_nil => cases h'; rfl
  | choice_first h1 ih => cases h' with
    | choice_first k => rw [ih k]
    | choice_next k _ => have := work_end hX h1 k; cases this
  | choice_next h1 _ ih1 ih2 => cases h' with
    | choice_first k => have := work_end hX h1 k; cases this
    | choice_next k1 k2 => rw [ih1 k1, ih2 k2]
  | star_stop h1 ih => cases h' with
    | star_stop k => rw [ih k]
    | star_more k _ => have := work_end hX h1 k; cases this
  | star_more h1 _ ih1 ih2 => cases h' with
    | star_stop k => have := work_end hX h1 k; cases this
    | star_more k1 k2 => have := work_end hX h1 k1; cases this; rw [ih1 k1, ih2 k2]
  | plus_fail h1 ih => cases h' with
    | plus_fail k => rw [ih k]
    | plus_ok k _ => have := work_end hX h1 k; cases this
  | plus_ok h1 _ ih1 ih2 => cases h' with
    | plus_fail k => have := work_end hX h1 k; cases this
    | plus_ok k1 k2 => have := work_end hX h1 k1; cases this; rw [ih1 k1, ih2 k2]
  | opt_some _ ih => cases h' with
    | opt_some k => rw [ih k]
    | opt_none k => rw [ih k]
  | opt_none _ ih => cases h' with
    | opt_some k => rw [ih k]
    | opt_none k => rw [ih k]
  | not_ok _ ih | not_fail _ ih => cases h' with
    | not_ok k => rw [ih k]
    | not_fail k => rw [ih k]
  | and_ok _ ih | and_fail _ ih => cases h' with
    | and_ok k => rw [ih k]
    | and_fail k => rw [ih k]
  | act _ ih => cases h' with | act k => rw [ih k]
  | asc _ ih => cases h' with | asc k => rw [ih k]
  | span _ ih => cases h' with | span k => rw [ih k]
  | range _ ih => cases h' with | range k => rw [ih k]

theorem steps_pos (v : Visits) : 1 ≤ v.steps := by cases v <;> simp [Visits.steps]

/-- The terminals tried in vain are visited. -/
theorem log_steps (hX : X.Det) (hx : ∀ p s o L, X p s o L → L.length ≤ 1) {e : Expr} {s : List Char} {o : Out} {L : Log} (h : Peg G X e s o L) :
    ∀ {o' v}, Work G X e s o' v → L.length ≤ v.steps := by
  have hd : ∀ {e s o L o' v}, Peg G X e s o L → Work G X e s o' v → o' = o.rest := by
    intro e s o L o' v h hw
    obtain ⟨v', hv'⟩ := peg_work h
    exact work_end hX hw hv'
  induction h with
  | str_ok | any_ok | cls_ok | seq_nil | choice_nil => intro o' v _; simp
  | str_fail | any_fail | cls_fail | cls_eof => intro o' v _; simpa using steps_pos v
  | ext h => intro o' v _; exact Nat.le_trans (hx _ _ _ _ h) (steps_pos v)
  | nt_ok hf _ ih | nt_fail hf _ ih =>
    intro o' v hw
    cases hw with | nt hf' h => rw [hf] at hf'; cases hf'; exact Nat.le_succ_of_le (ih h)
  | seq_cons h1 _ ih1 ih2 | seq_later h1 _ ih1 ih2 =>
    intro o' v hw
    cases hw with
    | seq_cons k1 k2 =>
      have := hd h1 k1; cases this
      have a := ih1 k1
      have b := ih2 k2
      simp only [List.length_append, Visits.steps]; omega
    | seq_fail k => have := hd h1 k; cases this
  | seq_fail h1 ih =>
    intro o' v hw
    cases hw with
    | seq_cons k1 k2 => have := hd h1 k1; cases this
    | seq_fail k => exact Nat.le_succ_of_le (ih k)
  | choice_first h1 ih =>
    intro o' v hw
    cases hw with
    | choice_first k => exact Nat.le_succ_of_le (ih k)
    | choice_next k _ => have := hd h1 k; cases this
  | choice_next h1 _ ih1 ih2 | choice_fail h1 _ ih1 ih2 =>
    intro o' v hw
    cases hw with
    | choice_first k => have := hd h1 k; cases this
    | choice_next k1 k2 =>
      have a := ih1 k1
      have b := ih2 k2
      simp only [List.length_append, Visits.steps]; omega
  | star_stop h1 ih =>
    intro o' v hw
    cases hw with
    | star_stop k => exact Nat.le_succ_of_le (ih k)
    | star_more k _ => have := hd h1 k; cases this
  | star_more h1 _ ih1 ih2 =>
    intro o' v hw
    cases hw with
    | star_stop k => have := hd h1 k; cases this
    | star_more k1 k2 =>
      have := hd h1 k1; cases this
      have a := ih1 k1
      have b := ih2 k2
      simp only [List.length_append, Visits.steps]; omega
  | plus_fail h1 ih =>
    intro o' v hw
    cases hw with
    | plus_fail k => exact Nat.le_succ_of_le (ih k)
    | plus_ok k _ => have := hd h1 k; cases this
  | plus_ok h1 _ ih1 ih2 =>
    intro o' v hw
    cases hw with
    | plus_fail k => have := hd h1 k; cases this
    | plus_ok k1 k2 =>
      have := hd h1 k1; cases this
      have a := ih1 k1
      have b := ih2 k2
      simp only [List.length_append, Visits.steps]; omega
  | opt_some _ ih | opt_none _ ih | not_ok _ ih | not_fail _ ih | and_ok _ ih | and_fail _ ih | act_ok _ ih | act_fail _ ih | asc_ok _ ih | asc_fail _ ih
  | span_ok _ ih | span_fail _ ih | range_ok _ ih | range_fail _ ih =>
    intro o' v hw
    cases hw <;> exact Nat.le_succ_of_le (ih ‹_›)

/-- What remains comes after what is read. -/
theorem work_suffix (hf : X.Forward) {e : Expr} {s s' : List Char} {v : Visits} (h : Work G X e s (some s') v) : s' <:+ s := by
  obtain ⟨o, L, h1, h2, _⟩ := work_peg h
  cases o with
  | fail => cases h2
  | ok s'' t => cases h2; exact (Peg.forward hf h1).1 _ _ rfl

theorem work_nullable (hf : X.Forward) (hc : ExtSpec.Consuming X) {e : Expr} {s : List Char} {v : Visits} (h : Work G X e s (some s) v) : Nullable G e := by
  obtain ⟨o, L, h1, h2, _⟩ := work_peg h
  cases o with
  | fail => cases h2
  | ok s'' t => cases h2; exact h1.nullable hf hc _ rfl

end Oak
