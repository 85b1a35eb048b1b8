import Verif.Proofs.PegOps
import Verif.Proofs.WFTotal
import Verif.Spec.Yields
/-!
Matches together with the values they give, operator by operator.
-/
set_option linter.constructorNameAsVariable false
set_option autoImplicit false

namespace Oak
open Spec

variable {G : Grammar} {X : ExtSpec} {T : Nat → Ty} {sp : SpanSpec}

/-- The same for the expressions of a sequence. -/
def YieldsSeq (G : Grammar) (X : ExtSpec) (T : Nat → Ty) (sp : SpanSpec) : List Expr → List Char → List Char → List Val → Prop
  | [], s, rest, vs => rest = s ∧ vs = []
  | e :: es, s, rest, vs => ∃ s1 v1 v2, Yields G X T sp e s s1 v1 ∧ YieldsSeq G X T sp es s1 rest v2 ∧ vs = v1 ++ v2

/-- The same for the branches of a choice: the first one that does not fail. -/
def YieldsAlt (G : Grammar) (X : ExtSpec) (T : Nat → Ty) (sp : SpanSpec) : List Expr → List Char → List Char → List Val → Prop
  | [], _, _, _ => False
  | e :: es, s, rest, vs => Yields G X T sp e s rest vs ∨ (Fails G X e s ∧ YieldsAlt G X T sp es s rest vs)

/-- Repetitions: one value for each. -/
inductive YieldsMany (G : Grammar) (X : ExtSpec) (T : Nat → Ty) (sp : SpanSpec) (e : Expr) : List Char → List Char → List Val → Prop where
  | nil {s} : YieldsMany G X T sp e s s []
  | cons {s s1 rest vs ws} : Yields G X T sp e s s1 vs → YieldsMany G X T sp e s1 rest ws → YieldsMany G X T sp e s rest (tupleVal vs :: ws)

theorem ast_unit {e : Expr} (h : T e.id = .unit) (t : Tree) : ast G T sp e t = [] := by
  cases t <;> simp only [ast, if_pos h]

theorem yields_str {i l s rest vs} : Yields G X T sp (.str i l) s rest vs ↔ s = l.toList ++ rest ∧ vs = [] := by
  constructor
  · rintro ⟨t, L, h, rfl⟩
    cases h
    exact ⟨rfl, by simp only [ast]⟩
  · rintro ⟨rfl, rfl⟩
    exact ⟨_, _, .str_ok, by simp only [ast]⟩

theorem yields_cls {i ivs s rest vs} : Yields G X T sp (.cls i ivs) s rest vs ↔
    ∃ c, s = c :: rest ∧ InClass ivs c ∧ vs = if T i = .unit then [] else [.chr c] := by
  constructor
  · rintro ⟨t, L, h, rfl⟩
    cases h with
    | cls_ok h => exact ⟨_, rfl, h, by (simp only [ast, Expr.id] <;> try rfl)⟩
  · rintro ⟨c, rfl, h, rfl⟩
    exact ⟨_, _, .cls_ok h, by (simp only [ast, Expr.id] <;> try rfl)⟩

theorem yields_nt {i r b s rest vs} (hb : G.find r = some b) : Yields G X T sp (.nt i r) s rest vs ↔
    ∃ ws, Yields G X T sp b s rest ws ∧ vs = if T i = .unit then [] else ws := by
  constructor
  · rintro ⟨t, L, h, rfl⟩
    cases h with
    | nt_ok h1 h2 =>
      rw [hb] at h1; cases h1
      exact ⟨_, ⟨_, _, h2, rfl⟩, by (simp only [ast, Expr.id, hb] <;> try rfl)⟩
  · rintro ⟨ws, ⟨t, L, h, rfl⟩, rfl⟩
    exact ⟨_, _, .nt_ok hb h, by (simp only [ast, Expr.id, hb] <;> try rfl)⟩

theorem peg_seq_id {i j es s o L} (h : Peg G X (.seq i es) s o L) : Peg G X (.seq j es) s o L := by
  induction es generalizing s o L with
  | nil => cases h; exact .seq_nil
  | cons e es ih =>
    cases h with
    | seq_cons h1 h2 => exact .seq_cons h1 (ih h2)
    | seq_fail h1 => exact .seq_fail h1
    | seq_later h1 h2 => exact .seq_later h1 (ih h2)

theorem yieldsSeq_iff {i es s rest vs} : YieldsSeq G X T sp es s rest vs ↔
    ∃ ts L, Peg G X (.seq i es) s (.ok rest (.seq ts)) L ∧ astSeq G T sp es ts = vs := by
  induction es generalizing s vs with
  | nil =>
    simp only [YieldsSeq]
    constructor
    · rintro ⟨rfl, rfl⟩; exact ⟨_, _, .seq_nil, by (simp only [astSeq] <;> try rfl)⟩
    · rintro ⟨ts, L, h, rfl⟩; cases h; exact ⟨rfl, by (simp only [astSeq] <;> try rfl)⟩
  | cons e es ih =>
    simp only [YieldsSeq]
    constructor
    · rintro ⟨s1, v1, v2, ⟨t, L, h, rfl⟩, h2, rfl⟩
      obtain ⟨ts, L2, h3, rfl⟩ := ih.1 h2
      exact ⟨_, _, .seq_cons h h3, by (simp only [astSeq] <;> try rfl)⟩
    · rintro ⟨ts, L, h, rfl⟩
      cases h with
      | seq_cons h1 h2 =>
        exact ⟨_, _, _, ⟨_, _, h1, rfl⟩, ih.2 ⟨_, _, h2, rfl⟩, by (simp only [astSeq] <;> try rfl)⟩

theorem yields_seq {i es s rest vs} : Yields G X T sp (.seq i es) s rest vs ↔
    ∃ ws, YieldsSeq G X T sp es s rest ws ∧ vs = if T i = .unit then [] else ws := by
  constructor
  · rintro ⟨t, L, h, rfl⟩
    obtain ⟨ts, rfl⟩ := seq_ok_seq h
    exact ⟨_, yieldsSeq_iff.2 ⟨ts, L, h, rfl⟩, by (simp only [ast, Expr.id] <;> try rfl)⟩
  · rintro ⟨ws, h, rfl⟩
    obtain ⟨ts, L, h', rfl⟩ := (yieldsSeq_iff (i := i)).1 h
    exact ⟨_, _, h', by (simp only [ast, Expr.id] <;> try rfl)⟩

theorem yieldsAlt_iff {i es s rest vs} : YieldsAlt G X T sp es s rest vs ↔
    ∃ k t b L, Peg G X (.choice i es) s (.ok rest (.alt k t)) L ∧ es[k]? = some b ∧ ast G T sp b t = vs := by
  induction es with
  | nil =>
    simp only [YieldsAlt, false_iff]
    rintro ⟨k, t, b, L, h, _⟩; cases h
  | cons e es ih =>
    simp only [YieldsAlt]
    constructor
    · rintro (⟨t, L, h, rfl⟩ | ⟨⟨L, hf⟩, h⟩)
      · exact ⟨0, t, e, _, .choice_first h, rfl, rfl⟩
      · obtain ⟨k, t, b, L, h1, h2, h3⟩ := ih.1 h
        exact ⟨k + 1, t, b, _, .choice_next hf h1, h2, h3⟩
    · rintro ⟨k, t, b, L, h, hb, rfl⟩
      cases h with
      | choice_first h => cases hb; exact .inl ⟨_, _, h, rfl⟩
      | choice_next h1 h2 => exact .inr ⟨⟨_, h1⟩, ih.2 ⟨_, _, _, _, h2, hb, rfl⟩⟩

theorem choice_alt_branch {i es s rest k u L} (h : Peg G X (.choice i es) s (.ok rest (.alt k u)) L) : ∃ b, es[k]? = some b := by
  induction es generalizing k L with
  | nil => cases h
  | cons e es ih =>
    cases h with
    | choice_first h => exact ⟨_, rfl⟩
    | choice_next h1 h2 => exact ih h2

theorem yields_choice {i es s rest vs} : Yields G X T sp (.choice i es) s rest vs ↔
    ∃ ws, YieldsAlt G X T sp es s rest ws ∧ vs = if T i = .unit then [] else ws := by
  constructor
  · rintro ⟨t, L, h, rfl⟩
    obtain ⟨k, u, rfl⟩ := choice_ok_alt h
    have hk := choice_alt_branch h
    obtain ⟨b, hb⟩ := hk
    exact ⟨_, yieldsAlt_iff.2 ⟨k, u, b, L, h, hb, rfl⟩, by (simp only [ast, Expr.id, hb] <;> try rfl)⟩
  · rintro ⟨ws, h, rfl⟩
    obtain ⟨k, t, b, L, h', hb, rfl⟩ := (yieldsAlt_iff (i := i)).1 h
    exact ⟨_, _, h', by (simp only [ast, Expr.id, hb] <;> try rfl)⟩

theorem star_rep_iff {i e s rest ws} :
    (∃ ts L, Peg G X (.star i e) s (.ok rest (.rep ts)) L ∧ astRep G T sp e ts = ws) ↔ YieldsMany G X T sp e s rest ws ∧ Fails G X e rest := by
  constructor
  · rintro ⟨ts, L, h, rfl⟩
    induction ts generalizing s L with
    | nil =>
      cases h with
      | star_stop h => exact ⟨by rw [astRep]; exact .nil, ⟨_, h⟩⟩
    | cons t ts ih =>
      cases h with
      | star_more h1 h2 =>
        obtain ⟨h3, h4⟩ := ih _ h2
        exact ⟨by rw [astRep]; exact .cons ⟨_, _, h1, rfl⟩ h3, h4⟩
  · rintro ⟨h, ⟨L, hf⟩⟩
    induction h with
    | nil => exact ⟨_, _, .star_stop hf, by rw [astRep]⟩
    | cons h1 h2 ih =>
      obtain ⟨t, L1, h1, rfl⟩ := h1
      obtain ⟨ts, L2, h3, rfl⟩ := ih hf
      exact ⟨_, _, .star_more h1 h3, by rw [astRep]⟩

theorem yields_star {i e s rest vs} : Yields G X T sp (.star i e) s rest vs ↔
    ∃ ws, (YieldsMany G X T sp e s rest ws ∧ Fails G X e rest) ∧ vs = if T i = .unit then [] else [.list ws] := by
  constructor
  · rintro ⟨t, L, h, rfl⟩
    obtain ⟨ts, rfl⟩ := star_ok_rep h
    exact ⟨_, star_rep_iff.1 ⟨ts, L, h, rfl⟩, by (simp only [ast, Expr.id] <;> try rfl)⟩
  · rintro ⟨ws, h, rfl⟩
    obtain ⟨ts, L, h', rfl⟩ := (star_rep_iff (i := i)).2 h
    exact ⟨_, _, h', by (simp only [ast, Expr.id] <;> try rfl)⟩

theorem yields_plus {i e s rest vs} : Yields G X T sp (.plus i e) s rest vs ↔
    ∃ ws, (YieldsMany G X T sp e s rest ws ∧ ws ≠ [] ∧ Fails G X e rest) ∧ vs = if T i = .unit then [] else [.list ws] := by
  constructor
  · rintro ⟨t, L, h, rfl⟩
    cases h with
    | plus_ok h1 h2 =>
      obtain ⟨h3, h4⟩ := (star_rep_iff (T := T) (sp := sp)).1 ⟨_, _, h2, rfl⟩
      exact ⟨_, ⟨.cons ⟨_, _, h1, rfl⟩ h3, List.cons_ne_nil _ _, h4⟩, by (simp only [ast, Expr.id, astRep] <;> try rfl)⟩
  · rintro ⟨ws, ⟨h, hne, hf⟩, rfl⟩
    cases h with
    | nil => exact absurd rfl hne
    | cons h1 h2 =>
      obtain ⟨t, L1, h1, rfl⟩ := h1
      obtain ⟨ts, L, h3, rfl⟩ := (star_rep_iff (i := i)).2 ⟨h2, hf⟩
      refine ⟨.rep (t :: ts), _, .plus_ok h1 h3, ?_⟩
      simp only [ast, Expr.id, astRep] <;> try rfl

theorem yields_not {i e s rest vs} : Yields G X T sp (.not i e) s rest vs ↔ rest = s ∧ vs = [] ∧ Fails G X e s := by
  constructor
  · rintro ⟨t, L, h, rfl⟩
    have ht := predicate_tree (.inl h)
    subst ht
    obtain ⟨h1, h2⟩ := not_matches_iff.1 ⟨_, _, h⟩
    exact ⟨h1, by (simp only [ast] <;> try rfl), h2⟩
  · rintro ⟨rfl, rfl, h⟩
    obtain ⟨t, L, h⟩ := (not_matches_iff (i := i) (s' := rest)).2 ⟨rfl, h⟩
    have ht := predicate_tree (.inl h)
    subst ht
    exact ⟨_, _, h, by (simp only [ast] <;> try rfl)⟩

theorem yields_act {i e f s rest vs} (hf : isVariant f = false) : Yields G X T sp (.act i e false f) s rest vs ↔
    ∃ ws, Yields G X T sp e s rest ws ∧ vs = if T i = .unit then [] else [.app f ws] := by
  constructor
  · rintro ⟨t, L, h, rfl⟩
    cases h with
    | act_ok h => exact ⟨_, ⟨_, _, h, rfl⟩, by (simp [ast, Expr.id, hf] <;> try rfl)⟩
  · rintro ⟨ws, ⟨t, L, h, rfl⟩, rfl⟩
    exact ⟨_, _, .act_ok h, by (simp [ast, Expr.id, hf] <;> try rfl)⟩

theorem yields_asc {i e ty s rest vs} : Yields G X T sp (.asc i e ty) s rest vs ↔
    ∃ ws, Yields G X T sp e s rest ws ∧ vs = if T i = .unit then [] else ws := by
  constructor
  · rintro ⟨t, L, h, rfl⟩
    cases h with
    | asc_ok h => exact ⟨_, ⟨_, _, h, rfl⟩, by (simp only [ast, Expr.id] <;> try rfl)⟩
  · rintro ⟨ws, ⟨t, L, h, rfl⟩, rfl⟩
    exact ⟨_, _, .asc_ok h, by (simp only [ast, Expr.id] <;> try rfl)⟩

theorem Yields.matches {e s rest vs} (h : Yields G X T sp e s rest vs) : Matches G X e s rest := by
  obtain ⟨t, L, h, _⟩ := h
  exact ⟨t, L, h⟩

theorem Yields.not_fails (hX : X.Det) {e s rest vs} (h : Yields G X T sp e s rest vs) : ¬ Fails G X e s := h.matches.not_fails hX

theorem Yields.unique (hX : X.Det) {e s rest vs rest' vs'} (h : Yields G X T sp e s rest vs) (h' : Yields G X T sp e s rest' vs') : rest = rest' ∧ vs = vs' := by
  obtain ⟨t, L, h, rfl⟩ := h
  obtain ⟨t', L', h', rfl⟩ := h'
  have := (h.det hX h').1
  cases this
  exact ⟨rfl, rfl⟩

end Oak
