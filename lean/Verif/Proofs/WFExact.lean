import Verif.Proofs.WFAccept
import Verif.Proofs.Chaining
/-!
The verdict of the well-formedness analysis is exactly that of the specification.
-/
set_option linter.constructorNameAsVariable false
set_option autoImplicit false

namespace Oak
open Spec
variable {G : Grammar} {X : ExtSpec}

theorem Occurs.under {G : Grammar} {x e : Expr} (h : Occurs G e) (hx : Sub x e) : Occurs G x := by
  obtain ⟨r, b, h1, h2⟩ := h
  exact ⟨r, b, h1, hx.trans h2⟩

/-! ## The forms are right -/

theorem seq_neverFails {i : Nat} {es : List Expr} (h : ∀ e ∈ es, NeverFails G X e) : NeverFails G X (.seq i es) := by
  induction es with
  | nil => intro s L hP; cases hP
  | cons e es ih =>
    intro s L hP
    cases hP with
    | seq_fail hP => exact h e List.mem_cons_self _ _ hP
    | seq_later _ hP => exact ih (fun e he => h e (List.mem_cons_of_mem _ he)) _ _ hP

theorem choice_neverFails {i : Nat} {es : List Expr} {e : Expr} (he : e ∈ es) (h : NeverFails G X e) : NeverFails G X (.choice i es) := by
  induction es with
  | nil => cases he
  | cons x es ih =>
    intro s L hP
    cases hP with
    | choice_fail hP1 hP2 =>
      cases he with
      | head => exact h _ _ hP1
      | tail _ he => exact ih he _ _ hP2

theorem seq_neverSucceeds {i : Nat} {es : List Expr} {e : Expr} (he : e ∈ es) (h : NeverSucceeds G X e) : NeverSucceeds G X (.seq i es) := by
  induction es with
  | nil => cases he
  | cons x es ih =>
    intro s s' t L hP
    cases hP with
    | seq_cons hP1 hP2 =>
      cases he with
      | head => exact h _ _ _ _ hP1
      | tail _ he => exact ih he _ _ _ _ hP2

theorem choice_neverSucceeds {i : Nat} {es : List Expr} (h : ∀ e ∈ es, NeverSucceeds G X e) : NeverSucceeds G X (.choice i es) := by
  induction es with
  | nil => intro s s' t L hP; cases hP
  | cons e es ih =>
    intro s s' t L hP
    cases hP with
    | choice_first hP => exact h e List.mem_cons_self _ _ _ _ hP
    | choice_next _ hP => exact ih (fun e he => h e (List.mem_cons_of_mem _ he)) _ _ _ _ hP

theorem seq_neverConsumes {i : Nat} {es : List Expr} (h : ∀ e ∈ es, NeverConsumes G X e) : NeverConsumes G X (.seq i es) := by
  induction es with
  | nil => intro s s' t L hP; cases hP; rfl
  | cons e es ih =>
    intro s s' t L hP
    cases hP with
    | seq_cons hP1 hP2 => rw [ih (fun e he => h e (List.mem_cons_of_mem _ he)) _ _ _ _ hP2, h e List.mem_cons_self _ _ _ _ hP1]

theorem choice_neverConsumes {i : Nat} {es : List Expr} (h : ∀ e ∈ es, NeverConsumes G X e) : NeverConsumes G X (.choice i es) := by
  induction es with
  | nil => intro s s' t L hP; cases hP
  | cons e es ih =>
    intro s s' t L hP
    cases hP with
    | choice_first hP => exact h e List.mem_cons_self _ _ _ _ hP
    | choice_next _ hP => exact ih (fun e he => h e (List.mem_cons_of_mem _ he)) _ _ _ _ hP

/-- Induction on the forms. -/
theorem sure_ind {P Q : Expr → Prop}
    (str : ∀ i, P (.str i ""))
    (nt : ∀ i r e, G.find r = some e → P e → P (.nt i r))
    (seq : ∀ i es, (∀ e ∈ es, P e) → P (.seq i es))
    (choice : ∀ i es e, e ∈ es → P e → P (.choice i es))
    (star : ∀ i e, P (.star i e))
    (plus : ∀ i e, P e → P (.plus i e))
    (opt : ∀ i e, P (.opt i e))
    (not : ∀ i e, Q e → P (.not i e))
    (and : ∀ i e, P e → P (.and i e))
    (act : ∀ i e b f, P e → P (.act i e b f))
    (asc : ∀ i e t, P e → P (.asc i e t))
    (span : ∀ i e, P e → P (.span i e))
    (range : ∀ i e, P e → P (.range i e))
    (nt' : ∀ i r e, G.find r = some e → Q e → Q (.nt i r))
    (seq' : ∀ i es e, e ∈ es → Q e → Q (.seq i es))
    (choice' : ∀ i es, (∀ e ∈ es, Q e) → Q (.choice i es))
    (plus' : ∀ i e, Q e → Q (.plus i e))
    (not' : ∀ i e, P e → Q (.not i e))
    (and' : ∀ i e, Q e → Q (.and i e))
    (act' : ∀ i e b f, Q e → Q (.act i e b f))
    (asc' : ∀ i e t, Q e → Q (.asc i e t))
    (span' : ∀ i e, Q e → Q (.span i e))
    (range' : ∀ i e, Q e → Q (.range i e))
    : (∀ e, SureOk G e → P e) ∧ ∀ e, SureFail G e → Q e := by
  constructor
  · intro e h
    exact SureOk.rec (motive_1 := fun e _ => P e) (motive_2 := fun e _ => Q e)
      (fun {i} => str i) (fun {i r e} he _ h => nt i r e he h) (fun {i es} _ h => seq i es h) (fun {i es e} he _ h => choice i es e he h) (fun {i e} => star i e) (fun {i e} _ h => plus i e h) (fun {i e} => opt i e) (fun {i e} _ h => not i e h) (fun {i e} _ h => and i e h) (fun {i e b f} _ h => act i e b f h) (fun {i e t} _ h => asc i e t h) (fun {i e} _ h => span i e h) (fun {i e} _ h => range i e h) (fun {i r e} he _ h => nt' i r e he h) (fun {i es e} he _ h => seq' i es e he h) (fun {i es} _ h => choice' i es h) (fun {i e} _ h => plus' i e h) (fun {i e} _ h => not' i e h) (fun {i e} _ h => and' i e h) (fun {i e b f} _ h => act' i e b f h) (fun {i e t} _ h => asc' i e t h) (fun {i e} _ h => span' i e h) (fun {i e} _ h => range' i e h) h
  · intro e h
    exact SureFail.rec (motive_1 := fun e _ => P e) (motive_2 := fun e _ => Q e)
      (fun {i} => str i) (fun {i r e} he _ h => nt i r e he h) (fun {i es} _ h => seq i es h) (fun {i es e} he _ h => choice i es e he h) (fun {i e} => star i e) (fun {i e} _ h => plus i e h) (fun {i e} => opt i e) (fun {i e} _ h => not i e h) (fun {i e} _ h => and i e h) (fun {i e b f} _ h => act i e b f h) (fun {i e t} _ h => asc i e t h) (fun {i e} _ h => span i e h) (fun {i e} _ h => range i e h) (fun {i r e} he _ h => nt' i r e he h) (fun {i es e} he _ h => seq' i es e he h) (fun {i es} _ h => choice' i es h) (fun {i e} _ h => plus' i e h) (fun {i e} _ h => not' i e h) (fun {i e} _ h => and' i e h) (fun {i e b f} _ h => act' i e b f h) (fun {i e t} _ h => asc' i e t h) (fun {i e} _ h => span' i e h) (fun {i e} _ h => range' i e h) h

theorem sure_never : (∀ e, SureOk G e → NeverFails G X e) ∧ ∀ e, SureFail G e → NeverSucceeds G X e := by
  refine sure_ind ?_ ?_ (fun i es h => seq_neverFails h) (fun i es e he h => choice_neverFails he h) ?_ ?_ ?_ ?_ ?_ ?_ ?_ ?_ ?_
    ?_ (fun i es e he h => seq_neverSucceeds he h) (fun i es h => choice_neverSucceeds h) ?_ ?_ ?_ ?_ ?_ ?_ ?_
  · intro i s L hP; cases hP with | str_fail h => exact h (by simp)
  · intro i r e he h s L hP; cases hP with | nt_fail he' hP => rw [he] at he'; cases he'; exact h s L hP
  · intro i e s L hP; cases hP
  · intro i e h s L hP; cases hP with | plus_fail hP => exact h _ _ hP
  · intro i e s L hP; cases hP
  · intro i e h s L hP; cases hP with | not_fail hP => exact h _ _ _ _ hP
  · intro i e h s L hP; cases hP with | and_fail hP => exact h _ _ hP
  · intro i e b f h s L hP; cases hP with | act_fail hP => exact h _ _ hP
  · intro i e t h s L hP; cases hP with | asc_fail hP => exact h _ _ hP
  · intro i e h s L hP; cases hP with | span_fail hP => exact h _ _ hP
  · intro i e h s L hP; cases hP with | range_fail hP => exact h _ _ hP
  · intro i r e he h s s' t L hP; cases hP with | nt_ok he' hP => rw [he] at he'; cases he'; exact h _ _ _ _ hP
  · intro i e h s s' t L hP; cases hP with | plus_ok hP _ => exact h _ _ _ _ hP
  · intro i e h s s' t L hP; cases hP with | not_ok hP => exact h _ _ hP
  · intro i e h s s' t L hP; cases hP with | and_ok hP => exact h _ _ _ _ hP
  · intro i e b f h s s' t L hP; cases hP with | act_ok hP => exact h _ _ _ _ hP
  · intro i e ty h s s' t L hP; cases hP with | asc_ok hP => exact h _ _ _ _ hP
  · intro i e h s s' t L hP; cases hP with | span_ok hP => exact h _ _ _ _ hP
  · intro i e h s s' t L hP; cases hP with | range_ok hP => exact h _ _ _ _ hP

theorem SureOk.never {e : Expr} (h : SureOk G e) : NeverFails G X e := sure_never.1 e h
theorem SureFail.never {e : Expr} (h : SureFail G e) : NeverSucceeds G X e := sure_never.2 e h

theorem Idle.never {e : Expr} (h : Idle G e) : NeverConsumes G X e := by
  induction h with
  | nt he _ ih => intro s s' t L hP; cases hP with | nt_ok he' hP => rw [he] at he'; cases he'; exact ih _ _ _ _ hP
  | seq _ ih => exact seq_neverConsumes ih
  | choice _ ih => exact choice_neverConsumes ih
  | star _ ih => exact ih.star
  | plus _ ih =>
    intro s s' t L hP
    cases hP with
    | plus_ok hP1 hP2 => rw [ih.star _ _ _ _ hP2, ih _ _ _ _ hP1]
  | opt _ ih =>
    intro s s' t L hP
    cases hP with
    | opt_some hP => exact ih _ _ _ _ hP
    | opt_none _ => rfl
  | not => intro s s' t L hP; cases hP; rfl
  | and => intro s s' t L hP; cases hP; rfl
  | act _ ih => intro s s' t L hP; cases hP with | act_ok hP => exact ih _ _ _ _ hP
  | asc _ ih => intro s s' t L hP; cases hP with | asc_ok hP => exact ih _ _ _ _ hP
  | span _ ih => intro s s' t L hP; cases hP with | span_ok hP => exact ih _ _ _ _ hP
  | range _ ih => intro s s' t L hP; cases hP with | range_ok hP => exact ih _ _ _ _ hP

/-! ## Diagnostics are found in the grammar -/

/-- What attributes claim about the form of an expression. -/
structure Syn (G : Grammar) (w : WFA) (e : Expr) : Prop where
  ok : w.canFail = false → SureOk G e
  idle : w.neverConsume = true → Idle G e
  null : w.alwaysConsume = false → Nullable G e

/-- What holds after the checks. -/
structure Chk (w : WFA) : Prop where
  succeeds : w.canSucceed = true
  idle : w.canFail = false → w.neverConsume = false

theorem checkExpr_chk {e w st w' st'} (h : checkExpr e w st = .ok (w', st')) : Chk w' := by
  unfold checkExpr at h
  obtain ⟨_, h0, h⟩ := Res.bind_eq_ok h
  obtain ⟨_, _, h⟩ := Res.bind_eq_ok h
  obtain ⟨a, b, c, d⟩ := w
  cases a <;> cases b <;> cases c <;> cases d <;> simp at h h0 <;> (obtain ⟨rfl, rfl⟩ := h; constructor <;> simp)

theorem wfaRepeat_chk {e w st w' st'} (h : wfaRepeat e w st = (w', st')) (hw : Chk w) : Chk w' := by
  unfold wfaRepeat at h
  split at h <;> cases h
  · constructor <;> simp [WFA.dflt]
  · exact hw

/-- The diagnostics but left recursion. -/
def Found' (G : Grammar) : Diag → Prop
  | .leftRecursion _ _ => True
  | d => d.Found G

/-- What visits preserve. -/
structure FInv (G : Grammar) (st : WState) : Prop where
  wfa : ∀ r w, st.wfa r = some w → Chk w ∧ ∃ e, G.find r = some e ∧ Syn G w e
  diags : ∀ d ∈ st.diags, Found' G d

/-- The expressions of a task occur in the grammar. -/
def TOcc (G : Grammar) : Task → Prop
  | .expr e | .walk e => Occurs G e
  | .seq _ es => ∀ e ∈ es, Occurs G e
  | .choice this _ es => Occurs G this ∧ ∃ i before, this = .choice i (before ++ es)
  | .rule _ => True

/-- What the visit of a task claims. -/
def FClaim (G : Grammar) (w : WFA) : Task → Prop
  | .expr e => Chk w ∧ Syn G w e
  | .walk e => (w.canSucceed = false → SureFail G e) ∧ Syn G w e
  | .seq w0 es => (w.canSucceed = w0.canSucceed) ∧ (w.canFail = false → w0.canFail = false ∧ ∀ e ∈ es, SureOk G e) ∧
      (w.neverConsume = true → w0.neverConsume = true ∧ ∀ e ∈ es, Idle G e) ∧
      (w.alwaysConsume = false → w0.alwaysConsume = false ∧ ∀ e ∈ es, Nullable G e)
  | .choice _ w0 es => (w.canSucceed = false → w0.canSucceed = false ∧ es = []) ∧
      (w.canFail = false → w0.canFail = false ∨ ∃ e ∈ es, SureOk G e) ∧
      (w.neverConsume = true → w0.neverConsume = true ∧ ∀ e ∈ es, Idle G e) ∧
      (w.alwaysConsume = false → w0.alwaysConsume = false ∨ ∃ e ∈ es, Nullable G e)
  | .rule r => Chk w ∧ ∃ e, G.find r = some e ∧ Syn G w e

theorem Visit.found {T st w st'} (h : Visit G T st w st') (hi : FInv G st) (ho : TOcc G T) : FInv G st' ∧ FClaim G w T := by
  have hrep : ∀ {st : WState} {i d}, FInv G st → Found' G d → FInv G (st.report i d) := by
    intro st i d h hd
    refine ⟨by rw [WState.report_wfa]; exact h.wfa, ?_⟩
    unfold WState.report
    split
    · exact h.diags
    · exact List.forall_mem_cons.2 ⟨hd, h.diags⟩
  have hdflt : ∀ e, Syn G .dflt e := by
    intro e; constructor <;> intro h <;> simp [WFA.dflt] at h
  have hloop : ∀ {this c : Expr} {i w st1 w' st'}, (this = .star i c ∨ this = .plus i c) → Occurs G this → wfaRepeat this w st1 = (w', st') → FInv G st1 →
      Chk w ∧ Syn G w c → FInv G st' ∧ Chk w' ∧ Syn G w' c := by
    intro this c i w st1 w' st' hthis hoc h hi hc
    have h0 := wfaRepeat_chk h hc.1
    unfold wfaRepeat at h
    split at h
    · rename_i hcond
      cases h
      exact ⟨hrep hi ⟨hoc, i, c, hthis, hc.2.null (by simp at hcond; exact hcond.2)⟩, h0, hdflt _⟩
    · cases h; exact ⟨hi, hc⟩
  have keep : ∀ {c e : Expr} {w st'}, (SureOk G c → SureOk G e) → (Idle G c → Idle G e) → (Nullable G c → Nullable G e) →
      FInv G st' ∧ Chk w ∧ Syn G w c → FInv G st' ∧ (w.canSucceed = false → SureFail G e) ∧ Syn G w e := by
    rintro c e w st' h1 h2 h3 ⟨h4, h5, h6⟩
    exact ⟨h4, fun h => (by rw [h5.succeeds] at h; cases h), fun h => h1 (h6.ok h), fun h => h2 (h6.idle h), fun h => h3 (h6.null h)⟩
  induction h with
  | @check e st w st1 w' st' _ hc ih =>
    obtain ⟨h1, h2, h3⟩ := ih hi ho
    have hk := checkExpr_chk hc
    unfold checkExpr at hc
    obtain ⟨_, _, hc⟩ := Res.bind_eq_ok hc
    obtain ⟨_, _, hc⟩ := Res.bind_eq_ok hc
    split at hc
    · rename_i hcond
      simp only [Bool.and_eq_true, Bool.not_eq_true'] at hcond
      cases hc
      exact ⟨hrep h1 ⟨ho, h2 hcond.2⟩, hk, h3.ok, h3.idle, h3.null⟩
    · split at hc
      · rename_i hcond
        simp only [Bool.and_eq_true, Bool.not_eq_true'] at hcond
        cases hc
        exact ⟨hrep h1 ⟨ho, h3.ok hcond.1.2, h3.idle hcond.2⟩, hk, h3.ok, (fun h => by cases h), h3.null⟩
      · cases hc; exact ⟨h1, hk, h3⟩
  | @str i l st =>
    refine ⟨hi, ?_⟩
    unfold wfaStr
    split
    · rename_i hl
      have : l = "" := by
        apply String.toList_injective
        simpa using hl
      subst this
      exact ⟨(fun h => by cases h), fun _ => .str, (fun h => by cases h), fun _ => .str⟩
    · exact ⟨(fun h => by cases h), hdflt _⟩
  | any => exact ⟨hi, (fun h => by cases h), hdflt _⟩
  | cls => exact ⟨hi, (fun h => by cases h), hdflt _⟩
  | ext => exact ⟨hi, (fun h => by cases h), hdflt _⟩
  | @nt i r st w st' _ ih =>
    obtain ⟨h1, h2, e, he, h3⟩ := ih hi trivial
    exact keep (.nt he) (.nt he) (.nt he) ⟨h1, h2, h3⟩
  | @seq i es st w st' _ ih =>
    obtain ⟨h1, h2, h3, h4, h5⟩ := ih hi (fun e he => ho.under (.seq he .refl))
    exact ⟨⟨h1.wfa, h1.diags⟩, (fun h => by rw [h2] at h; cases h), fun h => .seq (h3 h).2, fun h => .seq (h4 h).2, fun h => .seq (h5 h).2⟩
  | @choice i es st w st' _ ih =>
    obtain ⟨h1, h2, h3, h4, h5⟩ := ih hi ⟨ho, i, [], rfl⟩
    refine ⟨h1, fun h => ?_, fun h => ?_, fun h => .choice (h4 h).2, fun h => ?_⟩
    · obtain rfl := (h2 h).2
      exact .choice (by simp)
    · obtain ⟨e, he, h⟩ := (h3 h).resolve_left (by simp)
      exact .choice he h
    · obtain ⟨e, he, h⟩ := (h5 h).resolve_left (by simp)
      exact .choice he h
  | @star i c st w st1 w' st' _ hr ih =>
    obtain ⟨h1, h2⟩ := ih hi (ho.under (.star .refl))
    obtain ⟨h3, h4, h5⟩ := hloop (.inl rfl) ho hr h1 h2
    exact ⟨h3, (fun h => by cases h), fun _ => .star, fun h => .star (h5.idle h), fun _ => .star⟩
  | @plus i c st w st1 w' st' _ hr ih =>
    obtain ⟨h1, h2⟩ := ih hi (ho.under (.plus .refl))
    exact keep .plus .plus .plus (hloop (.inr rfl) ho hr h1 h2)
  | @opt i c st w st' _ ih =>
    obtain ⟨h1, h2, h3⟩ := ih hi (ho.under (.opt .refl))
    exact ⟨h1, (fun h => by cases h), fun _ => .opt, fun h => .opt (h3.idle h), fun _ => .opt⟩
  | @not i c st w st' _ ih =>
    obtain ⟨h1, h2, h3⟩ := ih hi (ho.under (.not .refl))
    refine ⟨h1, fun h => .not (h3.ok h), fun h => ?_, fun _ => .not, fun _ => .not⟩
    have : w.canSucceed = false := h
    rw [h2.succeeds] at this; cases this
  | @and i c st w st' _ ih =>
    obtain ⟨h1, h2, h3⟩ := ih hi (ho.under (.and .refl))
    refine ⟨h1, fun h => ?_, fun h => .and (h3.ok h), fun _ => .and, fun _ => .and⟩
    have : w.canSucceed = false := h
    rw [h2.succeeds] at this; cases this
  | act _ ih => exact keep .act .act .act (ih hi (ho.under (.act .refl)))
  | asc _ ih => exact keep .asc .asc .asc (ih hi (ho.under (.asc .refl)))
  | span _ ih => exact keep .span .span .span (ih hi (ho.under (.span .refl)))
  | range _ ih => exact keep .range .range .range (ih hi (ho.under (.range .refl)))
  | @seq_nil w st => exact ⟨hi, rfl, fun h => ⟨h, by simp⟩, fun h => ⟨h, by simp⟩, fun h => ⟨h, by simp⟩⟩
  | @seq_cons w e es st c st1 w' st' hv _ ih1 ih2 =>
    obtain ⟨h1, h2, h3⟩ := ih1 hi (ho e List.mem_cons_self)
    obtain ⟨h4, k1, k2, k3, k4⟩ := ih2 (by split <;> exact ⟨h1.wfa, h1.diags⟩) (fun e he => ho e (List.mem_cons_of_mem _ he))
    refine ⟨h4, ?_, fun h => ?_, fun h => ?_, fun h => ?_⟩
    · rw [k1]; simp [wfaElem, h2.succeeds]
    · obtain ⟨h5, h6⟩ := k2 h
      simp only [wfaElem, Bool.or_eq_false_iff] at h5
      exact ⟨h5.1, List.forall_mem_cons.2 ⟨h3.ok h5.2, h6⟩⟩
    · obtain ⟨h5, h6⟩ := k3 h
      simp only [wfaElem, Bool.and_eq_true] at h5
      exact ⟨h5.1, List.forall_mem_cons.2 ⟨h3.idle h5.2, h6⟩⟩
    · obtain ⟨h5, h6⟩ := k4 h
      simp only [wfaElem, Bool.or_eq_false_iff] at h5
      exact ⟨h5.1, List.forall_mem_cons.2 ⟨h3.null h5.2, h6⟩⟩
  | @choice_nil this w st => exact ⟨hi, fun h => ⟨h, rfl⟩, fun h => .inl h, fun h => ⟨h, by simp⟩, fun h => .inl h⟩
  | @choice_stop this w e es st c st1 hv hes hcf ih =>
    obtain ⟨h0, i0, before, hthis⟩ := ho
    obtain ⟨h1, h2, h3⟩ := ih hi (h0.under (by rw [hthis]; exact .choice (by simp) .refl))
    refine ⟨hrep ⟨h1.wfa, h1.diags⟩ ⟨h0, i0, before, es, hthis, hes, h3.ok hcf⟩, fun h => ?_, fun h => ?_, fun h => ?_, fun h => ?_⟩
    · simp [wfaBranch, h2.succeeds] at h
    · exact .inr ⟨e, List.mem_cons_self, h3.ok hcf⟩
    · simp [wfaBranch, h2.idle hcf] at h
    · simp only [wfaBranch, Bool.and_eq_false_iff] at h
      exact h.imp id fun h => ⟨e, List.mem_cons_self, h3.null h⟩
  | @choice_next this w e es st c st1 w' st' hv hor _ ih1 ih2 =>
    obtain ⟨h0, i0, before, hthis⟩ := ho
    obtain ⟨h1, h2, h3⟩ := ih1 hi (h0.under (by rw [hthis]; exact .choice (by simp) .refl))
    obtain ⟨h4, k1, k2, k3, k4⟩ := ih2 ⟨h1.wfa, h1.diags⟩ ⟨h0, i0, before ++ [e], by simpa using hthis⟩
    refine ⟨h4, fun h => ?_, fun h => ?_, fun h => ?_, fun h => ?_⟩
    · have := (k1 h).1
      simp [wfaBranch, h2.succeeds] at this
    · rcases k2 h with h5 | ⟨x, hx, h5⟩
      · simp only [wfaBranch, Bool.and_eq_false_iff] at h5
        exact h5.imp id fun h => ⟨e, List.mem_cons_self, h3.ok h⟩
      · exact .inr ⟨x, List.mem_cons_of_mem _ hx, h5⟩
    · obtain ⟨h5, h6⟩ := k3 h
      simp only [wfaBranch, Bool.and_eq_true] at h5
      exact ⟨h5.1, List.forall_mem_cons.2 ⟨h3.idle h5.2, h6⟩⟩
    · rcases k4 h with h5 | ⟨x, hx, h5⟩
      · simp only [wfaBranch, Bool.and_eq_false_iff] at h5
        exact h5.imp id fun h => ⟨e, List.mem_cons_self, h3.null h⟩
      · exact .inr ⟨x, List.mem_cons_of_mem _ hx, h5⟩
  | @rule_rec r st w hrec hc hw => exact ⟨hi, hi.wfa _ _ hw⟩
  | @rule_left r st e w hrec hsince hc he hw => exact ⟨hrep ⟨hi.wfa, hi.diags⟩ trivial, hi.wfa _ _ hw⟩
  | @rule_same r st e w st1 hrec he hv hw _ ih =>
    obtain ⟨h1, h2, h3⟩ := ih ⟨hi.wfa, hi.diags⟩ ⟨r, e, he, .refl⟩
    exact ⟨⟨h1.wfa, h1.diags⟩, h2, e, he, h3⟩
  | @rule_new r st e w st1 old hrec he hv hw hne _ ih =>
    obtain ⟨h1, h2, h3⟩ := ih ⟨hi.wfa, hi.diags⟩ ⟨r, e, he, .refl⟩
    refine ⟨⟨?_, h1.diags⟩, h2, e, he, h3⟩
    intro x w' hx
    simp only at hx
    split at hx
    · rename_i hxr; cases hx; subst hxr; exact ⟨h2, e, he, h3⟩
    · exact h1.wfa x w' hx

theorem FInv.new : FInv G (.new G) := by
  refine ⟨?_, by intro d hd; cases hd⟩
  intro r w h
  simp only [WState.new] at h
  split at h
  · rename_i hr
    cases h
    obtain ⟨e, he⟩ := Option.isSome_iff_exists.1 hr
    exact ⟨by constructor <;> simp [WFA.dflt], e, he, by constructor <;> intro h <;> simp [WFA.dflt] at h⟩
  · cases h

theorem visitEach_found {n : Nat} {rs : List (String × Expr)} {st st' : WState} (h : visitEach G n rs st = .ok st') (hi : FInv G st) : FInv G st' := by
  induction rs generalizing st with
  | nil => cases h; exact hi
  | cons x rs ih =>
    obtain ⟨r, e⟩ := x
    unfold visitEach at h
    obtain ⟨⟨w, st1⟩, h1, h2⟩ := Res.bind_eq_ok h
    have hi1 := ((visitRule_visit n _ _ _ _ h1).found hi trivial).1
    simp only at h2
    split at h2
    · cases h2; exact hi1
    · exact ih h2 hi1

theorem visitRules_found {n m : Nat} {st st' : WState} (h : visitRules G n m st = .ok st') (hi : FInv G st) : FInv G st' := by
  induction m generalizing st with
  | zero => cases h
  | succ m ih =>
    unfold visitRules at h
    split at h
    · obtain ⟨st1, h1, h2⟩ := Res.bind_eq_ok h
      exact ih h2 (visitEach_found h1 ⟨hi.wfa, hi.diags⟩)
    · cases h; exact hi

/-- All the diagnostics are found in the grammar. -/
theorem wellFormedness_found {n m : Nat} {st : WState} (h : wellFormedness G n m = .ok st) : ∀ d ∈ st.diags, d.Found G := by
  intro d hd
  have h1 := (visitRules_found h .new).diags d hd
  have h2 := (wellFormedness_sound h noExtSpec).diags d hd
  cases d with
  | leftRecursion r c => exact h2
  | neverSucceed e => exact h1
  | alwaysSucceed e => exact h1
  | loopRepeat e => exact h1
  | unreachable a b => exact h1
where noExtSpec : ExtSpec := fun _ _ _ _ => False

/-! ## Accepted grammars -/

theorem checkExpr_useful {e w st w' st'} (h : checkExpr e w st = .ok (w', st')) (he : EInv st) (hw : st'.wellFormed = true) :
    ¬ (w.canFail = false ∧ w.neverConsume = true) := by
  have hs := ((checkExpr_clean h he).2 hw).2.2
  rintro ⟨h1, h2⟩
  unfold checkExpr at h
  obtain ⟨_, _, h⟩ := Res.bind_eq_ok h
  obtain ⟨_, _, h⟩ := Res.bind_eq_ok h
  rw [if_neg (by simp [h1]), if_pos (by simp [h1, h2, hs])] at h
  cases h
  rw [report_dirty he] at hw; cases hw

/-- No error is found in the expression, with these attributes of the rules. -/
structure Fine (W : String → WFA) (x : Expr) : Prop where
  useful : ¬ ((attr W x).canFail = false ∧ (attr W x).neverConsume = true)
  not_ : ∀ i c, x = .not i c → (attr W c).canFail = true
  branches : ∀ i before b after, x = .choice i (before ++ b :: after) → after ≠ [] → (attr W b).canFail = true

/-- No error is found in a task. -/
def TFine (W : String → WFA) (w : WFA) : Task → Prop
  | .expr e => ∀ x, Sub x e → Fine W x
  | .walk e => (∀ x, Sub x e → x = e ∨ Fine W x) ∧ (∀ i c, e = .not i c → w.canSucceed = true → (attr W c).canFail = true) ∧
      (∀ i before b after, e = .choice i (before ++ b :: after) → after ≠ [] → (attr W b).canFail = true)
  | .seq _ es => ∀ e ∈ es, ∀ x, Sub x e → Fine W x
  | .choice _ _ es => (∀ e ∈ es, ∀ x, Sub x e → Fine W x) ∧ ∀ before b after, es = before ++ b :: after → after ≠ [] → (attr W b).canFail = true
  | .rule _ => True

theorem Visit.fine {T st w st'} {W : String → WFA} (h : Visit G T st w st') (hs : Stable G W st st') : TFine W w T := by
  have hval : ∀ {e st w st'}, Visit G (.expr e) st w st' → Stable G W st st' → w.canFail = (attr W e).canFail := by
    intro e st w st' hv hs
    obtain ⟨_, h1, h2, _⟩ := hv.clean hs.errors hs.wf hs.inv
    rw [hs.W] at h1
    rw [(hv.stable hs).2.1] at h2
    exact Bool.eq_iff_iff.2 ⟨h2.cf, h1.cf⟩
  have hleaf : ∀ {e : Expr} {w : WFA}, (∀ x, Sub x e → x = e) → (∀ i c, e ≠ .not i c) → (∀ i es, e ≠ .choice i es) → TFine W w (.walk e) := by
    intro e w h1 h2 h3
    exact ⟨fun x hx => .inl (h1 x hx), fun i c h => absurd h (h2 i c), fun i b x a h => absurd h (h3 i _)⟩
  have hwrap : ∀ {e c : Expr} {w : WFA}, (∀ x, Sub x e → x = e ∨ Sub x c) → (∀ i c, e ≠ .not i c) → (∀ i es, e ≠ .choice i es) →
      (∀ x, Sub x c → Fine W x) → TFine W w (.walk e) := by
    intro e c w h1 h2 h3 h4
    exact ⟨fun x hx => (h1 x hx).imp id (h4 x), fun i c h => absurd h (h2 i c), fun i b x a h => absurd h (h3 i _)⟩
  induction h with
  | @check e st w st1 w' st' hv hc ih =>
    obtain ⟨h1, _⟩ := hv.einv hs.errors
    have hu := checkExpr_useful hc h1 hs.wf
    obtain ⟨rfl, rfl, hcs⟩ := (checkExpr_clean hc h1).2 hs.wf
    obtain ⟨k1, k2, k3⟩ := ih hs
    obtain ⟨_, c1, c2⟩ := hv.clean hs.errors hs.wf hs.inv
    rw [hs.W] at c1
    rw [(hv.stable hs).2.1] at c2
    intro x hx
    rcases k1 x hx with rfl | hf
    · refine ⟨?_, fun i c h => k2 i c h hcs, k3⟩
      rintro ⟨f1, f2⟩
      refine hu ⟨?_, c1.nc.comp id |> fun g => ?_⟩
      · cases hwf : w'.canFail with
        | false => rfl
        | true => rw [c2.cf hwf] at f1; cases f1
      · exact c2.nc f2
    · exact hf
  | str => exact hleaf (fun _ h => by cases h; rfl) (by simp) (by simp)
  | any => exact hleaf (fun _ h => by cases h; rfl) (by simp) (by simp)
  | cls => exact hleaf (fun _ h => by cases h; rfl) (by simp) (by simp)
  | ext => exact hleaf (fun _ h => by cases h; rfl) (by simp) (by simp)
  | nt hv ih => exact hleaf (fun _ h => by cases h; rfl) (by simp) (by simp)
  | @seq i es st w st' hv ih =>
    have h1 := ih ⟨hs.errors, hs.inv, hs.wf, hs.fix, hs.W⟩
    refine ⟨fun x hx => ?_, by simp, by simp⟩
    cases hx with
    | refl => exact .inl rfl
    | seq he h => exact .inr (h1 _ he x h)
  | @choice i es st w st' hv ih =>
    obtain ⟨h1, h2⟩ := ih hs
    refine ⟨fun x hx => ?_, by simp, ?_⟩
    · cases hx with
      | refl => exact .inl rfl
      | choice he h => exact .inr (h1 _ he x h)
    · intro j before b after h ha
      cases h
      exact h2 before b after rfl ha
  | @star i c st w st1 w' st' hv hr ih =>
    obtain ⟨h1, _⟩ := hv.einv hs.errors
    obtain ⟨rfl, rfl, hac⟩ := (wfaRepeat_clean hr h1).2 hs.wf
    exact hwrap (fun x h => by cases h with | refl => exact .inl rfl | star h => exact .inr h) (by simp) (by simp) (ih hs)
  | @plus i c st w st1 w' st' hv hr ih =>
    obtain ⟨h1, _⟩ := hv.einv hs.errors
    obtain ⟨rfl, rfl, hac⟩ := (wfaRepeat_clean hr h1).2 hs.wf
    exact hwrap (fun x h => by cases h with | refl => exact .inl rfl | plus h => exact .inr h) (by simp) (by simp) (ih hs)
  | opt _ ih => exact hwrap (fun x h => by cases h with | refl => exact .inl rfl | opt h => exact .inr h) (by simp) (by simp) (ih hs)
  | @not i c st w st' hv ih =>
    have h1 := ih hs
    refine ⟨fun x hx => ?_, ?_, by simp⟩
    · cases hx with
      | refl => exact .inl rfl
      | not h => exact .inr (h1 x h)
    · intro j d h hw
      cases h
      rw [← hval hv hs]; exact hw
  | and _ ih => exact hwrap (fun x h => by cases h with | refl => exact .inl rfl | and h => exact .inr h) (by simp) (by simp) (ih hs)
  | act _ ih => exact hwrap (fun x h => by cases h with | refl => exact .inl rfl | act h => exact .inr h) (by simp) (by simp) (ih hs)
  | asc _ ih => exact hwrap (fun x h => by cases h with | refl => exact .inl rfl | asc h => exact .inr h) (by simp) (by simp) (ih hs)
  | span _ ih => exact hwrap (fun x h => by cases h with | refl => exact .inl rfl | span h => exact .inr h) (by simp) (by simp) (ih hs)
  | range _ ih => exact hwrap (fun x h => by cases h with | refl => exact .inl rfl | range h => exact .inr h) (by simp) (by simp) (ih hs)
  | seq_nil => intro e he; cases he
  | @seq_cons w e es st c st1 w' st' hv1 hv2 ih1 ih2 =>
    have e1 := (hv1.einv hs.errors).1
    have hw1 : st1.wellFormed = true := by
      have := (hv2.einv (by split <;> exact e1)).2 hs.wf
      split at this <;> exact this
    have hc1 := (hv1.clean hs.errors hw1 hs.inv).1.inv
    have hs2 : Stable G W (if c.alwaysConsume = true then { st1 with consumed := true } else st1) st' :=
      ⟨by split <;> exact e1, by split <;> exact ⟨hc1.le, hc1.cs⟩, hs.wf, hs.fix, hs.W⟩
    obtain ⟨_, k2, k3⟩ := hv2.stable hs2
    have hs1 : Stable G W st st1 := by
      refine ⟨hs.errors, hs.inv, hw1, ?_, ?_⟩
      · split at k3 <;> exact k3
      · split at k2 <;> exact k2
    exact List.forall_mem_cons.2 ⟨ih1 hs1, ih2 hs2⟩
  | choice_nil => exact ⟨(by intro e he; cases he), fun b x a h => by simp at h⟩
  | choice_stop hv _ _ =>
    exact absurd hs.wf (by rw [report_dirty (by exact (hv.einv hs.errors).1)]; simp)
  | @choice_next this w e es st c st1 w' st' hv1 hor hv2 ih1 ih2 =>
    have e1 := (hv1.einv hs.errors).1
    have hw1 : st1.wellFormed = true := (hv2.einv e1).2 hs.wf
    have hc1 := (hv1.clean hs.errors hw1 hs.inv).1.inv
    have hs2 : Stable G W { st1 with consumed := st.consumed } st' := ⟨e1, ⟨hc1.le, hc1.cs⟩, hs.wf, hs.fix, hs.W⟩
    obtain ⟨_, k2, k3⟩ := hv2.stable hs2
    have hs1 : Stable G W st st1 := ⟨hs.errors, hs.inv, hw1, k3, k2⟩
    obtain ⟨h3, h4⟩ := ih2 hs2
    refine ⟨List.forall_mem_cons.2 ⟨ih1 hs1, h3⟩, ?_⟩
    intro before b after h ha
    cases before with
    | nil =>
      simp only [List.nil_append, List.cons.injEq] at h
      obtain ⟨rfl, rfl⟩ := h
      rw [← hval hv1 hs1]
      exact hor.resolve_left ha
    | cons y before =>
      simp only [List.cons_append, List.cons.injEq] at h
      exact h4 before b after h.2 ha
  | rule_rec => trivial
  | rule_left => trivial
  | rule_same => trivial
  | rule_new => trivial

/-- The attributes are justified by the bodies. -/
def Fix (G : Grammar) (W : String → WFA) : Prop := ∀ r e, G.find r = some e → WLe (W r) (attr W e)

theorem accepted_body {n m : Nat} {st : WState} (h1 : wellFormedness G n m = .ok st) (h2 : st.wellFormed = true) {r : String} {e : Expr} (he : G.find r = some e) :
    WLe (st.W r) (attr st.W e) ∧ ∀ x, Sub x e → Fine st.W x := by
  obtain ⟨a, w, b, hv, ht, hs⟩ := last_pass h1 h2 r e he
  have hrec := ht.notRec r
  have hWa := (hv.stable hs).2.1
  cases hv with
  | rule_rec h _ _ => rw [hrec] at h; cases h
  | rule_left h _ _ _ _ => rw [hrec] at h; cases h
  | @rule_same _ _ e' w st1 _ he' hv' hw' _ =>
    rw [he] at he'; cases he'
    have hs' : Stable G st.W (a.push r) st1 := ⟨hs.errors, ⟨hs.inv.le, hs.inv.cs⟩, hs.wf, hs.fix, hs.W⟩
    have hc := (hv'.clean hs.errors hs.wf ⟨hs.inv.le, hs.inv.cs⟩).2.2.1
    have hW1 : st1.W = st.W := hs.W
    have hwr : w = st.W r := by rw [← hW1]; simp [WState.W, hw']
    have hWp : (a.push r).W = st.W := hWa
    rw [hWp] at hc
    rw [← hwr]
    exact ⟨hc, hv'.fine hs'⟩
  | rule_new _ _ _ _ _ _ => exact absurd hs.fix (by simp)

theorem attrSeq_cf (W : String → WFA) (es : List Expr) : ∀ w, (attrSeq W w es).canFail = true ↔ w.canFail = true ∨ ∃ e ∈ es, (attr W e).canFail = true := by
  induction es with
  | nil => intro w; simp [attrSeq]
  | cons e es ih => intro w; rw [attrSeq, ih]; simp [wfaElem, or_assoc]

theorem attrChoice_cf (W : String → WFA) (es : List Expr) : ∀ w, (attrChoice W w es).canFail = true ↔ w.canFail = true ∧ ∀ e ∈ es, (attr W e).canFail = true := by
  induction es with
  | nil => intro w; simp [attrChoice]
  | cons e es ih => intro w; rw [attrChoice, ih]; simp [wfaBranch, and_assoc]

theorem attrSeq_nc (W : String → WFA) (es : List Expr) : ∀ w, (attrSeq W w es).neverConsume = true ↔ w.neverConsume = true ∧ ∀ e ∈ es, (attr W e).neverConsume = true := by
  induction es with
  | nil => intro w; simp [attrSeq]
  | cons e es ih => intro w; rw [attrSeq, ih]; simp [wfaElem, and_assoc]

theorem attrChoice_nc (W : String → WFA) (es : List Expr) : ∀ w, (attrChoice W w es).neverConsume = true ↔ w.neverConsume = true ∧ ∀ e ∈ es, (attr W e).neverConsume = true := by
  induction es with
  | nil => intro w; simp [attrChoice]
  | cons e es ih => intro w; rw [attrChoice, ih]; simp [wfaBranch, and_assoc]

theorem Idle.attr {W : String → WFA} (hW : Fix G W) {e : Expr} (h : Idle G e) : (attr W e).neverConsume = true := by
  induction h with
  | nt he _ ih => rw [Oak.attr]; exact (hW _ _ he).nc ih
  | seq _ ih => rw [Oak.attr, attrSeq_nc]; exact ⟨rfl, ih⟩
  | choice _ ih => rw [Oak.attr, attrChoice_nc]; exact ⟨rfl, ih⟩
  | star _ ih => rw [Oak.attr]; exact ih
  | plus _ ih => rw [Oak.attr]; exact ih
  | opt _ ih => rw [Oak.attr]; exact ih
  | not => rw [Oak.attr]
  | and => rw [Oak.attr]; rfl
  | act _ ih => rw [Oak.attr]; exact ih
  | asc _ ih => rw [Oak.attr]; exact ih
  | span _ ih => rw [Oak.attr]; exact ih
  | range _ ih => rw [Oak.attr]; exact ih

theorem occurs_shaped (hsh : G.shaped = true) {i : Nat} {es : List Expr} (h : Occurs G (.choice i es)) : es ≠ [] := by
  obtain ⟨r, b, hb0, hs⟩ := h
  have hb : b.shaped = true := by
    have := grammar_find_mem hb0
    simp only [Grammar.shaped, List.all_eq_true] at hsh
    exact hsh _ this
  clear hb0
  have hall : ∀ (es : List Expr), shapedAll es = true → ∀ e ∈ es, e.shaped = true := by
    intro es
    induction es with
    | nil => intro _ e he; cases he
    | cons x es ih =>
      intro h
      simp only [shapedAll, Bool.and_eq_true] at h
      exact List.forall_mem_cons.2 ⟨h.1, ih h.2⟩
  induction hs with
  | refl => rintro rfl; simp [Expr.shaped] at hb
  | seq he _ ih => exact ih (hall _ (by simpa [Expr.shaped] using hb) _ he)
  | choice he _ ih => exact ih (hall _ (by simp only [Expr.shaped, Bool.and_eq_true] at hb; exact hb.2) _ he)
  | star _ ih => exact ih (by simpa [Expr.shaped] using hb)
  | plus _ ih => exact ih (by simpa [Expr.shaped] using hb)
  | opt _ ih => exact ih (by simpa [Expr.shaped] using hb)
  | not _ ih => exact ih (by simpa [Expr.shaped] using hb)
  | and _ ih => exact ih (by simpa [Expr.shaped] using hb)
  | act _ ih => exact ih (by simpa [Expr.shaped] using hb)
  | asc _ ih => exact ih (by simpa [Expr.shaped] using hb)
  | span _ ih => exact ih (by simpa [Expr.shaped] using hb)
  | range _ ih => exact ih (by simpa [Expr.shaped] using hb)

theorem sure_attr {W : String → WFA} (hW : Fix G W) (hF : ∀ x, Occurs G x → Fine W x) (hsh : G.shaped = true) :
    (∀ e, SureOk G e → Occurs G e → (attr W e).canFail = false) ∧ ∀ e, SureFail G e → Occurs G e → False := by
  refine sure_ind ?_ ?_ ?_ ?_ ?_ ?_ ?_ ?_ ?_ ?_ ?_ ?_ ?_ ?_ ?_ ?_ ?_ ?_ ?_ ?_ ?_ ?_ ?_
  · intro i ho; rfl
  · intro i r e he h ho
    rw [attr]
    have := h ⟨_, _, he, .refl⟩
    cases hr : (W r).canFail with
    | false => rfl
    | true => rw [(hW _ _ he).cf hr] at this; cases this
  · intro i es h ho
    rw [attr, ← Bool.not_eq_true, attrSeq_cf]
    rintro (h' | ⟨e, he, h'⟩)
    · cases h'
    · rw [h e he (ho.under (.seq he .refl))] at h'; cases h'
  · intro i es e he h ho
    rw [attr, ← Bool.not_eq_true, attrChoice_cf]
    rintro ⟨_, h'⟩
    have := h' _ he
    rw [h (ho.under (.choice he .refl))] at this; cases this
  · intro i e ho; rw [attr]; rfl
  · intro i e h ho; rw [attr]; exact h (ho.under (.plus .refl))
  · intro i e ho; rw [attr]; rfl
  · intro i e h ho; exact (h (ho.under (.not .refl))).elim
  · intro i e h ho; rw [attr]; exact h (ho.under (.and .refl))
  · intro i e b f h ho; rw [attr]; exact h (ho.under (.act .refl))
  · intro i e t h ho; rw [attr]; exact h (ho.under (.asc .refl))
  · intro i e h ho; rw [attr]; exact h (ho.under (.span .refl))
  · intro i e h ho; rw [attr]; exact h (ho.under (.range .refl))
  · intro i r e he h ho; exact h ⟨_, _, he, .refl⟩
  · intro i es e he h ho; exact h (ho.under (.seq he .refl))
  · intro i es h ho
    cases es with
    | nil => exact occurs_shaped hsh ho rfl
    | cons e es => exact h e List.mem_cons_self (ho.under (.choice List.mem_cons_self .refl))
  · intro i e h ho; exact h (ho.under (.plus .refl))
  · intro i e h ho
    have h1 := (hF _ ho).not_ _ _ rfl
    rw [h (ho.under (.not .refl))] at h1; cases h1
  · intro i e h ho; exact h (ho.under (.and .refl))
  · intro i e b f h ho; exact h (ho.under (.act .refl))
  · intro i e t h ho; exact h (ho.under (.asc .refl))
  · intro i e h ho; exact h (ho.under (.span .refl))
  · intro i e h ho; exact h (ho.under (.range .refl))

/-- Accepted grammars are those of the specification. -/
theorem accepted_wellFormed (hsh : G.shaped = true) (h : Accepted G) : WellFormed G := by
  obtain ⟨hrep, hwf⟩ := accepted_ok h
  obtain ⟨n, m, st, h1, h2⟩ := h
  have hW : Fix G st.W := fun r e he => (accepted_body h1 h2 he).1
  have hF : ∀ x, Occurs G x → Fine st.W x := fun x ⟨r, e, he, hx⟩ => (accepted_body h1 h2 he).2 x hx
  refine ⟨fun r => no_cycle hwf r, ?_, fun e ho hs => (sure_attr hW hF hsh).2 e hs ho, fun e ho hs hi => ?_, fun i before b after ho ha hs => ?_⟩
  · rintro i c (⟨r, e, he, hx⟩ | ⟨r, e, he, hx⟩)
    · exact hrep r e he i c (.inl hx)
    · exact hrep r e he i c (.inr hx)
  · exact (hF e ho).useful ⟨(sure_attr hW hF hsh).1 e hs ho, hi.attr hW⟩
  · have := (hF _ ho).branches i before b after rfl ha
    rw [(sure_attr hW hF hsh).1 b hs (ho.under (.choice (by simp) .refl))] at this; cases this

/-- Rejected grammars are not. -/
theorem rejected_ill (h : Rejected G) : ¬ WellFormed G := by
  obtain ⟨n, m, st, h1, h2⟩ := h
  have h3 := (wellFormedness_diags h1).1 h2
  intro hw
  obtain ⟨d, ds, hd⟩ := List.exists_cons_of_ne_nil h3
  have h4 := wellFormedness_found h1 d (by rw [hd]; exact List.mem_cons_self)
  cases d with
  | leftRecursion r c => exact hw.left r (h4.2.recursive h4.1)
  | neverSucceed e => exact hw.fails e h4.1 h4.2
  | alwaysSucceed e => exact hw.idle e h4.1 h4.2.1 h4.2.2
  | loopRepeat e =>
    obtain ⟨h5, i, c, h6, h7⟩ := h4
    rcases h6 with rfl | rfl
    · exact hw.repeats i c (.inl h5) h7
    · exact hw.repeats i c (.inr h5) h7
  | unreachable a b =>
    obtain ⟨h5, i, before, after, rfl, h6, h7⟩ := h4
    exact hw.branches i before b after h5 h6 h7

end Oak
