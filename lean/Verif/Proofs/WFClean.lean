import Verif.Proofs.WFSound
/-!
Passes of the well-formedness analysis without errors: attributes decrease, so there are finitely many passes; when the last pass
changes nothing the attributes are a fixpoint, repeated expressions consume, and leftmost calls are well-founded.
-/
set_option linter.constructorNameAsVariable false
set_option autoImplicit false

namespace Oak
variable {G : Grammar}

/-! Visits determine their results. -/

theorem Visit.det {T st w st'} (h : Visit G T st w st') : ∀ {w2 st2}, Visit G T st w2 st2 → w = w2 ∧ st' = st2 := by
  induction h with
  | check _ hc ih =>
    intro w2 st2 h2
    cases h2 with
    | check h2 hc2 => obtain ⟨rfl, rfl⟩ := ih h2; rw [hc] at hc2; cases hc2; exact ⟨rfl, rfl⟩
  | str => intro w2 st2 h2; cases h2; exact ⟨rfl, rfl⟩
  | any => intro w2 st2 h2; cases h2; exact ⟨rfl, rfl⟩
  | cls => intro w2 st2 h2; cases h2; exact ⟨rfl, rfl⟩
  | ext => intro w2 st2 h2; cases h2; exact ⟨rfl, rfl⟩
  | nt _ ih => intro w2 st2 h2; cases h2 with | nt h2 => exact ih h2
  | seq _ ih => intro w2 st2 h2; cases h2 with | seq h2 => obtain ⟨rfl, rfl⟩ := ih h2; exact ⟨rfl, rfl⟩
  | choice _ ih => intro w2 st2 h2; cases h2 with | choice h2 => exact ih h2
  | star _ hr ih =>
    intro w2 st2 h2
    cases h2 with
    | star h2 hr2 => obtain ⟨rfl, rfl⟩ := ih h2; rw [hr] at hr2; cases hr2; exact ⟨rfl, rfl⟩
  | plus _ hr ih =>
    intro w2 st2 h2
    cases h2 with
    | plus h2 hr2 => obtain ⟨rfl, rfl⟩ := ih h2; rw [hr] at hr2; cases hr2; exact ⟨rfl, rfl⟩
  | opt _ ih => intro w2 st2 h2; cases h2 with | opt h2 => obtain ⟨rfl, rfl⟩ := ih h2; exact ⟨rfl, rfl⟩
  | not _ ih => intro w2 st2 h2; cases h2 with | not h2 => obtain ⟨rfl, rfl⟩ := ih h2; exact ⟨rfl, rfl⟩
  | and _ ih => intro w2 st2 h2; cases h2 with | and h2 => obtain ⟨rfl, rfl⟩ := ih h2; exact ⟨rfl, rfl⟩
  | act _ ih => intro w2 st2 h2; cases h2 with | act h2 => exact ih h2
  | asc _ ih => intro w2 st2 h2; cases h2 with | asc h2 => exact ih h2
  | span _ ih => intro w2 st2 h2; cases h2 with | span h2 => exact ih h2
  | range _ ih => intro w2 st2 h2; cases h2 with | range h2 => exact ih h2
  | seq_nil => intro w2 st2 h2; cases h2; exact ⟨rfl, rfl⟩
  | seq_cons _ _ ih1 ih2 =>
    intro w2 st2 h2
    cases h2 with
    | seq_cons h2 h3 => obtain ⟨rfl, rfl⟩ := ih1 h2; exact ih2 h3
  | choice_nil => intro w2 st2 h2; cases h2; exact ⟨rfl, rfl⟩
  | choice_stop _ hes hc ih =>
    intro w2 st2 h2
    cases h2 with
    | choice_stop h2 _ _ => obtain ⟨rfl, rfl⟩ := ih h2; exact ⟨rfl, rfl⟩
    | choice_next h2 hor _ =>
      obtain ⟨rfl, rfl⟩ := ih h2
      rcases hor with h | h
      · exact absurd h hes
      · rw [hc] at h; cases h
  | choice_next _ hor _ ih1 ih2 =>
    intro w2 st2 h2
    cases h2 with
    | choice_stop h2 hes hc =>
      obtain ⟨rfl, rfl⟩ := ih1 h2
      rcases hor with h | h
      · exact absurd h hes
      · rw [hc] at h; cases h
    | choice_next h2 _ h3 => obtain ⟨rfl, rfl⟩ := ih1 h2; exact ih2 h3
  | rule_rec hrec hc hw =>
    intro w2 st2 h2
    cases h2 with
    | rule_rec _ _ hw2 => rw [hw] at hw2; cases hw2; exact ⟨rfl, rfl⟩
    | rule_left _ h1 h2 _ _ => simp_all
    | rule_same h1 _ _ _ _ => simp_all
    | rule_new h1 _ _ _ _ _ => simp_all
  | rule_left hrec h1 h2 he hw =>
    intro w2 st2 h2
    cases h2 with
    | rule_rec _ _ hw2 => simp_all
    | rule_left _ _ _ he2 hw2 => rw [hw] at hw2; rw [he] at he2; cases hw2; cases he2; exact ⟨rfl, rfl⟩
    | rule_same h1 _ _ _ _ => simp_all
    | rule_new h1 _ _ _ _ _ => simp_all
  | rule_same hrec he _ hw _ ih =>
    intro w2 st2 h2
    cases h2 with
    | rule_rec h _ hw2 => simp_all
    | rule_left h _ _ he2 hw2 => simp_all
    | rule_same _ he2 h2 _ _ => rw [he] at he2; cases he2; obtain ⟨rfl, rfl⟩ := ih h2; exact ⟨rfl, rfl⟩
    | rule_new _ he2 h2 ho hne _ =>
      rw [he] at he2; cases he2; obtain ⟨rfl, rfl⟩ := ih h2
      rw [hw] at ho; cases ho; exact absurd rfl hne
  | rule_new hrec he _ ho hne _ ih =>
    intro w2 st2 h2
    cases h2 with
    | rule_rec h _ hw2 => simp_all
    | rule_left h _ _ he2 hw2 => simp_all
    | rule_same _ he2 h2 hw _ =>
      rw [he] at he2; cases he2; obtain ⟨rfl, rfl⟩ := ih h2
      rw [hw] at ho; cases ho; exact absurd rfl hne
    | rule_new _ he2 h2 _ _ _ => rw [he] at he2; cases he2; obtain ⟨rfl, rfl⟩ := ih h2; exact ⟨rfl, rfl⟩

/-! Errors. -/

/-- An error was registered only if the grammar is not well-formed. -/
def EInv (st : WState) : Prop := st.wellFormed = true → st.errors = [] ∧ st.diags = []

theorem report_einv {st : WState} {i d} (h : EInv st) : EInv (st.report i d) := by
  unfold WState.report
  split
  · exact h
  · intro h; cases h

theorem report_dirty {st : WState} {i d} (h : EInv st) : (st.report i d).wellFormed = false := by
  unfold WState.report
  split
  · rename_i hi
    cases hw : st.wellFormed with
    | false => rfl
    | true => rw [(h hw).1] at hi; cases hi
  · rfl

theorem checkExpr_clean {e w st w' st'} (h : checkExpr e w st = .ok (w', st')) (he : EInv st) : EInv st' ∧
    (st'.wellFormed = true → w' = w ∧ st' = st ∧ w.canSucceed = true) := by
  unfold checkExpr at h
  obtain ⟨_, h0, h⟩ := Res.bind_eq_ok h
  obtain ⟨_, _, h⟩ := Res.bind_eq_ok h
  split at h
  · cases h; exact ⟨report_einv he, fun h => by rw [report_dirty he] at h; cases h⟩
  · split at h
    · cases h; exact ⟨report_einv he, fun h => by rw [report_dirty he] at h; cases h⟩
    · rename_i h1 _
      cases h
      refine ⟨he, fun _ => ⟨rfl, rfl, ?_⟩⟩
      cases hs : w.canSucceed with
      | true => rfl
      | false =>
        cases hf : w.canFail with
        | true => simp [hs, hf] at h1
        | false => simp [hs, hf] at h0

theorem wfaRepeat_clean {e w st w' st'} (h : wfaRepeat e w st = (w', st')) (he : EInv st) : EInv st' ∧
    (st'.wellFormed = true → w' = w ∧ st' = st ∧ (w.canSucceed = true → w.alwaysConsume = true)) := by
  unfold wfaRepeat at h
  split at h
  · cases h; exact ⟨report_einv he, fun h => by rw [report_dirty he] at h; cases h⟩
  · rename_i h1
    cases h
    refine ⟨he, fun _ => ⟨rfl, rfl, ?_⟩⟩
    intro hs
    simpa [hs] using h1

theorem Visit.einv {T st w st'} (h : Visit G T st w st') (he : EInv st) : EInv st' ∧ (st'.wellFormed = true → st.wellFormed = true) := by
  induction h with
  | check _ hc ih =>
    obtain ⟨h1, h2⟩ := ih he
    obtain ⟨h3, h4⟩ := checkExpr_clean hc h1
    exact ⟨h3, fun h => h2 (by rw [← (h4 h).2.1]; exact h)⟩
  | star _ hr ih =>
    obtain ⟨h1, h2⟩ := ih he
    obtain ⟨h3, h4⟩ := wfaRepeat_clean hr h1
    exact ⟨h3, fun h => h2 (by rw [← (h4 h).2.1]; exact h)⟩
  | plus _ hr ih =>
    obtain ⟨h1, h2⟩ := ih he
    obtain ⟨h3, h4⟩ := wfaRepeat_clean hr h1
    exact ⟨h3, fun h => h2 (by rw [← (h4 h).2.1]; exact h)⟩
  | seq_cons _ _ ih1 ih2 =>
    obtain ⟨h1, h2⟩ := ih1 he
    obtain ⟨h3, h4⟩ := ih2 (by split <;> exact h1)
    refine ⟨h3, fun h => h2 ?_⟩
    have := h4 h
    split at this <;> exact this
  | choice_stop _ _ _ ih =>
    obtain ⟨h1, h2⟩ := ih he
    refine ⟨report_einv h1, fun h => ?_⟩
    exact absurd h (by rw [report_dirty (by exact h1)]; simp)
  | choice_next _ _ _ ih1 ih2 =>
    obtain ⟨h1, h2⟩ := ih1 he
    obtain ⟨h3, h4⟩ := ih2 h1
    exact ⟨h3, fun h => h2 (h4 h)⟩
  | @rule_left r st e w =>
    have h1 : EInv { st with wellFormed := false } := fun h => by cases h
    refine ⟨report_einv h1, fun h => ?_⟩
    rw [report_dirty h1] at h; cases h
  | rule_same _ _ _ _ _ ih => exact ih he
  | rule_new _ _ _ _ _ _ ih => exact ih he
  | _ => first | exact ⟨he, id⟩ | (rename_i ih; exact ih he)

/-! Attributes given those of the rules. -/

mutual
/-- Attributes of an expression, given those of the rules. -/
def attr (W : String → WFA) (e : Expr) : WFA :=
  match e with
  | .str _ l => wfaStr l
  | .any _ | .cls _ _ | .ext _ _ => .dflt
  | .nt _ r => W r
  | .seq _ es => attrSeq W ⟨false, true, false, true⟩ es
  | .choice _ es => attrChoice W ⟨true, false, true, true⟩ es
  | .star _ c => .alwaysSucceed (attr W c).neverConsume
  | .plus _ c => attr W c
  | .opt _ c => .alwaysSucceed (attr W c).neverConsume
  | .not _ _ => ⟨true, true, false, true⟩
  | .and _ c => wfaPredicate (attr W c)
  | .act _ c _ _ | .asc _ c _ | .span _ c | .range _ c => attr W c
/-- Attributes of a sequence. -/
def attrSeq (W : String → WFA) (w : WFA) (es : List Expr) : WFA :=
  match es with
  | [] => w
  | e :: es => attrSeq W (wfaElem w (attr W e)) es
/-- Attributes of a choice. -/
def attrChoice (W : String → WFA) (w : WFA) (es : List Expr) : WFA :=
  match es with
  | [] => w
  | e :: es => attrChoice W (wfaBranch w (attr W e)) es
end

/-- Smaller attributes: less certain to fail or consume. `canSucceed` is ignored. -/
structure WLe (w w' : WFA) : Prop where
  cf : w.canFail = true → w'.canFail = true
  ac : w.alwaysConsume = true → w'.alwaysConsume = true
  nc : w'.neverConsume = true → w.neverConsume = true

theorem WLe.refl (w : WFA) : WLe w w := ⟨id, id, id⟩
theorem WLe.trans {a b c : WFA} (h : WLe a b) (h' : WLe b c) : WLe a c := ⟨h'.cf ∘ h.cf, h'.ac ∘ h.ac, h.nc ∘ h'.nc⟩
theorem WLe.antisymm {a b : WFA} (h : WLe a b) (h' : WLe b a) (hs : a.canSucceed = b.canSucceed) : a = b := by
  obtain ⟨a1, a2, a3, a4⟩ := a
  obtain ⟨b1, b2, b3, b4⟩ := b
  have := h.cf; have := h.ac; have := h.nc; have := h'.cf; have := h'.ac; have := h'.nc
  simp only at *
  simp only [WFA.mk.injEq]
  refine ⟨?_, hs, ?_, ?_⟩ <;> apply Bool.eq_iff_iff.2 <;> constructor <;> assumption

theorem WLe.elem {a b c d : WFA} (h : WLe a b) (h' : WLe c d) : WLe (wfaElem a c) (wfaElem b d) := by
  have := h.cf; have := h.ac; have := h.nc; have := h'.cf; have := h'.ac; have := h'.nc
  constructor <;> simp only [wfaElem, Bool.or_eq_true, Bool.and_eq_true] <;> grind

theorem WLe.branch {a b c d : WFA} (h : WLe a b) (h' : WLe c d) : WLe (wfaBranch a c) (wfaBranch b d) := by
  have := h.cf; have := h.ac; have := h.nc; have := h'.cf; have := h'.ac; have := h'.nc
  constructor <;> simp only [wfaBranch, Bool.and_eq_true] <;> grind

theorem WLe.always {a b : WFA} (h : WLe a b) : WLe (.alwaysSucceed a.neverConsume) (.alwaysSucceed b.neverConsume) :=
  ⟨id, id, h.nc⟩

theorem WLe.predicate {a b : WFA} (h : WLe a b) : WLe (wfaPredicate a) (wfaPredicate b) := ⟨h.cf, id, id⟩

theorem attr_mono {W W' : String → WFA} (h : ∀ r, WLe (W r) (W' r)) (e : Expr) : WLe (attr W e) (attr W' e) := by
  have hseq : ∀ (es : List Expr), (∀ e ∈ es, WLe (attr W e) (attr W' e)) → ∀ {w w'}, WLe w w' → WLe (attrSeq W w es) (attrSeq W' w' es) := by
    intro es
    induction es with
    | nil => intro _ w w' hw; unfold attrSeq; exact hw
    | cons e es ih => intro he w w' hw; unfold attrSeq; exact ih (fun e h => he e (List.mem_cons_of_mem _ h)) (hw.elem (he e List.mem_cons_self))
  have hch : ∀ (es : List Expr), (∀ e ∈ es, WLe (attr W e) (attr W' e)) → ∀ {w w'}, WLe w w' → WLe (attrChoice W w es) (attrChoice W' w' es) := by
    intro es
    induction es with
    | nil => intro _ w w' hw; unfold attrChoice; exact hw
    | cons e es ih => intro he w w' hw; unfold attrChoice; exact ih (fun e h => he e (List.mem_cons_of_mem _ h)) (hw.branch (he e List.mem_cons_self))
  induction e using Expr.ind with
  | str i l => exact .refl _
  | any i => exact .refl _
  | cls i k => exact .refl _
  | nt i r => exact h r
  | ext i p => exact .refl _
  | seq i es ih => unfold attr; exact hseq es ih (.refl _)
  | choice i es ih => unfold attr; exact hch es ih (.refl _)
  | star i c ih => unfold attr; exact ih.always
  | plus i c ih => unfold attr; exact ih
  | opt i c ih => unfold attr; exact ih.always
  | not i c ih => unfold attr; exact .refl _
  | and i c ih => unfold attr; exact ih.predicate
  | act i c b f ih => unfold attr; exact ih
  | asc i c t ih => unfold attr; exact ih
  | span i c ih => unfold attr; exact ih
  | range i c ih => unfold attr; exact ih

theorem attrSeq_mono {W W' : String → WFA} (h : ∀ r, WLe (W r) (W' r)) (es : List Expr) : ∀ {w w'}, WLe w w' → WLe (attrSeq W w es) (attrSeq W' w' es) := by
  induction es with
  | nil => intro w w' hw; unfold attrSeq; exact hw
  | cons e es ih => intro w w' hw; unfold attrSeq; exact ih (hw.elem (attr_mono h e))

theorem attrChoice_mono {W W' : String → WFA} (h : ∀ r, WLe (W r) (W' r)) (es : List Expr) : ∀ {w w'}, WLe w w' → WLe (attrChoice W w es) (attrChoice W' w' es) := by
  induction es with
  | nil => intro w w' hw; unfold attrChoice; exact hw
  | cons e es ih => intro w w' hw; unfold attrChoice; exact ih (hw.branch (attr_mono h e))

/-- The attributes of the rules. -/
def WState.W (st : WState) (r : String) : WFA := (st.wfa r).getD .dflt

/-- How far attributes can still decrease. -/
def weight (w : WFA) : Nat := w.canFail.toNat + w.alwaysConsume.toNat + (!w.neverConsume).toNat

theorem WLe.weight {a b : WFA} (h : WLe a b) : weight a ≤ Oak.weight b := by
  obtain ⟨a1, a2, a3, a4⟩ := a
  obtain ⟨b1, b2, b3, b4⟩ := b
  have := h.cf; have := h.ac; have := h.nc
  revert this
  cases a1 <;> cases a3 <;> cases a4 <;> cases b1 <;> cases b3 <;> cases b4 <;> simp_all [Oak.weight]

theorem WLe.weight_lt {a b : WFA} (h : WLe a b) (hs : a.canSucceed = b.canSucceed) (hne : a ≠ b) : Oak.weight a < Oak.weight b := by
  obtain ⟨a1, a2, a3, a4⟩ := a
  obtain ⟨b1, b2, b3, b4⟩ := b
  have := h.cf; have := h.ac; have := h.nc
  revert this
  cases a1 <;> cases a3 <;> cases a4 <;> cases b1 <;> cases b3 <;> cases b4 <;> simp_all [Oak.weight]

/-- Sum of the weights of rules. -/
def total (W : String → WFA) : List String → Nat
  | [] => 0
  | r :: rs => weight (W r) + total W rs

theorem total_mono {W W' : String → WFA} (h : ∀ r, WLe (W r) (W' r)) (rs : List String) : total W rs ≤ total W' rs := by
  induction rs with
  | nil => exact Nat.le_refl _
  | cons r rs ih => have := (h r).weight; simp only [total]; omega

theorem total_lt {W W' : String → WFA} (h : ∀ r, WLe (W r) (W' r)) {rs : List String} {r : String} (hr : r ∈ rs) (hlt : weight (W r) < weight (W' r)) :
    total W rs < total W' rs := by
  induction rs with
  | nil => cases hr
  | cons x rs ih =>
    simp only [total]
    cases hr with
    | head => have := total_mono h rs; omega
    | tail _ hr => have := ih hr; have := (h x).weight; omega

theorem total_le (W : String → WFA) (rs : List String) : total W rs ≤ 3 * rs.length := by
  induction rs with
  | nil => exact Nat.le_refl _
  | cons r rs ih =>
    have : weight (W r) ≤ 3 := by
      unfold weight
      cases (W r).canFail <;> cases (W r).alwaysConsume <;> cases (W r).neverConsume <;> decide
    simp only [total, List.length_cons]; omega

/-- What clean visits preserve. -/
structure CInv (G : Grammar) (st : WState) : Prop where
  le : ∀ r e, G.find r = some e → WLe (attr st.W e) (st.W r)
  cs : ∀ r, (st.W r).canSucceed = true

/-- What clean visits do. -/
structure CStep (G : Grammar) (st st' : WState) : Prop where
  inv : CInv G st'
  le : ∀ r, WLe (st'.W r) (st.W r)
  path : ∀ x ∈ st.path, st'.W x.1 = st.W x.1
  measure : (st'.wfa = st.wfa ∧ st'.fixpoint = st.fixpoint) ∨
    (st'.fixpoint = false ∧ total st'.W (G.rules.map (·.1)) < total st.W (G.rules.map (·.1)))

/-- What clean visits compute. -/
def CClaim (st : WState) (w : WFA) (st' : WState) : Task → Prop
  | .expr e => WLe (attr st'.W e) w ∧ WLe w (attr st.W e) ∧ w.canSucceed = true
  | .walk e => WLe (attr st'.W e) w ∧ WLe w (attr st.W e)
  | .seq w0 es => WLe (attrSeq st'.W w0 es) w ∧ WLe w (attrSeq st.W w0 es)
  | .choice _ w0 es => WLe (attrChoice st'.W w0 es) w ∧ WLe w (attrChoice st.W w0 es)
  | .rule r => w = st'.W r

theorem CStep.refl {st : WState} (h : CInv G st) : CStep G st st := ⟨h, fun _ => .refl _, fun _ _ => rfl, .inl ⟨rfl, rfl⟩⟩

theorem CStep.trans {a b c : WState} (h : CStep G a b) (h' : CStep G b c) (hp : b.path = a.path) : CStep G a c := by
  refine ⟨h'.inv, fun r => (h'.le r).trans (h.le r), fun x hx => (h'.path x (hp ▸ hx)).trans (h.path x hx), ?_⟩
  have h1 := total_mono h.le (G.rules.map (·.1))
  have h2 := total_mono h'.le (G.rules.map (·.1))
  rcases h.measure with ⟨e1, e2⟩ | ⟨e1, e2⟩
  · rcases h'.measure with ⟨f1, f2⟩ | ⟨f1, f2⟩
    · exact .inl ⟨f1.trans e1, f2.trans e2⟩
    · exact .inr ⟨f1, by omega⟩
  · rcases h'.measure with ⟨f1, f2⟩ | ⟨f1, f2⟩
    · exact .inr ⟨f2.trans e1, by omega⟩
    · exact .inr ⟨f1, by omega⟩

theorem Visit.clean {T st w st'} (h : Visit G T st w st') (he : EInv st) (hw : st'.wellFormed = true) (hi : CInv G st) :
    CStep G st st' ∧ CClaim st w st' T := by
  induction h with
  | @check e st w st1 w' st' hv hc ih =>
    obtain ⟨h1, _⟩ := hv.einv he
    obtain ⟨_, h4⟩ := checkExpr_clean hc h1
    obtain ⟨rfl, rfl, h5⟩ := h4 hw
    obtain ⟨h6, h7⟩ := ih he hw hi
    exact ⟨h6, h7.1, h7.2, h5⟩
  | str => exact ⟨.refl hi, .refl _, .refl _⟩
  | any => exact ⟨.refl hi, .refl _, .refl _⟩
  | cls => exact ⟨.refl hi, .refl _, .refl _⟩
  | ext => exact ⟨.refl hi, .refl _, .refl _⟩
  | @nt i r st w st' hv ih =>
    obtain ⟨h1, h2⟩ := ih he hw hi
    have h2 : w = st'.W r := h2
    subst h2
    exact ⟨h1, .refl _, h1.le r⟩
  | @seq i es st w st' hv ih =>
    obtain ⟨h1, h2⟩ := ih he hw hi
    exact ⟨⟨⟨h1.inv.le, h1.inv.cs⟩, h1.le, h1.path, h1.measure⟩, h2⟩
  | choice hv ih => exact ih he hw hi
  | @star i c st w st1 w' st' hv hr ih =>
    obtain ⟨h1, _⟩ := hv.einv he
    obtain ⟨_, h4⟩ := wfaRepeat_clean hr h1
    obtain ⟨rfl, rfl, _⟩ := h4 hw
    obtain ⟨h6, h7⟩ := ih he hw hi
    exact ⟨h6, h7.1.always, h7.2.1.always⟩
  | @plus i c st w st1 w' st' hv hr ih =>
    obtain ⟨h1, _⟩ := hv.einv he
    obtain ⟨_, h4⟩ := wfaRepeat_clean hr h1
    obtain ⟨rfl, rfl, _⟩ := h4 hw
    obtain ⟨h6, h7⟩ := ih he hw hi
    exact ⟨h6, h7.1, h7.2.1⟩
  | opt hv ih =>
    obtain ⟨h6, h7⟩ := ih he hw hi
    exact ⟨h6, h7.1.always, h7.2.1.always⟩
  | @not i c st w st' hv ih =>
    obtain ⟨h6, h7⟩ := ih he hw hi
    have hcs := h7.2.2
    refine ⟨h6, ⟨fun _ => hcs, id, fun _ => rfl⟩, ⟨fun _ => rfl, id, fun _ => rfl⟩⟩
  | and hv ih =>
    obtain ⟨h6, h7⟩ := ih he hw hi
    exact ⟨h6, h7.1.predicate, h7.2.1.predicate⟩
  | act hv ih => obtain ⟨h6, h7⟩ := ih he hw hi; exact ⟨h6, h7.1, h7.2.1⟩
  | asc hv ih => obtain ⟨h6, h7⟩ := ih he hw hi; exact ⟨h6, h7.1, h7.2.1⟩
  | span hv ih => obtain ⟨h6, h7⟩ := ih he hw hi; exact ⟨h6, h7.1, h7.2.1⟩
  | range hv ih => obtain ⟨h6, h7⟩ := ih he hw hi; exact ⟨h6, h7.1, h7.2.1⟩
  | seq_nil => exact ⟨.refl hi, .refl _, .refl _⟩
  | @seq_cons w e es st c st1 w' st' hv1 hv2 ih1 ih2 =>
    have e1 := (hv1.einv he).1
    have hw1 : st1.wellFormed = true := by
      have := (hv2.einv (by split <;> exact e1)).2 hw
      split at this <;> exact this
    obtain ⟨h1, h2, h3, _⟩ := ih1 he hw1 hi
    have hW : ∀ st2, (if c.alwaysConsume = true then { st1 with consumed := true } else st1) = st2 → st2.W = st1.W ∧ st2.path = st1.path ∧
        st2.wfa = st1.wfa ∧ st2.fixpoint = st1.fixpoint := by
      intro st2 h; subst h; split <;> exact ⟨rfl, rfl, rfl, rfl⟩
    generalize hst2 : (if c.alwaysConsume = true then { st1 with consumed := true } else st1) = st2 at *
    obtain ⟨hW1, hW2, hW3, hW4⟩ := hW st2 rfl
    obtain ⟨h4, h5, h6⟩ := ih2 (by rw [← hst2]; split <;> exact e1) hw ⟨by rw [hW1]; exact h1.inv.le, by rw [hW1]; exact h1.inv.cs⟩
    have h4' : CStep G st1 st' := ⟨h4.inv, by rw [← hW1]; exact h4.le, by rw [← hW1, ← hW2]; exact h4.path, by rw [← hW1, ← hW3, ← hW4]; exact h4.measure⟩
    refine ⟨h1.trans h4' hv1.frame.1, ?_, ?_⟩
    · show WLe (attrSeq st'.W w (e :: es)) w'
      rw [attrSeq]
      exact (attrSeq_mono (fun _ => .refl _) es ((WLe.refl w).elem ((attr_mono h4'.le e).trans h2))).trans h5
    · show WLe w' (attrSeq st.W w (e :: es))
      rw [attrSeq]
      refine h6.trans (attrSeq_mono ?_ es ((WLe.refl w).elem h3))
      rw [hW1]; exact h1.le
  | choice_nil => exact ⟨.refl hi, .refl _, .refl _⟩
  | choice_stop hv _ _ =>
    exact absurd hw (by rw [report_dirty (by exact (hv.einv he).1)]; simp)
  | @choice_next this w e es st c st1 w' st' hv1 _ hv2 ih1 ih2 =>
    have e1 := (hv1.einv he).1
    have hw1 : st1.wellFormed = true := (hv2.einv e1).2 hw
    obtain ⟨h1, h2, h3, _⟩ := ih1 he hw1 hi
    obtain ⟨h4, h5, h6⟩ := ih2 e1 hw ⟨h1.inv.le, h1.inv.cs⟩
    have h4' : CStep G st1 st' := ⟨h4.inv, h4.le, h4.path, h4.measure⟩
    refine ⟨h1.trans h4' hv1.frame.1, ?_, ?_⟩
    · show WLe (attrChoice st'.W w (e :: es)) w'
      rw [attrChoice]
      exact (attrChoice_mono (fun _ => .refl _) es ((WLe.refl w).branch ((attr_mono h4'.le e).trans h2))).trans h5
    · show WLe w' (attrChoice st.W w (e :: es))
      rw [attrChoice]
      exact h6.trans (attrChoice_mono h1.le es ((WLe.refl w).branch h3))
  | @rule_rec r st w _ _ h => exact ⟨.refl hi, by simp [CClaim, WState.W, h]⟩
  | @rule_left r st e w _ _ _ _ h =>
    rw [report_dirty (fun h => by cases h)] at hw; cases hw
  | @rule_same r st e w st1 _ he' hv h _ ih =>
    obtain ⟨h1, h2⟩ := ih he hw ⟨hi.le, hi.cs⟩
    refine ⟨⟨⟨h1.inv.le, h1.inv.cs⟩, h1.le, fun x hx => h1.path x (List.mem_cons_of_mem _ hx), h1.measure⟩, ?_⟩
    simp [CClaim, WState.W, h]
  | @rule_new r st e w st1 old hrec he' hv ho hne hlen ih =>
    obtain ⟨h1, h2, h3, h4⟩ := ih he hw ⟨hi.le, hi.cs⟩
    have hr1 : st1.W r = st.W r := h1.path (r, st.consumed) (by simp [WState.push])
    have hold : st1.W r = old := by simp [WState.W, ho]
    have hle : WLe w (st1.W r) := by rw [hr1]; exact h3.trans (hi.le r e he')
    let W' := fun x => if x = r then w else st1.W x
    have hW' : ∀ x, WLe (W' x) (st1.W x) := by
      intro x
      show WLe (if x = r then w else st1.W x) (st1.W x)
      split
      · rename_i h; subst h; exact hle
      · exact .refl _
    have hW : ∀ st2 : WState, st2.wfa = (fun x => if x = r then some w else st1.wfa x) → st2.W = W' := by
      intro st2 h
      funext x
      simp only [WState.W, h, W']
      split <;> rfl
    have hr' : r ∈ G.rules.map (·.1) := find_isSome_mem (by simp [he'])
    have hlt : total W' (G.rules.map (·.1)) < total st1.W (G.rules.map (·.1)) := by
      refine total_lt hW' hr' ?_
      show weight (if r = r then w else _) < _
      rw [if_pos rfl]
      refine hle.weight_lt ?_ (by rw [hold]; exact hne)
      rw [h4, h1.inv.cs]
    have hmono := total_mono h1.le (G.rules.map (·.1))
    refine ⟨⟨⟨?_, ?_⟩, ?_, ?_, ?_⟩, ?_⟩
    · intro x b hb
      rw [hW _ rfl]
      show WLe _ (if x = r then w else st1.W x)
      split
      · rename_i h; subst h
        rw [he'] at hb; cases hb
        exact (attr_mono hW' e).trans h2
      · exact (attr_mono hW' b).trans (h1.inv.le x b hb)
    · intro x
      rw [hW _ rfl]
      show WFA.canSucceed (if x = r then w else st1.W x) = true
      split
      · exact h4
      · exact h1.inv.cs x
    · intro x
      rw [hW _ rfl]
      exact (hW' x).trans (h1.le x)
    · intro x hx
      rw [hW _ rfl]
      show (if x.1 = r then w else st1.W x.1) = _
      split
      · rename_i h
        simp only [WState.isRec, List.any_eq_false] at hrec
        exact absurd (by simpa using h) (hrec x hx)
      · exact h1.path x (List.mem_cons_of_mem _ hx)
    · right
      refine ⟨rfl, ?_⟩
      rw [hW _ rfl]
      exact Nat.lt_of_lt_of_le hlt hmono
    · show w = WState.W _ r
      rw [hW _ rfl]
      simp [W']

end Oak
