import Verif.Model.WellFormed
import Verif.Spec.Resolved
/-!
The visits of the well-formedness analysis as a relation, and their totality.
-/
set_option linter.constructorNameAsVariable false
set_option autoImplicit false

namespace Oak

/-- What is being visited. -/
inductive Task where
  | expr (e : Expr)
  | walk (e : Expr)
  | seq (w : WFA) (es : List Expr)
  | choice (this : Expr) (w : WFA) (es : List Expr)
  | rule (r : String)

/-- A finished visit, the attributes it returns and the states before and after. -/
inductive Visit (G : Grammar) : Task → WState → WFA → WState → Prop where
  | check {e st w st1 w' st'} : Visit G (.walk e) st w st1 → checkExpr e w st1 = .ok (w', st') → Visit G (.expr e) st w' st'
  | str {i l st} : Visit G (.walk (.str i l)) st (wfaStr l) st
  | any {i st} : Visit G (.walk (.any i)) st .dflt st
  | cls {i ivs st} : Visit G (.walk (.cls i ivs)) st .dflt st
  | ext {i p st} : Visit G (.walk (.ext i p)) st .dflt st
  | nt {i r st w st'} : Visit G (.rule r) st w st' → Visit G (.walk (.nt i r)) st w st'
  | seq {i es st w st'} : Visit G (.seq ⟨false, true, false, true⟩ es) st w st' →
      Visit G (.walk (.seq i es)) st w { st' with consumed := st.consumed }
  | choice {i es st w st'} : Visit G (.choice (.choice i es) ⟨true, false, true, true⟩ es) st w st' →
      Visit G (.walk (.choice i es)) st w st'
  | star {i c st w st1 w' st'} : Visit G (.expr c) st w st1 → wfaRepeat (.star i c) w st1 = (w', st') →
      Visit G (.walk (.star i c)) st (.alwaysSucceed w'.neverConsume) st'
  | plus {i c st w st1 w' st'} : Visit G (.expr c) st w st1 → wfaRepeat (.plus i c) w st1 = (w', st') →
      Visit G (.walk (.plus i c)) st w' st'
  | opt {i c st w st'} : Visit G (.expr c) st w st' → Visit G (.walk (.opt i c)) st (.alwaysSucceed w.neverConsume) st'
  | not {i c st w st'} : Visit G (.expr c) st w st' → Visit G (.walk (.not i c)) st (wfaNot w) st'
  | and {i c st w st'} : Visit G (.expr c) st w st' → Visit G (.walk (.and i c)) st (wfaPredicate w) st'
  | act {i c b f st w st'} : Visit G (.expr c) st w st' → Visit G (.walk (.act i c b f)) st w st'
  | asc {i c t st w st'} : Visit G (.expr c) st w st' → Visit G (.walk (.asc i c t)) st w st'
  | span {i c st w st'} : Visit G (.expr c) st w st' → Visit G (.walk (.span i c)) st w st'
  | range {i c st w st'} : Visit G (.expr c) st w st' → Visit G (.walk (.range i c)) st w st'
  | seq_nil {w st} : Visit G (.seq w []) st w st
  | seq_cons {w e es st c st1 w' st'} : Visit G (.expr e) st c st1 →
      Visit G (.seq (wfaElem w c) es) (if c.alwaysConsume then { st1 with consumed := true } else st1) w' st' →
      Visit G (.seq w (e :: es)) st w' st'
  | choice_nil {this w st} : Visit G (.choice this w []) st w st
  | choice_stop {this w e es st c st1} : Visit G (.expr e) st c st1 → es ≠ [] → c.canFail = false →
      Visit G (.choice this w (e :: es)) st (wfaBranch w c)
        (WState.report { st1 with consumed := st.consumed } e.id (.unreachable this e))
  | choice_next {this w e es st c st1 w' st'} : Visit G (.expr e) st c st1 → (es = [] ∨ c.canFail = true) →
      Visit G (.choice this (wfaBranch w c) es) { st1 with consumed := st.consumed } w' st' →
      Visit G (.choice this w (e :: es)) st w' st'
  | rule_rec {r st w} : st.isRec r = true → (st.consumeInputSince r = true ∨ st.consumed = true) → st.wfa r = some w →
      Visit G (.rule r) st w st
  | rule_left {r st e w} : st.isRec r = true → st.consumeInputSince r = false → st.consumed = false → G.find r = some e →
      st.wfa r = some w → Visit G (.rule r) st w (WState.report { st with wellFormed := false } e.id (.leftRecursion r (r :: ((st.recPathFrom r).map (·.1)).reverse)))
  | rule_same {r st e w st1} : st.isRec r = false → G.find r = some e → Visit G (.expr e) (st.push r) w st1 → st1.wfa r = some w →
      st1.path.tail.length = st.path.length → Visit G (.rule r) st w { st1 with path := st1.path.tail, consumed := (st1.path.head?.map (·.2)).getD false }
  | rule_new {r st e w st1 old} : st.isRec r = false → G.find r = some e → Visit G (.expr e) (st.push r) w st1 → st1.wfa r = some old → w ≠ old →
      st1.path.tail.length = st.path.length → Visit G (.rule r) st w { st1 with
        path := st1.path.tail, consumed := (st1.path.head?.map (·.2)).getD false,
        fixpoint := false, wfa := fun x => if x = r then some w else st1.wfa x }

theorem WState.report_path (st : WState) (i d) : (st.report i d).path = st.path := by unfold report; split <;> rfl
theorem WState.report_consumed (st : WState) (i d) : (st.report i d).consumed = st.consumed := by unfold report; split <;> rfl
theorem WState.report_wfa (st : WState) (i d) : (st.report i d).wfa = st.wfa := by unfold report; split <;> rfl
theorem WState.report_fixpoint (st : WState) (i d) : (st.report i d).fixpoint = st.fixpoint := by unfold report; split <;> rfl

/-- Attributes of visited expressions. -/
def Wok (w : WFA) : Prop := w.canSucceed = true ∧ ¬ (w.alwaysConsume = true ∧ w.neverConsume = true) ∧ (w.canFail = false → w.neverConsume = false)

/-- Attributes before the checks. -/
def Wraw (w : WFA) : Prop := (w.canFail = true ∨ w.canSucceed = true) ∧ ¬ (w.alwaysConsume = true ∧ w.neverConsume = true)

theorem Wok.raw {w : WFA} (h : Wok w) : Wraw w := ⟨.inr h.1, h.2.1⟩

/-- What every state has in common. -/
structure WGood (G : Grammar) (st : WState) : Prop where
  wfa : ∀ r, (G.find r).isSome = true → ∃ w, st.wfa r = some w ∧ Wok w
  nodup : (st.path.map (·.1)).Nodup
  sub : ∀ x ∈ st.path, (G.find x.1).isSome = true

theorem WGood.congr {G : Grammar} {st st' : WState} (h : WGood G st) (h1 : st'.wfa = st.wfa) (h2 : st'.path = st.path) : WGood G st' :=
  ⟨by rw [h1]; exact h.wfa, by rw [h2]; exact h.nodup, by rw [h2]; exact h.sub⟩

theorem checkExpr_ok (e : Expr) {w : WFA} (h : Wraw w) (st : WState) : ∃ w' st', checkExpr e w st = .ok (w', st') ∧ Wok w' ∧
    st'.wfa = st.wfa ∧ st'.path = st.path ∧ st'.consumed = st.consumed := by
  obtain ⟨h1, h2⟩ := h
  obtain ⟨a, b, c, d⟩ := w
  unfold checkExpr
  cases a <;> cases b <;> cases c <;> cases d <;> simp at h1 h2 <;>
    exact ⟨_, _, rfl, by simp [Wok], by first | rfl | exact WState.report_wfa _ _ _, by first | rfl | exact WState.report_path _ _ _,
      by first | rfl | exact WState.report_consumed _ _ _⟩

theorem wfaRepeat_ok (e : Expr) {w : WFA} (h : Wok w) (st : WState) : Wok (wfaRepeat e w st).1 ∧
    (wfaRepeat e w st).2.wfa = st.wfa ∧ (wfaRepeat e w st).2.path = st.path ∧ (wfaRepeat e w st).2.consumed = st.consumed := by
  unfold wfaRepeat
  split
  · exact ⟨⟨rfl, by simp [WFA.dflt], by simp [WFA.dflt]⟩, st.report_wfa _ _, st.report_path _ _, st.report_consumed _ _⟩
  · exact ⟨h, rfl, rfl, rfl⟩

/-- The result of a visit from `st`. -/
def VisitRes (G : Grammar) (T : Task) (st : WState) (P : WFA → Prop) (x : Res (WFA × WState)) : Prop :=
  ∃ w st', x = .ok (w, st') ∧ Visit G T st w st' ∧ P w ∧ WGood G st' ∧ st'.path = st.path ∧ st'.consumed = st.consumed

variable {G : Grammar}

/-- Visits of expressions return if visits of rules do. -/
theorem visitExpr_total (vr : String → WState → Res (WFA × WState)) (P : List (String × Bool))
    (hvr : ∀ r st, (G.find r).isSome = true → WGood G st → st.path = P → VisitRes G (.rule r) st Wok (vr r st)) (e : Expr) :
    ∀ st, WGood G st → st.path = P → e.resolved G = true → e.shaped = true → VisitRes G (.expr e) st Wok (visitExpr vr e st) := by
  have finish : ∀ {e : Expr} {st w st1}, Visit G (.walk e) st w st1 → Wraw w → WGood G st1 → st1.path = st.path → st1.consumed = st.consumed →
      VisitRes G (.expr e) st Wok (checkExpr e w st1) := by
    intro e st w st1 hv hw hg hp hc
    obtain ⟨w', st', h1, h2, h3, h4, h5⟩ := checkExpr_ok e hw st1
    exact ⟨w', st', h1, .check hv h1, h2, hg.congr h3 h4, h4.trans hp, h5.trans hc⟩
  have raw_dflt : Wraw .dflt := by simp [Wraw, WFA.dflt]
  have raw_always : ∀ b, Wraw (.alwaysSucceed b) := by intro b; simp [Wraw, WFA.alwaysSucceed]
  have bind : ∀ {T st P x} {f : WFA × WState → Res (WFA × WState)} {y : Res (WFA × WState) → Prop}, VisitRes G T st P x →
      (∀ w st', Visit G T st w st' → P w → WGood G st' → st'.path = st.path → st'.consumed = st.consumed → y (f (w, st'))) → y (x >>= f) := by
    intro T st P x f y ⟨w, st', h, h1, h2, h3, h4, h5⟩ hf
    subst h
    exact hf w st' h1 h2 h3 h4 h5
  induction e using Expr.ind with
  | str i l =>
    intro st hg hp _ _
    refine finish .str ?_ hg rfl rfl
    unfold wfaStr; split
    · simp [Wraw, WFA.dflt]
    · exact raw_dflt
  | any i => intro st hg hp _ _; exact finish .any raw_dflt hg rfl rfl
  | cls i ivs => intro st hg hp _ _; exact finish .cls raw_dflt hg rfl rfl
  | ext i p => intro st hg hp _ _; exact finish .ext raw_dflt hg rfl rfl
  | nt i r =>
    intro st hg hp hr _
    unfold visitExpr
    refine bind (hvr r st (by simpa [Expr.resolved] using hr) hg hp) ?_
    intro w st' hv hw hg' hp' hc
    exact finish (.nt hv) hw.raw hg' hp' hc
  | seq i es ih =>
    intro st hg hp hr hs
    simp only [Expr.resolved] at hr
    simp only [Expr.shaped] at hs
    have key : ∀ (es : List Expr), (∀ e ∈ es, ∀ st, WGood G st → st.path = P → e.resolved G = true → e.shaped = true →
          VisitRes G (.expr e) st Wok (visitExpr vr e st)) → resolvedAll G es = true → shapedAll es = true →
        ∀ (w : WFA) st, (w.canSucceed = true ∧ ¬ (w.alwaysConsume = true ∧ w.neverConsume = true)) → WGood G st → st.path = P →
        ∃ w' st', visitSeq vr w es st = .ok (w', st') ∧ Visit G (.seq w es) st w' st' ∧
          (w'.canSucceed = true ∧ ¬ (w'.alwaysConsume = true ∧ w'.neverConsume = true)) ∧ WGood G st' ∧ st'.path = st.path := by
      intro es
      induction es with
      | nil => intro _ _ _ w st hw hg hp; exact ⟨w, st, by unfold visitSeq; rfl, .seq_nil, hw, hg, rfl⟩
      | cons e es ihl =>
        intro ih hr hs w st hw hg hp
        simp only [resolvedAll, Bool.and_eq_true] at hr
        simp only [shapedAll, Bool.and_eq_true] at hs
        obtain ⟨c, st1, h1, h2, h3, h4, h5, h6⟩ := ih e List.mem_cons_self st hg hp hr.1 hs.1
        obtain ⟨w', st', k1, k2, k3, k4, k5⟩ := ihl (fun e he => ih e (List.mem_cons_of_mem _ he)) hr.2 hs.2 (wfaElem w c)
          (if c.alwaysConsume then { st1 with consumed := true } else st1)
          (by
            obtain ⟨a1, a2, a3, a4⟩ := w
            obtain ⟨b1, b2, b3, b4⟩ := c
            simp only [Wok, wfaElem] at *
            cases a3 <;> cases a4 <;> cases b3 <;> cases b4 <;> simp_all)
          (by split <;> exact h4.congr rfl rfl) (by split <;> exact h5.trans hp)
        refine ⟨w', st', ?_, .seq_cons h2 k2, k3, k4, k5.trans ?_⟩
        · unfold visitSeq; rw [h1]; exact k1
        · split <;> exact h5
    obtain ⟨w', st', k1, k2, k3, k4, k5⟩ := key es ih hr hs ⟨false, true, false, true⟩ st (by simp) hg hp
    unfold visitExpr
    simp only [k1, Res.bind_ok]
    exact finish (.seq k2) ⟨.inr k3.1, k3.2⟩ (k4.congr rfl rfl) k5 rfl
  | choice i es ih =>
    intro st hg hp hr hs
    simp only [Expr.resolved] at hr
    simp only [Expr.shaped, Bool.and_eq_true] at hs
    have key : ∀ (es : List Expr), (∀ e ∈ es, ∀ st, WGood G st → st.path = P → e.resolved G = true → e.shaped = true →
          VisitRes G (.expr e) st Wok (visitExpr vr e st)) → resolvedAll G es = true → shapedAll es = true →
        ∀ this (w : WFA) st, ((w = ⟨true, false, true, true⟩ ∧ es ≠ []) ∨
          (w.canSucceed = true ∧ ¬ (w.alwaysConsume = true ∧ w.neverConsume = true))) → WGood G st → st.path = P →
        ∃ w' st', visitChoice vr this w es st = .ok (w', st') ∧ Visit G (.choice this w es) st w' st' ∧
          (w'.canSucceed = true ∧ ¬ (w'.alwaysConsume = true ∧ w'.neverConsume = true)) ∧ WGood G st' ∧ st'.path = st.path ∧
          st'.consumed = st.consumed := by
      intro es
      induction es with
      | nil =>
        intro _ _ _ this w st hw hg hp
        refine ⟨w, st, by unfold visitChoice; rfl, .choice_nil, ?_, hg, rfl, rfl⟩
        rcases hw with ⟨_, h⟩ | h
        · exact absurd rfl h
        · exact h
      | cons e es ihl =>
        intro ih hr hs this w st hw hg hp
        simp only [resolvedAll, Bool.and_eq_true] at hr
        simp only [shapedAll, Bool.and_eq_true] at hs
        obtain ⟨c, st1, h1, h2, h3, h4, h5, h6⟩ := ih e List.mem_cons_self st hg hp hr.1 hs.1
        have hb : (wfaBranch w c).canSucceed = true ∧ ¬ ((wfaBranch w c).alwaysConsume = true ∧ (wfaBranch w c).neverConsume = true) := by
          obtain ⟨a1, a2, a3, a4⟩ := w
          obtain ⟨b1, b2, b3, b4⟩ := c
          simp only [Wok, wfaBranch] at *
          cases a3 <;> cases a4 <;> cases b3 <;> cases b4 <;> simp_all
        by_cases hcond : (!es.isEmpty && !c.canFail) = true
        · refine ⟨wfaBranch w c, _, ?_, .choice_stop h2 (by rintro rfl; simp at hcond) (by simp at hcond; exact hcond.2), hb, ?_, ?_, ?_⟩
          · unfold visitChoice; rw [h1]; simp only [Res.bind_ok, hcond, if_true]
          · exact (h4.congr (st' := { st1 with consumed := st.consumed }) rfl rfl).congr (WState.report_wfa _ _ _) (WState.report_path _ _ _)
          · rw [WState.report_path]; exact h5
          · rw [WState.report_consumed]
        · obtain ⟨w', st', k1, k2, k3, k4, k5, k6⟩ := ihl (fun e he => ih e (List.mem_cons_of_mem _ he)) hr.2 hs.2 this (wfaBranch w c)
            { st1 with consumed := st.consumed } (.inr hb) (h4.congr rfl rfl) (h5.trans hp)
          refine ⟨w', st', ?_, .choice_next h2 ?_ k2, k3, k4, k5.trans h5, k6⟩
          · unfold visitChoice; rw [h1]; simp only [Res.bind_ok, hcond, if_false, Bool.false_eq_true]; exact k1
          · cases es with
            | nil => exact .inl rfl
            | cons _ _ => right; simpa using hcond
    obtain ⟨w', st', k1, k2, k3, k4, k5, k6⟩ := key es ih hr hs.2 (.choice i es) ⟨true, false, true, true⟩ st
      (.inl ⟨rfl, by rintro rfl; simp at hs⟩) hg hp
    unfold visitExpr
    simp only [k1, Res.bind_ok]
    exact finish (.choice k2) ⟨.inr k3.1, k3.2⟩ k4 k5 k6
  | star i c ih =>
    intro st hg hp hr hs
    unfold visitExpr
    refine bind (ih st hg hp (by simpa [Expr.resolved] using hr) (by simpa [Expr.shaped] using hs)) ?_
    intro w st' hv hw hg' hp' hc
    obtain ⟨h1, h2, h3, h4⟩ := wfaRepeat_ok (.star i c) hw st'
    exact finish (.star hv rfl) (raw_always _) (hg'.congr h2 h3) (h3.trans hp') (h4.trans hc)
  | plus i c ih =>
    intro st hg hp hr hs
    unfold visitExpr
    refine bind (ih st hg hp (by simpa [Expr.resolved] using hr) (by simpa [Expr.shaped] using hs)) ?_
    intro w st' hv hw hg' hp' hc
    obtain ⟨h1, h2, h3, h4⟩ := wfaRepeat_ok (.plus i c) hw st'
    exact finish (.plus hv rfl) h1.raw (hg'.congr h2 h3) (h3.trans hp') (h4.trans hc)
  | opt i c ih =>
    intro st hg hp hr hs
    unfold visitExpr
    refine bind (ih st hg hp (by simpa [Expr.resolved] using hr) (by simpa [Expr.shaped] using hs)) ?_
    intro w st' hv hw hg' hp' hc
    exact finish (.opt hv) (raw_always _) hg' hp' hc
  | not i c ih =>
    intro st hg hp hr hs
    unfold visitExpr
    refine bind (ih st hg hp (by simpa [Expr.resolved] using hr) (by simpa [Expr.shaped] using hs)) ?_
    intro w st' hv hw hg' hp' hc
    exact finish (.not hv) ⟨.inl hw.1, by simp [wfaNot, wfaPredicate]⟩ hg' hp' hc
  | and i c ih =>
    intro st hg hp hr hs
    unfold visitExpr
    refine bind (ih st hg hp (by simpa [Expr.resolved] using hr) (by simpa [Expr.shaped] using hs)) ?_
    intro w st' hv hw hg' hp' hc
    exact finish (.and hv) ⟨.inr hw.1, by simp [wfaPredicate]⟩ hg' hp' hc
  | act i c b f ih =>
    intro st hg hp hr hs
    unfold visitExpr
    refine bind (ih st hg hp (by simpa [Expr.resolved] using hr) (by simpa [Expr.shaped] using hs)) ?_
    intro w st' hv hw hg' hp' hc
    exact finish (.act hv) hw.raw hg' hp' hc
  | asc i c t ih =>
    intro st hg hp hr hs
    unfold visitExpr
    refine bind (ih st hg hp (by simpa [Expr.resolved] using hr) (by simpa [Expr.shaped] using hs)) ?_
    intro w st' hv hw hg' hp' hc
    exact finish (.asc hv) hw.raw hg' hp' hc
  | span i c ih =>
    intro st hg hp hr hs
    unfold visitExpr
    refine bind (ih st hg hp (by simpa [Expr.resolved] using hr) (by simpa [Expr.shaped] using hs)) ?_
    intro w st' hv hw hg' hp' hc
    exact finish (.span hv) hw.raw hg' hp' hc
  | range i c ih =>
    intro st hg hp hr hs
    unfold visitExpr
    refine bind (ih st hg hp (by simpa [Expr.resolved] using hr) (by simpa [Expr.shaped] using hs)) ?_
    intro w st' hv hw hg' hp' hc
    exact finish (.range hv) hw.raw hg' hp' hc

theorem length_le_of_nodup_subset {α : Type} [DecidableEq α] {a b : List α} (hn : a.Nodup) (h : ∀ x ∈ a, x ∈ b) : a.length ≤ b.length := by
  induction a generalizing b with
  | nil => simp
  | cons x a ih =>
    have hx := h x List.mem_cons_self
    have hn' := List.nodup_cons.1 hn
    have := ih (b := b.erase x) hn'.2 (fun y hy => (List.mem_erase_of_ne (by rintro rfl; exact hn'.1 hy)).2 (h y (List.mem_cons_of_mem _ hy)))
    rw [List.length_erase_of_mem hx] at this
    have hpos : 0 < b.length := List.length_pos_of_mem hx
    simp only [List.length_cons]; omega

theorem find_isSome_mem {r : String} (h : (G.find r).isSome = true) : r ∈ G.rules.map (·.1) := by
  unfold Grammar.find at h
  rw [Option.isSome_map] at h
  obtain ⟨x, hx⟩ := Option.isSome_iff_exists.1 h
  have h1 := List.mem_of_find?_eq_some hx
  have h2 := List.find?_some hx
  simp only [beq_iff_eq] at h2
  exact List.mem_map.2 ⟨x, h1, h2⟩

theorem grammar_find_mem {r : String} {e : Expr} (h : G.find r = some e) : (r, e) ∈ G.rules := by
  unfold Grammar.find at h
  simp only [Option.map_eq_some_iff] at h
  obtain ⟨x, hx, rfl⟩ := h
  have h1 := List.mem_of_find?_eq_some hx
  have h2 := List.find?_some hx
  simp only [beq_iff_eq] at h2
  rw [← h2]; exact h1

/-- With enough fuel for the rules that are not on the path, visits of rules return. -/
theorem visitRule_total (hres : G.resolved = true) (hsh : G.shaped = true) (n : Nat) : ∀ (r : String) (st : WState),
    (G.find r).isSome = true → WGood G st → G.rules.length < st.path.length + n → VisitRes G (.rule r) st Wok (visitRule G n r st) := by
  induction n with
  | zero =>
    intro r st hr hg hn
    have h := length_le_of_nodup_subset hg.nodup (b := G.rules.map (·.1)) (by
      intro x hx
      obtain ⟨y, hy, rfl⟩ := List.mem_map.1 hx
      exact find_isSome_mem (hg.sub y hy))
    simp only [List.length_map] at h
    omega
  | succ n ih =>
    intro r st hr hg hn
    obtain ⟨w, hw, hwok⟩ := hg.wfa r hr
    obtain ⟨e, he⟩ := Option.isSome_iff_exists.1 hr
    unfold visitRule enterRule
    by_cases hrec : st.isRec r = true
    · rw [if_pos hrec]
      by_cases hc : (!st.consumeInputSince r && !st.consumed) = true
      · rw [if_pos hc]
        simp only [Bool.and_eq_true, Bool.not_eq_true'] at hc
        refine ⟨w, WState.report { st with wellFormed := false } e.id (.leftRecursion r (r :: ((st.recPathFrom r).map (·.1)).reverse)), ?_, .rule_left hrec hc.1 hc.2 he hw, hwok, ?_, ?_, ?_⟩
        · simp only [WState.reportLeft, he, Res.bind_ok, WState.get, WState.report_wfa, hw]; rfl
        · exact (hg.congr (st' := { st with wellFormed := false }) rfl rfl).congr (WState.report_wfa _ _ _) (WState.report_path _ _ _)
        · rw [WState.report_path]
        · rw [WState.report_consumed]
      · rw [if_neg hc]
        refine ⟨w, st, ?_, .rule_rec hrec ?_ hw, hwok, hg, rfl, rfl⟩
        · simp only [Res.bind_ok, WState.get, hw]
        · simp only [Bool.and_eq_true, Bool.not_eq_true', not_and, Bool.not_eq_false] at hc
          by_cases h : st.consumeInputSince r = true
          · exact .inl h
          · exact .inr (hc (by simpa using h))
    · rw [if_neg hrec, he]
      have hrec' : st.isRec r = false := by simpa using hrec
      have hg1 : WGood G (st.push r) := by
        refine ⟨hg.wfa, ?_, ?_⟩
        · simp only [WState.push, List.map_cons, List.nodup_cons]
          refine ⟨?_, hg.nodup⟩
          intro hm
          obtain ⟨x, hx, hxr⟩ := List.mem_map.1 hm
          simp only [WState.isRec, List.any_eq_false] at hrec'
          exact hrec' x hx (by simp [hxr])
        · intro x hx
          cases hx with
          | head => exact hr
          | tail _ hx => exact hg.sub x hx
      have hmem := grammar_find_mem he
      have hre : e.resolved G = true := by
        simp only [Grammar.resolved, List.all_eq_true] at hres; exact hres _ hmem
      have hse : e.shaped = true := by
        simp only [Grammar.shaped, List.all_eq_true] at hsh; exact hsh _ hmem
      obtain ⟨w1, st1, h1, h2, h3, h4, h5, h6⟩ := visitExpr_total (visitRule G n) (st.push r).path
        (fun r' st' hr' hg' hp' => ih r' st' hr' hg' (by rw [hp']; simp only [WState.push, List.length_cons]; omega)) e (st.push r) hg1 rfl hre hse
      have hpath : st1.path = (r, st.consumed) :: st.path := h5
      have hpop : st1.pop = .ok { st1 with path := st1.path.tail, consumed := (st1.path.head?.map (·.2)).getD false } := by
        unfold WState.pop; rw [hpath]; rfl
      obtain ⟨old, ho, hook⟩ := h4.wfa r hr
      have hsub : ∀ {f : String → Option WFA}, (∀ x, (G.find x).isSome = true → ∃ w, f x = some w ∧ Wok w) → ∀ fx,
          WGood G { st1 with path := st1.path.tail, consumed := (st1.path.head?.map (·.2)).getD false, wfa := f, fixpoint := fx } := by
        intro f hf fx
        refine ⟨hf, ?_, ?_⟩
        · simp only [hpath, List.tail_cons]; exact hg.nodup
        · simp only [hpath, List.tail_cons]; exact hg.sub
      by_cases hne : w1 = old
      · subst hne
        refine ⟨w1, { st1 with path := st1.path.tail, consumed := (st1.path.head?.map (·.2)).getD false }, ?_,
          .rule_same hrec' he h2 ho (by rw [hpath]; rfl), h3, hsub h4.wfa _, by simp [hpath], by simp [hpath]⟩
        simp only [h1, Res.bind_ok, hpop, WState.update, WState.get, ho, ne_eq, not_true, if_false]
      · refine ⟨w1, _, ?_, .rule_new hrec' he h2 ho hne (by rw [hpath]; rfl), h3, ?_, by simp [hpath], by simp [hpath]⟩
        · simp only [h1, Res.bind_ok, hpop, WState.update, WState.get, ho, ne_eq, hne, not_false_eq_true, if_true]
        · apply hsub
          intro x hx
          by_cases hxr : x = r
          · exact ⟨w1, by simp [hxr], h3⟩
          · obtain ⟨w2, h7, h8⟩ := h4.wfa x hx
            exact ⟨w2, by simp [hxr, h7], h8⟩

/-! From results to visits, whatever the fuel. -/

theorem visitExpr_visit (vr : String → WState → Res (WFA × WState))
    (hvr : ∀ r st w st', vr r st = .ok (w, st') → Visit G (.rule r) st w st') (e : Expr) :
    ∀ st w st', visitExpr vr e st = .ok (w, st') → Visit G (.expr e) st w st' := by
  have wrap : ∀ {st w st' e} {x : Res (WFA × WState)} {f : WFA × WState → WFA × WState} {T : Task},
      (x >>= fun p => checkExpr e (f p).1 (f p).2) = .ok (w, st') →
      (∀ w st', x = .ok (w, st') → Visit G T st w st') →
      (∀ w st1, Visit G T st w st1 → Visit G (.walk e) st (f (w, st1)).1 (f (w, st1)).2) → Visit G (.expr e) st w st' := by
    intro st w st' e x f T h hx hf
    obtain ⟨⟨w1, st1⟩, h1, h2⟩ := Res.bind_eq_ok h
    exact .check (hf w1 st1 (hx w1 st1 h1)) h2
  induction e using Expr.ind with
  | str i l => intro st w st' h; exact .check .str h
  | any i => intro st w st' h; exact .check .any h
  | cls i ivs => intro st w st' h; exact .check .cls h
  | ext i p => intro st w st' h; exact .check .ext h
  | nt i r => intro st w st' h; unfold visitExpr at h; exact wrap (f := id) h (hvr r st) (fun w st1 hv => .nt hv)
  | seq i es ih =>
    intro st w st' h
    unfold visitExpr at h
    have key : ∀ (es : List Expr), (∀ e ∈ es, ∀ st w st', visitExpr vr e st = .ok (w, st') → Visit G (.expr e) st w st') →
        ∀ w0 st w st', visitSeq vr w0 es st = .ok (w, st') → Visit G (.seq w0 es) st w st' := by
      intro es
      induction es with
      | nil => intro _ w0 st w st' h; unfold visitSeq at h; cases h; exact .seq_nil
      | cons e es ihl =>
        intro ih w0 st w st' h
        unfold visitSeq at h
        obtain ⟨⟨c, st1⟩, h1, h2⟩ := Res.bind_eq_ok h
        exact .seq_cons (ih e List.mem_cons_self st c st1 h1) (ihl (fun e he => ih e (List.mem_cons_of_mem _ he)) _ _ _ _ h2)
    exact wrap (f := fun p => (p.1, { p.2 with consumed := st.consumed })) h (key es ih _ st) (fun w st1 hv => .seq hv)
  | choice i es ih =>
    intro st w st' h
    unfold visitExpr at h
    have key : ∀ (es : List Expr), (∀ e ∈ es, ∀ st w st', visitExpr vr e st = .ok (w, st') → Visit G (.expr e) st w st') →
        ∀ this w0 st w st', visitChoice vr this w0 es st = .ok (w, st') → Visit G (.choice this w0 es) st w st' := by
      intro es
      induction es with
      | nil => intro _ this w0 st w st' h; unfold visitChoice at h; cases h; exact .choice_nil
      | cons e es ihl =>
        intro ih this w0 st w st' h
        unfold visitChoice at h
        obtain ⟨⟨c, st1⟩, h1, h2⟩ := Res.bind_eq_ok h
        simp only at h2
        split at h2
        · rename_i hc
          cases h2
          exact .choice_stop (ih e List.mem_cons_self st c st1 h1) (by rintro rfl; simp at hc) (by simp at hc; exact hc.2)
        · rename_i hc
          refine .choice_next (ih e List.mem_cons_self st c st1 h1) ?_ (ihl (fun e he => ih e (List.mem_cons_of_mem _ he)) _ _ _ _ _ h2)
          cases es with
          | nil => exact .inl rfl
          | cons _ _ => right; simpa using hc
    exact wrap (f := id) h (key es ih _ _ st) (fun w st1 hv => .choice hv)
  | star i c ih =>
    intro st w st' h; unfold visitExpr at h
    exact wrap (f := fun p => (.alwaysSucceed (wfaRepeat (.star i c) p.1 p.2).1.neverConsume, (wfaRepeat (.star i c) p.1 p.2).2)) h (ih st)
      (fun w st1 hv => .star hv rfl)
  | plus i c ih =>
    intro st w st' h; unfold visitExpr at h
    exact wrap (f := fun p => wfaRepeat (.plus i c) p.1 p.2) h (ih st) (fun w st1 hv => .plus hv rfl)
  | opt i c ih =>
    intro st w st' h; unfold visitExpr at h
    exact wrap (f := fun p => (.alwaysSucceed p.1.neverConsume, p.2)) h (ih st) (fun w st1 hv => .opt hv)
  | not i c ih =>
    intro st w st' h; unfold visitExpr at h
    exact wrap (f := fun p => (wfaNot p.1, p.2)) h (ih st) (fun w st1 hv => .not hv)
  | and i c ih =>
    intro st w st' h; unfold visitExpr at h
    exact wrap (f := fun p => (wfaPredicate p.1, p.2)) h (ih st) (fun w st1 hv => .and hv)
  | act i c b f ih => intro st w st' h; unfold visitExpr at h; exact wrap (f := id) h (ih st) (fun w st1 hv => .act hv)
  | asc i c t ih => intro st w st' h; unfold visitExpr at h; exact wrap (f := id) h (ih st) (fun w st1 hv => .asc hv)
  | span i c ih => intro st w st' h; unfold visitExpr at h; exact wrap (f := id) h (ih st) (fun w st1 hv => .span hv)
  | range i c ih => intro st w st' h; unfold visitExpr at h; exact wrap (f := id) h (ih st) (fun w st1 hv => .range hv)

/-- Visits preserve the path, and the consumption flag except inside sequences. -/
theorem Visit.frame {T st w st'} (h : Visit G T st w st') : st'.path = st.path ∧ ((∀ w es, T ≠ .seq w es) → st'.consumed = st.consumed) := by
  have hcheck : ∀ {e w st w' st'}, checkExpr e w st = .ok (w', st') → st'.path = st.path ∧ st'.consumed = st.consumed := by
    intro e w st w' st' h
    unfold checkExpr at h
    obtain ⟨_, _, h⟩ := Res.bind_eq_ok h
    obtain ⟨_, _, h⟩ := Res.bind_eq_ok h
    split at h
    · cases h; exact ⟨WState.report_path _ _ _, WState.report_consumed _ _ _⟩
    · split at h
      · cases h; exact ⟨WState.report_path _ _ _, WState.report_consumed _ _ _⟩
      · cases h; exact ⟨rfl, rfl⟩
  have hrep : ∀ {e w st w' st'}, wfaRepeat e w st = (w', st') → st'.path = st.path ∧ st'.consumed = st.consumed := by
    intro e w st w' st' h
    unfold wfaRepeat at h
    split at h
    · cases h; exact ⟨WState.report_path _ _ _, WState.report_consumed _ _ _⟩
    · cases h; exact ⟨rfl, rfl⟩
  induction h with
  | check _ hc ih =>
    obtain ⟨h1, h2⟩ := hcheck hc
    exact ⟨h1.trans ih.1, fun _ => h2.trans (ih.2 (by simp))⟩
  | str => exact ⟨rfl, fun _ => rfl⟩
  | any => exact ⟨rfl, fun _ => rfl⟩
  | cls => exact ⟨rfl, fun _ => rfl⟩
  | ext => exact ⟨rfl, fun _ => rfl⟩
  | nt _ ih => exact ⟨ih.1, fun _ => ih.2 (by simp)⟩
  | seq _ ih => exact ⟨ih.1, fun _ => rfl⟩
  | choice _ ih => exact ⟨ih.1, fun _ => ih.2 (by simp)⟩
  | star _ hr ih =>
    obtain ⟨h1, h2⟩ := hrep hr
    exact ⟨h1.trans ih.1, fun _ => h2.trans (ih.2 (by simp))⟩
  | plus _ hr ih =>
    obtain ⟨h1, h2⟩ := hrep hr
    exact ⟨h1.trans ih.1, fun _ => h2.trans (ih.2 (by simp))⟩
  | opt _ ih => exact ⟨ih.1, fun _ => ih.2 (by simp)⟩
  | not _ ih => exact ⟨ih.1, fun _ => ih.2 (by simp)⟩
  | and _ ih => exact ⟨ih.1, fun _ => ih.2 (by simp)⟩
  | act _ ih => exact ⟨ih.1, fun _ => ih.2 (by simp)⟩
  | asc _ ih => exact ⟨ih.1, fun _ => ih.2 (by simp)⟩
  | span _ ih => exact ⟨ih.1, fun _ => ih.2 (by simp)⟩
  | range _ ih => exact ⟨ih.1, fun _ => ih.2 (by simp)⟩
  | seq_nil => exact ⟨rfl, fun _ => rfl⟩
  | seq_cons _ _ ih1 ih2 =>
    refine ⟨ih2.1.trans ?_, fun h => absurd rfl (h _ _)⟩
    split <;> exact ih1.1
  | choice_nil => exact ⟨rfl, fun _ => rfl⟩
  | choice_stop _ _ _ ih => exact ⟨by rw [WState.report_path]; exact ih.1, fun _ => by rw [WState.report_consumed]⟩
  | choice_next _ _ _ ih1 ih2 => exact ⟨ih2.1.trans ih1.1, fun _ => ih2.2 (by simp)⟩
  | rule_rec => exact ⟨rfl, fun _ => rfl⟩
  | rule_left => exact ⟨by rw [WState.report_path], fun _ => by rw [WState.report_consumed]⟩
  | rule_same _ _ _ _ _ ih => simp [ih.1, WState.push]
  | rule_new _ _ _ _ _ _ ih => simp [ih.1, WState.push]

theorem visitRule_visit (n : Nat) : ∀ r st w st', visitRule G n r st = .ok (w, st') → Visit G (.rule r) st w st' := by
  induction n with
  | zero => intro r st w st' h; cases h
  | succ n ih =>
    intro r st w st' h
    unfold visitRule at h
    obtain ⟨st3, h1, h2⟩ := Res.bind_eq_ok h
    obtain ⟨w', h3, h4⟩ := Res.bind_eq_ok h2
    cases h4
    unfold enterRule at h1
    have hget : st'.wfa r = some w := by
      unfold WState.get at h3
      split at h3
      · cases h3; assumption
      · cases h3
    split at h1
    · rename_i hrec
      split at h1
      · rename_i hc
        simp only [Bool.and_eq_true, Bool.not_eq_true'] at hc
        unfold WState.reportLeft at h1
        simp only at h1
        cases he : G.find r with
        | none => rw [he] at h1; cases h1
        | some e =>
          rw [he] at h1
          cases h1
          rw [WState.report_wfa] at hget
          exact .rule_left hrec hc.1 hc.2 he hget
      · rename_i hc
        cases h1
        refine .rule_rec hrec ?_ hget
        simp only [Bool.and_eq_true, Bool.not_eq_true', not_and, Bool.not_eq_false] at hc
        by_cases h : st.consumeInputSince r = true
        · exact .inl h
        · exact .inr (hc (by simpa using h))
    · rename_i hrec
      have hrec : st.isRec r = false := by simpa using hrec
      cases he : G.find r with
      | none => rw [he] at h1; cases h1
      | some e =>
        rw [he] at h1
        obtain ⟨⟨w1, st1⟩, h5, h6⟩ := Res.bind_eq_ok h1
        have hv := visitExpr_visit (visitRule G n) ih e _ _ _ h5
        have hpath : st1.path = (r, st.consumed) :: st.path := hv.frame.1
        obtain ⟨st2, h7, h8⟩ := Res.bind_eq_ok h6
        have hpop : st1.pop = .ok { st1 with path := st1.path.tail, consumed := (st1.path.head?.map (·.2)).getD false } := by
          unfold WState.pop; rw [hpath]; rfl
        rw [hpop] at h7
        cases h7
        unfold WState.update at h8
        obtain ⟨old, h9, h10⟩ := Res.bind_eq_ok h8
        have ho : st1.wfa r = some old := by
          unfold WState.get at h9
          simp only at h9
          split at h9
          · cases h9; assumption
          · cases h9
        split at h10
        · rename_i hne
          cases h10
          simp only [if_true, Option.some.injEq] at hget
          subst hget
          exact .rule_new hrec he hv ho hne (by rw [hpath]; rfl)
        · rename_i hne
          cases h10
          simp only [ne_eq, Decidable.not_not] at hne
          subst hne
          simp only at hget
          rw [ho] at hget
          cases hget
          exact .rule_same hrec he hv ho (by rw [hpath]; rfl)

end Oak
