import Verif.Proofs.WFClean
/-!
The well-formedness analysis terminates; accepted grammars repeat only expressions that consume, and leftmost calls are well-founded.
-/
set_option linter.constructorNameAsVariable false
set_option autoImplicit false

namespace Oak
open Spec
variable {G : Grammar}

/-- What holds between the visits of rules. -/
structure RInv (G : Grammar) (st : WState) : Prop where
  top : Top st
  good : WGood G st
  errors : EInv st
  clean : st.wellFormed = true → CInv G st

/-- Progress of the passes. -/
def Progress (G : Grammar) (st st' : WState) : Prop :=
  (st'.wfa = st.wfa ∧ st'.fixpoint = st.fixpoint) ∨ (st'.fixpoint = false ∧ total st'.W (G.rules.map (·.1)) < total st.W (G.rules.map (·.1)))

theorem Progress.trans {a b c : WState} (h : Progress G a b) (h' : Progress G b c) : Progress G a c := by
  have hW : ∀ {a b : WState}, b.wfa = a.wfa → b.W = a.W := by intro a b h; unfold WState.W; rw [h]
  rcases h with ⟨e1, e2⟩ | ⟨e1, e2⟩
  · rcases h' with ⟨f1, f2⟩ | ⟨f1, f2⟩
    · exact .inl ⟨f1.trans e1, f2.trans e2⟩
    · exact .inr ⟨f1, by rw [← hW e1]; exact f2⟩
  · rcases h' with ⟨f1, f2⟩ | ⟨f1, f2⟩
    · exact .inr ⟨f2.trans e1, by rw [hW f1]; exact e2⟩
    · exact .inr ⟨f1, Nat.lt_trans f2 e2⟩

theorem RInv.visit {st st' : WState} {r w} (h : RInv G st) (hv : Visit G (.rule r) st w st') (hg : WGood G st') :
    RInv G st' ∧ (st'.wellFormed = true → st.wellFormed = true ∧ Progress G st st') := by
  obtain ⟨e1, e2⟩ := hv.einv h.errors
  refine ⟨⟨⟨hv.frame.1.trans h.top.path, (hv.frame.2 (by simp)).trans h.top.consumed⟩, hg, e1, fun hw => ?_⟩, fun hw => ⟨e2 hw, ?_⟩⟩
  · exact (hv.clean h.errors hw (h.clean (e2 hw))).1.inv
  · exact (hv.clean h.errors hw (h.clean (e2 hw))).1.measure

theorem RInv.set {st : WState} (h : RInv G st) (b : Bool) : RInv G { st with fixpoint := b } :=
  ⟨⟨h.top.path, h.top.consumed⟩, h.good.congr rfl rfl, h.errors, fun hw => ⟨(h.clean hw).le, (h.clean hw).cs⟩⟩

theorem RInv.new : RInv G (.new G) := by
  have hW : ∀ r, (WState.new G).W r = .dflt := by
    intro r; unfold WState.W WState.new; simp only; split <;> rfl
  refine ⟨⟨rfl, rfl⟩, ⟨?_, List.nodup_nil, by intro x hx; cases hx⟩, fun _ => ⟨rfl, rfl⟩, fun _ => ⟨?_, ?_⟩⟩
  · intro r hr
    exact ⟨.dflt, by simp [WState.new, hr], by simp [Wok, WFA.dflt]⟩
  · intro r e he
    rw [hW]
    exact ⟨fun _ => rfl, fun _ => rfl, fun h => by cases h⟩
  · intro r; rw [hW]; rfl

theorem find_of_mem {x : String × Expr} (h : x ∈ G.rules) : (G.find x.1).isSome = true := by
  unfold Grammar.find
  rw [Option.isSome_map]
  exact List.find?_isSome.2 ⟨x, h, by simp⟩

theorem visitEach_total (hres : G.resolved = true) (hsh : G.shaped = true) {n : Nat} (hn : G.rules.length < n) (rs : List (String × Expr))
    (hrs : ∀ x ∈ rs, x ∈ G.rules) : ∀ st, RInv G st → ∃ st', visitEach G n rs st = .ok st' ∧ RInv G st' ∧
      (st'.wellFormed = true → st.wellFormed = true ∧ Progress G st st') := by
  induction rs with
  | nil => intro st h; exact ⟨st, rfl, h, fun hw => ⟨hw, .inl ⟨rfl, rfl⟩⟩⟩
  | cons x rs ih =>
    intro st h
    obtain ⟨r, e⟩ := x
    obtain ⟨w, st1, h1, hv, _, hg, _, _⟩ := visitRule_total hres hsh n r st (find_of_mem (hrs _ List.mem_cons_self)) h.good
      (by rw [h.top.path]; simpa using hn)
    obtain ⟨h2, h3⟩ := h.visit hv hg
    unfold visitEach
    rw [h1]
    simp only [Res.bind_ok]
    by_cases hw : st1.wellFormed = true
    · obtain ⟨st', h4, h5, h6⟩ := ih (fun x hx => hrs x (List.mem_cons_of_mem _ hx)) st1 h2
      refine ⟨st', by simp only [hw, Bool.not_true, Bool.false_eq_true, if_false]; exact h4, h5, fun hw' => ?_⟩
      obtain ⟨h7, h8⟩ := h6 hw'
      exact ⟨(h3 hw).1, (h3 hw).2.trans h8⟩
    · have hw : st1.wellFormed = false := by simpa using hw
      exact ⟨st1, by simp [hw], h2, fun h => by rw [hw] at h; cases h⟩

theorem visitRules_total (hres : G.resolved = true) (hsh : G.shaped = true) {n : Nat} (hn : G.rules.length < n) (m : Nat) : ∀ st, RInv G st →
    total st.W (G.rules.map (·.1)) + 2 ≤ m → ∃ st', visitRules G n m st = .ok st' := by
  induction m with
  | zero => intro st _ h; omega
  | succ m ih =>
    intro st h hm
    unfold visitRules
    by_cases hc : (!st.fixpoint && st.wellFormed) = true
    · rw [if_pos hc]
      obtain ⟨st1, h1, h2, h3⟩ := visitEach_total hres hsh hn G.rules (fun _ h => h) _ (h.set true)
      rw [h1]
      simp only [Res.bind_ok]
      have stop : (!st1.fixpoint && st1.wellFormed) = false → ∃ st', visitRules G n m st1 = .ok st' := by
        intro hs
        cases m with
        | zero => omega
        | succ m => exact ⟨st1, by unfold visitRules; rw [if_neg (by simp [hs])]⟩
      by_cases hw : st1.wellFormed = true
      · rcases (h3 hw).2 with ⟨_, h4⟩ | ⟨_, h4⟩
        · exact stop (by simp [h4])
        · refine ih st1 h2 ?_
          have : total (WState.W { st with fixpoint := true }) (G.rules.map (·.1)) = total st.W (G.rules.map (·.1)) := rfl
          omega
      · exact stop (by simp [hw])
    · rw [if_neg hc]; exact ⟨st, rfl⟩

/-- The analysis returns. -/
theorem wellFormedness_total (hres : G.resolved = true) (hsh : G.shaped = true) {n m : Nat} (hn : G.rules.length < n) (hm : 3 * G.rules.length + 2 ≤ m) :
    ∃ st, wellFormedness G n m = .ok st := by
  refine visitRules_total hres hsh hn m _ .new ?_
  have := total_le (WState.new G).W (G.rules.map (·.1))
  rw [List.length_map] at this
  omega

theorem visitEach_det {n n' : Nat} {rs : List (String × Expr)} {st st1 st2 : WState} (h1 : visitEach G n rs st = .ok st1)
    (h2 : visitEach G n' rs st = .ok st2) : st1 = st2 := by
  induction rs generalizing st with
  | nil => cases h1; cases h2; rfl
  | cons x rs ih =>
    obtain ⟨r, e⟩ := x
    unfold visitEach at h1 h2
    obtain ⟨⟨w1, s1⟩, a1, b1⟩ := Res.bind_eq_ok h1
    obtain ⟨⟨w2, s2⟩, a2, b2⟩ := Res.bind_eq_ok h2
    obtain ⟨rfl, rfl⟩ := (visitRule_visit n _ _ _ _ a1).det (visitRule_visit n' _ _ _ _ a2)
    simp only at b1 b2
    split at b1
    · rename_i hw; rw [if_pos hw] at b2; cases b1; cases b2; rfl
    · rename_i hw; rw [if_neg hw] at b2; exact ih b1 b2

theorem visitRules_det {n m n' m' : Nat} {st st1 st2 : WState} (h1 : visitRules G n m st = .ok st1) (h2 : visitRules G n' m' st = .ok st2) : st1 = st2 := by
  induction m generalizing st m' with
  | zero => cases h1
  | succ m ih =>
    cases m' with
    | zero => cases h2
    | succ m' =>
      unfold visitRules at h1 h2
      split at h1
      · rename_i hc
        rw [if_pos hc] at h2
        obtain ⟨s1, a1, b1⟩ := Res.bind_eq_ok h1
        obtain ⟨s2, a2, b2⟩ := Res.bind_eq_ok h2
        cases visitEach_det a1 a2
        exact ih b1 b2
      · rename_i hc
        rw [if_neg hc] at h2
        cases h1; cases h2; rfl

/-- The result does not depend on the fuel. -/
theorem wellFormedness_det {n m n' m' : Nat} {st1 st2 : WState} (h1 : wellFormedness G n m = .ok st1) (h2 : wellFormedness G n' m' = .ok st2) : st1 = st2 :=
  visitRules_det h1 h2

/-! The last pass. -/

/-- A visit that changes nothing, in a state reached without errors. -/
structure Stable (G : Grammar) (W : String → WFA) (st st' : WState) : Prop where
  errors : EInv st
  inv : CInv G st
  wf : st'.wellFormed = true
  fix : st'.fixpoint = true
  W : st'.W = W

theorem Visit.stable {T st w st'} {W : String → WFA} (h : Visit G T st w st') (hs : Stable G W st st') : st.wfa = st'.wfa ∧ st.W = W ∧ st.fixpoint = true := by
  rcases (h.clean hs.errors hs.wf hs.inv).1.measure with ⟨h1, h2⟩ | ⟨h1, _⟩
  · have : st.W = st'.W := by unfold WState.W; rw [h1]
    exact ⟨h1.symm, this.trans hs.W, h2 ▸ hs.fix⟩
  · rw [hs.fix] at h1; cases h1

theorem attrSeq_ac (W : String → WFA) (es : List Expr) : ∀ w, (attrSeq W w es).alwaysConsume = true ↔ w.alwaysConsume = true ∨ ∃ e ∈ es, (attr W e).alwaysConsume = true := by
  induction es with
  | nil => intro w; simp [attrSeq]
  | cons e es ih => intro w; rw [attrSeq, ih]; simp [wfaElem, or_assoc]

theorem attrChoice_ac (W : String → WFA) (es : List Expr) : ∀ w, (attrChoice W w es).alwaysConsume = true ↔ w.alwaysConsume = true ∧ ∀ e ∈ es, (attr W e).alwaysConsume = true := by
  induction es with
  | nil => intro w; simp [attrChoice]
  | cons e es ih => intro w; rw [attrChoice, ih]; simp [wfaBranch, and_assoc]

/-- Attributes that always consume are justified by the bodies of the rules. -/
def FixAc (G : Grammar) (W : String → WFA) : Prop := ∀ r e, G.find r = some e → (W r).alwaysConsume = true → (attr W e).alwaysConsume = true

theorem Nullable.attr {W : String → WFA} (hW : FixAc G W) {e : Expr} (h : Nullable G e) : (attr W e).alwaysConsume = false := by
  induction h with
  | str => rfl
  | nt he _ ih =>
    rw [Oak.attr]
    cases hr : (W _).alwaysConsume with
    | false => rfl
    | true => rw [hW _ _ he hr] at ih; cases ih
  | seq _ ih =>
    rw [Oak.attr, ← Bool.not_eq_true, attrSeq_ac]
    rintro (h | ⟨e, he, h⟩)
    · cases h
    · rw [ih e he] at h; cases h
  | choice he _ ih =>
    rw [Oak.attr, ← Bool.not_eq_true, attrChoice_ac]
    rintro ⟨_, h⟩
    rw [h _ he] at ih; cases ih
  | star => rw [Oak.attr]; rfl
  | plus _ ih => rw [Oak.attr]; exact ih
  | opt => rw [Oak.attr]; rfl
  | not => rw [Oak.attr]
  | and => rw [Oak.attr]; rfl
  | act _ ih => rw [Oak.attr]; exact ih
  | asc _ ih => rw [Oak.attr]; exact ih
  | span _ ih => rw [Oak.attr]; exact ih
  | range _ ih => rw [Oak.attr]; exact ih

/-- Repeated expressions of `e` are not nullable. -/
def RepOk (G : Grammar) (e : Expr) : Prop := ∀ i c, Sub (.star i c) e ∨ Sub (.plus i c) e → ¬ Nullable G c

/-- Leftmost calls of a task are well-founded. -/
def LeftAcc (G : Grammar) : Task → Prop
  | .expr e | .walk e => ∀ q, LeftCalls G q e → Acc (LeftStep G) q
  | .seq _ es => ∀ i q, LeftCalls G q (.seq i es) → Acc (LeftStep G) q
  | .choice _ _ es => ∀ e ∈ es, ∀ q, LeftCalls G q e → Acc (LeftStep G) q
  | .rule r => Acc (LeftStep G) r

/-- Repetitions of a task. -/
def TRepOk (G : Grammar) : Task → Prop
  | .expr e | .walk e => RepOk G e
  | .seq _ es | .choice _ _ es => ∀ e ∈ es, RepOk G e
  | .rule _ => True

/-- Nothing was consumed since the first rule of the path. -/
def AllFlags (st : WState) : Prop := st.consumed = false ∧ ∀ x ∈ st.path, x.2 = false

theorem RepOk.leaf {e : Expr} (h : ∀ x, Sub x e → x = e) (h1 : ∀ i c, e ≠ .star i c) (h2 : ∀ i c, e ≠ .plus i c) : RepOk G e := by
  rintro i c (h3 | h3)
  · exact absurd (h _ h3).symm (h1 i c)
  · exact absurd (h _ h3).symm (h2 i c)

theorem takeWhile_flags {st : WState} {r : String} (h : ∀ x ∈ st.path, x.2 = false) : st.consumeInputSince r = false := by
  unfold WState.consumeInputSince WState.recPathFrom
  rw [List.any_eq_false]
  intro x hx
  rw [h x (List.takeWhile_subset _ hx)]
  simp

theorem Visit.accept {T st w st'} {W : String → WFA} (hW : FixAc G W) (h : Visit G T st w st') (hs : Stable G W st st') :
    TRepOk G T ∧ (AllFlags st → LeftAcc G T) := by
  have hwrap : ∀ {c e : Expr}, (∀ {q}, LeftCalls G q e → LeftCalls G q c) → (∀ {x}, Sub x e → x = e ∨ Sub x c) →
      (∀ i c, e ≠ .star i c) → (∀ i c, e ≠ .plus i c) → ∀ {st}, (RepOk G c ∧ (AllFlags st → LeftAcc G (.expr c))) →
      RepOk G e ∧ (AllFlags st → LeftAcc G (.walk e)) := by
    intro c e h1 h2 h3 h4 st ⟨h5, h6⟩
    refine ⟨?_, fun hf q hq => h6 hf q (h1 hq)⟩
    rintro i c' (h | h)
    · rcases h2 h with h | h
      · exact absurd h.symm (h3 i c')
      · exact h5 i c' (.inl h)
    · rcases h2 h with h | h
      · exact absurd h.symm (h4 i c')
      · exact h5 i c' (.inr h)
  have hrepeat : ∀ {c e : Expr} {i w st}, (e = .star i c ∨ e = .plus i c) → w = attr W c → w.alwaysConsume = true →
      (RepOk G c ∧ (AllFlags st → LeftAcc G (.expr c))) → RepOk G e ∧ (AllFlags st → LeftAcc G (.walk e)) := by
    intro c e i w st he hw hac ⟨h5, h6⟩
    have hnn : ¬ Nullable G c := fun hn => by rw [hw, hn.attr hW] at hac; cases hac
    rcases he with rfl | rfl
    · refine ⟨?_, ?_⟩
      · rintro i' c' (h | h)
        · cases h with
          | refl => exact hnn
          | star h => exact h5 _ _ (.inl h)
        · cases h with
          | star h => exact h5 _ _ (.inr h)
      · intro hf q hq
        cases hq with
        | star hq => exact h6 hf q hq
    · refine ⟨?_, ?_⟩
      · rintro i' c' (h | h)
        · cases h with
          | plus h => exact h5 _ _ (.inl h)
        · cases h with
          | refl => exact hnn
          | plus h => exact h5 _ _ (.inr h)
      · intro hf q hq
        cases hq with
        | plus hq => exact h6 hf q hq
  have hval : ∀ {e st w st'}, Visit G (.expr e) st w st' → Stable G W st st' → w.alwaysConsume = (attr W e).alwaysConsume := by
    intro e st w st' hv hs
    obtain ⟨_, h1, h2, _⟩ := hv.clean hs.errors hs.wf hs.inv
    rw [hs.W] at h1
    rw [(hv.stable hs).2.1] at h2
    exact Bool.eq_iff_iff.2 ⟨h2.ac, h1.ac⟩
  induction h with
  | @check e st w st1 w' st' hv hc ih =>
    obtain ⟨h1, _⟩ := hv.einv hs.errors
    obtain ⟨rfl, rfl, _⟩ := (checkExpr_clean hc h1).2 hs.wf
    exact ih hs
  | str => exact ⟨.leaf (fun _ h => by cases h; rfl) (by simp) (by simp), fun _ q hq => by cases hq⟩
  | any => exact ⟨.leaf (fun _ h => by cases h; rfl) (by simp) (by simp), fun _ q hq => by cases hq⟩
  | cls => exact ⟨.leaf (fun _ h => by cases h; rfl) (by simp) (by simp), fun _ q hq => by cases hq⟩
  | ext => exact ⟨.leaf (fun _ h => by cases h; rfl) (by simp) (by simp), fun _ q hq => by cases hq⟩
  | nt hv ih =>
    exact ⟨.leaf (fun _ h => by cases h; rfl) (by simp) (by simp), fun hf q hq => by cases hq; exact (ih hs).2 hf⟩
  | @seq i es st w st' hv ih =>
    obtain ⟨h1, h2⟩ := ih ⟨hs.errors, hs.inv, hs.wf, hs.fix, hs.W⟩
    refine ⟨?_, fun hf q hq => h2 hf i q hq⟩
    rintro j c (h | h)
    · cases h with
      | seq he h => exact h1 _ he j c (.inl h)
    · cases h with
      | seq he h => exact h1 _ he j c (.inr h)
  | @choice i es st w st' hv ih =>
    obtain ⟨h1, h2⟩ := ih hs
    refine ⟨?_, fun hf q hq => ?_⟩
    · rintro j c (h | h)
      · cases h with
        | choice he h => exact h1 _ he j c (.inl h)
      · cases h with
        | choice he h => exact h1 _ he j c (.inr h)
    · cases hq with
      | choice he hq => exact h2 hf _ he q hq
  | @star i c st w st1 w' st' hv hr ih =>
    obtain ⟨h1, _⟩ := hv.einv hs.errors
    obtain ⟨rfl, rfl, hac⟩ := (wfaRepeat_clean hr h1).2 hs.wf
    have hcs := (hv.clean hs.errors hs.wf hs.inv).2.2.2
    have := hval hv hs
    refine hrepeat (w := attr W c) (.inl rfl) rfl ?_ (ih hs)
    rw [← this]; exact hac hcs
  | @plus i c st w st1 w' st' hv hr ih =>
    obtain ⟨h1, _⟩ := hv.einv hs.errors
    obtain ⟨rfl, rfl, hac⟩ := (wfaRepeat_clean hr h1).2 hs.wf
    have hcs := (hv.clean hs.errors hs.wf hs.inv).2.2.2
    have := hval hv hs
    refine hrepeat (w := attr W c) (.inr rfl) rfl ?_ (ih hs)
    rw [← this]; exact hac hcs
  | opt _ ih =>
    exact hwrap (fun h => by cases h; assumption) (fun h => by cases h with | refl => exact .inl rfl | opt h => exact .inr h) (by simp) (by simp) (ih hs)
  | not _ ih =>
    exact hwrap (fun h => by cases h; assumption) (fun h => by cases h with | refl => exact .inl rfl | not h => exact .inr h) (by simp) (by simp) (ih hs)
  | and _ ih =>
    exact hwrap (fun h => by cases h; assumption) (fun h => by cases h with | refl => exact .inl rfl | and h => exact .inr h) (by simp) (by simp) (ih hs)
  | act _ ih =>
    exact hwrap (fun h => by cases h; assumption) (fun h => by cases h with | refl => exact .inl rfl | act h => exact .inr h) (by simp) (by simp) (ih hs)
  | asc _ ih =>
    exact hwrap (fun h => by cases h; assumption) (fun h => by cases h with | refl => exact .inl rfl | asc h => exact .inr h) (by simp) (by simp) (ih hs)
  | span _ ih =>
    exact hwrap (fun h => by cases h; assumption) (fun h => by cases h with | refl => exact .inl rfl | span h => exact .inr h) (by simp) (by simp) (ih hs)
  | range _ ih =>
    exact hwrap (fun h => by cases h; assumption) (fun h => by cases h with | refl => exact .inl rfl | range h => exact .inr h) (by simp) (by simp) (ih hs)
  | seq_nil => exact ⟨(by intro e he; cases he), fun _ i q hq => by cases hq⟩
  | @seq_cons w e es st c st1 w' st' hv1 hv2 ih1 ih2 =>
    have e1 := (hv1.einv hs.errors).1
    have hw1 : st1.wellFormed = true := by
      have := (hv2.einv (by split <;> exact e1)).2 hs.wf
      split at this <;> exact this
    have hc1 := (hv1.clean hs.errors hw1 hs.inv).1.inv
    have hs2 : Stable G W (if c.alwaysConsume = true then { st1 with consumed := true } else st1) st' :=
      ⟨by split <;> exact e1, by split <;> exact ⟨hc1.le, hc1.cs⟩, hs.wf, hs.fix, hs.W⟩
    obtain ⟨_, k2, k3⟩ := hv2.stable hs2
    have hs1 : Stable G W st st1 := by
      refine ⟨hs.errors, hs.inv, hw1, ?_, ?_⟩
      · split at k3 <;> exact k3
      · split at k2 <;> exact k2
    obtain ⟨h1, h2⟩ := ih1 hs1
    obtain ⟨h3, h4⟩ := ih2 hs2
    refine ⟨List.forall_mem_cons.2 ⟨h1, h3⟩, ?_⟩
    intro hf i q hq
    cases hq with
    | seq_head hq => exact h2 hf q hq
    | seq_tail hn hq =>
      have hac : c.alwaysConsume = false := by rw [hval hv1 hs1]; exact hn.attr hW
      refine h4 ?_ i q hq
      simp only [hac, Bool.false_eq_true, if_false]
      exact ⟨(hv1.frame.2 (by simp)).trans hf.1, by rw [hv1.frame.1]; exact hf.2⟩
  | choice_nil => exact ⟨(by intro e he; cases he), fun _ e he => by cases he⟩
  | choice_stop hv _ _ =>
    exact absurd hs.wf (by rw [report_dirty (by exact (hv.einv hs.errors).1)]; simp)
  | @choice_next this w e es st c st1 w' st' hv1 _ hv2 ih1 ih2 =>
    have e1 := (hv1.einv hs.errors).1
    have hw1 : st1.wellFormed = true := (hv2.einv e1).2 hs.wf
    have hc1 := (hv1.clean hs.errors hw1 hs.inv).1.inv
    have hs2 : Stable G W { st1 with consumed := st.consumed } st' := ⟨e1, ⟨hc1.le, hc1.cs⟩, hs.wf, hs.fix, hs.W⟩
    obtain ⟨_, k2, k3⟩ := hv2.stable hs2
    have hs1 : Stable G W st st1 := ⟨hs.errors, hs.inv, hw1, k3, k2⟩
    obtain ⟨h1, h2⟩ := ih1 hs1
    obtain ⟨h3, h4⟩ := ih2 hs2
    refine ⟨List.forall_mem_cons.2 ⟨h1, h3⟩, fun hf => ?_⟩
    refine List.forall_mem_cons.2 ⟨h2 hf, h4 ⟨hf.1, ?_⟩⟩
    rw [show WState.path { st1 with consumed := st.consumed } = st1.path from rfl, hv1.frame.1]; exact hf.2
  | rule_rec hrec hor _ =>
    refine ⟨trivial, fun hf => ?_⟩
    rcases hor with h | h
    · rw [takeWhile_flags hf.2] at h; cases h
    · rw [hf.1] at h; cases h
  | rule_left =>
    exact absurd hs.wf (by rw [report_dirty (fun h => by cases h)]; simp)
  | @rule_same r st e w st1 _ he hv h _ ih =>
    refine ⟨trivial, fun hf => ?_⟩
    have := (ih ⟨hs.errors, ⟨hs.inv.le, hs.inv.cs⟩, hs.wf, hs.fix, hs.W⟩).2 ⟨rfl, by
      intro x hx
      cases hx with
      | head => exact hf.1
      | tail _ hx => exact hf.2 x hx⟩
    refine ⟨_, ?_⟩
    rintro q ⟨e', he', hq⟩
    rw [he] at he'; cases he'
    exact this q hq
  | rule_new => exact absurd hs.fix (by simp)

/-- The last pass of the analysis on an accepted grammar. -/
theorem visitRules_last {n m : Nat} {st st' : WState} (h : visitRules G n m st = .ok st') (hf : st.fixpoint = false) (hw : st'.wellFormed = true)
    (P : WState → Prop) (hP : P st) (hpass : ∀ a b, P a → visitEach G n G.rules { a with fixpoint := true } = .ok b → P b) :
    ∃ st0, P st0 ∧ visitEach G n G.rules { st0 with fixpoint := true } = .ok st' ∧ st'.fixpoint = true := by
  induction m generalizing st with
  | zero => cases h
  | succ m ih =>
    unfold visitRules at h
    split at h
    · obtain ⟨st1, h1, h2⟩ := Res.bind_eq_ok h
      cases hf1 : st1.fixpoint with
      | false => exact ih h2 hf1 (hpass _ _ hP h1)
      | true =>
        have : st1 = st' := by
          cases m with
          | zero => cases h2
          | succ m =>
            unfold visitRules at h2
            rw [hf1] at h2
            simp at h2
            exact h2
        subst this
        exact ⟨st, hP, h1, hf1⟩
    · rename_i hc
      cases h
      rw [hf, hw] at hc
      simp at hc

/-- What holds between rules, without totality. -/
structure RInv' (G : Grammar) (st : WState) : Prop where
  top : Top st
  errors : EInv st
  clean : st.wellFormed = true → CInv G st

theorem RInv'.visit {st st' : WState} {r w} (h : RInv' G st) (hv : Visit G (.rule r) st w st') : RInv' G st' := by
  obtain ⟨e1, e2⟩ := hv.einv h.errors
  exact ⟨⟨hv.frame.1.trans h.top.path, (hv.frame.2 (by simp)).trans h.top.consumed⟩, e1,
    fun hw => (hv.clean h.errors hw (h.clean (e2 hw))).1.inv⟩

theorem visitEach_rinv {n : Nat} {rs : List (String × Expr)} {st st' : WState} (h : visitEach G n rs st = .ok st') (hi : RInv' G st) : RInv' G st' := by
  induction rs generalizing st with
  | nil => cases h; exact hi
  | cons x rs ih =>
    obtain ⟨r, e⟩ := x
    unfold visitEach at h
    obtain ⟨⟨w, st1⟩, h1, h2⟩ := Res.bind_eq_ok h
    have hv := visitRule_visit n _ _ _ _ h1
    simp only at h2
    split at h2
    · cases h2; exact hi.visit hv
    · exact ih h2 (hi.visit hv)

/-- A clean pass that changes nothing visits every rule in the same state. -/
theorem visitEach_stable {n : Nat} {rs : List (String × Expr)} {st st' : WState} (h : visitEach G n rs st = .ok st') (hi : RInv' G st)
    (hw : st'.wellFormed = true) (hf : st'.fixpoint = true) : st.wfa = st'.wfa ∧ st.wellFormed = true ∧ st.fixpoint = true ∧
      ∀ x ∈ rs, ∃ a w b, Visit G (.rule x.1) a w b ∧ Top a ∧ Stable G st'.W a b := by
  induction rs generalizing st with
  | nil => cases h; exact ⟨rfl, hw, hf, by intro x hx; cases hx⟩
  | cons x rs ih =>
    obtain ⟨r, e⟩ := x
    unfold visitEach at h
    obtain ⟨⟨w, st1⟩, h1, h2⟩ := Res.bind_eq_ok h
    have hv := visitRule_visit n _ _ _ _ h1
    have hi1 := hi.visit hv
    have key : st1.wfa = st'.wfa ∧ st1.wellFormed = true ∧ st1.fixpoint = true ∧ ∀ x ∈ rs, ∃ a w b, Visit G (.rule x.1) a w b ∧ Top a ∧ Stable G st'.W a b := by
      simp only at h2
      split at h2
      · rename_i hc
        cases h2
        rw [hw] at hc; simp at hc
      · exact ih h2 hi1
    obtain ⟨k1, k2, k3, k4⟩ := key
    have hwf := (hv.einv hi.errors).2 k2
    have hs : Stable G st'.W st st1 := ⟨hi.errors, hi.clean hwf, k2, k3, by unfold WState.W; rw [k1]⟩
    obtain ⟨j1, _, j3⟩ := hv.stable hs
    exact ⟨j1.trans k1, hwf, j3, List.forall_mem_cons.2 ⟨⟨st, w, st1, hv, hi.top, hs⟩, k4⟩⟩

/-- The last pass visited every rule without changing anything. -/
theorem last_pass {n m : Nat} {st : WState} (h1 : wellFormedness G n m = .ok st) (h2 : st.wellFormed = true) :
    ∀ r e, G.find r = some e → ∃ a w b, Visit G (.rule r) a w b ∧ Top a ∧ Stable G st.W a b := by
  obtain ⟨st0, hi0, h3, h4⟩ := visitRules_last h1 rfl h2 (RInv' G) ⟨RInv.new.top, RInv.new.errors, RInv.new.clean⟩
    (fun a b ha hb => visitEach_rinv hb ⟨⟨ha.top.path, ha.top.consumed⟩, ha.errors, fun hw => ⟨(ha.clean hw).le, (ha.clean hw).cs⟩⟩)
  obtain ⟨_, _, _, hall⟩ := visitEach_stable h3 ⟨⟨hi0.top.path, hi0.top.consumed⟩, hi0.errors, fun hw => ⟨(hi0.clean hw).le, (hi0.clean hw).cs⟩⟩ h2 h4
  intro r e he
  exact hall (r, e) (grammar_find_mem he)

theorem Top.notRec {a : WState} (h : Top a) (r : String) : a.isRec r = false := by simp [WState.isRec, h.path]

/-- In accepted grammars the attributes are justified by the bodies. -/
theorem accepted_fix {n m : Nat} {st : WState} (h1 : wellFormedness G n m = .ok st) (h2 : st.wellFormed = true) : FixAc G st.W := by
  intro r e he hac
  obtain ⟨a, w, b, hv, ht, hs⟩ := last_pass h1 h2 r e he
  have hrec := ht.notRec r
  have hWa := (hv.stable hs).2.1
  cases hv with
  | rule_rec h _ _ => rw [hrec] at h; cases h
  | rule_left h _ _ _ _ => rw [hrec] at h; cases h
  | @rule_same _ _ e' w st1 _ he' hv' hw' _ =>
    rw [he] at he'; cases he'
    have hc := (hv'.clean hs.errors hs.wf ⟨hs.inv.le, hs.inv.cs⟩).2.2.1
    have hW1 : st1.W = st.W := hs.W
    have hwr : w = st.W r := by rw [← hW1]; simp [WState.W, hw']
    have hWp : (a.push r).W = st.W := hWa
    rw [hWp] at hc
    rw [← hwr] at hac
    exact hc.ac hac
  | rule_new _ _ _ _ _ _ => exact absurd hs.fix (by simp)

/-- Accepted grammars: repeated expressions are not nullable, and leftmost calls are well-founded. -/
theorem accepted_ok (h : Accepted G) : (∀ r e, G.find r = some e → RepOk G e) ∧ WellFounded (LeftStep G) := by
  obtain ⟨n, m, st, h1, h2⟩ := h
  have hbody := last_pass h1 h2
  have hfix := accepted_fix h1 h2
  refine ⟨?_, ⟨?_⟩⟩
  · intro r e he
    obtain ⟨a, w, b, hv, ht, hs⟩ := hbody r e he
    have hrec := ht.notRec r
    cases hv with
    | rule_rec h _ _ => rw [hrec] at h; cases h
    | rule_left h _ _ _ _ => rw [hrec] at h; cases h
    | @rule_same _ _ e' w st1 _ he' hv' hw' _ =>
      rw [he] at he'; cases he'
      exact (hv'.accept hfix ⟨hs.errors, ⟨hs.inv.le, hs.inv.cs⟩, hs.wf, hs.fix, hs.W⟩).1
    | rule_new _ _ _ _ _ _ => exact absurd hs.fix (by simp)
  · intro r
    cases he : G.find r with
    | none => exact ⟨_, by rintro q ⟨e, he', _⟩; rw [he] at he'; cases he'⟩
    | some e =>
      obtain ⟨a, w, b, hv, ht, hs⟩ := hbody r e he
      exact (hv.accept hfix hs).2 ⟨ht.consumed, by rw [ht.path]; intro x hx; cases hx⟩

/-! Diagnostics. -/

/-- A grammar is ill-formed only with a diagnostic. -/
structure DInv (st : WState) : Prop where
  wf : st.wellFormed = false → st.diags ≠ []
  errors : st.errors ≠ [] → st.diags ≠ []

theorem report_dinv {st : WState} {i d} (h : st.errors ≠ [] → st.diags ≠ []) : DInv (st.report i d) := by
  unfold WState.report
  split
  · rename_i hi
    have hne : st.errors ≠ [] := by intro h; rw [h] at hi; cases hi
    exact ⟨fun _ => h hne, h⟩
  · exact ⟨fun _ => by simp, fun _ => by simp⟩

theorem Visit.dinv {T st w st'} (h : Visit G T st w st') (hd : DInv st) : DInv st' := by
  induction h with
  | @check e st w st1 w' st' _ hc ih =>
    have h1 := ih hd
    unfold checkExpr at hc
    obtain ⟨_, _, hc⟩ := Res.bind_eq_ok hc
    obtain ⟨_, _, hc⟩ := Res.bind_eq_ok hc
    split at hc
    · cases hc; exact report_dinv h1.errors
    · split at hc
      · cases hc; exact report_dinv h1.errors
      · cases hc; exact h1
  | @star i c st w st1 w' st' _ hr ih =>
    have h1 := ih hd
    unfold wfaRepeat at hr
    split at hr
    · cases hr; exact report_dinv h1.errors
    · cases hr; exact h1
  | @plus i c st w st1 w' st' _ hr ih =>
    have h1 := ih hd
    unfold wfaRepeat at hr
    split at hr
    · cases hr; exact report_dinv h1.errors
    · cases hr; exact h1
  | seq _ ih => exact ⟨(ih hd).wf, (ih hd).errors⟩
  | seq_cons _ _ ih1 ih2 => exact ih2 (by split <;> exact ⟨(ih1 hd).wf, (ih1 hd).errors⟩)
  | choice_stop _ _ _ ih => exact report_dinv (ih hd).errors
  | choice_next _ _ _ ih1 ih2 => exact ih2 ⟨(ih1 hd).wf, (ih1 hd).errors⟩
  | rule_left => exact report_dinv hd.errors
  | rule_same _ _ _ _ _ ih => exact ⟨(ih ⟨hd.wf, hd.errors⟩).wf, (ih ⟨hd.wf, hd.errors⟩).errors⟩
  | rule_new _ _ _ _ _ _ ih => exact ⟨(ih ⟨hd.wf, hd.errors⟩).wf, (ih ⟨hd.wf, hd.errors⟩).errors⟩
  | _ => first | exact hd | (rename_i ih; exact ih hd)

theorem visitEach_dinv {n : Nat} {rs : List (String × Expr)} {st st' : WState} (h : visitEach G n rs st = .ok st') (hd : DInv st) (he : EInv st) :
    DInv st' ∧ EInv st' := by
  induction rs generalizing st with
  | nil => cases h; exact ⟨hd, he⟩
  | cons x rs ih =>
    obtain ⟨r, e⟩ := x
    unfold visitEach at h
    obtain ⟨⟨w, st1⟩, h1, h2⟩ := Res.bind_eq_ok h
    have hv := visitRule_visit n _ _ _ _ h1
    simp only at h2
    split at h2
    · cases h2; exact ⟨hv.dinv hd, (hv.einv he).1⟩
    · exact ih h2 (hv.dinv hd) (hv.einv he).1

theorem visitRules_dinv {n m : Nat} {st st' : WState} (h : visitRules G n m st = .ok st') (hd : DInv st) (he : EInv st) : DInv st' ∧ EInv st' := by
  induction m generalizing st with
  | zero => cases h
  | succ m ih =>
    unfold visitRules at h
    split at h
    · obtain ⟨st1, h1, h2⟩ := Res.bind_eq_ok h
      obtain ⟨hd1, he1⟩ := visitEach_dinv h1 ⟨hd.wf, hd.errors⟩ he
      exact ih h2 hd1 he1
    · cases h; exact ⟨hd, he⟩

/-- The grammar is rejected exactly when there is a diagnostic. -/
theorem wellFormedness_diags {n m : Nat} {st : WState} (h : wellFormedness G n m = .ok st) : st.wellFormed = false ↔ st.diags ≠ [] := by
  obtain ⟨hd, he⟩ := visitRules_dinv h ⟨(fun h => by cases h), fun h => absurd rfl h⟩ (fun _ => ⟨rfl, rfl⟩)
  refine ⟨hd.wf, fun hne => ?_⟩
  cases hw : st.wellFormed with
  | false => rfl
  | true => exact absurd (he hw).2 hne

end Oak
