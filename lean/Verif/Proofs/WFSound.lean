import Verif.Spec.WellFormed
import Verif.Proofs.WFVisit
/-!
The attributes computed by the well-formedness analysis are true of the language, and so are its diagnostics.
-/
set_option linter.constructorNameAsVariable false
set_option autoImplicit false

namespace Oak
open Spec
variable {G : Grammar} {X : ExtSpec}

/-- What attributes claim about an expression. -/
structure Snd (G : Grammar) (X : ExtSpec) (w : WFA) (e : Expr) : Prop where
  fails : w.canFail = false → NeverFails G X e
  succeeds : w.canSucceed = false → NeverSucceeds G X e
  never : w.neverConsume = true → NeverConsumes G X e
  null : w.alwaysConsume = false → Nullable G e

/-- The attributes of the rules hold. -/
def WSnd (G : Grammar) (X : ExtSpec) (f : String → Option WFA) : Prop := ∀ r w, f r = some w → ∃ e, G.find r = some e ∧ Snd G X w e

/-- The diagnostics hold. -/
def DSnd (G : Grammar) (X : ExtSpec) (ds : List Diag) : Prop := ∀ d ∈ ds, d.True G X

theorem report_dsnd {st : WState} {i d} (h : DSnd G X st.diags) (hd : d.True G X) : DSnd G X (st.report i d).diags := by
  unfold WState.report
  split
  · exact h
  · intro x hx
    cases hx with
    | head => exact hd
    | tail _ hx => exact h x hx

theorem Snd.same {w : WFA} {e e' : Expr} (h : Snd G X w e) (h1 : NeverFails G X e → NeverFails G X e')
    (h2 : NeverSucceeds G X e → NeverSucceeds G X e') (h3 : NeverConsumes G X e → NeverConsumes G X e') (h4 : Nullable G e → Nullable G e') : Snd G X w e' :=
  ⟨fun h' => h1 (h.fails h'), fun h' => h2 (h.succeeds h'), fun h' => h3 (h.never h'), fun h' => h4 (h.null h')⟩

/-- Leftmost position: what the head of the path calls first. -/
def HeadCalls (G : Grammar) (path : List (String × Bool)) (q : String) : Prop := ∃ h b p, path = (h, b) :: p ∧ LeftStep G q h

/-- The flags of the path. -/
def PathOk (G : Grammar) : List (String × Bool) → Prop
  | (a, false) :: (b, c) :: p => LeftStep G a b ∧ PathOk G ((b, c) :: p)
  | (_, true) :: p => PathOk G p
  | _ => True

theorem PathOk.tail {x p} (h : PathOk G (x :: p)) : PathOk G p := by
  obtain ⟨a, b⟩ := x
  cases b with
  | true => exact h
  | false =>
    cases p with
    | nil => trivial
    | cons y p => exact h.2

/-- A rule of the path, called in leftmost position since then, is left-recursive. -/
theorem PathOk.leftRecursive {path : List (String × Bool)} (hp : PathOk G path) {r q : String} (hq : path.any (fun x => x.1 == r) = true)
    (hf : (path.takeWhile fun x => x.1 != r).any (fun x => x.2) = false) (hc : HeadCalls G path q)
    : Relation.TransGen (LeftStep G) q r := by
  induction path generalizing q with
  | nil => obtain ⟨h, b, p, h1, _⟩ := hc; cases h1
  | cons x path ih =>
    obtain ⟨h, b, p, h1, h2⟩ := hc
    cases h1
    by_cases hr : h = r
    · subst hr; exact .single h2
    · have hne : (h != r) = true := by simpa using hr
      simp only [List.takeWhile_cons, hne, if_true, List.any_cons, Bool.or_eq_false_iff] at hf
      simp only [List.any_cons, Bool.or_eq_true, beq_iff_eq, hr, false_or] at hq
      obtain ⟨hb, hf⟩ := hf
      subst hb
      cases path with
      | nil => simp at hq
      | cons y path =>
        obtain ⟨y, c⟩ := y
        exact .trans (.single h2) (ih hp.2 hq hf ⟨y, c, path, rfl, hp.1⟩)

theorem PathOk.chain {path : List (String × Bool)} (hp : PathOk G path) {r q x : String} {l : List String} (hq : path.any (fun x => x.1 == r) = true)
    (hf : (path.takeWhile fun x => x.1 != r).any (fun x => x.2) = false) (hc : HeadCalls G path q) (hl : LeftChain G x q l) :
    LeftChain G x r (((path.takeWhile fun x => x.1 != r).map (·.1)).reverse ++ q :: l) := by
  induction path generalizing q l with
  | nil => obtain ⟨h, b, p, h1, _⟩ := hc; cases h1
  | cons y path ih =>
    obtain ⟨h, b, p, h1, h2⟩ := hc
    cases h1
    by_cases hr : h = r
    · subst hr
      have : LeftChain G x h (q :: l) := ⟨h2, hl⟩
      rw [List.takeWhile_cons, show (h != h) = false by simp, if_neg (by simp)]
      exact this
    · have hne : (h != r) = true := by simpa using hr
      simp only [List.takeWhile_cons, hne, if_true, List.any_cons, Bool.or_eq_false_iff] at hf
      simp only [List.any_cons, Bool.or_eq_true, beq_iff_eq, hr, false_or] at hq
      obtain ⟨hb, hf⟩ := hf
      subst hb
      cases path with
      | nil => simp at hq
      | cons y path =>
        obtain ⟨y, c⟩ := y
        have := ih hp.2 hq hf ⟨y, c, path, rfl, hp.1⟩ (l := q :: l) ⟨h2, hl⟩
        rw [List.takeWhile_cons, hne, if_pos rfl]
        simpa using this

/-- A rule of the path, called in leftmost position since then, is the first one of a cycle. -/
theorem PathOk.cycle {path : List (String × Bool)} (hp : PathOk G path) (hn : (path.map (·.1)).Nodup) {r : String} (hq : path.any (fun x => x.1 == r) = true)
    (hf : (path.takeWhile fun x => x.1 != r).any (fun x => x.2) = false) (hc : HeadCalls G path r) :
    LeftCycle G (r :: ((path.takeWhile fun x => x.1 != r).map (·.1)).reverse) := by
  refine ⟨?_, ?_⟩
  · rw [List.nodup_cons]
    refine ⟨?_, List.pairwise_reverse.2 (List.Pairwise.imp (fun h => h.symm) (hn.sublist ((List.takeWhile_sublist _).map _)))⟩
    · simp only [List.mem_reverse, List.mem_map, not_exists, not_and]
      intro y hy he
      have h1 := List.all_eq_true.1 (List.all_takeWhile (l := path) (p := fun x => x.1 != r)) y hy
      simp [he] at h1
  · cases path with
    | nil => obtain ⟨h, b, p, h1, _⟩ := hc; cases h1
    | cons y path =>
      obtain ⟨h, b, p, h1, h2⟩ := hc
      cases h1
      by_cases hr : h = r
      · subst hr
        rw [List.takeWhile_cons, show (h != h) = false by simp, if_neg (by simp)]
        exact h2
      · have hne : (h != r) = true := by simpa using hr
        simp only [List.takeWhile_cons, hne, if_true, List.any_cons, Bool.or_eq_false_iff] at hf
        simp only [List.any_cons, Bool.or_eq_true, beq_iff_eq, hr, false_or] at hq
        obtain ⟨hb, hf⟩ := hf
        subst hb
        cases path with
        | nil => simp at hq
        | cons y path =>
          obtain ⟨y, c⟩ := y
          have := PathOk.chain hp.2 hq hf ⟨y, c, path, rfl, hp.1⟩ (l := []) (h2 : LeftChain G r h [])
          rw [List.takeWhile_cons, hne, if_pos rfl]
          simpa using this

theorem LeftChain.gen {q : String} : ∀ {l : List String} {r : String}, LeftChain G q r l → Relation.TransGen (LeftStep G) q r := by
  intro l
  induction l with
  | nil => intro r h; exact .single h
  | cons x l ih => intro r h; exact .trans (ih h.2) (.single h.1)

theorem LeftCycle.recursive {c : List String} (h : LeftCycle G c) {r : String} (hr : c.head? = some r) : LeftRecursive G r := by
  cases c with
  | nil => cases hr
  | cons x c => cases hr; exact h.2.gen

theorem LeftCalls.reindex {q : String} {i i' es} (h : LeftCalls G q (.seq i es)) : LeftCalls G q (.seq i' es) := by
  induction es with
  | nil => cases h
  | cons e es ih =>
    cases h with
    | seq_head h => exact .seq_head h
    | seq_tail hn h => exact .seq_tail hn (ih h)

theorem NeverConsumes.star {c : Expr} (h : NeverConsumes G X c) {i : Nat} : NeverConsumes G X (.star i c) := by
  intro s s' t L hP
  generalize hE : Expr.star i c = E at hP
  generalize hO : Out.ok s' t = O at hP
  induction hP generalizing s' t with
  | star_stop _ => cases hE; cases hO; rfl
  | star_more hP1 _ _ ih2 =>
    cases hE; cases hO
    have := h _ _ _ _ hP1
    rw [ih2 _ _ rfl rfl, this]
  | _ => first | cases hE | cases hO

theorem PathOk.push {st : WState} {r : String} (hp : PathOk G st.path) (hpre : st.consumed = false → st.path ≠ [] → HeadCalls G st.path r) :
    PathOk G (st.push r).path := by
  unfold WState.push
  simp only
  cases hc : st.consumed with
  | true => exact hp
  | false =>
    cases hpa : st.path with
    | nil => trivial
    | cons y p =>
      obtain ⟨h, b, p', h1, h2⟩ := hpre hc (by simp [hpa])
      rw [hpa] at h1
      cases h1
      exact ⟨h2, hpa ▸ hp⟩

theorem nodup_push {st : WState} {r : String} (hr : st.isRec r = false) (hn : (st.path.map (·.1)).Nodup) : ((st.push r).path.map (·.1)).Nodup := by
  simp only [WState.push, List.map_cons, List.nodup_cons]
  refine ⟨?_, hn⟩
  intro hm
  obtain ⟨x, hx, hxr⟩ := List.mem_map.1 hm
  simp only [WState.isRec, List.any_eq_false] at hr
  exact hr x hx (by simp [hxr])

/-- What visits preserve. -/
structure SInv (G : Grammar) (X : ExtSpec) (st : WState) : Prop where
  wfa : WSnd G X st.wfa
  diags : DSnd G X st.diags
  path : PathOk G st.path
  nodup : (st.path.map (·.1)).Nodup

/-- What the visit of a task claims. -/
def SClaim (G : Grammar) (X : ExtSpec) (w : WFA) : Task → Prop
  | .expr e | .walk e => Snd G X w e
  | .seq w0 es => ∀ i, (w.canFail = false → w0.canFail = false ∧ NeverFails G X (.seq i es)) ∧
      (w.canSucceed = false → w0.canSucceed = false ∨ NeverSucceeds G X (.seq i es)) ∧
      (w.neverConsume = true → w0.neverConsume = true ∧ NeverConsumes G X (.seq i es)) ∧
      (w.alwaysConsume = false → w0.alwaysConsume = false ∧ Nullable G (.seq i es))
  | .choice _ w0 es => ∀ i, (w.canFail = false → w0.canFail = false ∨ NeverFails G X (.choice i es)) ∧
      (w.canSucceed = false → w0.canSucceed = false ∧ NeverSucceeds G X (.choice i es)) ∧
      (w.neverConsume = true → w0.neverConsume = true ∧ NeverConsumes G X (.choice i es)) ∧
      (w.alwaysConsume = false → w0.alwaysConsume = false ∨ Nullable G (.choice i es))
  | .rule r => ∃ e, G.find r = some e ∧ Snd G X w e

/-- The leftmost calls of a task are leftmost calls of the current rule. -/
def SPre (G : Grammar) (st : WState) : Task → Prop
  | .expr e | .walk e => ∀ q, LeftCalls G q e → HeadCalls G st.path q
  | .seq _ es => ∀ i q, LeftCalls G q (.seq i es) → HeadCalls G st.path q
  | .choice _ _ es => ∀ e ∈ es, ∀ q, LeftCalls G q e → HeadCalls G st.path q
  | .rule r => st.path ≠ [] → HeadCalls G st.path r

/-- The branches of a choice still to be visited. -/
def SShape : Task → Prop
  | .choice this _ es => ∃ i before, this = .choice i (before ++ es)
  | _ => True

theorem Visit.sound {T st w st'} (h : Visit G T st w st') (hi : SInv G X st) (hp : st.consumed = false → SPre G st T) (hs : SShape T) :
    SInv G X st' ∧ SClaim G X w T := by
  have hrep : ∀ {st : WState} {i d}, SInv G X st → d.True G X → SInv G X (st.report i d) := by
    intro st i d h hd
    exact ⟨by rw [WState.report_wfa]; exact h.wfa, report_dsnd h.diags hd, by rw [WState.report_path]; exact h.path, by rw [WState.report_path]; exact h.nodup⟩
  have hsnd_ext : ∀ e, Snd G X .dflt e := by
    intro e; constructor <;> intro h <;> simp [WFA.dflt] at h
  have hloop : ∀ {this c : Expr} {i w st1 w' st'}, (this = .star i c ∨ this = .plus i c) → wfaRepeat this w st1 = (w', st') → SInv G X st1 → Snd G X w c →
      SInv G X st' ∧ Snd G X w' c := by
    intro this c i w st1 w' st' hthis h hi hc
    unfold wfaRepeat at h
    split at h
    · rename_i hcond
      cases h
      exact ⟨hrep hi ⟨i, c, hthis, hc.null (by simp at hcond; exact hcond.2)⟩, hsnd_ext _⟩
    · cases h; exact ⟨hi, hc⟩
  induction h with
  | @check e st w st1 w' st' _ hc ih =>
    obtain ⟨h1, h2⟩ := ih hi hp trivial
    unfold checkExpr at hc
    obtain ⟨_, _, hc⟩ := Res.bind_eq_ok hc
    obtain ⟨_, _, hc⟩ := Res.bind_eq_ok hc
    split at hc
    · rename_i hcond
      simp only [Bool.and_eq_true, Bool.not_eq_true'] at hcond
      cases hc
      exact ⟨hrep h1 (h2.succeeds hcond.2), ⟨h2.fails, (fun h => by cases h), h2.never, h2.null⟩⟩
    · split at hc
      · rename_i hcond
        simp only [Bool.and_eq_true, Bool.not_eq_true'] at hcond
        cases hc
        exact ⟨hrep h1 ⟨h2.fails hcond.1.2, h2.never hcond.2⟩, ⟨h2.fails, h2.succeeds, (fun h => by cases h), h2.null⟩⟩
      · cases hc; exact ⟨h1, h2⟩
  | @str i l st =>
    refine ⟨hi, ?_⟩
    unfold wfaStr
    split
    · rename_i hl
      have : l = "" := by
        apply String.toList_injective
        simpa using hl
      subst this
      constructor
      · intro _ s L h
        cases h with
        | str_fail h => exact h (by simp)
      · intro h; cases h
      · intro h; cases h
      · intro _; exact .str
    · exact hsnd_ext _
  | any => exact ⟨hi, hsnd_ext _⟩
  | cls => exact ⟨hi, hsnd_ext _⟩
  | ext => exact ⟨hi, hsnd_ext _⟩
  | @nt i r st w st' _ ih =>
    obtain ⟨h1, e, he0, h2⟩ := ih hi (fun hc _ => hp hc r .nt) trivial
    refine ⟨h1, ⟨?_, ?_, ?_, ?_⟩⟩
    · intro h s L hP
      cases hP with
      | nt_fail he hP => rw [he0] at he; cases he; exact h2.fails h s L hP
    · intro h s s' t L hP
      cases hP with
      | nt_ok he hP => rw [he0] at he; cases he; exact h2.succeeds h s s' _ L hP
    · intro h s s' t L hP
      cases hP with
      | nt_ok he hP => rw [he0] at he; cases he; exact h2.never h s s' _ L hP
    · intro h; exact .nt he0 (h2.null h)
  | @seq i es st w st' _ ih =>
    obtain ⟨h1, h2⟩ := ih hi (fun hc i' q hq => hp hc q hq.reindex) trivial
    obtain ⟨h2, h3, h4, h5⟩ := h2 i
    exact ⟨⟨h1.wfa, h1.diags, h1.path, h1.nodup⟩, ⟨fun h => (h2 h).2, fun h => (h3 h).resolve_left (by simp), fun h => (h4 h).2, fun h => (h5 h).2⟩⟩
  | @choice i es st w st' _ ih =>
    obtain ⟨h1, h2⟩ := ih hi (fun hc e he q hq => hp hc q (.choice he hq)) ⟨i, [], rfl⟩
    obtain ⟨h2, h3, h4, h5⟩ := h2 i
    exact ⟨h1, ⟨fun h => (h2 h).resolve_left (by simp), fun h => (h3 h).2, fun h => (h4 h).2, fun h => (h5 h).resolve_left (by simp)⟩⟩
  | @star i c st w st1 w' st' _ hr ih =>
    obtain ⟨h1, h2⟩ := ih hi (fun hc q hq => hp hc q (.star hq)) trivial
    obtain ⟨h3, h4⟩ := hloop (.inl rfl) hr h1 h2
    refine ⟨h3, ⟨?_, ?_, ?_, fun _ => .star⟩⟩
    · intro _ s L hP; cases hP
    · intro h; cases h
    · intro h s s' t L hP
      exact (h4.never h).star s s' t L hP
  | @plus i c st w st1 w' st' _ hr ih =>
    obtain ⟨h1, h2⟩ := ih hi (fun hc q hq => hp hc q (.plus hq)) trivial
    obtain ⟨h3, h4⟩ := hloop (.inr rfl) hr h1 h2
    refine ⟨h3, ⟨?_, ?_, ?_, fun h => .plus (h4.null h)⟩⟩
    · intro h s L hP; cases hP with
      | plus_fail hP => exact h4.fails h _ _ hP
    · intro h s s' t L hP; cases hP with
      | plus_ok hP _ => exact h4.succeeds h _ _ _ _ hP
    · intro h s s' t L hP
      cases hP with
      | plus_ok hP1 hP2 =>
        rw [(h4.never h).star _ _ _ _ hP2, h4.never h _ _ _ _ hP1]
  | @opt i c st w st' _ ih =>
    obtain ⟨h1, h2⟩ := ih hi (fun hc q hq => hp hc q (.opt hq)) trivial
    refine ⟨h1, ⟨?_, ?_, ?_, fun _ => .opt⟩⟩
    · intro _ s L hP; cases hP
    · intro h; cases h
    · intro h s s' t L hP; cases hP with
      | opt_some hP => exact h2.never h _ _ _ _ hP
      | opt_none hP => rfl
  | @not i c st w st' _ ih =>
    obtain ⟨h1, h2⟩ := ih hi (fun hc q hq => hp hc q (.not hq)) trivial
    refine ⟨h1, ⟨?_, ?_, ?_, fun _ => .not⟩⟩
    · intro h s L hP; cases hP with
      | not_fail hP => exact h2.succeeds h _ _ _ _ hP
    · intro h s s' t L hP; cases hP with
      | not_ok hP => exact h2.fails h _ _ hP
    · intro h s s' t L hP; cases hP; rfl
  | @and i c st w st' _ ih =>
    obtain ⟨h1, h2⟩ := ih hi (fun hc q hq => hp hc q (.and hq)) trivial
    refine ⟨h1, ⟨?_, ?_, ?_, fun _ => .and⟩⟩
    · intro h s L hP; cases hP with
      | and_fail hP => exact h2.fails h _ _ hP
    · intro h s s' t L hP; cases hP with
      | and_ok hP => exact h2.succeeds h _ _ _ _ hP
    · intro h s s' t L hP; cases hP; rfl
  | act _ ih =>
    obtain ⟨h1, h2⟩ := ih hi (fun hc q hq => hp hc q (.act hq)) trivial
    refine ⟨h1, h2.same ?_ ?_ ?_ .act⟩
    · intro h s L hP; cases hP; exact h _ _ ‹_›
    · intro h s s' t L hP; cases hP; exact h _ _ _ _ ‹_›
    · intro h s s' t L hP; cases hP; exact h _ _ _ _ ‹_›
  | asc _ ih =>
    obtain ⟨h1, h2⟩ := ih hi (fun hc q hq => hp hc q (.asc hq)) trivial
    refine ⟨h1, h2.same ?_ ?_ ?_ .asc⟩
    · intro h s L hP; cases hP; exact h _ _ ‹_›
    · intro h s s' t L hP; cases hP; exact h _ _ _ _ ‹_›
    · intro h s s' t L hP; cases hP; exact h _ _ _ _ ‹_›
  | span _ ih =>
    obtain ⟨h1, h2⟩ := ih hi (fun hc q hq => hp hc q (.span hq)) trivial
    refine ⟨h1, h2.same ?_ ?_ ?_ .span⟩
    · intro h s L hP; cases hP; exact h _ _ ‹_›
    · intro h s s' t L hP; cases hP; exact h _ _ _ _ ‹_›
    · intro h s s' t L hP; cases hP; exact h _ _ _ _ ‹_›
  | range _ ih =>
    obtain ⟨h1, h2⟩ := ih hi (fun hc q hq => hp hc q (.range hq)) trivial
    refine ⟨h1, h2.same ?_ ?_ ?_ .range⟩
    · intro h s L hP; cases hP; exact h _ _ ‹_›
    · intro h s s' t L hP; cases hP; exact h _ _ _ _ ‹_›
    · intro h s s' t L hP; cases hP; exact h _ _ _ _ ‹_›
  | @seq_nil w st =>
    refine ⟨hi, fun i => ⟨fun h => ⟨h, ?_⟩, fun h => .inl h, fun h => ⟨h, ?_⟩, fun h => ⟨h, .seq (by simp)⟩⟩⟩
    · intro s L hP; cases hP
    · intro s s' t L hP; cases hP; rfl
  | @seq_cons w e es st c st1 w' st' hv _ ih1 ih2 =>
    obtain ⟨h1, h2⟩ := ih1 hi (fun hc q hq => hp hc 0 q (.seq_head hq)) trivial
    have hcons := hv.frame.2 (by simp)
    have hpath := hv.frame.1
    obtain ⟨h3, h4⟩ := ih2 (by split <;> exact ⟨h1.wfa, h1.diags, h1.path, h1.nodup⟩) (by
      intro hc i q hq
      split at hc
      · cases hc
      · rename_i hac
        have := hp (hcons ▸ hc) i q (.seq_tail (h2.null (by simpa using hac)) hq)
        rw [if_neg hac, hpath]; exact this) trivial
    refine ⟨h3, fun i => ?_⟩
    obtain ⟨k1, k2, k3, k4⟩ := h4 i
    refine ⟨?_, ?_, ?_, ?_⟩
    · intro h
      obtain ⟨h5, h6⟩ := k1 h
      simp only [wfaElem, Bool.or_eq_false_iff] at h5
      refine ⟨h5.1, ?_⟩
      intro s L hP
      cases hP with
      | seq_fail hP => exact h2.fails h5.2 _ _ hP
      | seq_later _ hP => exact h6 _ _ hP
    · intro h
      rcases k2 h with h5 | h5
      · simp only [wfaElem, Bool.and_eq_false_iff] at h5
        rcases h5 with h5 | h5
        · exact .inl h5
        · right; intro s s' t L hP; cases hP with
          | seq_cons hP _ => exact h2.succeeds h5 _ _ _ _ hP
      · right; intro s s' t L hP; cases hP with
        | seq_cons _ hP => exact h5 _ _ _ _ hP
    · intro h
      obtain ⟨h5, h6⟩ := k3 h
      simp only [wfaElem, Bool.and_eq_true] at h5
      refine ⟨h5.1, ?_⟩
      intro s s' t L hP
      cases hP with
      | seq_cons hP1 hP2 => rw [h6 _ _ _ _ hP2, h2.never h5.2 _ _ _ _ hP1]
    · intro h
      obtain ⟨h5, h6⟩ := k4 h
      simp only [wfaElem, Bool.or_eq_false_iff] at h5
      refine ⟨h5.1, .seq ?_⟩
      cases h6 with
      | seq h6 => exact List.forall_mem_cons.2 ⟨h2.null h5.2, h6⟩
  | @choice_nil this w st =>
    refine ⟨hi, fun i => ⟨fun h => .inl h, fun h => ⟨h, ?_⟩, fun h => ⟨h, ?_⟩, fun h => .inl h⟩⟩
    · intro s s' t L hP; cases hP
    · intro s s' t L hP; cases hP
  | @choice_stop this w e es st c st1 hv hes hcf ih =>
    obtain ⟨h1, h2⟩ := ih hi (fun hc q hq => hp hc e List.mem_cons_self q hq) trivial
    have hnf := h2.fails hcf
    obtain ⟨i0, before, hthis⟩ := hs
    refine ⟨hrep ⟨h1.wfa, h1.diags, h1.path, h1.nodup⟩ ⟨i0, before, es, hthis, hes, hnf⟩, fun i => ⟨?_, ?_, ?_, ?_⟩⟩
    · intro _; right; intro s L hP; cases hP with
      | choice_fail hP _ => exact hnf _ _ hP
    · intro h
      simp only [wfaBranch, Bool.or_eq_false_iff] at h
      refine ⟨h.1, ?_⟩
      intro s s' t L hP; cases hP with
      | choice_first hP => exact h2.succeeds h.2 _ _ _ _ hP
      | choice_next hP _ => exact hnf _ _ hP
    · intro h
      simp only [wfaBranch, Bool.and_eq_true] at h
      refine ⟨h.1, ?_⟩
      intro s s' t L hP; cases hP with
      | choice_first hP => exact h2.never h.2 _ _ _ _ hP
      | choice_next hP _ => exact absurd hP (hnf _ _)
    · intro h
      simp only [wfaBranch, Bool.and_eq_false_iff] at h
      exact h.imp id fun h => .choice List.mem_cons_self (h2.null h)
  | @choice_next this w e es st c st1 w' st' hv hor _ ih1 ih2 =>
    obtain ⟨h1, h2⟩ := ih1 hi (fun hc q hq => hp hc e List.mem_cons_self q hq) trivial
    have hpath := hv.frame.1
    obtain ⟨i0, before, hthis⟩ := hs
    obtain ⟨h3, h4⟩ := ih2 ⟨h1.wfa, h1.diags, h1.path, h1.nodup⟩ (by
      intro hc e' he' q hq
      have := hp hc e' (List.mem_cons_of_mem _ he') q hq
      simp only [hpath]; exact this) ⟨i0, before ++ [e], by simpa using hthis⟩
    refine ⟨h3, fun i => ?_⟩
    obtain ⟨k1, k2, k3, k4⟩ := h4 i
    refine ⟨?_, ?_, ?_, ?_⟩
    · intro h
      rcases k1 h with h5 | h5
      · simp only [wfaBranch, Bool.and_eq_false_iff] at h5
        rcases h5 with h5 | h5
        · exact .inl h5
        · right; intro s L hP; cases hP with
          | choice_fail hP _ => exact h2.fails h5 _ _ hP
      · right; intro s L hP; cases hP with
        | choice_fail _ hP => exact h5 _ _ hP
    · intro h
      obtain ⟨h5, h6⟩ := k2 h
      simp only [wfaBranch, Bool.or_eq_false_iff] at h5
      refine ⟨h5.1, ?_⟩
      intro s s' t L hP; cases hP with
      | choice_first hP => exact h2.succeeds h5.2 _ _ _ _ hP
      | choice_next _ hP => exact h6 _ _ _ _ hP
    · intro h
      obtain ⟨h5, h6⟩ := k3 h
      simp only [wfaBranch, Bool.and_eq_true] at h5
      refine ⟨h5.1, ?_⟩
      intro s s' t L hP; cases hP with
      | choice_first hP => exact h2.never h5.2 _ _ _ _ hP
      | choice_next _ hP => exact h6 _ _ _ _ hP
    · intro h
      rcases k4 h with h5 | h5
      · simp only [wfaBranch, Bool.and_eq_false_iff] at h5
        exact h5.imp id fun h => .choice List.mem_cons_self (h2.null h)
      · cases h5 with
        | choice he h => exact .inr (.choice (List.mem_cons_of_mem _ he) h)
  | @rule_rec r st w hrec hc hw => exact ⟨hi, hi.wfa _ _ hw⟩
  | @rule_left r st e w hrec hsince hc he hw =>
    have hne : st.path ≠ [] := by
      intro h; simp [WState.isRec, h] at hrec
    have := PathOk.cycle hi.path hi.nodup hrec hsince (hp hc hne)
    exact ⟨hrep ⟨hi.wfa, hi.diags, hi.path, hi.nodup⟩ ⟨rfl, this⟩, hi.wfa _ _ hw⟩
  | @rule_same r st e w st1 hrec he hv hw _ ih =>
    obtain ⟨h1, h2⟩ := ih ⟨hi.wfa, hi.diags, hi.path.push hp, nodup_push hrec hi.nodup⟩ (fun _ q hq => ⟨r, _, _, rfl, e, he, hq⟩) trivial
    have hpath := hv.frame.1
    exact ⟨⟨h1.wfa, h1.diags, by rw [hpath]; exact hi.path, by rw [hpath]; exact hi.nodup⟩, e, he, h2⟩
  | @rule_new r st e w st1 old hrec he hv hw hne _ ih =>
    obtain ⟨h1, h2⟩ := ih ⟨hi.wfa, hi.diags, hi.path.push hp, nodup_push hrec hi.nodup⟩ (fun _ q hq => ⟨r, _, _, rfl, e, he, hq⟩) trivial
    have hpath := hv.frame.1
    refine ⟨⟨?_, h1.diags, by rw [hpath]; exact hi.path, by rw [hpath]; exact hi.nodup⟩, e, he, h2⟩
    intro x w' hx
    simp only at hx
    split at hx
    · rename_i hxr; cases hx; subst hxr; exact ⟨e, he, h2⟩
    · exact h1.wfa x w' hx

/-- The initial state. -/
theorem SInv.new : SInv G X (.new G) := by
  refine ⟨?_, ?_, trivial, List.nodup_nil⟩
  · intro r w h
    simp only [WState.new] at h
    split at h
    · rename_i hr
      cases h
      obtain ⟨e, he⟩ := Option.isSome_iff_exists.1 hr
      exact ⟨e, he, by constructor <;> intro h <;> simp [WFA.dflt] at h⟩
    · cases h
  · intro d hd; cases hd

/-- Visits from rules that are not being visited. -/
structure Top (st : WState) : Prop where
  path : st.path = []
  consumed : st.consumed = false

theorem visitEach_sound {n : Nat} {rs : List (String × Expr)} {st st' : WState} (h : visitEach G n rs st = .ok st') (ht : Top st) (hi : SInv G X st) :
    Top st' ∧ SInv G X st' := by
  induction rs generalizing st with
  | nil => cases h; exact ⟨ht, hi⟩
  | cons x rs ih =>
    obtain ⟨r, e⟩ := x
    unfold visitEach at h
    obtain ⟨⟨w, st1⟩, h1, h2⟩ := Res.bind_eq_ok h
    have hv := visitRule_visit n _ _ _ _ h1
    have hi1 := (hv.sound hi (fun _ h => absurd ht.path h) trivial).1
    have ht1 : Top st1 := ⟨hv.frame.1.trans ht.path, (hv.frame.2 (by simp)).trans ht.consumed⟩
    simp only at h2
    split at h2
    · cases h2; exact ⟨ht1, hi1⟩
    · exact ih h2 ht1 hi1

theorem visitRules_sound {n m : Nat} {st st' : WState} (h : visitRules G n m st = .ok st') (ht : Top st) (hi : SInv G X st) :
    Top st' ∧ SInv G X st' := by
  induction m generalizing st with
  | zero => cases h
  | succ m ih =>
    unfold visitRules at h
    split at h
    · obtain ⟨st1, h1, h2⟩ := Res.bind_eq_ok h
      obtain ⟨ht1, hi1⟩ := visitEach_sound (X := X) h1 ⟨ht.path, ht.consumed⟩ ⟨hi.wfa, hi.diags, hi.path, hi.nodup⟩
      exact ih h2 ht1 hi1
    · cases h; exact ⟨ht, hi⟩

/-- Whatever the outcome of the analysis, its attributes and diagnostics are true. -/
theorem wellFormedness_sound {n m : Nat} {st : WState} (h : wellFormedness G n m = .ok st) (X : ExtSpec) : SInv G X st :=
  (visitRules_sound h ⟨rfl, rfl⟩ .new).2

end Oak
