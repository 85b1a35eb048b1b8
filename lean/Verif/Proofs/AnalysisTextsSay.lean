import Verif.Proofs.AnalysisTexts
import Verif.Proofs.Texts
import Verif.Properties.Chaining
/-! The texts of the messages of the analysis phase: what they say. -/
set_option autoImplicit false
set_option linter.constructorNameAsVariable false

namespace Oak
open Spec

theorem innerBranches_same {V : String → Res (Op × Bool)} (es : List Expr) : ∀ {op op' : Op} {c c' : Bool}, innerBranches V op c es = .ok (op', c') → op' ≠ .nothing →
    op' = op ∧ ∀ e ∈ es, ∃ b, innerExpr V e = .ok (op, b) := by
  induction es with
  | nil => intro op op' c c' h _; rw [innerBranches] at h; cases h; exact ⟨rfl, by simp⟩
  | cons e es ih =>
    intro op op' c c' h hn
    rw [innerBranches] at h
    obtain ⟨⟨o, b⟩, h1, h2⟩ := Res.bind_eq_ok h
    simp only at h2
    split at h2
    · cases h2; exact (hn rfl).elim
    · rename_i heq
      have heq : op = o := by simpa using heq
      subst heq
      obtain ⟨h3, h4⟩ := ih h2 hn
      exact ⟨h3, List.forall_mem_cons.2 ⟨⟨b, h1⟩, h4⟩⟩

/-- What the visit of an expression finds. -/
theorem innerExpr_starts {G : Grammar} {V : String → Res (Op × Bool)}
    (hV : ∀ q op b, V q = .ok (op, b) → op ≠ .nothing → ∃ e, G.find q = some e ∧ BeginsWith G op e) (e : Expr) :
    ∀ {op : Op} {b : Bool}, innerExpr V e = .ok (op, b) → op ≠ .nothing → BeginsWith G op e := by
  induction e using Expr.ind with
  | str i l => intro op b h hn; rw [innerExpr] at h; cases h; exact (hn rfl).elim
  | any i => intro op b h hn; rw [innerExpr] at h; cases h; exact (hn rfl).elim
  | cls i k => intro op b h hn; rw [innerExpr] at h; cases h; exact (hn rfl).elim
  | ext i p => intro op b h hn; rw [innerExpr] at h; cases h; exact (hn rfl).elim
  | nt i r =>
    intro op b h hn
    rw [innerExpr] at h
    obtain ⟨⟨o, b'⟩, h1, h2⟩ := Res.bind_eq_ok h
    cases h2
    obtain ⟨e, he, hs⟩ := hV _ _ _ h1 hn
    exact .nt he hs
  | star i c _ => intro op b h _; rw [innerExpr] at h; cases h; exact .here (x := c) rfl
  | plus i c _ => intro op b h _; rw [innerExpr] at h; cases h; exact .here (x := c) rfl
  | opt i c _ => intro op b h _; rw [innerExpr] at h; cases h; exact .here (x := c) rfl
  | not i c _ => intro op b h _; rw [innerExpr] at h; cases h; exact .here (x := c) rfl
  | and i c _ => intro op b h _; rw [innerExpr] at h; cases h; exact .here (x := c) rfl
  | act i c x f ih => intro op b h hn; rw [innerExpr] at h; exact .act (ih h hn)
  | asc i c t ih => intro op b h hn; rw [innerExpr] at h; exact .asc (ih h hn)
  | span i c ih => intro op b h hn; rw [innerExpr] at h; exact .span (ih h hn)
  | range i c ih => intro op b h hn; rw [innerExpr] at h; exact .range (ih h hn)
  | seq i es ih =>
    intro op b h hn
    cases es with
    | nil => rw [innerExpr] at h; cases h
    | cons e es => rw [innerExpr] at h; exact .seq (ih e List.mem_cons_self h hn)
  | choice i es ih =>
    intro op b h hn
    cases es with
    | nil => rw [innerExpr] at h; cases h
    | cons e es =>
      rw [innerExpr] at h
      obtain ⟨⟨o, b1⟩, h1, h2⟩ := Res.bind_eq_ok h
      obtain ⟨⟨o2, b2⟩, h3, h4⟩ := Res.bind_eq_ok h2
      simp only at h4
      rw [h1] at h3
      cases h3
      rw [if_neg (by simp)] at h4
      obtain ⟨rfl, h5⟩ := innerBranches_same es h4 hn
      exact .choice (List.forall_mem_cons.2 ⟨ih e List.mem_cons_self h1 hn, fun e' he' => (h5 e' he').elim fun b h => ih e' (List.mem_cons_of_mem _ he') h hn⟩)

theorem innerRule_starts {G : Grammar} (n : Nat) : ∀ q op b, innerRule G n q = .ok (op, b) → op ≠ .nothing → ∃ e, G.find q = some e ∧ BeginsWith G op e := by
  induction n with
  | zero => intro q op b h _; cases h
  | succ n ih =>
    intro q op b h hn
    rw [innerRule] at h
    cases he : G.find q with
    | none => rw [he] at h; cases h
    | some e => rw [he] at h; exact ⟨e, rfl, innerExpr_starts ih e h hn⟩

/-- The patterns and what they are rewritten to. -/
theorem checkChain_text {outer inner : Op} {b : Bool} {p r : String} (h : checkChain outer inner b = some (p, r)) :
    RedundantHere outer inner ∧ inner ≠ .nothing ∧ p = outer.around ("(" ++ inner.around "e" ++ ")") ∧ r = (outer.merged inner).around "e" := by
  cases outer <;> cases inner <;> cases b <;> simp only [checkChain, Option.some.injEq, Prod.mk.injEq, reduceCtorEq] at h <;> obtain ⟨rfl, rfl⟩ := h <;>
    refine ⟨by simp [RedundantHere, Redundant], by simp, by decide +kernel, by decide +kernel⟩

theorem warning_render {G : Grammar} {n : Nat} {ws : List Warning} (hu : (G.rules.map (·.1)).Nodup) (h : chaining G n = .ok ws) {w : Warning} (hw : w ∈ ws) :
    ChainWarning G w.render := by
  obtain ⟨hocc, outer, c, inner, b, h1, h2, h3⟩ := chaining_from hu h hw
  obtain ⟨h4, h5, h6, h7⟩ := checkChain_text h3
  have := ChainWarning.mk hocc h1 (innerExpr_starts (innerRule_starts n) c h2 h5) h4
  rw [← h6, ← h7] at this
  exact this

/-! ### The grammar that is analysed -/

section
variable {rules : List (String × Expr)} {G : Grammar}

theorem AnalysedBy.nodup (h : AnalysedBy rules G) : (G.rules.map (·.1)).Nodup := by
  obtain ⟨kept, _, h2, _, rfl⟩ := h
  simpa [resolveGrammar, List.map_map, Function.comp_def] using h2

theorem AnalysedBy.written (h : AnalysedBy rules G) {r : String} {e : Expr} (he : G.find r = some e) : ∃ j x, rules.findIdx? (fun x => x.1 == r) = some j ∧
    rules[j]? = some (r, x) ∧ ∀ i y, i < j → rules[i]? = some y → y.1 ≠ r := by
  obtain ⟨kept, h1, h2, h3, rfl⟩ := h
  have := grammar_find_mem he
  obtain ⟨x, hx, hxe⟩ := List.mem_map.1 this
  cases hxe
  have hx' := h1.subset hx
  cases hf : rules.findIdx? fun y => y.1 == x.1 with
  | none =>
    rw [List.findIdx?_eq_none_iff] at hf
    have := hf x hx'
    simp at this
  | some j =>
    rw [List.findIdx?_eq_some_iff_getElem] at hf
    obtain ⟨h4, h5, h6⟩ := hf
    refine ⟨j, rules[j].2, rfl, ?_, fun i y hi hy => ?_⟩
    · rw [List.getElem?_eq_getElem h4]
      rw [beq_iff_eq] at h5
      exact congrArg some (Prod.ext h5 rfl)
    · have hi' : i < rules.length := by omega
      rw [List.getElem?_eq_getElem hi'] at hy
      cases hy
      have := h6 i hi
      simpa using this

theorem LeftChain.first {q : String} : ∀ {r : String} {rs : List String}, LeftChain G q r rs → ∃ e, G.find r = some e
  | r, [], h => h.imp fun _ h => h.1
  | r, _ :: _, h => h.1.imp fun _ h => h.1

/-- Each error is shown. -/
theorem diag_render (hA : AnalysedBy rules G) {d : Diag} (hd : d.Found G) : ∃ t, d.render rules = .ok t ∧ FormError rules G t := by
  cases d with
  | leftRecursion r cycle =>
    obtain ⟨h1, h2⟩ := hd
    cases cycle with
    | nil => cases h1
    | cons x c =>
      cases h1
      obtain ⟨e, he⟩ := h2.2.first
      obtain ⟨j, y, h3, h4, h5⟩ := hA.written he
      refine ⟨_, ?_, .leftRecursion h4 h5 h2⟩
      have h6 : dispCycle (r :: c) = .ok (cycleLine (r :: c)) := Typing.dispCycle_eq (by simp)
      simp only [Diag.render, h3, h6, Res.bind_ok]
      rfl
  | neverSucceed e => exact ⟨_, rfl, .neverSucceed hd.1 hd.2⟩
  | alwaysSucceed e => exact ⟨_, rfl, .alwaysSucceed hd.1 hd.2.1 hd.2.2⟩
  | loopRepeat e =>
    obtain ⟨h1, i, c, h2, h3⟩ := hd
    exact ⟨_, rfl, .loopRepeat h1 h2 h3⟩
  | unreachable choice branch =>
    obtain ⟨h1, i, before, after, rfl, h3, h4⟩ := hd
    exact ⟨_, rfl, .unreachable h1 h3 h4⟩
end

/-! ### The list of messages -/

section
variable {rules : List (String × Expr)}

theorem renderMsgs_rules (rs : List (Nat × Nat × String)) (fs : List (Nat × Nat × String)) (as : List Nat) (ms : List Msg) {xs : List AEmitted}
    (h : renderMsgs rules [] fs as ms = .ok xs) :
    renderMsgs rules rs fs as ((rs.map (·.2.2)).map .duplicateRule ++ ms) = .ok (rs.map (repeatMessage "rule" .rule) ++ xs) := by
  induction rs with
  | nil => exact h
  | cons r rs ih =>
    rw [List.map_cons, List.map_cons, List.cons_append, renderMsgs]
    simp only [ih, Res.bind_ok]
    rfl

theorem renderMsgs_fns (fs : List (Nat × Nat × String)) (as : List Nat) (ms : List Msg) {xs : List AEmitted}
    (h : renderMsgs rules [] [] as ms = .ok xs) :
    renderMsgs rules [] fs as ((fs.map (·.2.2)).map .duplicateFn ++ ms) = .ok (fs.map (repeatMessage "rust function" .fn) ++ xs) := by
  induction fs with
  | nil => exact h
  | cons r rs ih =>
    rw [List.map_cons, List.map_cons, List.cons_append, renderMsgs]
    simp only [ih, Res.bind_ok]
    rfl

theorem renderMsgs_forms {G : Grammar} (hA : AnalysedBy rules G) (as : List Nat) (ms : List Msg) {xs : List AEmitted}
    (h : renderMsgs rules [] [] as ms = .ok xs) (ds : List Diag) (hd : ∀ d ∈ ds, d.Found G) :
    ∃ ts, ts.length = ds.length ∧ (∀ t ∈ ts, FormError rules G t) ∧ renderMsgs rules [] [] as (ds.map .wellFormed ++ ms) = .ok (ts ++ xs) := by
  induction ds with
  | nil => exact ⟨[], rfl, by simp, h⟩
  | cons d ds ih =>
    rw [List.forall_mem_cons] at hd
    obtain ⟨t, ht, ht'⟩ := diag_render hA hd.1
    obtain ⟨ts, h1, h2, h3⟩ := ih hd.2
    refine ⟨t :: ts, by simp [h1], List.forall_mem_cons.2 ⟨ht', h2⟩, ?_⟩
    rw [List.map_cons, List.cons_append, renderMsgs]
    simp only [ht, h3, Res.bind_ok]
    rfl

theorem renderMsgs_chains (as : List Nat) (ms : List Msg) {xs : List AEmitted}
    (h : renderMsgs rules [] [] as ms = .ok xs) (ws : List Warning) :
    renderMsgs rules [] [] as (ws.map .chain ++ ms) = .ok (ws.map Warning.render ++ xs) := by
  induction ws with
  | nil => exact h
  | cons d ds ih =>
    rw [List.map_cons, List.cons_append, renderMsgs]
    simp only [ih, Res.bind_ok]
    rfl

theorem renderMsgs_attrs (as : List Nat) :
    renderMsgs rules [] [] as (as.map fun _ => .unknownAttr) = .ok (as.map fun j => ⟨false, .attr j, "unknown attribute: it will be ignored.".toList, []⟩) := by
  induction as with
  | nil => rfl
  | cons a as ih =>
    rw [List.map_cons, renderMsgs]
    simp only [ih, Res.bind_ok]
    rfl
end

theorem attrs_spec (as : List Path) : (unknownAt 0 as).map (fun j => (⟨false, .attr j, "unknown attribute: it will be ignored.".toList, []⟩ : AEmitted)) = attrWarnings as := by
  rw [unknownAt_spec, List.map_filterMap]
  unfold attrWarnings
  congr 1
  funext ⟨a, j⟩
  simp only
  split <;> rfl

end Oak
