import Verif.Proofs.MsgPlaces
/-!
# C69: the messages of the macro point at the text they are about

`lparseGrammar` is the front-end on tokens that have a place in the source; it gives the grammar and the table of the spans of its expressions, that all the messages about
expressions use.
-/
set_option linter.constructorNameAsVariable false
set_option autoImplicit false

namespace Oak
open Spec Typing

section
variable {n : Nat} {lts : List LTok} {F : FGrammar} {T : List SrcSpan}

/-- C69: the places of the tokens have no influence on what is read: the grammar is that of the tokens alone, and the table has a span for each index. -/
theorem C69_same_front_end (n : Nat) (lts : List LTok) :
    (∀ F T, lparseGrammar n lts = .ok (F, T) → parseBlocks n 0 (eraseAll lts) = .ok (F, T.length)) ∧
    (∀ F k, parseBlocks n 0 (eraseAll lts) = .ok (F, k) → ∃ T, lparseGrammar n lts = .ok (F, T) ∧ T.length = k) ∧
    (lparseGrammar n lts = .stuck ↔ parseBlocks n 0 (eraseAll lts) = .stuck) ∧
    (lparseGrammar n lts = .panic ↔ parseBlocks n 0 (eraseAll lts) = .panic) := by
  have h := lparseBlocks_same n [] lts
  unfold lparseGrammar
  simp only [List.length_nil] at h
  cases h1 : lparseBlocks n [] lts <;> cases h2 : parseBlocks n 0 (eraseAll lts) <;> rw [h1, h2] at h <;> first | exact h.elim | skip
  · rename_i a b
    obtain ⟨F, T⟩ := a
    obtain ⟨F', k⟩ := b
    obtain ⟨rfl, rfl⟩ : F = F' ∧ k = T.length := h
    refine ⟨?_, ?_, by simp, by simp⟩
    · intro F1 T1 h3; cases h3; rfl
    · intro F1 k1 h3; cases h3; exact ⟨T, rfl, rfl⟩
  all_goals refine ⟨(by intro _ _ h3; cases h3), (by intro _ _ h3; cases h3), by simp, by simp⟩

/-- C69: the macro finds an error of syntax, or gives a table where each expression of the grammar has its entry and every entry is that of one expression. -/
theorem C69_table (h : lparseGrammar n lts = .ok (F, T)) : indicesAll (F.rules.map (·.2)) = List.range T.length := by
  obtain ⟨_, h1⟩ := blocks_numbered _ _ _ _ _ ((C69_same_front_end n lts).1 F T h)
  rw [h1, Nat.sub_zero, List.range_eq_range']

/-- C69: the spans of the expressions of a grammar point at their texts in the source: the text of a sub-expression, as the syntax defines it, is a sequence of consecutive
tokens, and the span is not empty, is in this text and is made of its tokens by the rules of `SpanRule`. -/
theorem C69_points (h : lparseGrammar n lts = .ok (F, T)) : ∀ r ∈ F.rules, ∀ x, Sub x r.2 → PointsAt T lts x := by
  intro r hr x hx
  obtain ⟨_, hl⟩ := lparseBlocks_loc n [] lts F T h
  obtain ⟨a, us, b, rfl, hne, _, hp⟩ := hl.mem r hr
  exact (hp x hx).part .here hne

/-- C69: the rules are written one after the other in the source, and the spans of the expressions of a rule point inside the text of this rule. -/
theorem C69_rules (h : lparseGrammar n lts = .ok (F, T)) : Laid (fun us r => RuleText us r ∧ ∀ x, Sub x r.2 → PointsAt T us x) lts F.rules :=
  (lparseBlocks_loc n [] lts F T h).2.imp fun _ _ hp => hp.2

theorem laid_apart {ts : List LTok} {rs : List (String × Expr)} (hl : Laid (fun us r => us ≠ [] ∧ RuleText us r ∧ ∀ x, Sub x r.2 → PointsAt T us x) ts rs) :
    ∀ {lo hi : Nat}, PlacedAll lo hi ts →
    (∀ r ∈ rs, ∀ x, Sub x r.2 → ∃ s, T[x.id]? = some s ∧ s.Inside ⟨lo, hi⟩ ∧ s.lo < s.hi) ∧
    rs.Pairwise fun r q => ∀ x y s t, Sub x r.2 → Sub y q.2 → T[x.id]? = some s → T[y.id]? = some t → s.hi ≤ t.lo := by
  induction hl with
  | nil => intro lo hi _; exact ⟨by simp, .nil⟩
  | @cons a us b r rs h1 _ ih =>
    intro lo hi hp
    obtain ⟨m2, h3, h4⟩ := hp.split
    obtain ⟨m1, h5, h6⟩ := h3.split
    obtain ⟨k1, k2⟩ := ih h4
    have le : ∀ {l h : Nat} {ts : List LTok}, PlacedAll l h ts → l ≤ h := by
      intro l h ts
      induction ts generalizing l with
      | nil => intro hh; rw [PlacedAll] at hh; exact hh
      | cons t ts iht =>
        intro hh
        rw [PlacedAll] at hh
        have := iht hh.2.2.2
        have := Placed.bounds hh.2.1
        omega
    have l1 := le h5
    have l2 := le h6
    have l3 := le h4
    have hus : ∀ x, Sub x r.2 → ∃ s, T[x.id]? = some s ∧ s.Inside ⟨m1, m2⟩ ∧ s.lo < s.hi := by
      intro x hx
      obtain ⟨s, h7, h8, h9⟩ := (h1.2.2 x hx).span h6
      exact ⟨s, h7, h8.trans (h6.extent h1.1), h9⟩
    refine ⟨?_, .cons ?_ k2⟩
    · intro q hq x hx
      rcases List.mem_cons.1 hq with rfl | hq
      · obtain ⟨s, h7, ⟨h8, h8'⟩, h9⟩ := hus x hx
        exact ⟨s, h7, ⟨by simp only at *; omega, by simp only at *; omega⟩, h9⟩
      · obtain ⟨s, h7, ⟨h8, h8'⟩, h9⟩ := k1 q hq x hx
        exact ⟨s, h7, ⟨by simp only at *; omega, by simp only at *; omega⟩, h9⟩
    · intro q hq x y s t hx hy hs ht
      obtain ⟨s', h7, ⟨h8, h8'⟩, h9⟩ := hus x hx
      obtain ⟨t', g7, ⟨g8, g8'⟩, g9⟩ := k1 q hq y hy
      rw [h7] at hs; cases hs
      rw [g7] at ht; cases ht
      simp only at *
      omega

/-- C69: messages about different rules point at different places: spans are not empty, are in the source, and those of a rule are before those of the next rules. -/
theorem C69_apart (h : lparseGrammar n lts = .ok (F, T)) {lo hi : Nat} (hp : PlacedAll lo hi lts) :
    (∀ r ∈ F.rules, ∀ x, Sub x r.2 → ∃ s, T[x.id]? = some s ∧ lo ≤ s.lo ∧ s.lo < s.hi ∧ s.hi ≤ hi) ∧
    F.rules.Pairwise fun r q => ∀ x y s t, Sub x r.2 → Sub y q.2 → T[x.id]? = some s → T[y.id]? = some t → s.hi ≤ t.lo := by
  obtain ⟨h1, h2⟩ := laid_apart (lparseBlocks_loc n [] lts F T h).2 hp
  refine ⟨fun r hr x hx => ?_, h2⟩
  obtain ⟨s, h3, h4, h5⟩ := h1 r hr x hx
  exact ⟨s, h3, h4.1, h5, h4.2⟩

/-- C69: the messages of the typing phase are about expressions of the right kind: semantic actions, choices, or any expression for the errors of ascription; or about
declared rules. -/
theorem C69_typing {ts : List Tok} {A : AGrammar} {k a b : Nat} (h : Analysed ts A k) {p : Partial (Nat → Ty)} {ms : List TMsg}
    (ht : typeInference A k a b = .ok (p, ms)) : ∀ msg ∈ ms, msg.About A.grammar := typeInference_about h.prepared.ready.names ht

theorem written_id (e : Expr) : e.written.id = e.id := by cases e <;> rfl

/-- C69: all the messages of the macro about expressions are about expressions that are written in the grammar, and point at their text: the messages of the analysis
phase, and those of the typing phase, that know the expression by its index. -/
theorem C69_messages (h : lparseGrammar n lts = .ok (F, T)) {m : Nat} {x : Expansion} (hx : oak m (eraseAll lts) = .ok x) :
    (∀ msg ∈ x.analysisMsgs, ∀ e ∈ msg.exprs, ∃ r ∈ F.rules, Sub e.written r.2 ∧ PointsAt T lts e.written) ∧
    (∀ msg ∈ x.typingMsgs, ∀ i, msg.index = some i → ∃ r ∈ F.rules, ∃ e, Sub e r.2 ∧ e.id = i ∧ PointsAt T lts e) := by
  have hread := (C69_same_front_end n lts).1 F T h
  unfold oak at hx
  split at hx
  · rename_i F' k hp
    have : (F', k) = (F, T.length) := by
      have h1 : parseBlocks (max n m) 0 (eraseAll lts) = .ok (F, T.length) := by
        rw [← hread]; exact parseBlocks_mono (Nat.le_max_left n m) (by rw [hread]; simp)
      have h2 : parseBlocks (max n m) 0 (eraseAll lts) = .ok (F', k) := by
        rw [← hp]; exact parseBlocks_mono (Nat.le_max_right n m) (by rw [hp]; simp)
      rw [h1] at h2; cases h2; rfl
    cases this
    have hF : F.Built := C46_built (parseGrammar_ok.2 ⟨_, hread⟩)
    have hwr : ∀ ms : List Msg, (∀ msg ∈ ms, Written F.rules msg) → ∀ msg ∈ ms, ∀ e ∈ msg.exprs, ∃ r ∈ F.rules, Sub e.written r.2 ∧ PointsAt T lts e.written := by
      intro ms hms msg hm e he
      obtain ⟨r, hr, hs⟩ := hms msg hm e he
      exact ⟨r, hr, hs, C69_points h r hr _ hs⟩
    unfold checkAndCompile at hx
    obtain ⟨⟨p, ms⟩, h1, h2⟩ := Res.bind_eq_ok hx
    obtain ⟨t1, t2⟩ := analysisPhase_tells m m F hF p ms h1
    dsimp only at h2
    split at h2
    · rename_i B
      have hB := t1 B (.inl rfl)
      have hS : (extractStream B).grammar = B.grammar := by unfold extractStream; split <;> rfl
      unfold typeAndCompile at h2
      obtain ⟨⟨q, us⟩, h3, h4⟩ := Res.bind_eq_ok h2
      have hty : ∀ msg ∈ us, ∀ i, msg.index = some i → ∃ r ∈ F.rules, ∃ e, Sub e r.2 ∧ e.id = i ∧ PointsAt T lts e := by
        intro msg hm i hi
        have hab := typeInference_about (by rw [hS]; exact hB.nodup) h3 msg hm
        rw [hS] at hab
        have key : ∀ e, Occurs B.grammar e → e.id = i → ∃ r ∈ F.rules, ∃ e, Sub e r.2 ∧ e.id = i ∧ PointsAt T lts e := by
          intro e he hid
          obtain ⟨r, hr, hs⟩ := hB.occurs hF.unresolved he
          exact ⟨r, hr, _, hs, by rw [written_id, hid], C69_points h r hr _ hs⟩
        cases msg with
        | unitAction j => cases hi; obtain ⟨e, bx, f, ho⟩ := hab; exact key _ ho rfl
        | mismatch j => cases hi; obtain ⟨es, ho⟩ := hab; exact key _ ho rfl
        | ascription j => cases hi; obtain ⟨e, ho, hid⟩ := hab; exact key _ ho hid
        | untyped | recursive => cases hi
      dsimp only at h4
      split at h4
      · split at h4
        · cases h4; exact ⟨hwr _ t2, hty⟩
        · cases h4
      · cases h4; exact ⟨hwr _ t2, hty⟩
    · cases h2; exact ⟨hwr _ t2, by intro msg hm; cases hm⟩
  · cases hx; exact ⟨(by intro msg hm; cases hm), (by intro msg hm; cases hm)⟩
  · cases hx
  · cases hx

end

/-! ## Examples -/

namespace Sample

/-- A token at a place. -/
def at_ (l : TokLeaf) (lo hi : Nat) : LTok := .leaf l ⟨lo, hi⟩ ⟨lo, hi⟩

/-- The source `r = "a" > f / ("b" s)+ > g  s: T = ("c"*)*`, with its places. -/
def placed : List LTok :=
  [at_ (.path ["r"]) 0 1, at_ (.punct '=' false) 2 3, at_ (.lit "a") 4 7, at_ (.punct '>' false) 8 9, at_ (.path ["f"]) 10 11, at_ (.punct '/' false) 12 13,
    .paren [at_ (.lit "b") 15 18, at_ (.path ["s"]) 19 20] ⟨14, 15⟩ ⟨14, 21⟩, at_ (.punct '+' false) 21 22, at_ (.punct '>' false) 23 24, at_ (.path ["g"]) 25 26,
    at_ (.path ["s"]) 28 29, at_ (.punct ':' false) 29 30, at_ (.path ["T"]) 31 32, at_ (.punct '=' false) 33 34,
    .paren [at_ (.lit "c") 36 39, at_ (.punct '*' false) 39 40] ⟨35, 36⟩ ⟨35, 41⟩, at_ (.punct '*' false) 41 42]

theorem placed_places : PlacedAll 0 42 placed := by
  simp [placed, PlacedAll, LTok.Placed, LTok.whole, at_]

/-- What is read from it. -/
def placedRules : FGrammar :=
  ⟨[("r", .choice 7 [.act 1 (.str 0 "a") false ["f"], .act 6 (.plus 5 (.seq 4 [.str 2 "b", .ext 3 ["s"]])) false ["g"]]),
    ("s", .asc 11 (.star 10 (.star 9 (.str 8 "c"))) (.regular (.rust "T")))], [], []⟩

/-- The spans of its expressions. -/
def placedSpans : List SrcSpan :=
  [⟨4, 7⟩, ⟨10, 11⟩, ⟨15, 18⟩, ⟨19, 20⟩, ⟨15, 20⟩, ⟨14, 22⟩, ⟨25, 26⟩, ⟨10, 26⟩, ⟨36, 39⟩, ⟨36, 40⟩, ⟨35, 42⟩, ⟨31, 32⟩]

theorem placed_read : lparseGrammar 30 placed = .ok (placedRules, placedSpans) := rfl

/-- The error and the warning of the macro on this source. -/
theorem placed_messages : ∃ x, oak 30 (eraseAll placed) = .ok x ∧ ∃ msg ∈ x.analysisMsgs, msg.exprs = [.star 10 (.star 9 (.str 8 "c"))] :=
  ⟨_, rfl, _, .head _, rfl⟩

end Sample

open Sample in
example : PointsAt placedSpans placed (.star 10 (.star 9 (.str 8 "c"))) :=
  C69_points placed_read _ (.tail _ (.head _)) _ (.asc .refl)

open Sample in
example : (∀ r ∈ placedRules.rules, ∀ x, Sub x r.2 → ∃ s, placedSpans[x.id]? = some s ∧ 0 ≤ s.lo ∧ s.lo < s.hi ∧ s.hi ≤ 42) := (C69_apart placed_read placed_places).1

open Sample in
example : ∃ x, oak 30 (eraseAll placed) = .ok x ∧ ∃ msg ∈ x.analysisMsgs, ∃ e ∈ msg.exprs, PointsAt placedSpans placed e.written := by
  obtain ⟨x, h1, msg, h2, h3⟩ := placed_messages
  refine ⟨x, h1, msg, h2, .star 10 (.star 9 (.str 8 "c")), by rw [h3]; simp, ?_⟩
  obtain ⟨r, hr, hs, hp⟩ := (C69_messages placed_read h1).1 msg h2 _ (by rw [h3]; exact .head _)
  exact hp

/-- C69: the span may leave out the beginning of the text of an expression. The span of a semantic action is that of its function, and the span of a choice goes from the span of
its first branch, so that messages about the choice `"a" > f / ("b" s)+ > g`, written from 4 to 26, point at `f / ("b" s)+ > g`, from 10 to 26. -/
theorem C69_left_out : ∃ n lts F T es, lparseGrammar n lts = .ok (F, T) ∧ PlacedAll 0 42 lts ∧ (∃ r ∈ F.rules, r.2 = .choice 7 es) ∧
    (∃ a us b, lts = a ++ us ++ b ∧ Syntax.Choice (eraseAll us) (Expr.choice 7 es).bare ∧ extent us = ⟨4, 26⟩) ∧ T[7]? = some ⟨10, 26⟩ := by
  refine ⟨30, Sample.placed, Sample.placedRules, Sample.placedSpans, _, Sample.placed_read, Sample.placed_places, ⟨_, .head _, rfl⟩,
    ⟨Sample.placed.take 2, (Sample.placed.drop 2).take 8, Sample.placed.drop 10, rfl, ?_, rfl⟩, rfl⟩
  refine .many (.cons (ts := [.lit "a", .punct '>' false, .path ["f"]]) (j := false)
    (us := [.paren [.lit "b", .path ["s"]], .punct '+' false, .punct '>' false, .path ["g"]]) ?_ (.one ?_))
  · exact .act (ts := [.lit "a"]) (.seq (.one (.one (.prefixed (.suffixed (.atom .lit))))) rfl)
  · refine .act (ts := [.paren [.lit "b", .path ["s"]], .punct '+' false]) (.seq (.one (.one (.prefixed (.suffixed (.plus (ts := [.paren [.lit "b", .path ["s"]]]) ?_))))) rfl)
    refine .paren (.one (.one (.spanned (.seq (.many ?_) rfl))))
    exact .cons (ts := [.lit "b"]) (us := [.path ["s"]]) (.prefixed (.suffixed (.atom .lit))) (.one (.prefixed (.suffixed (.atom .call)))) (by simp)

end Oak
