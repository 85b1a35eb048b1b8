import Verif.Proofs.Analysis
/-!
Properties of the analysis phase: duplicates, name resolution, attributes, and the phase as a whole.
-/
set_option linter.constructorNameAsVariable false
set_option autoImplicit false

namespace Oak
open Spec

/-! ### C25 -/

/-- C25: a list of items is accepted exactly when their names are all different. -/
theorem C25_accepts_iff {α : Type} (name : α → String) (xs : List α) : (∃ items, (duplicates name xs).1 = .value items) ↔ (xs.map name).Nodup := by
  obtain ⟨ks, ds, h1, h2, h3, h4, _, h6, _, _⟩ := populate_spec (name := name) xs [] [] (by simp)
  simp only [List.nil_append] at h1 h2
  unfold duplicates
  rw [h1]
  constructor
  · rintro ⟨items, h⟩
    cases ds with
    | nil => exact sublist_nodup_names h3 h4 h2 (by simpa using h6)
    | cons d ds => simp at h
  · intro h
    have := nodup_no_dups (name := name) xs [] [] h (by simp)
    rw [h1] at this
    cases this
    exact ⟨_, rfl⟩

/-- C25: in all cases a grammar with the retained items is built. They are the items whose name did not appear before, in the same order: a
name denotes the first item of that name. One error is emitted for each of the other items. -/
theorem C25_retained {α : Type} (name : α → String) (xs : List α) : ∃ items, ((duplicates name xs).1 = .value items ∨ (duplicates name xs).1 = .fake items) ∧
    (items.map (·.2)).Sublist xs ∧ (∀ y ∈ items, y.1 = name y.2) ∧ (items.map (·.1)).Nodup ∧
    (∀ n, items.find? (fun y => y.1 == n) = (xs.find? fun x => name x == n).map fun x => (name x, x)) ∧
    items.length + (duplicates name xs).2.length = xs.length ∧ ∀ d ∈ (duplicates name xs).2, d ∈ xs.map name := by
  obtain ⟨ks, ds, h1, h2, h3, h4, _, h6, h7, h8⟩ := populate_spec (name := name) xs [] [] (by simp)
  simp only [List.nil_append] at h1 h2
  refine ⟨ks, ?_, h3, h4, h2, fun n => h8 n (by simp), ?_, ?_⟩
  · unfold duplicates
    rw [h1]
    cases ds with
    | nil => exact .inl rfl
    | cons d ds => exact .inr rfl
  · unfold duplicates; rw [h1]; exact h6
  · unfold duplicates; rw [h1]; exact h7

/-- C25: the rules of a grammar without duplicates are all kept. -/
theorem C25_rules_kept (A : AGrammar) (rules : List (String × Expr)) (h : (rules.map (·.1)).Nodup) :
    ruleDuplicate A rules = .ok (.value { A with grammar := ⟨rules⟩ }, []) := by
  unfold ruleDuplicate duplicates
  rw [nodup_no_dups (name := Prod.fst) rules [] [] h (by simp)]
  simp [Partial.map, List.map_map, Function.comp_def]

/-! ### C26 -/

/-- C26: resolution changes nothing but the calls: as written, the rules are the same, with the same names in the same order. -/
theorem C26_unchanged (G : Grammar) (h : ∀ r ∈ G.rules, r.2.Unresolved) :
    (resolveGrammar G).rules.map (fun r => (r.1, r.2.written)) = G.rules := by
  unfold resolveGrammar
  rw [List.map_map]
  conv => rhs; rw [← List.map_id G.rules]
  refine List.map_congr_left fun r hr => ?_
  simp only [Function.comp_apply, id_eq]
  rw [resolve_written, unresolved_written (h r hr)]

/-- C26: after resolution, a call of a local rule denotes a declared rule and an external call is not the name of a declared rule. -/
theorem C26_exact (G : Grammar) (h : ∀ r ∈ G.rules, r.2.Unresolved) : (resolveGrammar G).resolved = true ∧
    (∀ i r, Occurs (resolveGrammar G) (.nt i r) → Declared G.rules r) ∧ (∀ i r, Occurs (resolveGrammar G) (.ext i [r]) → ¬ Declared G.rules r) := by
  have hn : (resolveGrammar G).rules.map (·.1) = G.rules.map (·.1) := by simp [resolveGrammar, List.map_map, Function.comp_def]
  have hf : ∀ r, ((resolveGrammar G).find r).isSome = true ↔ r ∈ G.rules.map (·.1) := fun r => by rw [find_isSome_iff, hn]
  have hall : ∀ x ∈ (resolveGrammar G).rules, x.2.resolved (resolveGrammar G) = true := by
    intro x hx
    obtain ⟨y, hy, rfl⟩ := List.mem_map.1 hx
    exact resolve_resolved hf _ (h y hy)
  refine ⟨List.all_eq_true.2 hall, ?_, ?_⟩
  · rintro i r ⟨q, e, he, hs⟩
    exact (hf r).1 (resolved_sub (hall _ (grammar_find_mem he)) hs)
  · rintro i r ⟨q, e, he, hs⟩ hd
    have := resolved_ext_sub (hall _ (grammar_find_mem he)) hs
    rw [← Option.not_isSome, Bool.not_eq_true', Bool.eq_false_iff] at this
    exact this ((hf r).2 hd)

/-! ### C35 -/

/-- C35: attributes that are not print attributes have no effect on the level, and each one emits a warning. -/
theorem C35_unknown (as : List Path) : ∀ lvl, (mergeAttrs lvl as).1 = (as.filterMap requested).foldl PrintLevel.merge lvl ∧
    (mergeAttrs lvl as).2 = (as.filter fun a => (requested a).isNone).map fun _ => .unknownAttr := by
  induction as with
  | nil => intro lvl; exact ⟨rfl, rfl⟩
  | cons a as ih =>
    intro lvl
    unfold mergeAttrs
    split
    · simp_all
    · rename_i h; cases h
      exact ⟨(ih _).1, (ih _).2⟩
    · rename_i h; cases h
      exact ⟨(ih _).1, (ih _).2⟩
    · rename_i h1 h2 h; cases h
      have : requested a = none := by
        unfold requested
        split
        · exact (h1 rfl).elim
        · exact (h2 rfl).elim
        · rfl
      rw [List.filterMap_cons, List.filter_cons, this]
      exact ⟨(ih _).1, by rw [(ih _).2]; rfl⟩

/-- C35: a level is the most verbose of those requested as long as the requests are increasing. -/
theorem C35_increasing (ls : List PrintLevel) (l : PrintLevel) (hi : (ls ++ [l]).Pairwise (fun a b => a.rank < b.rank)) (hn : .nothing ∉ ls ++ [l]) :
    (ls ++ [l]).foldl PrintLevel.merge .nothing = l ∧ ∀ a ∈ ls, a.rank < l.rank := by
  refine ⟨?_, fun a ha => ?_⟩
  · match ls, l with
    | [], l => cases l <;> simp_all [PrintLevel.merge]
    | [a], l => cases a <;> cases l <;> simp_all [PrintLevel.merge, PrintLevel.rank]
    | a :: b :: ls, l =>
      exfalso
      simp only [List.cons_append, List.pairwise_cons, List.mem_cons, List.mem_append] at hi hn
      have h1 := hi.1 b (.inl rfl)
      have h2 := hi.2.1 l (by simp)
      cases a <;> cases b <;> cases l <;> simp_all [PrintLevel.rank]
  · rw [List.pairwise_append] at hi
    exact hi.2.2 a ha l (by simp)

/-- C35: the condition is needed. A request that follows a request at least as verbose cancels both: the level is `nothing`. -/
theorem C35_not_increasing (ls : List PrintLevel) (a b : PrintLevel) (hb : b ≠ .nothing) (ha : a ≠ .nothing) (h : b.rank ≤ a.rank)
    (hl : ls.foldl PrintLevel.merge .nothing = a) : (ls ++ [b]).foldl PrintLevel.merge .nothing = .nothing := by
  rw [List.foldl_append, hl]
  cases a <;> cases b <;> simp_all [PrintLevel.rank, PrintLevel.merge]

/-- C35: from the attributes written on the grammar to its level: nothing is printed by default, and the requests are merged in the order in which they are written, whatever the rest
of the grammar is. -/
theorem C35_analysed {n m : Nat} {F : FGrammar} {A : AGrammar} {ms : List Msg} (h : analysisPhase n m F = .ok (.value A, ms)) :
    A.printTyping = (F.attrs.filterMap requested).foldl PrintLevel.merge .nothing ∧ (F.attrs.filterMap requested = [] → A.printTyping = .nothing) := by
  have key : A.printTyping = (F.attrs.filterMap requested).foldl PrintLevel.merge .nothing := by
    obtain ⟨F', _, _, h1, h2, _⟩ := andThen_value h
    have : F' = F := by
      unfold atLeastOneRule at h1
      split at h1
      · cases h1
      · cases h1; rfl
    subst this
    obtain ⟨A5, _, _, h5, h6, _⟩ := andThen_value h2
    obtain ⟨A4, _, _, h4, h7, _⟩ := andThen_value h5
    obtain ⟨A3, _, _, h3, h8, _⟩ := andThen_value h4
    obtain ⟨A2, _, _, h2', h9, _⟩ := andThen_value h3
    obtain ⟨A1, _, _, h1', h10, _⟩ := andThen_value h2'
    have e1 : A1.printTyping = .nothing := by
      unfold ruleDuplicate at h1'
      simp only at h1'
      cases hd : (duplicates Prod.fst F'.rules).1 <;> rw [hd] at h1' <;> cases h1'
      rfl
    have e2 : A2.printTyping = A1.printTyping := by
      unfold functionsDuplicate at h10
      simp only at h10
      cases hd : (duplicates RustFn.name (splitFns F'.items).1).1 <;> rw [hd] at h10 <;> cases h10
      rfl
    have e3 : A3.printTyping = A2.printTyping := by cases h9; rfl
    have e4 : A4 = A3 := by
      unfold wellFormedPhase at h8
      obtain ⟨st, k1, k2⟩ := Res.bind_eq_ok h8
      cases hw : st.wellFormed <;> rw [hw] at k2 <;> cases k2
      rfl
    have e5 : A5 = A4 := by
      unfold chainPhase at h7
      obtain ⟨ws, k1, k2⟩ := Res.bind_eq_ok h7
      cases k2; rfl
    unfold attributesPhase at h6
    cases h6
    rw [(C35_unknown _ _).1, e5, e4, e3, e2, e1]
  exact ⟨key, fun h0 => by rw [key, h0]; rfl⟩

/-! ### C43 -/

/-- C43: the analysis phase gives a grammar exactly when it emits no error: no error of a phase is lost, and no grammar is refused
without an error. -/
theorem C43_error_iff {n m : Nat} {F : FGrammar} {p : Partial AGrammar} {ms : List Msg} (h : analysisPhase n m F = .ok (p, ms)) :
    (∃ A, p = .value A) ↔ ∀ msg ∈ ms, msg.isError = false := analysisPhase_honest n m F p ms h

/-- C43: the grammar given by the analysis phase has the rules that were written, at least one, with different names; its calls are resolved;
it is well formed. -/
theorem C43_accepted {n m : Nat} {F : FGrammar} {A : AGrammar} {ms : List Msg} (hF : F.Built) (h : analysisPhase n m F = .ok (.value A, ms)) :
    F.rules ≠ [] ∧ (F.rules.map (·.1)).Nodup ∧ A.grammar.rules.map (fun r => (r.1, r.2.written)) = F.rules ∧ A.grammar.resolved = true ∧ Accepted A.grammar ∧
    A.grammar = resolveGrammar ⟨F.rules⟩ := by
  obtain ⟨F', _, _, h1, h2, _⟩ := andThen_value h
  have hne : F.rules ≠ [] ∧ F' = F := by
    unfold atLeastOneRule at h1
    split at h1
    · cases h1
    · rename_i hr; cases h1; exact ⟨by simpa using hr, rfl⟩
  obtain ⟨hne, rfl⟩ := hne
  obtain ⟨A5, _, _, h5, h6, _⟩ := andThen_value h2
  obtain ⟨A4, _, _, h4, h7, _⟩ := andThen_value h5
  obtain ⟨A3, _, _, h3, h8, _⟩ := andThen_value h4
  obtain ⟨A2, _, _, h2', h9, _⟩ := andThen_value h3
  obtain ⟨A1, _, _, h1', h10, _⟩ := andThen_value h2'
  have hnd : (F'.rules.map (·.1)).Nodup := by
    refine (C25_accepts_iff Prod.fst F'.rules).1 ?_
    unfold ruleDuplicate at h1'
    simp only at h1'
    cases hd : (duplicates Prod.fst F'.rules).1 with
    | value items => exact ⟨items, rfl⟩
    | fake items => rw [hd] at h1'; cases h1'
    | nothing => rw [hd] at h1'; cases h1'
  have e1 : A1.grammar = ⟨F'.rules⟩ := by
    rw [C25_rules_kept _ _ hnd] at h1'; cases h1'; rfl
  have e2 : A2.grammar = A1.grammar := by
    unfold functionsDuplicate at h10
    simp only at h10
    cases hd : (duplicates RustFn.name (splitFns F'.items).1).1 with
    | value items => rw [hd] at h10; cases h10; rfl
    | fake items => rw [hd] at h10; cases h10
    | nothing => rw [hd] at h10; cases h10
  have e3 : A3.grammar = resolveGrammar A2.grammar := by cases h9; rfl
  have e4 : A4 = A3 ∧ Accepted A3.grammar := by
    unfold wellFormedPhase at h8
    obtain ⟨st, k1, k2⟩ := Res.bind_eq_ok h8
    cases hw : st.wellFormed with
    | true => rw [hw] at k2; cases k2; exact ⟨rfl, n, m, st, k1, hw⟩
    | false => rw [hw] at k2; cases k2
  have e5 : A5 = A4 := by
    unfold chainPhase at h7
    obtain ⟨ws, k1, k2⟩ := Res.bind_eq_ok h7
    cases k2; rfl
  have e6 : A.grammar = A5.grammar := by cases h6; rfl
  have e : A.grammar = resolveGrammar ⟨F'.rules⟩ := by rw [e6, e5, e4.1, e3, e2, e1]
  refine ⟨hne, hnd, ?_, ?_, ?_, e⟩
  · rw [e]; exact C26_unchanged ⟨F'.rules⟩ hF.unresolved
  · rw [e]; exact (C26_exact ⟨F'.rules⟩ hF.unresolved).1
  · rw [e, ← e1, ← e2, ← e3]; exact e4.2

/-- C43: the analysis phase terminates without panic on every grammar built by the front-end, with the same result whatever the (sufficient)
bounds on calls and passes. -/
theorem C43_terminates {F : FGrammar} (hF : F.Built) : ∃ N x, ∀ n m, N ≤ n → N ≤ m → analysisPhase n m F = .ok x := by
  have h : Ends (fun _ _ => atLeastOneRule F) FGrammar.Built := by
    refine Ends.const fun B hB => ?_
    split at hB <;> rcases hB with hB | hB <;> cases hB
    exact hF
  obtain ⟨N, y, h, _⟩ := h.andThen (f := fun n m F => analyse n m F) fun F hF => analyse_ends hF
  exact ⟨N, y, h⟩

/-! ### C44 -/

theorem findStream_append (is : List Item) (i : Item) : findStream (is ++ [i]) = (findStream is).or (findStream [i]) := by
  induction is with
  | nil => cases h : findStream [i] <;> simp [findStream, h]
  | cons x xs ih =>
    cases x with
    | fn f => simpa [findStream] using ih
    | other t => simpa [findStream] using ih
    | alias n t =>
      simp only [List.cons_append, findStream]
      split
      · rfl
      · exact ih

theorem findStream_iff {is : List Item} : findStream is = none ↔ ∀ t, .alias "Stream" t ∉ is := by
  induction is with
  | nil => simp [findStream]
  | cons x xs ih =>
    cases x with
    | fn f => simpa [findStream] using ih
    | other t => simpa [findStream] using ih
    | alias n t =>
      simp only [findStream]
      split
      · rename_i h
        rw [beq_iff_eq] at h
        subst h
        exact ⟨fun h => (by cases h), fun h => absurd List.mem_cons_self (h t)⟩
      · rename_i h
        rw [beq_iff_eq] at h
        rw [ih]
        simp [Ne.symm h]

/-- C44: the generated code parses the stream type of the first `Stream` alias of the user, whose items are unchanged; without such an alias,
one is added after the other items. In both cases the first `Stream` alias of the items is the one used by the generated functions. -/
theorem C44_stream (A : AGrammar) : findStream (extractStream A).items = some (extractStream A).streamAlias ∧
    ((∃ t, .alias "Stream" t ∈ A.items) → (extractStream A).items = A.items) ∧
    ((∀ t, .alias "Stream" t ∉ A.items) → (extractStream A).items = A.items ++ [.alias "Stream" A.streamAlias] ∧ (extractStream A).streamAlias = A.streamAlias) ∧
    (extractStream A).grammar = A.grammar ∧ (extractStream A).functions = A.functions := by
  unfold extractStream
  cases h : findStream A.items with
  | some t =>
    refine ⟨h, fun _ => rfl, fun hn => ?_, rfl, rfl⟩
    rw [findStream_iff.2 hn] at h; cases h
  | none =>
    refine ⟨?_, fun ⟨t, ht⟩ => absurd ht (findStream_iff.1 h t), fun _ => ⟨rfl, rfl⟩, rfl, rfl⟩
    rw [findStream_append, h]; rfl

/-! ### Cases that meet the hypotheses -/

namespace Sample

/-- The grammar `sum` as the front-end reads it, with an alias and a function. -/
def front : FGrammar where
  rules := [
    ("sum", .act 6 (.seq 5 [.ext 0 ["num"], .star 4 (.seq 3 [.str 1 "+", .ext 2 ["num"]])]) false ["add"]),
    ("num", .act 9 (.plus 8 (.cls 7 [⟨'0', '9'⟩])) false ["to_num"])]
  items := [.fn ⟨"add", .ty "u32"⟩, .fn ⟨"to_num", .ty "u32"⟩, .other "use std::str;"]
  attrs := [["show_typing"], ["unknown"], ["debug_typing"]]

/-- It is accepted, with one warning. -/
example : analysisPhase 9 9 front = .ok (.value ⟨sum, [("add", ⟨"add", .ty "u32"⟩), ("to_num", ⟨"to_num", .ty "u32"⟩)], [.other "use std::str;"], "StrStream", .debug⟩,
    [.unknownAttr]) := rfl

/-- The same rule declared twice: the second definition is reported and ignored. -/
example : duplicates Prod.fst [("a", 1), ("b", 2), ("a", 3)] = (.fake [("a", ("a", 1)), ("b", ("b", 2))], ["a"]) := by decide +kernel

/-- Grammars without calls are as the front-end builds them. -/
example : (⟨[("a", .str 0 "x"), ("b", .str 1 "y")], [], []⟩ : FGrammar).Built where
  shaped := by intro r hr; simp only [List.mem_cons, List.not_mem_nil, or_false] at hr; rcases hr with rfl | rfl <;> rfl
  filled := by intro r hr; simp only [List.mem_cons, List.not_mem_nil, or_false] at hr; rcases hr with rfl | rfl <;> rfl
  unresolved := by intro r hr i q hs; simp only [List.mem_cons, List.not_mem_nil, or_false] at hr; rcases hr with rfl | rfl <;> cases hs

/-- `show` then `debug` gives `debug`; `debug` then `show` gives nothing. -/
example : [PrintLevel.show, .debug].foldl PrintLevel.merge .nothing = .debug ∧ [PrintLevel.debug, .show].foldl PrintLevel.merge .nothing = .nothing :=
  ⟨(C35_increasing [.show] .debug (by simp [PrintLevel.rank]) (by simp)).1, C35_not_increasing [.debug] .debug .show (by simp) (by simp) (by decide) rfl⟩

/-- A call of `num` is resolved; `std` and `a::num` are not. -/
example : resolveExpr ["sum", "num"] (.seq 3 [.ext 0 ["num"], .ext 1 ["std"], .ext 2 ["a", "num"]]) = .seq 3 [.nt 0 "num", .ext 1 ["std"], .ext 2 ["a", "num"]] := by
  rfl

end Sample

end Oak
