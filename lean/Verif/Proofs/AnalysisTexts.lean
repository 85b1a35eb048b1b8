import Verif.Spec.AnalysisTexts
import Verif.Properties.Analysis
/-! The texts of the messages of the analysis phase. -/
set_option autoImplicit false
set_option linter.constructorNameAsVariable false

namespace Oak
open Spec

section
variable {α : Type} {name : α → String}

theorem duplicatesAt_spec (xs : List α) : ∀ (pre : List α) (items : List (String × Nat)),
    (∀ n, items.find? (fun y => y.1 == n) = if n ∈ pre.map name then some (n, pre.findIdx fun y => name y == n) else none) →
    duplicatesAt name items pre.length xs = (xs.zipIdx pre.length).filterMap fun (x, j) =>
      let i := (pre ++ xs).findIdx fun y => name y == name x
      if i < j then some (i, j, name x) else none := by
  induction xs with
  | nil => intro pre items _; rfl
  | cons x xs ih =>
    intro pre items h
    have hap : pre ++ x :: xs = (pre ++ [x]) ++ xs := by simp
    unfold duplicatesAt
    rw [List.zipIdx_cons, List.filterMap_cons]
    by_cases hx : name x ∈ pre.map name
    · rw [h, if_pos hx]
      have h1 : (pre ++ x :: xs).findIdx (fun y => name y == name x) = pre.findIdx fun y => name y == name x := by
        rw [List.findIdx_append, if_pos]
        rw [List.findIdx_lt_length]
        obtain ⟨y, hy, hyn⟩ := List.mem_map.1 hx
        exact ⟨y, hy, by simp [hyn]⟩
      have h2 : pre.findIdx (fun y => name y == name x) < pre.length := by
        rw [List.findIdx_lt_length]
        obtain ⟨y, hy, hyn⟩ := List.mem_map.1 hx
        exact ⟨y, hy, by simp [hyn]⟩
      simp only [h1, if_pos h2]
      have := ih (pre ++ [x]) items (by
        intro n
        rw [h]
        by_cases hn : n ∈ pre.map name
        · rw [if_pos hn, if_pos (by rw [List.map_append]; exact List.mem_append_left _ hn), List.findIdx_append, if_pos]
          rw [List.findIdx_lt_length]
          obtain ⟨y, hy, hyn⟩ := List.mem_map.1 hn
          exact ⟨y, hy, by simp [hyn]⟩
        · rw [if_neg hn, if_neg]
          rw [List.map_append, List.mem_append]
          rintro (h' | h')
          · exact hn h'
          · simp only [List.map_cons, List.map_nil, List.mem_singleton] at h'
            exact hn (h' ▸ hx))
      rw [List.length_append, List.length_singleton] at this
      rw [this, hap]
    · rw [h, if_neg hx]
      have h1 : (pre ++ x :: xs).findIdx (fun y => name y == name x) = pre.length := by
        have h0 : ¬ pre.findIdx (fun y => name y == name x) < pre.length := by
          rw [List.findIdx_lt_length]
          rintro ⟨y, hy, hyn⟩
          exact hx (List.mem_map.2 ⟨y, hy, by simpa using hyn⟩)
        rw [List.findIdx_append, if_neg h0, List.findIdx_cons]
        simp
      simp only [h1, Nat.lt_irrefl, if_false]
      have := ih (pre ++ [x]) (items ++ [(name x, pre.length)]) (by
        intro n
        rw [List.find?_append, h]
        by_cases hn : n ∈ pre.map name
        · rw [if_pos hn, if_pos (by rw [List.map_append]; exact List.mem_append_left _ hn), List.findIdx_append, if_pos]
          · rfl
          rw [List.findIdx_lt_length]
          obtain ⟨y, hy, hyn⟩ := List.mem_map.1 hn
          exact ⟨y, hy, by simp [hyn]⟩
        · rw [if_neg hn]
          by_cases hxn : name x = n
          · subst hxn
            rw [if_pos (by simp)]
            have h0 : ¬ pre.findIdx (fun y => name y == name x) < pre.length := by
              rw [List.findIdx_lt_length]
              rintro ⟨y, hy, hyn⟩
              exact hx (List.mem_map.2 ⟨y, hy, by simpa using hyn⟩)
            rw [List.findIdx_append, if_neg h0, List.findIdx_cons]
            simp
          · rw [if_neg]
            · simp [hxn]
            · rw [List.map_append, List.mem_append]
              rintro (h' | h')
              · exact hn h'
              · simp only [List.map_cons, List.map_nil, List.mem_singleton] at h'
                exact hxn h'.symm)
      rw [List.length_append, List.length_singleton] at this
      rw [this, hap]

theorem duplicatesAt_repeats (xs : List α) : duplicatesAt name [] 0 xs = repeatsOf name xs := by
  have := duplicatesAt_spec (name := name) xs [] [] (by intro n; simp)
  simpa [repeatsOf] using this

theorem duplicatesAt_length (xs : List α) : ∀ (items : List (String × Nat)) (items' : List (String × α)) (dups : List String) (j : Nat),
    items.map (·.1) = items'.map (·.1) → (populate name items' dups xs).2 = dups ++ (duplicatesAt name items j xs).map (·.2.2) := by
  induction xs with
  | nil => intro items items' dups j _; simp [populate, duplicatesAt]
  | cons x xs ih =>
    intro items items' dups j h
    unfold populate duplicatesAt
    by_cases hx : name x ∈ items'.map (·.1)
    · rw [if_pos (any_iff.2 hx)]
      cases hf : items.find? fun y => y.1 == name x with
      | none =>
        rw [← h] at hx
        obtain ⟨y, hy, hyn⟩ := List.mem_map.1 hx
        have := List.find?_eq_none.1 hf y hy
        simp [hyn] at this
      | some y =>
        rw [ih items items' _ (j + 1) h]
        simp
    · rw [if_neg (fun h => hx (any_iff.1 h))]
      cases hf : items.find? fun y => y.1 == name x with
      | none => exact ih _ _ _ _ (by simp [h])
      | some y =>
        have h1 := List.find?_some hf
        have h2 := List.mem_of_find?_eq_some hf
        rw [← h] at hx
        exact (hx (List.mem_map.2 ⟨y, h2, by simpa using h1⟩)).elim

theorem duplicates_names (xs : List α) : (duplicates name xs).2 = (duplicatesAt name [] 0 xs).map (·.2.2) := by
  unfold duplicates
  exact duplicatesAt_length xs [] [] [] 0 rfl |>.trans (by simp)
end

theorem mergeAttrs_other {a : Path} {as : List Path} {lvl : PrintLevel} (h1 : a ≠ ["debug_typing"]) (h2 : a ≠ ["show_typing"]) :
    (mergeAttrs lvl (a :: as)).2 = .unknownAttr :: (mergeAttrs lvl as).2 := by
  rw [mergeAttrs]
  · exact fun h => h1 h
  · exact fun h => h2 h

theorem unknownAt_other {a : Path} {as : List Path} {j : Nat} (h1 : a ≠ ["debug_typing"]) (h2 : a ≠ ["show_typing"]) :
    unknownAt j (a :: as) = j :: unknownAt (j + 1) as := by
  rw [unknownAt]
  · exact fun h => h1 h
  · exact fun h => h2 h

theorem requested_other {a : Path} (h1 : a ≠ ["debug_typing"]) (h2 : a ≠ ["show_typing"]) : requested a = none := by
  unfold requested
  split
  · exact (h1 rfl).elim
  · exact (h2 rfl).elim
  · rfl

/-- The attributes that are not known. -/
theorem unknownAt_length (as : List Path) : ∀ j lvl, (mergeAttrs lvl as).2 = (unknownAt j as).map fun _ => .unknownAttr := by
  induction as with
  | nil => intro j lvl; rfl
  | cons a as ih =>
    intro j lvl
    by_cases h1 : a = ["debug_typing"]
    · subst h1; rw [mergeAttrs, unknownAt]; exact ih _ _
    · by_cases h2 : a = ["show_typing"]
      · subst h2; rw [mergeAttrs, unknownAt]; exact ih _ _
      · rw [mergeAttrs_other h1 h2, unknownAt_other h1 h2, ih (j + 1)]; rfl

theorem unknownAt_spec (as : List Path) : ∀ j, unknownAt j as = (as.zipIdx j).filterMap fun (a, j) => if (requested a).isNone then some j else none := by
  induction as with
  | nil => intro j; rfl
  | cons a as ih =>
    intro j
    rw [List.zipIdx_cons, List.filterMap_cons]
    by_cases h1 : a = ["debug_typing"]
    · subst h1; rw [unknownAt]; exact ih _
    · by_cases h2 : a = ["show_typing"]
      · subst h2; rw [unknownAt]; exact ih _
      · rw [unknownAt_other h1 h2, ih (j + 1)]; simp only [requested_other h1 h2]; rfl

/-! ### What the messages are -/

/-- The messages of the phase. -/
theorem analysisPhase_messages {n m : Nat} {F : FGrammar} {p : Partial AGrammar} {ms : List Msg} (h : analysisPhase n m F = .ok (p, ms)) (hF : F.rules ≠ []) :
    ∃ G st tail, AnalysedBy F.rules G ∧ wellFormedness G n m = .ok st ∧
      ms = (duplicates (·.1) F.rules).2.map .duplicateRule ++ ((duplicates RustFn.name (splitFns F.items).1).2.map .duplicateFn ++ (st.diags.reverse.map .wellFormed ++ tail)) ∧
      (st.wellFormed = false → tail = []) ∧
      (st.wellFormed = true → ∃ ws, chaining G n = .ok ws ∧ tail = ws.map .chain ++ (unknownAt 0 F.attrs).map fun _ => .unknownAttr) := by
  have hrl : atLeastOneRule F = .ok (.value F, []) := by
    unfold atLeastOneRule
    rw [if_neg (by simpa using hF)]
  obtain ⟨items, hi1, hi2, hi3, hi4, hi5, _⟩ := C25_retained Prod.fst F.rules
  let A0 : AGrammar := { AGrammar.new with grammar := ⟨items.map (·.2)⟩ }
  have hA0 : AnalysedBy F.rules (resolveGrammar A0.grammar) := by
    refine ⟨items.map (·.2), hi2, ?_, fun n => ?_, rfl⟩
    · have : (items.map (·.2)).map (·.1) = items.map (·.1) := by
        rw [List.map_map]
        exact List.map_congr_left fun y hy => (hi3 y hy).symm
      rw [this]; exact hi4
    · have h1 := hi5 n
      have h2 : ∀ l : List (String × (String × Expr)), (∀ y ∈ l, y.1 = y.2.1) → (l.map (·.2)).find? (fun x => x.1 == n) = (l.find? fun y => y.1 == n).map (·.2) := by
        intro l hl
        rw [List.find?_map]
        congr 1
        induction l with
        | nil => rfl
        | cons y l ih =>
          rw [List.find?_cons, List.find?_cons, ih fun z hz => hl z (List.mem_cons_of_mem _ hz)]
          simp [hl y List.mem_cons_self]
      rw [h2 items hi3, h1]
      cases F.rules.find? fun x => x.1 == n <;> rfl
  have d1 : ∃ p1 : Partial AGrammar, ruleDuplicate .new F.rules = .ok (p1, (duplicates (·.1) F.rules).2.map .duplicateRule) ∧ (p1 = .value A0 ∨ p1 = .fake A0) := by
    refine ⟨(duplicates (·.1) F.rules).1.map (fun rs => { AGrammar.new with grammar := ⟨rs.map (·.2)⟩ }), rfl, ?_⟩
    rcases hi1 with h1 | h1
    · exact .inl (congrArg (Partial.map _) h1)
    · exact .inr (congrArg (Partial.map _) h1)
  obtain ⟨fitems, hf1, _⟩ := C25_retained RustFn.name (splitFns F.items).1
  let A1 : AGrammar := { A0 with functions := fitems, items := (splitFns F.items).2 }
  have d2 : ∃ p2 : Partial AGrammar, functionsDuplicate A0 F.items = .ok (p2, (duplicates RustFn.name (splitFns F.items).1).2.map .duplicateFn) ∧
      (p2 = .value A1 ∨ p2 = .fake A1) := by
    refine ⟨(duplicates RustFn.name (splitFns F.items).1).1.map (fun fs => { A0 with functions := fs, items := (splitFns F.items).2 }), rfl, ?_⟩
    rcases hf1 with h1 | h1
    · exact .inl (congrArg (Partial.map _) h1)
    · exact .inr (congrArg (Partial.map _) h1)
  let A2 : AGrammar := { A1 with grammar := resolveGrammar A1.grammar }
  have step1 : ∃ p3 : Partial AGrammar, Phase.andThen (Phase.andThen (ruleDuplicate .new F.rules) fun A => functionsDuplicate A F.items) resolvePhase =
      .ok (p3, (duplicates (·.1) F.rules).2.map .duplicateRule ++ (duplicates RustFn.name (splitFns F.items).1).2.map .duplicateFn) ∧ (p3 = .value A2 ∨ p3 = .fake A2) := by
    obtain ⟨p1, e1, q1⟩ := d1
    obtain ⟨p2, e2, q2⟩ := d2
    unfold Phase.andThen
    rw [e1]
    rcases q1 with rfl | rfl <;> rcases q2 with rfl | rfl <;> simp only [Res.bind_ok, e2, resolvePhase, Partial.demote, List.append_nil] <;>
      first | exact ⟨_, rfl, .inl rfl⟩ | exact ⟨_, rfl, .inr rfl⟩
  obtain ⟨p3, e3, q3⟩ := step1
  rw [analysisPhase, Phase.andThen, hrl] at h
  simp only [Res.bind_ok, List.nil_append] at h
  obtain ⟨⟨q, ms'⟩, h1, h2⟩ := Res.bind_eq_ok h
  cases h2
  unfold analyse at h1
  rw [Phase.andThen] at h1
  obtain ⟨⟨p5, ms5⟩, h5, h6⟩ := Res.bind_eq_ok h1
  rw [Phase.andThen] at h5
  obtain ⟨⟨p4, ms4⟩, h4, h7⟩ := Res.bind_eq_ok h5
  rw [Phase.andThen, e3] at h4
  simp only [Res.bind_ok] at h4
  have w4 : ∃ st, wellFormedness A2.grammar n m = .ok st ∧ ms4 = ((duplicates (·.1) F.rules).2.map .duplicateRule ++ (duplicates RustFn.name (splitFns F.items).1).2.map .duplicateFn) ++
      st.diags.reverse.map .wellFormed ∧ (st.wellFormed = false → p4 = .nothing) ∧ (st.wellFormed = true → p4 = .value A2 ∨ p4 = .fake A2) := by
    rcases q3 with rfl | rfl <;> simp only at h4 <;> obtain ⟨⟨a, b⟩, h8, h9⟩ := Res.bind_eq_ok h4 <;> cases h9 <;> unfold wellFormedPhase at h8 <;>
      obtain ⟨st, h10, h11⟩ := Res.bind_eq_ok h8 <;> cases h11 <;> refine ⟨st, h10, rfl, fun h => by simp [h, Partial.demote], fun h => by simp [h, Partial.demote]⟩
  obtain ⟨st, w1, rfl, w3, w4⟩ := w4
  cases hw : st.wellFormed with
  | false =>
    rw [w3 hw] at h7
    cases h7
    cases h6
    exact ⟨A2.grammar, st, [], hA0, w1, by simp, fun _ => rfl, fun h => by rw [hw] at h; cases h⟩
  | true =>
    have k5 : ∃ ws, chaining A2.grammar n = .ok ws ∧ ms5 = ((duplicates (·.1) F.rules).2.map .duplicateRule ++ (duplicates RustFn.name (splitFns F.items).1).2.map .duplicateFn) ++
        st.diags.reverse.map .wellFormed ++ ws.map .chain ∧ (p5 = .value A2 ∨ p5 = .fake A2) := by
      rcases w4 hw with rfl | rfl <;> simp only at h7 <;> obtain ⟨⟨a, b⟩, h8, h9⟩ := Res.bind_eq_ok h7 <;> cases h9 <;> unfold chainPhase at h8 <;>
        obtain ⟨ws, h10, h11⟩ := Res.bind_eq_ok h8 <;> cases h11 <;> refine ⟨ws, h10, rfl, by simp [Partial.demote]⟩
    obtain ⟨ws, k1, rfl, k3⟩ := k5
    refine ⟨A2.grammar, st, ws.map .chain ++ (unknownAt 0 F.attrs).map fun _ => .unknownAttr, hA0, w1, ?_, fun h => (by rw [hw] at h; cases h), fun _ => ⟨ws, k1, rfl⟩⟩
    rcases k3 with rfl | rfl <;> simp only [attributesPhase, Res.bind_ok] at h6 <;> cases h6 <;> rw [unknownAt_length F.attrs 0] <;> simp [List.append_assoc]

end Oak
