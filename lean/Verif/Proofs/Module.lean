import Verif.Spec.Module
import Verif.Properties.Macro
import Verif.Proofs.OwnedTypes
set_option autoImplicit false
set_option linter.constructorNameAsVariable false

namespace Oak

theorem filterMap_fns (is : List Item) : (splitFns is).1 = is.filterMap Item.fn? ∧ (splitFns is).2 = is.filter (fun i => i.fn?.isNone) := by
  induction is with
  | nil => exact ⟨rfl, rfl⟩
  | cons i is ih =>
    cases i with
    | fn f => exact ⟨by simp only [splitFns]; rw [ih.1, List.filterMap_cons]; rfl, by simp only [splitFns]; rw [ih.2, List.filter_cons]; rfl⟩
    | «alias» n t => exact ⟨by simp only [splitFns]; rw [ih.1, List.filterMap_cons]; rfl, by simp only [splitFns]; rw [ih.2, List.filter_cons]; rfl⟩
    | other t => exact ⟨by simp only [splitFns]; rw [ih.1, List.filterMap_cons]; rfl, by simp only [splitFns]; rw [ih.2, List.filter_cons]; rfl⟩

theorem findStream_some (is : List Item) : (findStream is).isSome = is.any Item.isStream := by
  induction is with
  | nil => rfl
  | cons i is ih =>
    cases i with
    | fn f => simpa [findStream, Item.isStream] using ih
    | other t => simpa [findStream, Item.isStream] using ih
    | «alias» n t =>
      by_cases hn : n = "Stream"
      · subst hn; simp [findStream, Item.isStream]
      · have : Item.isStream (.alias n t) = false := by
          unfold Item.isStream; split
          · rename_i h; cases h; exact absurd rfl hn
          · rfl
        simpa [findStream, hn, this] using ih

theorem filter_any (is : List Item) : (is.filter fun i => i.fn?.isNone).any Item.isStream = is.any Item.isStream := by
  induction is with
  | nil => rfl
  | cons i is ih =>
    rw [List.filter_cons]
    cases i with
    | fn f => exact ih
    | other t => exact ih
    | «alias» n t =>
      rw [show (Item.alias n t).fn?.isNone = true from rfl, if_pos rfl, List.any_cons, List.any_cons, ih]

theorem duplicates_value {α : Type} {name : α → String} {xs : List α} {ys : List (String × α)} {ds : List String}
    (h : duplicates name xs = (.value ys, ds)) : ys.map (·.2) = xs ∧ (xs.map name).Nodup := by
  unfold duplicates at h
  obtain ⟨ks, es, h1, h2, h3, h4, _, h6, _⟩ := populate_spec (name := name) xs [] [] (by simp)
  rw [h1] at h
  dsimp only at h
  split at h
  · rename_i hd
    have hes : es = [] := by simpa using hd
    subst hes
    cases h
    simp only [List.nil_append] at h2 ⊢
    have hx : ks.map (·.2) = xs := h3.eq_of_length (by simpa using h6)
    refine ⟨hx, ?_⟩
    rw [← hx, List.map_map]
    have : ks.map (name ∘ fun x => x.2) = ks.map (·.1) := List.map_congr_left fun k hk => (h4 k hk).symm
    rw [this]; exact h2
  · cases h

/-- What the analysis phase keeps of the items. -/
theorem analysis_items {n m : Nat} {F : FGrammar} {A : AGrammar} {ms : List Msg} (h : analysisPhase n m F = .ok (.value A, ms)) :
    A.items = (splitFns F.items).2 ∧ A.functions.map (·.2) = (splitFns F.items).1 ∧ ((splitFns F.items).1.map RustFn.name).Nodup ∧ A.streamAlias = "StrStream" := by
  obtain ⟨F', _, _, h1, h2, _⟩ := andThen_value h
  have hne : F' = F := by
    unfold atLeastOneRule at h1
    split at h1
    · cases h1
    · cases h1; rfl
  subst hne
  obtain ⟨A5, _, _, h5, h6, _⟩ := andThen_value h2
  obtain ⟨A4, _, _, h4, h7, _⟩ := andThen_value h5
  obtain ⟨A3, _, _, h3, h8, _⟩ := andThen_value h4
  obtain ⟨A2, _, _, h2', h9, _⟩ := andThen_value h3
  obtain ⟨A1, _, _, h1', h10, _⟩ := andThen_value h2'
  have e1 : A1.streamAlias = "StrStream" := by
    unfold ruleDuplicate at h1'
    dsimp only at h1'
    cases hd : (duplicates (fun x => x.1) F'.rules).1 with
    | value rs => rw [hd] at h1'; cases h1'; rfl
    | fake rs => rw [hd] at h1'; cases h1'
    | nothing => rw [hd] at h1'; cases h1'
  have e2 : A2.items = (splitFns F'.items).2 ∧ A2.functions.map (·.2) = (splitFns F'.items).1 ∧ ((splitFns F'.items).1.map RustFn.name).Nodup ∧
      A2.streamAlias = "StrStream" := by
    unfold functionsDuplicate at h10
    dsimp only at h10
    cases hd : duplicates RustFn.name (splitFns F'.items).1 with
    | mk p ds =>
      rw [hd] at h10
      dsimp only at h10
      cases p with
      | value rs =>
        cases h10
        obtain ⟨a, b⟩ := duplicates_value hd
        exact ⟨rfl, a, b, e1⟩
      | fake rs => cases h10
      | nothing => cases h10
  have e3 : A3.items = A2.items ∧ A3.functions = A2.functions ∧ A3.streamAlias = A2.streamAlias := by
    unfold resolvePhase at h9; cases h9; exact ⟨rfl, rfl, rfl⟩
  have e4 : A4 = A3 := by
    unfold wellFormedPhase at h8
    obtain ⟨st, _, h8⟩ := Res.bind_eq_ok h8
    split at h8
    · cases h8; rfl
    · cases h8
  have e5 : A5 = A4 := by
    unfold chainPhase at h7
    obtain ⟨ws, _, h7⟩ := Res.bind_eq_ok h7
    cases h7; rfl
  have e6 : A.items = A5.items ∧ A.functions = A5.functions ∧ A.streamAlias = A5.streamAlias := by
    unfold attributesPhase at h6; cases h6; exact ⟨rfl, rfl, rfl⟩
  subst e4 e5
  rw [e6.1, e6.2.1, e6.2.2, e3.1, e3.2.1, e3.2.2]
  exact e2

/-! ### The generated functions -/

theorem orPanic_ok {α : Type} {x : Except String α} {a : α} (h : x = .ok a) : orPanic x = .ok a := by subst h; rfl

/-- The items generated for the rules are the generated functions, with their signatures. -/
theorem ruleItems_ok {n : Nat} {A : AGrammar} {T : Nat → Ty} : ∀ {rs : List (String × Expr)} {fs : List (FnRef × Fn)}, compileGrammar T rs = .ok fs →
    (∀ r ∈ rs, ∃ t, ∀ j, n ≤ j → compileType T j r.2.id = .ok t) → ∃ gs, (∀ j, n ≤ j → ruleItems j A T rs = .ok gs) ∧
    gs.map (fun g => (g.name, g.fn)) = fs.map (fun f => ((if f.1.parser then "parse_" else "recognize_") ++ f.1.path.headD "", f.2)) ∧
    gs.map (·.name) = rs.flatMap (fun r => ["recognize_" ++ r.1, "parse_" ++ r.1]) ∧
    (∀ g ∈ gs, g.stream = A.streamAlias) ∧
    ∀ g ∈ gs, ∃ r ∈ rs, (g.name = "recognize_" ++ r.1 ∧ g.mutState = true ∧ g.ty = .unit ∧ (⟨false, [r.1]⟩, g.fn) ∈ fs) ∨
      (g.name = "parse_" ++ r.1 ∧ (g.mutState = true ↔ T r.2.id ≠ .unit) ∧ (⟨true, [r.1]⟩, g.fn) ∈ fs ∧ ∀ j, n ≤ j → compileType T j r.2.id = .ok g.ty) := by
  intro rs
  induction rs with
  | nil => intro fs h _; cases h; exact ⟨[], fun _ _ => rfl, rfl, rfl, by simp, by simp⟩
  | cons r rs ih =>
    obtain ⟨r, e⟩ := r
    intro fs h hty
    rw [compileGrammar] at h
    obtain ⟨f, h1, h⟩ := except_bind_eq_ok h
    obtain ⟨g, h2, h⟩ := except_bind_eq_ok h
    obtain ⟨rest, h3, h⟩ := except_bind_eq_ok h
    cases h
    obtain ⟨gs, i1, i2, i3, i4, i5⟩ := ih h3 fun r hr => hty r (List.mem_cons_of_mem _ hr)
    obtain ⟨t, ht⟩ := hty (r, e) (List.mem_cons_self ..)
    have hp : ∃ u : GenFn, (∀ j, n ≤ j → parserItem j A T r e = .ok u) ∧ u.name = "parse_" ++ r ∧ u.fn = g ∧ u.stream = A.streamAlias ∧
        (u.mutState = true ↔ T e.id ≠ .unit) ∧ ∀ j, n ≤ j → compileType T j e.id = .ok u.ty := by
      by_cases hT : T e.id = .unit
      · refine ⟨⟨parserId r, A.streamAlias, false, .unit, g⟩, fun j _ => ?_, rfl, rfl, rfl, by simp [hT], fun j hj => ?_⟩
        · unfold parserItem; rw [orPanic_ok h2]; simp [hT]
        · have hj := ht j hj
          cases j with
          | zero => cases hj
          | succ j => rw [compileType, hT]
      · refine ⟨⟨parserId r, A.streamAlias, true, t, g⟩, fun j hj => ?_, rfl, rfl, rfl, by simp [hT], fun j hj => ht j hj⟩
        unfold parserItem
        rw [orPanic_ok h2]
        have := ht j hj
        simp [hT, this]
    obtain ⟨u, u1, u2, u3, u4, u5, u6⟩ := hp
    refine ⟨⟨recognizerId r, A.streamAlias, true, .unit, f⟩ :: u :: gs, fun j hj => ?_, ?_, ?_, ?_, ?_⟩
    · have hr : recognizerItem A T r e = .ok ⟨recognizerId r, A.streamAlias, true, .unit, f⟩ := by
        unfold recognizerItem; rw [orPanic_ok h1]; rfl
      rw [ruleItems, hr, u1 j hj, i1 j hj]; rfl
    · simp only [List.map_cons, i2, u2, u3]; rfl
    · simp only [List.map_cons, List.flatMap_cons, i3, u2]; rfl
    · intro x hx
      rcases List.mem_cons.1 hx with rfl | hx
      · rfl
      · rcases List.mem_cons.1 hx with rfl | hx
        · exact u4
        · exact i4 x hx
    · intro x hx
      rcases List.mem_cons.1 hx with rfl | hx
      · exact ⟨(r, e), List.mem_cons_self .., .inl ⟨rfl, rfl, rfl, List.mem_cons_self ..⟩⟩
      · rcases List.mem_cons.1 hx with rfl | hx
        · exact ⟨(r, e), List.mem_cons_self .., .inr ⟨u2, u5, by rw [u3]; simp, u6⟩⟩
        · obtain ⟨y, hy, h⟩ := i5 x hx
          refine ⟨y, List.mem_cons_of_mem _ hy, h.imp ?_ ?_⟩
          · rintro ⟨a, b, c, d⟩; exact ⟨a, b, c, by simp [d]⟩
          · rintro ⟨a, b, c, d⟩; exact ⟨a, b, by simp [c], d⟩

theorem parserItem_mono {n : Nat} {A : AGrammar} {T : Nat → Ty} {r : String} {e : Expr} {g : GenFn} (h : parserItem n A T r e = .ok g) :
    parserItem (n + 1) A T r e = .ok g := by
  unfold parserItem at h ⊢
  obtain ⟨f, h1, h2⟩ := Res.bind_eq_ok h
  rw [h1]
  by_cases hT : T e.id = .unit
  · rw [if_pos hT] at h2; cases h2; simp [hT]
  · rw [if_neg hT] at h2
    obtain ⟨t, h3, h4⟩ := Res.bind_eq_ok h2
    cases h4
    simp [hT, compileType_mono h3]

theorem ruleItems_mono {n : Nat} {A : AGrammar} {T : Nat → Ty} : ∀ {rs : List (String × Expr)} {gs : List GenFn}, ruleItems n A T rs = .ok gs →
    ruleItems (n + 1) A T rs = .ok gs := by
  intro rs
  induction rs with
  | nil => intro gs h; exact h
  | cons r rs ih =>
    obtain ⟨r, e⟩ := r
    intro gs h
    rw [ruleItems] at h ⊢
    obtain ⟨a, h1, h⟩ := Res.bind_eq_ok h
    obtain ⟨b, h2, h⟩ := Res.bind_eq_ok h
    obtain ⟨c, h3, h⟩ := Res.bind_eq_ok h
    rw [h1, parserItem_mono h2, ih h3]
    exact h

theorem compileModule_mono {n m : Nat} (hnm : n ≤ m) {A : AGrammar} {T : Nat → Ty} {us : List RustFn} {M : List MItem} (h : compileModule n A T us = .ok M) :
    compileModule m A T us = .ok M := by
  obtain ⟨d, rfl⟩ := Nat.exists_eq_add_of_le hnm
  clear hnm
  induction d with
  | zero => exact h
  | succ d ih =>
    unfold compileModule at ih ⊢
    obtain ⟨gs, h1, h2⟩ := Res.bind_eq_ok ih
    have := ruleItems_mono h1
    rw [show n + (d + 1) = n + d + 1 from rfl, this]
    exact h2

/-! ### The names of the generated functions -/

theorem prefix_ne (a b : String) : "recognize_" ++ a ≠ "parse_" ++ b := by
  intro h
  have := congrArg String.toList h
  simp [String.toList_append] at this

theorem prefix_inj {p a b : String} (h : p ++ a = p ++ b) : a = b := by
  have := congrArg String.toList h
  simp [String.toList_append] at this
  exact String.toList_inj.1 this

theorem generated_nodup {rs : List String} (h : rs.Nodup) : (rs.flatMap fun r => ["recognize_" ++ r, "parse_" ++ r]).Nodup := by
  induction rs with
  | nil => simp
  | cons r rs ih =>
    rw [List.nodup_cons] at h
    simp only [List.flatMap_cons, List.cons_append, List.nil_append, List.nodup_cons, List.mem_cons, List.mem_flatMap, List.not_mem_nil, or_false, not_or,
      not_exists, not_and]
    refine ⟨⟨prefix_ne r r, fun x hx => ⟨fun he => ?_, prefix_ne _ _⟩⟩, fun x hx => ?_, ih h.2⟩
    · rw [prefix_inj he] at h; exact h.1 hx
    · refine ⟨fun he => absurd he.symm (prefix_ne _ _), fun he => ?_⟩
      rw [prefix_inj he] at h; exact h.1 hx

theorem callPath_one (p : Bool) (r : String) : FnRef.callPath ⟨p, [r]⟩ = [(if p then "parse_" else "recognize_") ++ r] := by
  cases p <;> simp [FnRef.callPath, modifyPath] <;> rfl

theorem callPath_long (f : FnRef) {x : String} (h : f.callPath = [x]) : ∃ r, f.path = [r] := by
  obtain ⟨p, path⟩ := f
  match path with
  | [] => simp [FnRef.callPath, modifyPath] at h
  | [r] => exact ⟨r, rfl⟩
  | a :: b :: q =>
    have h' : a :: modifyPath (if p then "parse" else "recognize") (b :: q) = [x] := h
    have : ∀ (b : String) (q : Path) (s : String), modifyPath s (b :: q) ≠ [] := by
      intro b q s
      cases q <;> simp [modifyPath]
    cases h'' : modifyPath (if p then "parse" else "recognize") (b :: q) with
    | nil => exact absurd h'' (this _ _ _)
    | cons y ys => rw [h''] at h'; simp at h'

theorem callPath_inj {p : Bool} {r : String} {f : FnRef} (h : FnRef.callPath ⟨p, [r]⟩ = f.callPath) : (⟨p, [r]⟩ : FnRef) = f := by
  have h' := h
  rw [callPath_one] at h
  obtain ⟨x, hx⟩ := callPath_long f h.symm
  obtain ⟨q, path⟩ := f
  dsimp only at hx
  subst hx
  rw [callPath_one] at h
  simp only [List.cons.injEq, and_true] at h
  cases p <;> cases q <;> simp only [Bool.false_eq_true, if_true, if_false] at h
  · rw [prefix_inj h]
  · exact absurd h (prefix_ne _ _)
  · exact absurd h.symm (prefix_ne _ _)
  · rw [prefix_inj h]

end Oak
