import Verif.Proofs.CalcsLinked
import Verif.Proofs.CalcPrint
/-!
The values of calc2 and calc3 are expressions.
-/
set_option linter.constructorNameAsVariable false
set_option autoImplicit false

namespace Oak.Calculator
open Oak Spec

theorem builds_left {h : Val} {ws : List Val} {t : Term} (hd : Builds (.app ["fold_left"] [h, .list ws]) t) :
    (ws = [] ∧ Builds h t) ∨ ∃ vs o v a b, ws = vs ++ [.tup [.path [opVariant o], v]] ∧ Builds (.app ["fold_left"] [h, .list vs]) a ∧ Builds v b ∧ t = .bin o a b := by
  generalize hw : Val.app ["fold_left"] [h, .list ws] = w at hd
  cases hd with
  | leftNil hd =>
    simp only [Val.app.injEq, List.cons.injEq, Val.list.injEq, true_and, and_true] at hw
    obtain ⟨rfl, rfl⟩ := hw
    exact .inl ⟨rfl, hd⟩
  | leftSnoc hd hv =>
    simp only [Val.app.injEq, List.cons.injEq, Val.list.injEq, true_and, and_true] at hw
    obtain ⟨rfl, rfl⟩ := hw
    exact .inr ⟨_, _, _, _, _, rfl, hd, hv, rfl⟩
  | _ => simp at hw

theorem builds_right {l : Val} {ws : List Val} {t : Term} (hd : Builds (.app ["fold_right"] [.list ws, l]) t) :
    (ws = [] ∧ Builds l t) ∨ ∃ o v vs a b, ws = .tup [v, .path [opVariant o]] :: vs ∧ Builds v a ∧ Builds (.app ["fold_right"] [.list vs, l]) b ∧ t = .bin o a b := by
  generalize hw : Val.app ["fold_right"] [.list ws, l] = w at hd
  cases hd with
  | rightNil hd =>
    simp only [Val.app.injEq, List.cons.injEq, Val.list.injEq, true_and, and_true] at hw
    obtain ⟨rfl, rfl⟩ := hw
    exact .inl ⟨rfl, hd⟩
  | rightCons hv hd =>
    simp only [Val.app.injEq, List.cons.injEq, Val.list.injEq, true_and, and_true] at hw
    obtain ⟨rfl, rfl⟩ := hw
    exact .inr ⟨_, _, _, _, _, rfl, hv, hd, rfl⟩
  | _ => simp at hw

theorem pathVal_inj {o o' : Op} (h : Val.path [opVariant o] = .path [opVariant o']) : o = o' := by
  simp only [Val.path.injEq, List.cons.injEq, and_true] at h
  exact opVariant_inj h

theorem Builds.det {v : Val} {t t' : Term} (h : Builds v t) (h' : Builds v t') : t = t' := by
  induction h generalizing t' with
  | @number ds =>
    generalize hw : Val.box (.app ["Number"] [.app ["to_number"] [.list (ds.map .chr)]]) = w at h'
    cases h' with
    | number =>
      simp only [Val.box.injEq, Val.app.injEq, List.cons.injEq, Val.list.injEq, true_and, and_true] at hw
      rw [chars_inj hw]
    | _ => simp at hw
  | @var x =>
    unfold nameVal at h'
    generalize hw : Val.box (.app ["Variable"] [.app ["to_string"] [.list (x.map .chr)]]) = w at h'
    cases h' with
    | var =>
      simp only [nameVal, Val.box.injEq, Val.app.injEq, List.cons.injEq, Val.list.injEq, true_and, and_true] at hw
      rw [chars_inj hw]
    | _ => simp at hw
  | @letIn x v1 v2 t1 t2 h1 h2 ih1 ih2 =>
    unfold nameVal at h'
    generalize hw : Val.box (.app ["LetIn"] [.app ["to_string"] [.list (x.map .chr)], v1, v2]) = w at h'
    cases h' with
    | letIn hv hb =>
      simp only [nameVal, Val.box.injEq, Val.app.injEq, List.cons.injEq, Val.list.injEq, true_and, and_true] at hw
      obtain ⟨hx, rfl, rfl⟩ := hw
      rw [chars_inj hx, ih1 hv, ih2 hb]
    | _ => simp at hw
  | leftNil _ ih =>
    rcases builds_left h' with ⟨_, h'⟩ | ⟨vs, _, _, _, _, h, _⟩
    · exact ih h'
    · exact absurd h.symm (by simp)
  | leftSnoc _ _ ih1 ih2 =>
    rcases builds_left h' with ⟨h, h'⟩ | ⟨vs, o, v, a, b, h, h1, h2, rfl⟩
    · exact absurd h (by simp)
    · obtain ⟨rfl, h4⟩ := List.append_inj' h rfl
      simp only [List.cons.injEq, Val.tup.injEq, and_true] at h4
      obtain ⟨h3, rfl⟩ := h4
      rw [pathVal_inj h3, ih1 h1, ih2 h2]
  | rightNil _ ih =>
    rcases builds_right h' with ⟨_, h'⟩ | ⟨_, _, vs, _, _, h, _⟩
    · exact ih h'
    · cases h
  | rightCons _ _ ih1 ih2 =>
    rcases builds_right h' with ⟨h, h'⟩ | ⟨o, v, vs, a, b, h, h1, h2, rfl⟩
    · cases h
    · simp only [List.cons.injEq, Val.tup.injEq, and_true] at h
      obtain ⟨⟨rfl, h3⟩, rfl⟩ := h
      rw [pathVal_inj h3, ih1 h1, ih2 h2]

/-! ## Panics -/

theorem panicsIn_app {f : Path} {vs : List Val} : PanicsIn (.app f vs) ↔ (∃ ds, f = ["to_number"] ∧ vs = [.list (ds.map .chr)] ∧ 2 ^ 32 ≤ decimal ds) ∨ ∃ v ∈ vs, PanicsIn v := by
  constructor
  · intro h
    cases h with
    | number h => exact .inl ⟨_, rfl, rfl, h⟩
    | app h1 h2 => exact .inr ⟨_, h1, h2⟩
  · rintro (⟨ds, rfl, rfl, h⟩ | ⟨v, h1, h2⟩)
    · exact .number h
    · exact .app h1 h2

theorem panicsIn_box {v : Val} : PanicsIn (.box v) ↔ PanicsIn v := ⟨fun h => by cases h with | box h => exact h, .box⟩

theorem panicsIn_list {vs : List Val} : PanicsIn (.list vs) ↔ ∃ v ∈ vs, PanicsIn v :=
  ⟨fun h => by cases h with | list h1 h2 => exact ⟨_, h1, h2⟩, fun ⟨_, h1, h2⟩ => .list h1 h2⟩

theorem panicsIn_tup {vs : List Val} : PanicsIn (.tup vs) ↔ ∃ v ∈ vs, PanicsIn v :=
  ⟨fun h => by cases h with | tup h1 h2 => exact ⟨_, h1, h2⟩, fun ⟨_, h1, h2⟩ => .tup h1 h2⟩

theorem panicsIn_chars {x : List Char} : ¬ PanicsIn (.list (x.map .chr)) := by
  intro h
  obtain ⟨v, hv, h⟩ := panicsIn_list.1 h
  obtain ⟨c, _, rfl⟩ := List.mem_map.1 hv
  cases h

theorem panicsIn_name {x : List Char} : ¬ PanicsIn (nameVal x) := by
  simp [nameVal, panicsIn_app, panicsIn_chars]

theorem panicsIn_path {p : Path} : ¬ PanicsIn (.path p) := fun h => by cases h

theorem builds_panics {v : Val} {t : Term} (h : Builds v t) : PanicsIn v ↔ ¬ t.Small := by
  induction h with
  | @number ds =>
    have hn : PanicsIn (.app ["to_number"] [.list (ds.map .chr)]) ↔ 2 ^ 32 ≤ decimal ds := by
      constructor
      · intro h
        rcases panicsIn_app.1 h with ⟨ds', _, h1, h2⟩ | ⟨v, hv, h⟩
        · simp only [List.cons.injEq, Val.list.injEq, and_true] at h1
          rw [chars_inj h1]; exact h2
        · rw [List.mem_singleton.1 hv] at h
          exact absurd h panicsIn_chars
      · exact .number
    rw [panicsIn_box, panicsIn_app]
    simp only [List.mem_singleton, exists_eq_left, hn, Term.Small, Nat.not_lt]
    simp
  | var => simp [panicsIn_box, panicsIn_app, panicsIn_name, Term.Small]
  | letIn _ _ ih1 ih2 =>
    rw [panicsIn_box, panicsIn_app]
    simp only [List.mem_cons, List.not_mem_nil, or_false, exists_eq_or_imp, exists_eq_left, ih1, ih2, panicsIn_name, false_or, Term.Small, Classical.not_and_iff_not_or_not]
    simp
  | leftNil _ ih => simpa [panicsIn_app, panicsIn_list] using ih
  | leftSnoc _ _ ih1 ih2 =>
    simp only [panicsIn_app, panicsIn_list, List.mem_cons, List.not_mem_nil, or_false, exists_eq_or_imp, exists_eq_left, List.mem_append, or_and_right, exists_or, panicsIn_tup,
      panicsIn_path, false_or, ih2, Term.Small, Classical.not_and_iff_not_or_not] at ih1 ⊢
    rw [← ih1]
    simp [or_assoc]
  | rightNil _ ih => simpa [panicsIn_app, panicsIn_list] using ih
  | rightCons _ _ ih1 ih2 =>
    simp only [panicsIn_app, panicsIn_list, List.mem_cons, List.not_mem_nil, or_false, exists_eq_or_imp, exists_eq_left, panicsIn_tup, panicsIn_path,
      ih1, Term.Small, Classical.not_and_iff_not_or_not] at ih2 ⊢
    rw [← ih2]
    simp [or_assoc]

end Oak.Calculator
