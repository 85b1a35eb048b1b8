import Verif.Proofs.TypingShape
/-!
The types of choices, repetitions and options.
-/
set_option linter.constructorNameAsVariable false
set_option autoImplicit false

namespace Oak

theorem Same.refl : ∀ t, Same t t := by
  intro t
  induction t using DType.ind with
  | tuple ts ih =>
    refine .tuple ?_
    induction ts with
    | nil => exact .nil
    | cons t ts iht => rw [List.forall_mem_cons] at ih; exact .cons ih.1 (iht ih.2)
  | hidden => exact .hidden
  | unit => exact .unit
  | char => exact .char
  | external => exact .external
  | rust s => exact .rust
  | list t ih => exact .list ih
  | option t ih => exact .option ih

theorem Same.symm : ∀ {t u}, Same t u → Same u t := by
  intro t
  induction t using DType.ind with
  | tuple ts ih =>
    intro u h
    cases h with
    | @tuple _ us h =>
      refine .tuple ?_
      induction ts generalizing us with
      | nil => cases h; exact .nil
      | cons t ts iht => rw [List.forall_mem_cons] at ih; cases h with | cons h1 h2 => exact .cons (ih.1 h1) (iht ih.2 h2)
  | list t ih => intro u h; cases h with | list h => exact .list (ih h)
  | option t ih => intro u h; cases h with | option h => exact .option (ih h)
  | rust s => intro u h; cases h; exact .rust
  | _ => intro u h; cases h; exact .refl _

theorem Same.trans : ∀ {t u v}, Same t u → Same u v → Same t v := by
  intro t
  induction t using DType.ind with
  | tuple ts ih =>
    intro u v h h'
    cases h with
    | @tuple _ us h =>
      cases h' with
      | @tuple _ vs h' =>
        refine .tuple ?_
        induction ts generalizing us vs with
        | nil => cases h; cases h'; exact .nil
        | cons t ts iht =>
          rw [List.forall_mem_cons] at ih
          cases h with
          | cons h1 h2 => cases h' with | cons h3 h4 => exact .cons (ih.1 h1 h3) (iht ih.2 h2 h4)
  | list t ih => intro u v h h'; cases h with | list h => cases h' with | list h' => exact .list (ih h h')
  | option t ih => intro u v h h'; cases h with | option h => cases h' with | option h' => exact .option (ih h h')
  | rust s => intro u v h h'; cases h; cases h'; exact .rust
  | _ => intro u v h h'; cases h; cases h'; exact .refl _

/-- The comparison of types is that of the trees. -/
theorem synEq_unf {T : Nat → IType} : ∀ (v : DType) {n : Nat} {w : DType} {a b : IType} {r : Bool}, Unf T v a → Unf T w b → synEq T n a b = .ok r →
    (r = true ↔ Same v w) := by
  intro v
  induction v using DType.ind with
  | tuple vs ih =>
    intro n w a b r ha hb h
    cases n with
    | zero => cases h
    | succ n =>
      unfold Unf at ha
      obtain ⟨js, rfl, ha⟩ := ha
      cases w <;> unfold Unf at hb
      case tuple ws =>
        obtain ⟨ks, rfl, hb⟩ := hb
        unfold synEq at h
        dsimp only at h
        have hiff : Same (.tuple vs) (.tuple ws) ↔ SameAll vs ws := ⟨fun h => by cases h; assumption, .tuple⟩
        rw [hiff]
        split at h
        · rename_i hl
          have hl2 : vs.length = ws.length := by rw [← ha.length, ← hb.length]; exact hl
          clear hiff
          induction vs generalizing js ks ws with
          | nil =>
            unfold UnfAll at ha; subst ha
            cases ws with
            | nil => unfold UnfAll at hb; subst hb; cases h; simp [SameAll.nil]
            | cons => simp at hl2
          | cons v vs ihv =>
            rw [List.forall_mem_cons] at ih
            cases ws with
            | nil => simp at hl2
            | cons w ws =>
              unfold UnfAll at ha hb
              obtain ⟨j, js, rfl, ha1, ha⟩ := ha
              obtain ⟨k, ks, rfl, hb1, hb⟩ := hb
              unfold allEq at h
              obtain ⟨x, hx, h⟩ := Res.bind_eq_ok h
              have h1 := ih.1 ha1 hb1 hx
              split at h
              · rename_i hxt
                have := ihv ih.2 js ha ws ks hb (by simpa using hl) h (by simpa using hl2)
                exact this.trans ⟨fun h => .cons (h1.1 hxt) h, fun h => by cases h; assumption⟩
              · rename_i hxt
                cases h
                simp only [Bool.false_eq_true, false_iff]
                intro hs
                cases hs with | cons hs _ => exact hxt (h1.2 hs)
        · rename_i hl
          cases h
          simp only [Bool.false_eq_true, false_iff]
          intro hs
          have : ∀ {vs ws}, SameAll vs ws → vs.length = ws.length := by
            intro vs
            induction vs with
            | nil => intro ws h; cases h; rfl
            | cons v vs ih => intro ws h; cases h with | cons _ h => simp [ih h]
          exact hl (by rw [ha.length, hb.length]; exact this hs)
      case list => obtain ⟨k, rfl, hb⟩ := hb; unfold synEq at h; cases h; exact ⟨nofun, nofun⟩
      case option => obtain ⟨k, rfl, hb⟩ := hb; unfold synEq at h; cases h; exact ⟨nofun, nofun⟩
      all_goals subst hb; unfold synEq at h; cases h; exact ⟨nofun, nofun⟩
  | list v ih =>
    intro n w a b r ha hb h
    cases n with
    | zero => cases h
    | succ n =>
      unfold Unf at ha
      obtain ⟨j, rfl, ha⟩ := ha
      cases w <;> unfold Unf at hb
      case list w =>
        obtain ⟨k, rfl, hb⟩ := hb
        unfold synEq at h
        rw [ih ha hb h]
        exact ⟨.list, fun h => by cases h; assumption⟩
      case tuple => obtain ⟨k, rfl, hb⟩ := hb; unfold synEq at h; cases h; exact ⟨nofun, nofun⟩
      case option => obtain ⟨k, rfl, hb⟩ := hb; unfold synEq at h; cases h; exact ⟨nofun, nofun⟩
      all_goals subst hb; unfold synEq at h; cases h; exact ⟨nofun, nofun⟩
  | option v ih =>
    intro n w a b r ha hb h
    cases n with
    | zero => cases h
    | succ n =>
      unfold Unf at ha
      obtain ⟨j, rfl, ha⟩ := ha
      cases w <;> unfold Unf at hb
      case option w =>
        obtain ⟨k, rfl, hb⟩ := hb
        unfold synEq at h
        rw [ih ha hb h]
        exact ⟨.option, fun h => by cases h; assumption⟩
      case tuple => obtain ⟨k, rfl, hb⟩ := hb; unfold synEq at h; cases h; exact ⟨nofun, nofun⟩
      case list => obtain ⟨k, rfl, hb⟩ := hb; unfold synEq at h; cases h; exact ⟨nofun, nofun⟩
      all_goals subst hb; unfold synEq at h; cases h; exact ⟨nofun, nofun⟩
  | _ =>
    intro n w a b r ha hb h
    cases n with
    | zero => cases h
    | succ n =>
      unfold Unf at ha
      subst ha
      cases w <;> unfold Unf at hb
      case tuple => obtain ⟨k, rfl, hb⟩ := hb; unfold synEq at h; cases h; exact ⟨nofun, nofun⟩
      case list => obtain ⟨k, rfl, hb⟩ := hb; unfold synEq at h; cases h; exact ⟨nofun, nofun⟩
      case option => obtain ⟨k, rfl, hb⟩ := hb; unfold synEq at h; cases h; exact ⟨nofun, nofun⟩
      all_goals subst hb; unfold synEq at h; cases h; first | exact ⟨fun _ => .rust, fun _ => rfl⟩ | exact ⟨fun _ => .refl _, fun _ => rfl⟩ | exact ⟨nofun, nofun⟩

/-- Pairs of types and trees. -/
inductive UnfL (T : Nat → IType) : List DType → List IType → Prop where
  | nil : UnfL T [] []
  | cons {v t vs ts} : Unf T v t → UnfL T vs ts → UnfL T (v :: vs) (t :: ts)

theorem UnfL.snoc {T : Nat → IType} {vs : List DType} {ts : List IType} {v : DType} {t : IType} (h : UnfL T vs ts) (h' : Unf T v t) :
    UnfL T (vs ++ [v]) (ts ++ [t]) := by
  induction h with
  | nil => exact .cons h' .nil
  | cons h1 _ ih => exact .cons h1 ih

/-- Representatives of types. -/
inductive Reps : List DType → List DType → List DType → Prop where
  | nil {ws} : Reps ws [] ws
  | skip {ws v vs ws'} : (∃ w ∈ ws, Same v w) → Reps ws vs ws' → Reps ws (v :: vs) ws'
  | add {ws v vs ws'} : (∀ w ∈ ws, ¬ Same v w) → Reps (ws ++ [v]) vs ws' → Reps ws (v :: vs) ws'

theorem anyRes_unf {T : Nat → IType} {m : Nat} {v : DType} {t : IType} {ws : List DType} {ts : List IType} {c : Bool} (hv : Unf T v t) (hw : UnfL T ws ts)
    (h : anyRes (fun t2 => synEq T m t t2) ts = .ok c) : c = true ↔ ∃ w ∈ ws, Same v w := by
  induction hw generalizing c with
  | nil => cases h; simp
  | cons h1 _ ih =>
    unfold anyRes at h
    obtain ⟨x, hx, h⟩ := Res.bind_eq_ok h
    have hs := synEq_unf _ hv h1 hx
    split at h
    · rename_i hxt; cases h; simp [hs.1 hxt]
    · rename_i hxt
      rw [ih h]
      have : ¬ Same v _ := fun h => hxt (hs.2 h)
      simp [this]

theorem splitTypes_unf {T : Nat → IType} {m : Nat} {vs : List DType} {tys : List IType} (h : UnfL T vs tys) : ∀ {ws : List DType} {r : RecSet} {ts : List IType}
    {x : RecSet × List IType}, UnfL T ws ts → splitTypes T m tys r ts = .ok x → x.1 = r ∧ ∃ ws', UnfL T ws' x.2 ∧ Reps ws vs ws' := by
  induction h with
  | nil => intro ws r ts x hw hx; cases hx; exact ⟨rfl, ws, hw, .nil⟩
  | @cons v t vs tys hv _ ih =>
    intro ws r ts x hw hx
    unfold splitTypes at hx
    have hs := hv.settled
    split at hx
    · cases hs
    · obtain ⟨c, hc, hx⟩ := Res.bind_eq_ok hx
      have hcs := anyRes_unf hv hw hc
      cases c with
      | true =>
        obtain ⟨h1, ws', h2, h3⟩ := ih hw hx
        exact ⟨h1, ws', h2, .skip (hcs.1 rfl) h3⟩
      | false =>
        obtain ⟨h1, ws', h2, h3⟩ := ih (hw.snoc hv) hx
        refine ⟨h1, ws', h2, .add (fun w hw hs => ?_) h3⟩
        exact absurd (hcs.2 ⟨w, hw, hs⟩) (by simp)

theorem Reps.sub {ws vs ws' : List DType} (h : Reps ws vs ws') : ∀ w ∈ ws, w ∈ ws' := by
  induction h with
  | nil => exact fun _ h => h
  | skip _ _ ih => exact ih
  | add _ _ ih => exact fun w hw => ih w (by simp [hw])

theorem Reps.cover {ws vs ws' : List DType} (h : Reps ws vs ws') : ∀ v ∈ vs, ∃ w ∈ ws', Same v w := by
  induction h with
  | nil => simp
  | skip h1 h2 ih =>
    obtain ⟨w, hw, hs⟩ := h1
    exact List.forall_mem_cons.2 ⟨⟨w, h2.sub w hw, hs⟩, ih⟩
  | @add ws v vs ws' h1 h2 ih => exact List.forall_mem_cons.2 ⟨⟨v, h2.sub v (by simp), .refl v⟩, ih⟩

theorem Reps.first {ws vs ws' : List DType} (h : Reps ws vs ws') : ∀ t ∈ ws', t ∈ ws ∨ ((∀ w ∈ ws, ¬ Same w t) ∧
    ∃ pre post, vs = pre ++ t :: post ∧ ∀ u ∈ pre, ¬ Same u t) := by
  induction h with
  | nil => exact fun t ht => .inl ht
  | @skip ws v vs ws' h1 h2 ih =>
    intro t ht
    rcases ih t ht with h | ⟨h3, pre, post, rfl, h4⟩
    · exact .inl h
    · obtain ⟨w, hw, hs⟩ := h1
      refine .inr ⟨h3, v :: pre, post, rfl, List.forall_mem_cons.2 ⟨fun h => h3 w hw (hs.symm.trans h), h4⟩⟩
  | @add ws v vs ws' h1 h2 ih =>
    intro t ht
    rcases ih t ht with h | ⟨h3, pre, post, rfl, h4⟩
    · rcases List.mem_append.1 h with h | h
      · exact .inl h
      · rw [List.mem_singleton] at h
        subst h
        exact .inr ⟨fun w hw hs => h1 w hw hs.symm, [], vs, rfl, by simp⟩
    · exact .inr ⟨fun w hw => h3 w (by simp [hw]), v :: pre, post, rfl, List.forall_mem_cons.2 ⟨h3 v (by simp), h4⟩⟩

theorem Reps.pairwise {ws vs ws' : List DType} (h : Reps ws vs ws') (hw : ws.Pairwise fun a b => ¬ Same a b) : ws'.Pairwise fun a b => ¬ Same a b := by
  induction h with
  | nil => exact hw
  | skip _ _ ih => exact ih hw
  | @add ws v vs ws' h1 h2 ih =>
    refine ih (List.pairwise_append.2 ⟨hw, by simp, ?_⟩)
    intro a ha b hb
    rw [List.mem_singleton] at hb
    subst hb
    exact fun h => h1 a ha h.symm

theorem same_external {t : DType} (h : Same t .external) : t = .external := by cases h; rfl

theorem known_of {vs ws : List DType} {t : DType} (h : Reps [] vs ws) (ht : t ∈ ws) (hte : t ≠ .external) (he : DType.external ∈ ws)
    (hall : ∀ w ∈ ws, w = t ∨ w = .external) : ChoiceType vs t := by
  have hcov := h.cover
  have hv : ∀ u ∈ vs, Same u t ∨ u = .external := fun u hu => by
    obtain ⟨w, hw, hs⟩ := hcov u hu
    rcases hall w hw with rfl | rfl
    · exact .inl hs
    · exact .inr (same_external hs)
  rcases h.first t ht with h1 | ⟨_, pre, post, rfl, h2⟩
  · cases h1
  rcases h.first _ he with h1 | ⟨_, pre', post', h3, _⟩
  · cases h1
  refine .known rfl (fun u hu => (hv u (by simp [hu])).resolve_left (h2 u hu)) hte (fun u hu => (hv u (by simp [hu])).symm) (by rw [h3]; simp)

theorem splitTypes_sub {T : Nat → IType} {m : Nat} {tys : List IType} : ∀ {r : RecSet} {ts : List IType} {x : RecSet × List IType},
    splitTypes T m tys r ts = .ok x → ∀ t ∈ x.2, t ∈ tys ∨ t ∈ ts := by
  induction tys with
  | nil => intro r ts x h; cases h; exact fun t ht => .inr ht
  | cons t tys ih =>
    intro r ts x h
    unfold splitTypes at h
    split at h
    · exact fun t ht => (ih h t ht).imp (by simp; exact .inr) id
    · obtain ⟨c, hc, h⟩ := Res.bind_eq_ok h
      intro t' ht'
      rcases ih h t' ht' with h | h
      · exact .inl (by simp [h])
      · cases c with
        | true => exact .inr h
        | false =>
          simp only [Bool.false_eq_true, if_false, List.mem_append, List.mem_singleton] at h
          rcases h with h | h
          · exact .inr h
          · exact .inl (by simp [h])

/-- The type of a choice. -/
theorem reduceSum_unf {T : Nat → IType} {m : Nat} {vs : List DType} {tys : List IType} {t : IType} (h : UnfL T vs tys) (hne : tys ≠ [])
    (ht : reduceSum T m tys = .ok (some t)) : ∃ v, ChoiceType vs v ∧ Unf T v t ∧ (t = .invisible ∨ (t ∈ tys ∧ v ∈ vs)) := by
  unfold reduceSum at ht
  rw [if_neg (by simpa using hne)] at ht
  obtain ⟨⟨r, ts⟩, hx, ht⟩ := Res.bind_eq_ok ht
  obtain ⟨h1, ws, h2, h3⟩ := splitTypes_unf h .nil hx
  dsimp only at h1 h2
  subst h1
  simp only [Res.ok.injEq] at ht
  have hmem : ∀ w ∈ ws, w ∈ vs := fun w hw => by
    rcases h3.first w hw with h | ⟨_, pre, post, h, _⟩
    · cases h
    · rw [h]; simp
  have htm : ∀ t ∈ ts, t ∈ tys := by
    have := splitTypes_sub hx
    intro t ht
    exact (this t ht).resolve_right (by simp)
  have hcov := h3.cover
  unfold sumType at ht
  rw [if_neg (by simp [RecSet.isPoly])] at ht
  have hpw := h3.pairwise .nil
  cases h2 with
  | nil =>
    cases h with
    | nil => exact absurd rfl hne
    | cons _ _ => obtain ⟨w, hw, _⟩ := hcov _ (List.mem_cons_self ..); cases hw
  | @cons w t1 ws ts hw hws =>
    cases hws with
    | nil =>
      simp only [Option.some.injEq] at ht
      subst ht
      refine ⟨w, ?_, hw, .inr ⟨htm _ (by simp), hmem _ (by simp)⟩⟩
      rcases h3.first w (by simp) with h | ⟨_, pre, post, rfl, h4⟩
      · cases h
      · have : pre = [] := by
          cases pre with
          | nil => rfl
          | cons u pre =>
            obtain ⟨w', hw', hs⟩ := hcov u (by simp)
            rw [List.mem_singleton] at hw'
            subst hw'
            exact absurd hs (h4 u (by simp))
        subst this
        refine .same fun u hu => ?_
        obtain ⟨w', hw', hs⟩ := hcov u (by simp [hu])
        rw [List.mem_singleton] at hw'
        subst hw'
        exact hs
    | @cons w2 t2 ws ts hw2 hws =>
      have hns : ¬ Same w w2 := (List.pairwise_cons.1 hpw).1 w2 (by simp)
      have hunits : ∀ t, (if (t1 :: t2 :: ts).all IType.isUnitKind = true then some IType.invisible else none) = some t →
          ∃ v, ChoiceType vs v ∧ Unf T v t ∧ (t = .invisible ∨ (t ∈ tys ∧ v ∈ vs)) := by
        intro t ht
        split at ht
        · rename_i hall
          cases ht
          refine ⟨.hidden, ?_, by simp [Unf], .inl rfl⟩
          simp only [List.all_eq_true] at hall
          have hk : ∀ {ws : List DType} {ts : List IType}, UnfL T ws ts → (∀ t ∈ ts, t.isUnitKind = true) → ∀ w ∈ ws, w = .unit ∨ w = .hidden := by
            intro ws ts h
            induction h with
            | nil => simp
            | cons h1 _ ih =>
              intro ht
              rw [List.forall_mem_cons] at ht ⊢
              exact ⟨((unf_unit h1).1 ht.1).symm, ih ht.2⟩
          have hku := hk (.cons hw (.cons hw2 hws)) hall
          have hboth : DType.unit ∈ vs ∧ DType.hidden ∈ vs := by
            have a1 := hku w (by simp)
            have a2 := hku w2 (by simp)
            have b1 := hmem w (by simp)
            have b2 := hmem w2 (by simp)
            rcases a1 with rfl | rfl <;> rcases a2 with rfl | rfl
            · exact absurd (.refl _) hns
            · exact ⟨b1, b2⟩
            · exact ⟨b2, b1⟩
            · exact absurd (.refl _) hns
          refine .units hboth.1 hboth.2 fun u hu => ?_
          obtain ⟨w', hw', hs⟩ := hcov u hu
          rcases hku w' hw' with rfl | rfl <;> cases hs
          · exact .inl rfl
          · exact .inr rfl
        · cases ht
      split at ht
      · rename_i heq; cases heq
      · rename_i heq; cases heq
      · rename_i t' heq
        simp only [List.cons.injEq] at heq
        obtain ⟨rfl, rfl, rfl⟩ := heq
        cases hws
        cases ht
        have he := (unf_external hw).1 rfl
        subst he
        refine ⟨w2, known_of h3 (by simp) ?_ (by simp) (by simp), hw2, .inr ⟨htm _ (by simp), hmem _ (by simp)⟩⟩
        rintro rfl
        exact hns .external
      · rename_i t' heq
        simp only [List.cons.injEq] at heq
        obtain ⟨rfl, rfl, rfl⟩ := heq
        cases hws
        cases ht
        have he := (unf_external hw2).1 rfl
        subst he
        refine ⟨w, known_of h3 (by simp) ?_ (by simp) (by simp), hw, .inr ⟨htm _ (by simp), hmem _ (by simp)⟩⟩
        rintro rfl
        exact hns .external
      · exact hunits t ht

/-- A choice whose type is refused has no type. -/
theorem reduceSum_none {T : Nat → IType} {m : Nat} {vs : List DType} {tys : List IType} (h : UnfL T vs tys) (ht : reduceSum T m tys = .ok none) :
    ∀ v, ¬ ChoiceType vs v := by
  intro v hv
  unfold reduceSum at ht
  split at ht
  · cases ht
  obtain ⟨⟨r, ts⟩, hx, ht⟩ := Res.bind_eq_ok ht
  obtain ⟨h1, ws, h2, h3⟩ := splitTypes_unf h .nil hx
  dsimp only at h1 h2
  subst h1
  simp only [Res.ok.injEq] at ht
  have hmem : ∀ w ∈ ws, w ∈ vs := fun w hw => by
    rcases h3.first w hw with h | ⟨_, pre, post, h, _⟩
    · cases h
    · rw [h]; simp
  have hpw := h3.pairwise .nil
  unfold sumType at ht
  rw [if_neg (by simp [RecSet.isPoly])] at ht
  cases h2 with
  | nil => cases ht
  | @cons w t1 ws ts hw hws =>
    cases hws with
    | nil => cases ht
    | @cons w2 t2 ws ts hw2 hws =>
      have hns : ¬ Same w w2 := (List.pairwise_cons.1 hpw).1 w2 (by simp)
      cases hv with
      | @same _ us hs =>
        have hall : ∀ u ∈ v :: us, Same u v := List.forall_mem_cons.2 ⟨.refl v, hs⟩
        exact hns ((hall w (hmem w (by simp))).trans (hall w2 (hmem w2 (by simp))).symm)
      | @known _ pre _ post he h4 h5 h6 _ =>
        subst he
        have hall : ∀ u ∈ pre ++ v :: post, u = .external ∨ Same u v := by
          intro u hu
          rcases List.mem_append.1 hu with hu | hu
          · exact .inl (h4 u hu)
          · rcases List.mem_cons.1 hu with rfl | hu
            · exact .inr (.refl u)
            · exact h6 u hu
        have hthird : ws = [] := by
          cases ws with
          | nil => rfl
          | cons w3 ws =>
            exfalso
            have p1 := (List.pairwise_cons.1 hpw).1
            have p2 := (List.pairwise_cons.1 (List.pairwise_cons.1 hpw).2).1
            have n13 := p1 w3 (by simp)
            have n23 := p2 w3 (by simp)
            rcases hall w (hmem w (by simp)) with a | a <;> rcases hall w2 (hmem w2 (by simp)) with b | b <;>
              rcases hall w3 (hmem w3 (by simp)) with c | c
            · exact hns (by rw [a, b]; exact .refl _)
            · exact hns (by rw [a, b]; exact .refl _)
            · exact n13 (by rw [a, c]; exact .refl _)
            · exact n23 (b.trans c.symm)
            · exact n23 (by rw [b, c]; exact .refl _)
            · exact n13 (a.trans c.symm)
            · exact hns (a.trans b.symm)
            · exact hns (a.trans b.symm)
        subst hthird
        cases hws
        rcases hall w (hmem w (by simp)) with rfl | a
        · have := (unf_external hw).2 rfl
          subst this
          cases ht
        · rcases hall w2 (hmem w2 (by simp)) with rfl | b
          · have := (unf_external hw2).2 rfl
            subst this
            split at ht <;> simp_all
          · exact hns (a.trans b.symm)
      | units _ _ hu =>
        have hk : ∀ {ws : List DType} {ts : List IType}, UnfL T ws ts → (∀ w ∈ ws, w = .unit ∨ w = .hidden) → ∀ t ∈ ts, t.isUnitKind = true := by
          intro ws ts h
          induction h with
          | nil => simp
          | cons h1 _ ih =>
            intro ht
            rw [List.forall_mem_cons] at ht ⊢
            exact ⟨(unf_unit h1).2 ht.1.symm, ih ht.2⟩
        have := hk (.cons hw (.cons hw2 hws)) fun w hw => hu w (hmem w hw)
        have hall : (t1 :: t2 :: ts).all IType.isUnitKind = true := List.all_eq_true.2 this
        split at ht <;> simp_all

theorem ChoiceType.flat {vs : List DType} {v : DType} (h : ChoiceType vs v) (hv : ∀ u ∈ vs, u.Flat) : v.Flat := by
  cases h with
  | same h => exact hv _ (by simp)
  | known h => subst h; exact hv _ (by simp)
  | units => trivial

/-- The type of a repetition or of an option. -/
theorem reduceUnary_unf {T : Nat → IType} {c : Nat} {v : DType} (t : IType) (h : Unf T v (T c)) :
    (v = .hidden ∧ reduceUnary T c t = .invisible) ∨ (v ≠ .hidden ∧ reduceUnary T c t = t) := by
  unfold reduceUnary
  have := h.settled
  split
  · rename_i heq; rw [heq] at h; exact .inl ⟨(unf_hidden h).1 rfl, rfl⟩
  · rename_i heq; rw [heq] at this; cases this
  · rename_i hne _; exact .inr ⟨fun hv => hne ((unf_hidden h).2 hv), rfl⟩

/-- Types in normal form are not changed. -/
theorem reduce_flat {T : Nat → IType} {v : DType} {t : IType} (hv : v.Flat) (h : Unf T v t) : reduce T t = .ok t := by
  cases v <;> unfold Unf at h
  case list v =>
    obtain ⟨j, rfl, h⟩ := h
    unfold reduce
    dsimp only
    rcases reduceUnary_unf (.regular (.list j)) h with ⟨h1, _⟩ | ⟨_, h2⟩
    · exact absurd h1 hv
    · rw [h2]
  case option v =>
    obtain ⟨j, rfl, h⟩ := h
    unfold reduce
    dsimp only
    rcases reduceUnary_unf (.regular (.optional j)) h with ⟨h1, _⟩ | ⟨_, h2⟩
    · exact absurd h1 hv
    · rw [h2]
  case tuple vs =>
    obtain ⟨js, rfl, h⟩ := h
    have hl := h.length
    have h2 := hv.1
    unfold reduce
    dsimp only
    have hne : js ≠ [] := by rintro rfl; simp at hl; omega
    have hin : js.flatMap (inlined T) = js := by
      have : js.flatMap (inlined T) = js.flatMap fun j => [j] := by
        refine flatMap_congr' fun j hj => ?_
        obtain ⟨w, hw, hu⟩ := h.mem hj
        have hp := hv.2 w hw
        unfold inlined
        split
        · rename_i ks heq
          exfalso
          rw [heq] at hu
          cases w <;> unfold Unf at hu
          case list => obtain ⟨_, h, _⟩ := hu; cases h
          case option => obtain ⟨_, h, _⟩ := hu; cases h
          case tuple ts => exact hp.2.2 ts rfl
          all_goals cases hu
        · rfl
      rw [this]; simp
    have hmem : ∀ j ∈ js, T j ≠ .invisible ∧ T j ≠ .regular .unit ∧ ∀ rs, T j ≠ .rec_ rs := by
      intro j hj
      obtain ⟨w, hw, hu⟩ := h.mem hj
      have hp := hv.2 w hw
      exact ⟨fun h => hp.1 ((unf_hidden hu).1 h), fun h => hp.2.1 ((unf_isUnit hu).1 h), fun rs h => settled_ne_rec hu.settled h⟩
    have hrec : tupleRecSet T js = [] := by
      unfold tupleRecSet
      refine foldl_same _ _ _ fun j hj a => ?_
      split
      · rename_i rs heq; exact absurd heq ((hmem j hj).2.2 rs)
      · rfl
    have hf1 : (js.filter fun j => T j != .invisible) = js := List.filter_eq_self.2 fun j hj => by simpa using (hmem j hj).1
    have hf2 : (js.filter fun j => T j != .regular .unit) = js := List.filter_eq_self.2 fun j hj => by simpa using (hmem j hj).2.1
    unfold reduceTuple
    rw [if_neg (by simpa using hne)]
    dsimp only
    rw [tupleInlining_eq, hin, hrec, hf1, hf2]
    simp only [List.isEmpty_nil, Bool.not_true, Bool.false_eq_true, if_false]
    rw [if_neg (by simpa using hne)]
    cases js with
    | nil => exact absurd rfl hne
    | cons a js =>
      cases js with
      | nil => simp at hl; omega
      | cons b js => rfl
  all_goals subst h; rfl

end Oak
