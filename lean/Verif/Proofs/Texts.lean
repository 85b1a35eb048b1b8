import Verif.Spec.Texts
import Verif.Proofs.TypingTop
import Verif.Proofs.TypingFuel
import Verif.Proofs.TypingPlaces
/-!
The texts of the messages of the typing phase are written, and are those of the documented types.
-/
set_option linter.constructorNameAsVariable false
set_option autoImplicit false

namespace Oak
namespace Typing

/-! ### The log and the messages -/

/-- The log is made of the errors that stop the inference. -/
def Logged (s : TState) : Prop := s.log.map tdiagMsg = s.msgs.filter TMsg.blocking

theorem stable_logged : Stable Logged where
  set h _ _ := h
  fail {s x d} h hx hd := by
    show (s.log ++ [d]).map tdiagMsg = (s.msgs ++ [x]).filter TMsg.blocking
    rw [List.map_append, List.filter_append, show s.log.map tdiagMsg = _ from h]
    simp [hx, hd]
  more {s xs} h hx := by
    show s.log.map tdiagMsg = (s.msgs ++ xs).filter TMsg.blocking
    rw [List.filter_append, show s.log.map tdiagMsg = _ from h]
    have : xs.filter TMsg.blocking = [] := by
      rw [List.filter_eq_nil_iff]
      intro x hm
      obtain ⟨j, rfl⟩ := hx x hm
      simp [TMsg.blocking]
    rw [this, List.append_nil]

theorem typingRun_logged {A : AGrammar} {k m n : Nat} {p : Partial (Nat → Ty)} {s : TState} (h : typingRun A k m n = .ok (p, s)) : Logged s := by
  have h0 : Logged (.new k) := rfl
  unfold typingRun at h
  obtain ⟨s1, h1, h⟩ := Res.bind_eq_ok h
  have k1 := surfRules_keeps stable_logged _ _ h0 s1 h1
  split at h
  · cases h; exact k1
  · obtain ⟨w, hw, h⟩ := Res.bind_eq_ok h
    obtain ⟨T1, hT1, h⟩ := Res.bind_eq_ok h
    obtain ⟨s2, h2, h⟩ := Res.bind_eq_ok h
    have k1' : Logged { s1 with types := T1, msgs := s1.msgs ++ w } := by
      show s1.log.map tdiagMsg = (s1.msgs ++ w).filter TMsg.blocking
      rw [List.filter_append, show s1.log.map tdiagMsg = _ from k1]
      have : w.filter TMsg.blocking = [] := by
        rw [List.filter_eq_nil_iff]
        intro x hm
        rw [warn_msgs hw x hm]
        simp
      rw [this, List.append_nil]
    have k2 := depthAll_keeps stable_logged (m := m) (surf := surfHere A k m n) (fun e _ => depthExpr_keeps stable_logged (fun e s h => surfExpr_keeps stable_logged (surfRule_keeps stable_logged n []) e s h) e) _ _ _
      k1' s2 h2
    split at h
    · cases h; exact k2
    · obtain ⟨T, hT, h⟩ := Res.bind_eq_ok h
      obtain ⟨s3, h3, h⟩ := Res.bind_eq_ok h
      have k3 := checkRules_keeps stable_logged _ _ k2 s3 h3
      split at h <;> (cases h; exact k3)

/-! ### Types are written -/

theorem mapM_text {T : Nat → IType} {n : Nat} (is : List Nat) (h : ∀ j ∈ is, ∃ x, ∀ m, n ≤ m → dispTy T m (T j) = .ok x) :
    ∃ xs, ∀ m, n ≤ m → is.mapM (fun i => dispTy T m (T i)) = .ok xs := by
  induction is with
  | nil => exact ⟨[], fun _ _ => rfl⟩
  | cons j is ih =>
    rw [List.forall_mem_cons] at h
    obtain ⟨v, hv⟩ := h.1
    obtain ⟨vs, hvs⟩ := ih h.2
    exact ⟨v :: vs, fun m hm => by rw [List.mapM_cons, hv m hm, Res.bind_ok, hvs m hm]; rfl⟩

theorem dispTy_total {T : Nat → IType} {n : Nat} {t : IType} (hd : Dp T n t) : ∃ x, ∀ m, n ≤ m → dispTy T m t = .ok x := by
  induction hd with
  | @mk n t _ _ ih =>
    have key : ∀ x, (∀ m, n ≤ m → dispTy T (m + 1) t = .ok x) → ∃ x, ∀ m, n + 1 ≤ m → dispTy T m t = .ok x := by
      intro x hx
      exact ⟨x, fun m hm => by cases m with | zero => omega | succ m => exact hx m (by omega)⟩
    cases t with
    | infer => exact key _ fun m _ => by rw [dispTy]
    | rec_ => exact key _ fun m _ => by rw [dispTy]
    | external => exact key _ fun m _ => by rw [dispTy]
    | invisible => exact key _ fun m _ => by rw [dispTy]
    | regular t =>
      cases t with
      | unit => exact key _ fun m _ => by rw [dispTy]
      | atom => exact key _ fun m _ => by rw [dispTy]
      | rust x => exact key _ fun m _ => by rw [dispTy]
      | optional j =>
        obtain ⟨v, hv⟩ := ih j (by simp [IType.refs])
        exact key _ fun m hm => by rw [dispTy, hv m hm, Res.bind_ok]
      | list j =>
        obtain ⟨v, hv⟩ := ih j (by simp [IType.refs])
        exact key _ fun m hm => by rw [dispTy, hv m hm, Res.bind_ok]
      | tuple js =>
        obtain ⟨vs, hvs⟩ := mapM_text js fun j hj => ih j (by simpa [IType.refs] using hj)
        exact key _ fun m hm => by rw [dispTy, hvs m hm, Res.bind_ok]

/-! ### Documented types -/

mutual
/-- Tuples have components. -/
def DSolid : DType → Prop
  | .list t | .option t => DSolid t
  | .tuple ts => ts ≠ [] ∧ DSolids ts
  | _ => True
/-- The same for lists. -/
def DSolids : List DType → Prop
  | [] => True
  | t :: ts => DSolid t ∧ DSolids ts
end

theorem dsolids_iff {ts : List DType} : DSolids ts ↔ ∀ t ∈ ts, DSolid t := by
  induction ts with
  | nil => simp [DSolids]
  | cons t ts ih => simp [DSolids, ih]

theorem dsolid_parts {t : DType} (h : DSolid t) : DSolids t.parts := by
  cases t <;> simp_all [DType.parts, DSolids, DSolid]

theorem dsolid_pack {ts : List DType} (h : DSolids ts) : DSolid (.pack ts) := by
  match ts, h with
  | [], _ => simp [DType.pack, DSolid]
  | [t], h => exact h.1
  | t :: u :: ts, h => simp only [DType.pack, DSolid]; exact ⟨by simp, h⟩

theorem dsolid_choice {ts : List DType} {t : DType} (h : ChoiceType ts t) (hs : DSolids ts) : DSolid t := by
  rw [dsolids_iff] at hs
  cases h with
  | same _ => exact hs _ (by simp)
  | known he _ _ _ _ => exact hs _ (by rw [he]; simp)
  | units => trivial

mutual
theorem hasType_solid {A : AGrammar} {e : Expr} {t : DType} (h : HasType A e t) : DSolid t := by
  match h with
  | .str | .not | .and | .any | .cls | .ext => trivial
  | .nt _ h => exact hasType_solid h
  | .act (f := f) =>
    unfold actionType
    split
    · split
      · split <;> trivial
      · trivial
    · trivial
  | .asc h => cases h <;> trivial
  | .star h _ => have := hasType_solid h; simpa [DSolid] using this
  | .plus h _ => have := hasType_solid h; simpa [DSolid] using this
  | .opt h _ => have := hasType_solid h; simpa [DSolid] using this
  | .starHidden _ | .plusHidden _ | .optHidden _ => trivial
  | .span h => exact dsolid_pack ⟨trivial, dsolid_parts (hasType_solid h)⟩
  | .range _ => trivial
  | .seq h _ =>
    refine dsolid_pack (dsolids_iff.2 fun t ht => ?_)
    obtain ⟨u, hu, ht⟩ := List.mem_flatMap.1 ht
    exact dsolids_iff.1 (dsolid_parts (dsolids_iff.1 (hasTypes_solid h) u hu)) t ht
  | .seqHidden _ _ => trivial
  | .choice h1 h2 => exact dsolid_choice h2 (hasTypes_solid h1)
theorem hasTypes_solid {A : AGrammar} {es : List Expr} {ts : List DType} (h : HasTypes A es ts) : DSolids ts := by
  match h with
  | .nil => trivial
  | .cons h1 h2 => exact ⟨hasType_solid h1, hasTypes_solid h2⟩
end

theorem fold_text (xs : List (List Char)) (d s : List Char) : xs.foldl (fun d x => d ++ x ++ s) d = d ++ xs.flatMap (· ++ s) := by
  induction xs generalizing d with
  | nil => simp
  | cons x xs ih => rw [List.foldl_cons, ih]; simp

theorem shownAll_eq {ts : List DType} (h : ts ≠ []) : (ts.map DType.shown).flatMap (· ++ [',', ' ']) = shownAll ts ++ [',', ' '] := by
  induction ts with
  | nil => exact absurd rfl h
  | cons t ts ih =>
    cases ts with
    | nil => simp [shownAll]
    | cons u ts =>
      rw [List.map_cons, List.flatMap_cons, ih (by simp), shownAll]
      simp

theorem text_leaf {T : Nat → IType} {t : IType} {x : List Char} (h : ∀ m, dispTy T (m + 1) t = .ok x) : ∃ n, ∀ m, n ≤ m → dispTy T m t = .ok x :=
  ⟨1, fun m hm => by cases m with | zero => omega | succ m => exact h m⟩

theorem text_step {T : Nat → IType} {t : IType} {x : List Char} {n : Nat} (h : ∀ m, n ≤ m → dispTy T (m + 1) t = .ok x) : ∃ n, ∀ m, n ≤ m → dispTy T m t = .ok x :=
  ⟨n + 1, fun m hm => by cases m with | zero => omega | succ m => exact h m (by omega)⟩

mutual
/-- The text of a type is that of its tree. -/
theorem dispTy_unf {T : Nat → IType} (v : DType) {t : IType} (hs : DSolid v) (h : Unf T v t) : ∃ n, ∀ m, n ≤ m → dispTy T m t = .ok v.shown := by
  cases v with
  | hidden => rw [Unf] at h; subst h; exact text_leaf fun m => by rw [dispTy, DType.shown]
  | unit => rw [Unf] at h; subst h; exact text_leaf fun m => by rw [dispTy, DType.shown]
  | char => rw [Unf] at h; subst h; exact text_leaf fun m => by rw [dispTy, DType.shown]
  | external => rw [Unf] at h; subst h; exact text_leaf fun m => by rw [dispTy, DType.shown]
  | rust s => rw [Unf] at h; subst h; exact text_leaf fun m => by rw [dispTy, DType.shown]
  | list v =>
    rw [Unf] at h
    obtain ⟨j, rfl, h'⟩ := h
    obtain ⟨n, hn⟩ := dispTy_unf v (by simpa [DSolid] using hs) h'
    exact text_step (n := n) fun m hm => by rw [dispTy, hn m hm, Res.bind_ok, DType.shown]
  | option v =>
    rw [Unf] at h
    obtain ⟨j, rfl, h'⟩ := h
    obtain ⟨n, hn⟩ := dispTy_unf v (by simpa [DSolid] using hs) h'
    exact text_step (n := n) fun m hm => by rw [dispTy, hn m hm, Res.bind_ok, DType.shown]
  | tuple vs =>
    rw [Unf] at h
    rw [DSolid] at hs
    obtain ⟨js, rfl, h'⟩ := h
    obtain ⟨n, hn⟩ := dispTy_unfAll vs hs.2 h'
    refine text_step (n := n) fun m hm => ?_
    rw [dispTy, hn m hm, Res.bind_ok, DType.shown, fold_text]
    rw [shownAll_eq hs.1, ← List.append_assoc,
      show [',', ' '] = [','] ++ [' '] from rfl, ← List.append_assoc, List.dropLast_concat, List.dropLast_concat]
theorem dispTy_unfAll {T : Nat → IType} (vs : List DType) {js : List Nat} (hs : DSolids vs) (h : UnfAll T vs js) :
    ∃ n, ∀ m, n ≤ m → js.mapM (fun i => dispTy T m (T i)) = .ok (vs.map DType.shown) := by
  cases vs with
  | nil => rw [UnfAll] at h; subst h; exact ⟨0, fun _ _ => rfl⟩
  | cons v vs =>
    rw [UnfAll] at h
    obtain ⟨j, js, rfl, h1, h2⟩ := h
    obtain ⟨n1, hn1⟩ := dispTy_unf v hs.1 h1
    obtain ⟨n2, hn2⟩ := dispTy_unfAll vs hs.2 h2
    exact ⟨max n1 n2, fun m hm => by rw [List.mapM_cons, hn1 m (by omega), Res.bind_ok, hn2 m (by omega)]; rfl⟩
end

/-! ### Different types have different texts -/

mutual
theorem shown_head (v : DType) (hk : v.Known) (hs : DSolid v) : ∃ c x, v.shown = c :: x ∧ c ≠ ')' ∧ c ≠ '^' := by
  cases v with
  | rust s => exact absurd hk (by simp [DType.Known])
  | hidden | unit | char | external => exact ⟨_, _, by rw [DType.shown], by decide, by decide⟩
  | list t => exact ⟨_, _, by rw [DType.shown]; rfl, by decide, by decide⟩
  | option t => exact ⟨_, _, by rw [DType.shown]; rfl, by decide, by decide⟩
  | tuple ts => exact ⟨_, _, by rw [DType.shown]; rfl, by decide, by decide⟩
end

theorem shownAll_head {ts : List DType} (hk : KnownAll ts) (hs : DSolids ts) (h : ts ≠ []) : ∃ c x, shownAll ts = c :: x ∧ c ≠ ')' ∧ c ≠ '^' := by
  match ts, hk, hs with
  | [t], hk, hs => rw [shownAll]; exact shown_head t hk.1 hs.1
  | t :: u :: ts, hk, hs =>
    obtain ⟨c, x, h1, h2⟩ := shown_head t hk.1 hs.1
    exact ⟨c, _, by rw [shownAll, h1]; rfl, h2⟩

/-- What follows the first component. -/
def afterFirst (ts : List DType) (r : List Char) : List Char :=
  match ts with
  | [] => ')' :: r
  | t :: ts => ',' :: ' ' :: (shownAll (t :: ts) ++ ')' :: r)

theorem shownAll_first (t : DType) (ts : List DType) (r : List Char) : shownAll (t :: ts) ++ ')' :: r = t.shown ++ afterFirst ts r := by
  cases ts <;> simp [shownAll, afterFirst]

mutual
theorem shown_cancel (v w : DType) (hv : v.Known) (hw : w.Known) (sv : DSolid v) (sw : DSolid w) {r r' : List Char} (h : v.shown ++ r = w.shown ++ r') :
    v = w ∧ r = r' := by
  cases v with
  | rust s => exact absurd hv (by simp [DType.Known])
  | hidden =>
    cases w with
    | rust s => exact absurd hw (by simp [DType.Known])
    | tuple ts =>
      rw [DSolid] at sw
      rw [DType.Known] at hw
      obtain ⟨c, x, h1, h2, h3⟩ := shownAll_head hw sw.2 sw.1
      rw [DType.shown, DType.shown, h1] at h
      simp at h
      exact absurd h.1.symm h3
    | _ => simp only [DType.shown] at h; simp at h <;> first | exact ⟨rfl, h⟩ | done
  | unit =>
    cases w with
    | rust s => exact absurd hw (by simp [DType.Known])
    | tuple ts =>
      rw [DSolid] at sw
      rw [DType.Known] at hw
      obtain ⟨c, x, h1, h2, h3⟩ := shownAll_head hw sw.2 sw.1
      rw [DType.shown, DType.shown, h1] at h
      simp at h
      exact absurd h.1.symm h2
    | _ => simp only [DType.shown] at h; simp at h <;> first | exact ⟨rfl, h⟩ | done
  | char =>
    cases w with
    | rust s => exact absurd hw (by simp [DType.Known])
    | _ => simp only [DType.shown] at h; simp at h <;> first | exact ⟨rfl, h⟩ | done
  | external =>
    cases w with
    | rust s => exact absurd hw (by simp [DType.Known])
    | _ => simp only [DType.shown] at h; simp at h <;> first | exact ⟨rfl, h⟩ | done
  | list t =>
    cases w with
    | rust s => exact absurd hw (by simp [DType.Known])
    | list u =>
      simp only [DType.shown, List.append_assoc, List.append_cancel_left_eq] at h
      obtain ⟨rfl, h⟩ := shown_cancel t u (by simpa [DType.Known] using hv) (by simpa [DType.Known] using hw) (by simpa [DSolid] using sv) (by simpa [DSolid] using sw) h
      exact ⟨rfl, by simpa using h⟩
    | _ => simp only [DType.shown] at h; simp at h
  | option t =>
    cases w with
    | rust s => exact absurd hw (by simp [DType.Known])
    | option u =>
      simp only [DType.shown, List.append_assoc, List.append_cancel_left_eq] at h
      obtain ⟨rfl, h⟩ := shown_cancel t u (by simpa [DType.Known] using hv) (by simpa [DType.Known] using hw) (by simpa [DSolid] using sv) (by simpa [DSolid] using sw) h
      exact ⟨rfl, by simpa using h⟩
    | _ => simp only [DType.shown] at h; simp at h
  | tuple ts =>
    rw [DSolid] at sv
    rw [DType.Known] at hv
    have key : ∀ {c : Char} {x : List Char}, DType.shown (.tuple ts) ++ r = '(' :: c :: x → c ≠ ')' ∧ c ≠ '^' := by
      intro c x h
      obtain ⟨c', x', h1, h2⟩ := shownAll_head hv sv.2 sv.1
      rw [DType.shown, h1] at h
      simp at h
      exact h.1 ▸ h2
    cases w with
    | rust s => exact absurd hw (by simp [DType.Known])
    | hidden => exact absurd rfl (key (by rw [h, DType.shown]; rfl)).2
    | unit => exact absurd rfl (key (by rw [h, DType.shown]; rfl)).1
    | tuple us =>
      rw [DSolid] at sw
      rw [DType.Known] at hw
      simp only [DType.shown, List.append_assoc, List.append_cancel_left_eq] at h
      obtain ⟨h1, h2⟩ := shownAll_cancel ts us hv hw sv.2 sw.2 sv.1 sw.1 (by simpa using h)
      exact ⟨by rw [h1], h2⟩
    | _ => simp only [DType.shown] at h; simp at h
theorem shownAll_cancel (ts us : List DType) (hv : KnownAll ts) (hw : KnownAll us) (sv : DSolids ts) (sw : DSolids us) (nt : ts ≠ []) (nu : us ≠ []) {r r' : List Char}
    (h : shownAll ts ++ ')' :: r = shownAll us ++ ')' :: r') : ts = us ∧ r = r' := by
  cases ts with
  | nil => exact absurd rfl nt
  | cons t ts =>
    cases us with
    | nil => exact absurd rfl nu
    | cons u us =>
      rw [shownAll_first, shownAll_first] at h
      obtain ⟨rfl, hh⟩ := shown_cancel t u hv.1 hw.1 sv.1 sw.1 h
      clear h
      have h := hh
      cases ts with
      | nil =>
        cases us with
        | nil => simp [afterFirst] at h; exact ⟨rfl, h⟩
        | cons => simp [afterFirst] at h
      | cons t' ts =>
        cases us with
        | nil => simp [afterFirst] at h
        | cons u' us =>
          simp only [afterFirst, List.cons.injEq, true_and] at h
          obtain ⟨h1, h2⟩ := shownAll_cancel (t' :: ts) (u' :: us) hv.2 hw.2 sv.2 sw.2 (by simp) (by simp) h
          rw [h1]
          exact ⟨rfl, h2⟩
end

/-! ### Notes and messages -/

theorem branchNotes_total {i : Nat} {T : Nat → IType} {tys : List IType} (h : ∀ t ∈ tys, ∃ n, Dp T n t) (j : Nat) :
    ∃ (n : Nat) (xs : List (List Char)), (∀ m, n ≤ m → branchNotes i T m j tys =
        .ok (xs.mapIdx fun l t => (MPlace.branch i (j + l), "branch ".toList ++ (toString (j + l + 1)).toList ++ " of type `".toList ++ t ++ ['`']))) ∧
      xs.length = tys.length ∧ ∀ rs, .rec_ rs ∈ tys → ['(', '^', ')', '*'] ∈ xs := by
  induction tys generalizing j with
  | nil => exact ⟨0, [], fun _ _ => rfl, rfl, by simp⟩
  | cons t ts ih =>
    rw [List.forall_mem_cons] at h
    obtain ⟨n1, hd⟩ := h.1
    obtain ⟨x, hx⟩ := dispTy_total hd
    obtain ⟨n2, xs, hxs, hl, hr⟩ := ih h.2 (j + 1)
    refine ⟨max n1 n2, x :: xs, fun m hm => ?_, by simp [hl], fun rs hm => ?_⟩
    · rw [branchNotes, hx m (by omega), Res.bind_ok, hxs m (by omega), Res.bind_ok, List.mapIdx_cons]
      congr 2
      refine List.mapIdx_eq_mapIdx_iff.2 fun l hl => ?_
      rw [show j + 1 + l = j + (l + 1) by omega]
    · rcases List.mem_cons.1 hm with hm | hm
      · subst hm
        have := hx (n1 + 1) (by omega)
        rw [dispTy] at this
        cases this
        simp
      · exact List.mem_cons_of_mem _ (hr rs hm)

theorem branchNotes_shown {i : Nat} {T : Nat → IType} {vs : List DType} {tys : List IType} (h : UnfL T vs tys) (hs : DSolids vs) (j : Nat) :
    ∃ n, ∀ m, n ≤ m → branchNotes i T m j tys = .ok (vs.mapIdx fun l v => (.branch i (j + l), branchLine (j + l + 1) v)) := by
  induction h generalizing j with
  | nil => exact ⟨0, fun _ _ => rfl⟩
  | cons h1 _ ih =>
    obtain ⟨n1, h1⟩ := dispTy_unf _ hs.1 h1
    obtain ⟨n2, h2⟩ := ih hs.2 (j + 1)
    refine ⟨max n1 n2, fun m hm => ?_⟩
    rw [branchNotes, h1 m (by omega), Res.bind_ok, h2 m (by omega), Res.bind_ok, List.mapIdx_cons]
    congr 2
    refine List.mapIdx_eq_mapIdx_iff.2 fun l hl => ?_
    rw [show j + 1 + l = j + (l + 1) by omega]

theorem union_cases {a b : RecSet} {p : RecPath} (h : p ∈ a.union b) : p ∈ a ∨ p ∈ b := by
  unfold RecSet.union at h
  induction b generalizing a with
  | nil => exact .inl h
  | cons q b ih =>
    rw [List.foldl_cons] at h
    rcases ih h with h | h
    · split at h
      · exact .inl h
      · rcases List.mem_append.1 h with h | h
        · exact .inl h
        · exact .inr (by simp_all)
    · exact .inr (by simp [h])

theorem union_left {a b : RecSet} {p : RecPath} (h : p ∈ a) : p ∈ a.union b := by
  unfold RecSet.union
  induction b generalizing a with
  | nil => exact h
  | cons q b ih =>
    rw [List.foldl_cons]
    refine ih ?_
    split
    · exact h
    · exact List.mem_append_left _ h

theorem union_right {a b : RecSet} {p : RecPath} (h : p ∈ b) : p ∈ a.union b := by
  unfold RecSet.union
  induction b generalizing a with
  | nil => cases h
  | cons q b ih =>
    rw [List.foldl_cons]
    cases h with
    | tail _ h => exact ih h
    | head =>
      refine union_left (b := b) ?_
      split
      · rename_i hc; exact List.contains_iff_mem.1 hc
      · simp

/-- The step of `recsOf`. -/
def addRecs (acc : RecSet) (t : IType) : RecSet :=
  match t with
  | .rec_ r => acc.union r
  | _ => acc

theorem recsOf_eq (tys : List IType) : recsOf tys = tys.foldl addRecs [] := rfl

theorem addRecs_mem {tys : List IType} {acc : RecSet} {p : RecPath} : p ∈ tys.foldl addRecs acc ↔ p ∈ acc ∨ ∃ rs, .rec_ rs ∈ tys ∧ p ∈ rs := by
  induction tys generalizing acc with
  | nil => simp
  | cons t ts ih =>
    rw [List.foldl_cons, ih]
    cases t with
    | rec_ r =>
      simp only [addRecs]
      constructor
      · rintro (h | ⟨rs, h1, h2⟩)
        · rcases union_cases h with h | h
          · exact .inl h
          · exact .inr ⟨r, by simp, h⟩
        · exact .inr ⟨rs, by simp [h1], h2⟩
      · rintro (h | ⟨rs, h1, h2⟩)
        · exact .inl (union_left h)
        · rcases List.mem_cons.1 h1 with h1 | h1
          · cases h1; exact .inl (union_right h2)
          · exact .inr ⟨rs, h1, h2⟩
    | _ => simp [addRecs]

theorem recsOf_mem {tys : List IType} {p : RecPath} : p ∈ recsOf tys ↔ ∃ rs, .rec_ rs ∈ tys ∧ p ∈ rs := by
  rw [recsOf_eq, addRecs_mem]; simp

theorem fold_cycle (xs : List String) (d : List Char) : xs.foldl (fun d r => d ++ r.toList ++ [' ', '-', '>', ' ']) d = d ++ xs.flatMap fun r => r.toList ++ [' ', '-', '>', ' '] := by
  induction xs generalizing d with
  | nil => simp
  | cons x xs ih => rw [List.foldl_cons, ih]; simp

theorem arrows (xs : List String) (y : List Char) :
    (xs.flatMap fun r => r.toList ++ [' ', '-', '>', ' ']) ++ y = match xs with
      | [] => y
      | x :: xs => x.toList ++ (xs.flatMap fun x => [' ', '-', '>', ' '] ++ x.toList) ++ [' ', '-', '>', ' '] ++ y := by
  cases xs with
  | nil => rfl
  | cons x xs =>
    simp only [List.flatMap_cons, List.append_assoc, List.append_cancel_left_eq]
    induction xs generalizing x with
    | nil => simp
    | cons x' xs ih =>
      simp only [List.flatMap_cons, List.append_assoc, List.append_cancel_left_eq]
      exact ih x'

theorem dispCycle_eq {path : List String} (h : path ≠ []) : dispCycle path = .ok (cycleLine path) := by
  cases path with
  | nil => exact absurd rfl h
  | cons x xs =>
    rw [dispCycle, fold_cycle, List.nil_append, arrows]
    simp [cycleLine]

theorem dispRecs_eq {r : RecSet} (h : ∀ p ∈ r, p.path ≠ []) : ∃ xs, dispRecs r = .ok xs ∧ xs = (r.flatMap fun p => cycleLine p.path ++ ['\n']).dropLast := by
  have : r.mapM (fun p => dispCycle p.path) = .ok (r.map fun p => cycleLine p.path) := by
    induction r with
    | nil => rfl
    | cons p r ih =>
      rw [List.forall_mem_cons] at h
      rw [List.mapM_cons, dispCycle_eq h.1, Res.bind_ok, ih h.2]
      rfl
  refine ⟨_, by rw [dispRecs, this, Res.bind_ok], ?_⟩
  rw [fold_text]
  simp [List.flatMap_map]

/-- The note on cycles: none when no branch is recursive, otherwise it lists the cycles of the branches. -/
theorem cycleNotes_eq {G : Grammar} {r : RecSet} (h : ∀ p ∈ r, p.path ≠ [] ∧ ∀ x ∈ p.path, ∃ b, G.find x = some b) :
    (r = [] ∧ cycleNotes G r = .ok []) ∨ ∃ x p b, r.head? = some p ∧ p.path.head? = some x ∧ G.find x = some b ∧ cycleNotes G r = .ok [(.rule x, cycleText (r.map RecPath.path))] := by
  cases r with
  | nil => exact .inl ⟨rfl, rfl⟩
  | cons p r =>
    obtain ⟨h1, h2⟩ := h p (by simp)
    obtain ⟨kind, path⟩ := p
    cases path with
    | nil => exact absurd rfl h1
    | cons x xs =>
      obtain ⟨b, hb⟩ := h2 x (by simp)
      obtain ⟨ys, h3, h4⟩ := dispRecs_eq (r := ⟨kind, x :: xs⟩ :: r) fun p hp => (h p hp).1
      refine .inr ⟨x, _, b, rfl, rfl, hb, ?_⟩
      unfold cycleNotes
      rw [if_neg (by simp), RecSet.entryPoint, Res.bind_ok]
      rw [hb]
      have e : cycleText (List.map RecPath.path (⟨kind, x :: xs⟩ :: r)) = cycleHead ++ ys := by
        have e' : ∀ (a b c : List Char), b = c → a ++ b = a ++ c := fun a b c h => by rw [h]
        exact e' _ _ _ (by rw [h4, List.flatMap_map])
      rw [e]
      simp only [h3, Res.bind_ok]

theorem render_total {A : AGrammar} {d : TDiag} (h : TFine A d) : ∃ n e, (∀ m, n ≤ m → d.render A.grammar m = .ok e) ∧ (tdiagMsg d).At A.grammar e := by
  cases d with
  | mismatch i tys T =>
    obtain ⟨⟨es, h1, h2⟩, h3, h4⟩ := h
    obtain ⟨n, xs, hx, hl, hr⟩ := branchNotes_total (i := i) (fun t ht => (h3 t ht).2) 0
    simp only [Nat.zero_add] at hx
    have hp : ∀ p ∈ recsOf tys, p.path ≠ [] ∧ ∀ x ∈ p.path, ∃ b, A.grammar.find x = some b := by
      intro p hp
      obtain ⟨rs, h5, h6⟩ := recsOf_mem.1 hp
      exact (h4 rs h5).2 p h6
    rcases cycleNotes_eq hp with ⟨_, h5⟩ | ⟨x, p, b, h6, h7, h8, h5⟩
    · exact ⟨n, _, fun m hm => by rw [TDiag.render, hx m hm, Res.bind_ok, h5, Res.bind_ok], es, _, h1, ⟨xs, [], rfl, hl.trans h2, .inl rfl⟩, rfl⟩
    · refine ⟨n, _, fun m hm => by rw [TDiag.render, hx m hm, Res.bind_ok, h5, Res.bind_ok], es, _, h1, ⟨xs, _, rfl, hl.trans h2, .inr ⟨?_, ?_⟩⟩, rfl⟩
      · cases hr' : recsOf tys with
        | nil => rw [hr'] at h6; cases h6
        | cons q r =>
          obtain ⟨rs, h9, _⟩ := recsOf_mem.1 (hr' ▸ List.mem_cons_self : q ∈ recsOf tys)
          exact hr rs h9
      · cases hr' : recsOf tys with
        | nil => rw [hr'] at h6; cases h6
        | cons q r =>
          rw [hr'] at h6 hp
          cases h6
          cases hq : p.path with
          | nil => rw [hq] at h7; cases h7
          | cons y ys =>
            rw [hq] at h7
            cases h7
            refine ⟨x, ys, r.map RecPath.path, by rw [List.map_cons, hq], fun q' hq' => ?_⟩
            have hmem : q' ∈ (p :: r).map RecPath.path := by rw [List.map_cons, hq]; exact hq'
            obtain ⟨z, hz, rfl⟩ := List.mem_map.1 hmem
            exact ⟨(hp z hz).1, fun u hu => by obtain ⟨b, hb⟩ := (hp z hz).2 u hu; rw [hb]; rfl⟩
  | ascription i t a T =>
    obtain ⟨h0, ⟨n1, h1⟩, h2⟩ := h
    obtain ⟨x, hx⟩ := dispTy_total h1
    obtain ⟨y, hy⟩ : ∃ y, ∀ m, 1 ≤ m → dispTy T m a = .ok y := by
      refine dispTy_total (.leaf ?_)
      rcases h2 with rfl | rfl | ⟨s, rfl⟩ <;> rfl
    exact ⟨max n1 1, _, fun m hm => by rw [TDiag.render, hx m (by omega), Res.bind_ok, hy m (by omega), Res.bind_ok], h0, x, y, rfl⟩
  | untyped r => obtain ⟨b, hb⟩ := h; exact ⟨0, _, fun m _ => rfl, by rw [hb]; rfl, rfl⟩

theorem renderAll_total {A : AGrammar} {ms : List TMsg} {log : List TDiag} (hl : log.map tdiagMsg = ms.filter TMsg.blocking) (hf : ∀ d ∈ log, TFine A d)
    (ha : ∀ x ∈ ms, x.About A.grammar) :
    ∃ n es, (∀ m, n ≤ m → renderAll A.grammar m ms log = .ok es) ∧ es.length = ms.length ∧ ∀ (j : Nat) x e, ms[j]? = some x → es[j]? = some e → x.At A.grammar e := by
  induction ms generalizing log with
  | nil => exact ⟨0, [], fun _ _ => by rw [renderAll], rfl, by simp⟩
  | cons x ms ih =>
    rw [List.forall_mem_cons] at ha
    have put : ∀ {n1 n2 : Nat} {e : Emitted} {es : List Emitted}, x.At A.grammar e → es.length = ms.length →
        (∀ (j : Nat) x e, ms[j]? = some x → es[j]? = some e → x.At A.grammar e) → (∀ m, max n1 n2 ≤ m → renderAll A.grammar m (x :: ms) log = .ok (e :: es)) →
        ∃ n es, (∀ m, n ≤ m → renderAll A.grammar m (x :: ms) log = .ok es) ∧ es.length = (x :: ms).length ∧
          ∀ (j : Nat) y e, (x :: ms)[j]? = some y → es[j]? = some e → y.At A.grammar e := by
      intro n1 n2 e es h1 h2 h3 h4
      refine ⟨_, _, h4, by simp [h2], fun j y e' hy he => ?_⟩
      cases j with
      | zero => simp at hy he; subst hy; subst he; exact h1
      | succ j => simp at hy he; exact h3 j y e' hy he
    cases x with
    | unitAction i =>
      obtain ⟨n, es, h1, h2, h3⟩ := ih (by simpa [TMsg.blocking] using hl) hf ha.2
      exact put (n1 := 0) (n2 := n) rfl h2 h3 fun m hm => by rw [renderAll, TMsg.render, Res.bind_ok, h1 m (by omega), Res.bind_ok]
    | recursive p =>
      obtain ⟨n, es, h1, h2, h3⟩ := ih (by simpa [TMsg.blocking] using hl) hf ha.2
      obtain ⟨r, rs, rfl, _⟩ := ha.1
      exact put (n1 := 0) (n2 := n) ⟨r, rfl, rfl⟩ h2 h3 fun m hm => by
        rw [renderAll, TMsg.render, dispCycle_eq (by simp), Res.bind_ok, Res.bind_ok, h1 m (by omega), Res.bind_ok]
    | mismatch i =>
      cases log with
      | nil => simp [TMsg.blocking] at hl
      | cons d log =>
        rw [List.forall_mem_cons] at hf
        rw [List.filter_cons_of_pos (by rfl), List.map_cons, List.cons.injEq] at hl
        obtain ⟨n1, e, he, hd⟩ := render_total hf.1
        obtain ⟨n2, es, h1, h2, h3⟩ := ih hl.2 hf.2 ha.2
        exact put (n1 := n1) (n2 := n2) (hl.1 ▸ hd) h2 h3 fun m hm => by rw [renderAll, he m (by omega), Res.bind_ok, h1 m (by omega), Res.bind_ok] <;> simp
    | ascription i =>
      cases log with
      | nil => simp [TMsg.blocking] at hl
      | cons d log =>
        rw [List.forall_mem_cons] at hf
        rw [List.filter_cons_of_pos (by rfl), List.map_cons, List.cons.injEq] at hl
        obtain ⟨n1, e, he, hd⟩ := render_total hf.1
        obtain ⟨n2, es, h1, h2, h3⟩ := ih hl.2 hf.2 ha.2
        exact put (n1 := n1) (n2 := n2) (hl.1 ▸ hd) h2 h3 fun m hm => by rw [renderAll, he m (by omega), Res.bind_ok, h1 m (by omega), Res.bind_ok] <;> simp
    | untyped r =>
      cases log with
      | nil => simp [TMsg.blocking] at hl
      | cons d log =>
        rw [List.forall_mem_cons] at hf
        rw [List.filter_cons_of_pos (by rfl), List.map_cons, List.cons.injEq] at hl
        obtain ⟨n1, e, he, hd⟩ := render_total hf.1
        obtain ⟨n2, es, h1, h2, h3⟩ := ih hl.2 hf.2 ha.2
        exact put (n1 := n1) (n2 := n2) (hl.1 ▸ hd) h2 h3 fun m hm => by rw [renderAll, he m (by omega), Res.bind_ok, h1 m (by omega), Res.bind_ok] <;> simp

/-! ### The first error -/

theorem renderAll_first {G : Grammar} {n : Nat} {ms : List TMsg} {log : List TDiag} {es : List Emitted} {j : Nat} {x : TMsg} {d : TDiag} (hx : FirstAt ms j x)
    (hd : log.head? = some d) (h : renderAll G n ms log = .ok es) : ∃ e, d.render G n = .ok e ∧ es[j]? = some e := by
  obtain ⟨h1, h2, h3⟩ := hx
  induction ms generalizing es j with
  | nil => simp at h1
  | cons y ms ih =>
    have next : ∀ {y : TMsg} {e : Emitted} {es' : List Emitted}, y.blocking = false → renderAll G n ms log = .ok es' → es = e :: es' → ∀ j', j = j' + 1 → ∃ e, d.render G n = .ok e ∧ es[j]? = some e := by
      rintro y e es' hy hr rfl j' rfl
      obtain ⟨e', h4, h5⟩ := ih hr (by simpa using h1) fun l z hl hz => h3 (l + 1) z (by omega) (by simpa using hz)
      exact ⟨e', h4, by simpa using h5⟩
    have stop : y.blocking = true → j = 0 := by
      intro hy
      cases j with
      | zero => rfl
      | succ j => have := h3 0 y (by omega) rfl; rw [hy] at this; cases this
    have go : y.blocking = false → ∃ j', j = j' + 1 := by
      intro hy
      cases j with
      | zero => simp at h1; subst h1; rw [hy] at h2; cases h2
      | succ j => exact ⟨j, rfl⟩
    have here : ∀ {e es'}, d.render G n = .ok e → es = e :: es' → y.blocking = true → ∃ e, d.render G n = .ok e ∧ es[j]? = some e := by
      rintro e es' h4 rfl hy
      rw [stop hy]
      exact ⟨e, h4, rfl⟩
    cases log with
    | nil => cases hd
    | cons d' log =>
      cases hd
      cases y with
      | unitAction i =>
        rw [renderAll] at h
        obtain ⟨e, _, h⟩ := Res.bind_eq_ok h
        obtain ⟨es', h4, h⟩ := Res.bind_eq_ok h
        obtain ⟨j', hj⟩ := go rfl
        cases h
        exact next (y := .unitAction i) rfl h4 rfl j' hj
      | recursive p =>
        rw [renderAll] at h
        obtain ⟨e, _, h⟩ := Res.bind_eq_ok h
        obtain ⟨es', h4, h⟩ := Res.bind_eq_ok h
        obtain ⟨j', hj⟩ := go rfl
        cases h
        exact next (y := .recursive p) rfl h4 rfl j' hj
      | mismatch i =>
        rw [renderAll] at h
        · obtain ⟨e, h5, h⟩ := Res.bind_eq_ok h
          obtain ⟨es', h4, h⟩ := Res.bind_eq_ok h
          cases h
          exact here h5 rfl rfl
        all_goals simp
      | ascription i =>
        rw [renderAll] at h
        · obtain ⟨e, h5, h⟩ := Res.bind_eq_ok h
          obtain ⟨es', h4, h⟩ := Res.bind_eq_ok h
          cases h
          exact here h5 rfl rfl
        all_goals simp
      | untyped i =>
        rw [renderAll] at h
        · obtain ⟨e, h5, h⟩ := Res.bind_eq_ok h
          obtain ⟨es', h4, h⟩ := Res.bind_eq_ok h
          cases h
          exact here h5 rfl rfl
        all_goals simp

theorem firstAt_find {ms : List TMsg} {j : Nat} {x : TMsg} (h : FirstAt ms j x) : ms.find? TMsg.blocking = some x := by
  obtain ⟨h1, h2, h3⟩ := h
  induction ms generalizing j with
  | nil => simp at h1
  | cons y ms ih =>
    cases j with
    | zero => simp at h1; subst h1; rw [List.find?_cons_of_pos h2]
    | succ j =>
      rw [List.find?_cons_of_neg (by rw [h3 0 y (by omega) rfl]; simp)]
      exact ih (by simpa using h1) fun l z hl hz => h3 (l + 1) z (by omega) (by simpa using hz)

theorem typingRun_mono {A : AGrammar} {k m m' n n' : Nat} (hm : m ≤ m') (hn : n ≤ n') : RLe (typingRun A k m n) (typingRun A k m' n') := by
  unfold typingRun
  refine (surfRules_mono hm hn _ _).bind fun s => .ite (.refl _) ?_
  refine RLe.bind (.refl _) fun w => RLe.bind (.refl _) fun T => ?_
  refine (depthAll_mono hm (fun _ _ => surfHere_mono hm hn _ _) _ _ _ _).bind fun s => .ite (.refl _) ?_
  exact RLe.bind (.refl _) fun T => (checkRules_mono hm _ _).bind fun s => .refl _

/-- The state at the end of the inference. -/
theorem run_state {A : AGrammar} {k m n : Nat} (H : A.Ready k) {p : Partial (Nat → Ty)} {ms : List TMsg} (h : typeInference A k m n = .ok (p, ms)) :
    ∃ s : TState, s.msgs = ms ∧ Logged s ∧ (∀ d ∈ s.log, TFine A d) ∧ (A.grammar.NoSeenRec → Sane A s ∧ (s.error = true ↔ p = .nothing)) ∧
      ∀ m' n', max m (k + 2) ≤ m' → max n (A.grammar.rules.length + 1) ≤ n' → typingRun A k m' n' = .ok (p, s) := by
  unfold typeInference at h
  obtain ⟨⟨p', s⟩, h1, h2⟩ := Res.bind_eq_ok h
  cases h2
  have up : ∀ m' n', max m (k + 2) ≤ m' → max n (A.grammar.rules.length + 1) ≤ n' → typingRun A k m' n' = .ok (p, s) := by
    intro m' n' hm hn
    rcases typingRun_mono (A := A) (k := k) (m := m) (m' := m') (n := n) (n' := n') (by omega) (by omega) with h2 | h2 <;> rw [h1] at h2
    · cases h2
    · exact h2.symm
  have h2 := up _ _ (Nat.le_refl _) (Nat.le_refl _)
  have h3 : ∀ rank, (Strict A.grammar rank → Sane A s ∧ (s.error = true ↔ p = .nothing)) ∧ ∀ d ∈ s.log, TFine A d := by
    intro rank
    have := typingRun_post H (Nat.le_max_right m (k + 2)) (Nat.le_max_right n (A.grammar.rules.length + 1)) rank
    rw [h2] at this
    exact this.2
  exact ⟨s, rfl, typingRun_logged h1, (h3 fun _ => 0).2, fun ⟨rank, hr⟩ => (h3 rank).1 hr, up⟩

theorem unfL_recs {T : Nat → IType} {vs : List DType} {tys : List IType} (h : UnfL T vs tys) : recsOf tys = [] := by
  have hn : ∀ rs, .rec_ rs ∉ tys := by
    intro rs hm
    induction h with
    | nil => cases hm
    | cons h1 _ ih =>
      rcases List.mem_cons.1 hm with hm | hm
      · have := h1.settled
        rw [← hm] at this
        cases this
      · exact ih hm
  cases hr : recsOf tys with
  | nil => rfl
  | cons p r =>
    obtain ⟨rs, h1, _⟩ := recsOf_mem.1 (hr ▸ List.mem_cons_self : p ∈ recsOf tys)
    exact absurd h1 (hn rs)

end Typing
end Oak
