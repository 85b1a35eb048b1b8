import Verif.Spec.Calls
/-!
The calls that the data of a match shows were made.
-/
set_option linter.constructorNameAsVariable false
set_option autoImplicit false

namespace Oak
open Spec

theorem shown_tuple {f : Path} {a vs : List Val} (h : Shown (.app f a) (tupleVal vs)) : ∃ v ∈ vs, Shown (.app f a) v := by
  have key : ∀ w, w = Val.tup vs → Shown (.app f a) w → ∃ v ∈ vs, Shown (.app f a) v := by
    intro w hw h
    cases h <;> cases hw
    case tup hs hm => exact ⟨_, hm, hs⟩
  cases vs with
  | nil => exact key _ rfl h
  | cons v vs =>
    cases vs with
    | nil => exact ⟨v, by simp, h⟩
    | cons x vs => exact key _ rfl h

/-- What is called or given by an external rule. -/
def Accounted (f : Path) (a : List Val) (cs xs : List Val) : Prop := Val.app f a ∈ cs ∨ ∃ x ∈ xs, Shown (.app f a) x

theorem Accounted.left {f a cs xs} (h : Accounted f a cs xs) (cs' xs' : List Val) : Accounted f a (cs ++ cs') (xs ++ xs') := by
  rcases h with h | ⟨x, h, hx⟩
  · exact .inl (List.mem_append_left _ h)
  · exact .inr ⟨x, List.mem_append_left _ h, hx⟩

theorem Accounted.right {f a cs xs} (h : Accounted f a cs xs) (cs' xs' : List Val) : Accounted f a (cs' ++ cs) (xs' ++ xs) := by
  rcases h with h | ⟨x, h, hx⟩
  · exact .inl (List.mem_append_right _ h)
  · exact .inr ⟨x, List.mem_append_right _ h, hx⟩

theorem shown_called (G : Grammar) (T : Nat → Ty) (sp : SpanSpec) (f : Path) (a : List Val) (t : Tree) :
    ∀ e v, v ∈ ast G T sp e t → Shown (.app f a) v → Accounted f a (treeCalls G T sp e t) t.exts := by
  refine Tree.rec (motive_1 := fun t => ∀ e v, v ∈ ast G T sp e t → Shown (.app f a) v → Accounted f a (treeCalls G T sp e t) t.exts)
    (motive_2 := fun ts => (∀ es v, v ∈ astSeq G T sp es ts → Shown (.app f a) v → Accounted f a (treeCallsSeq G T sp es ts) (ts.flatMap Tree.exts)) ∧
      (∀ e v, v ∈ astRep G T sp e ts → Shown (.app f a) v → Accounted f a (treeCallsRep G T sp e ts) (ts.flatMap Tree.exts)))
    ?_ ?_ ?_ ?_ ?_ ?_ ?_ ?_ ?_ ?_ ?_ ?_ ?_ ?_ t
  · intro e v h; rw [ast] at h; cases h
  · intro c e v h hs
    rw [ast] at h
    split at h
    · cases h
    · rw [List.mem_singleton] at h; subst h; cases hs
  · intro t ih e v h hs
    cases e with
    | nt i r =>
      simp only [ast, treeCalls, Tree.exts] at h ⊢
      split at h
      · cases h
      · rename_i hu
        rw [if_neg hu]
        cases hb : G.find r with
        | none => rw [hb] at h; cases h
        | some b => rw [hb] at h; exact ih b v h hs
    | _ => simp only [ast] at h; split at h <;> cases h
  · intro x e v h hs
    rw [ast] at h
    split at h
    · cases h
    · rw [List.mem_singleton] at h; subst h
      exact .inr ⟨v, by rw [Tree.exts]; simp, hs⟩
  · intro ts ih e v h hs
    cases e with
    | seq i es =>
      simp only [ast, treeCalls, Tree.exts] at h ⊢
      split at h
      · cases h
      · rename_i hu
        rw [if_neg hu]
        exact ih.1 _ v h hs
    | _ => simp only [ast] at h; split at h <;> cases h
  · intro k t ih e v h hs
    cases e with
    | choice i es =>
      simp only [ast, treeCalls, Tree.exts] at h ⊢
      split at h
      · cases h
      · rename_i hu
        rw [if_neg hu]
        cases hb : es[k]? with
        | none => rw [hb] at h; cases h
        | some b => rw [hb] at h; exact ih b v h hs
    | _ => simp only [ast] at h; split at h <;> cases h
  · intro ts ih e v h hs
    cases e with
    | star i c =>
      simp only [ast, treeCalls, Tree.exts] at h ⊢
      split at h
      · cases h
      · rename_i hu
        rw [if_neg hu]
        rw [List.mem_singleton] at h; subst h
        cases hs with
        | list hm hs => exact ih.2 _ _ hm hs
    | plus i c =>
      simp only [ast, treeCalls, Tree.exts] at h ⊢
      split at h
      · cases h
      · rename_i hu
        rw [if_neg hu]
        rw [List.mem_singleton] at h; subst h
        cases hs with
        | list hm hs => exact ih.2 _ _ hm hs
    | _ => simp only [ast] at h; split at h <;> cases h
  · intro e v h hs
    rw [ast] at h
    split at h
    · cases h
    · rw [List.mem_singleton] at h; subst h; cases hs
  · intro t ih e v h hs
    cases e with
    | opt i c =>
      simp only [ast, treeCalls, Tree.exts] at h ⊢
      split at h
      · cases h
      · rename_i hu
        rw [if_neg hu]
        rw [List.mem_singleton] at h; subst h
        cases hs with
        | some hs =>
          obtain ⟨v, hv, hs⟩ := shown_tuple hs
          exact ih _ v hv hs
    | _ => simp only [ast] at h; split at h <;> cases h
  · intro t ih e v h hs
    cases e with
    | act i c b g =>
      simp only [ast, treeCalls, Tree.exts] at h ⊢
      split at h
      · cases h
      · rename_i hu
        rw [if_neg hu]
        rw [List.mem_singleton] at h
        have hs' : Shown (.app f a) (if isVariant g && T c.id = .unit then Val.path g else .app g (ast G T sp c t)) := by
          subst h
          cases b with
          | false => exact hs
          | true =>
            simp only [if_true] at hs
            cases hs with
            | box hs => exact hs
        rw [actionCalls]
        split at hs'
        · cases hs'
        · rename_i hv
          rw [if_neg hv]
          generalize hw : Val.app g (ast G T sp c t) = w at hs'
          cases hs' with
          | here => left; simp
          | app hm hs =>
            cases hw
            have := (ih c _ hm hs).left [Val.app g (ast G T sp c t)] []
            rwa [List.append_nil] at this
          | _ => cases hw
    | _ => simp only [ast] at h; split at h <;> cases h
  · intro t ih e v h hs
    cases e with
    | asc i c ty =>
      simp only [ast, treeCalls, Tree.exts] at h ⊢
      split at h
      · cases h
      · rename_i hu
        rw [if_neg hu]
        exact ih _ v h hs
    | _ => simp only [ast] at h; split at h <;> cases h
  · intro lo hi t ih e v h hs
    cases e with
    | span i c =>
      simp only [ast, treeCalls, Tree.exts] at h ⊢
      split at h
      · cases h
      · rename_i hu
        rw [if_neg hu]
        rcases List.mem_cons.1 h with rfl | h
        · cases hs
        · exact ih _ v h hs
    | range i c =>
      simp only [ast, treeCalls, Tree.exts] at h ⊢
      split at h
      · cases h
      · rename_i hu
        rw [if_neg hu]
        rcases List.mem_cons.1 h with rfl | h
        · cases hs
        · exact ih _ v h hs
    | _ => simp only [ast] at h; split at h <;> cases h
  · constructor
    · intro es v h; rw [astSeq] at h; cases h
    · intro e v h; rw [astRep] at h; cases h
  · intro t ts ih ihs
    constructor
    · intro es v h hs
      cases es with
      | nil => rw [astSeq] at h; cases h
      | cons e es =>
        rw [astSeq, List.mem_append] at h
        rw [treeCallsSeq, List.flatMap_cons]
        rcases h with h | h
        · exact (ih e v h hs).left _ _
        · exact (ihs.1 es v h hs).right _ _
    · intro e v h hs
      rw [astRep, List.mem_cons] at h
      rw [treeCallsRep, List.flatMap_cons]
      rcases h with rfl | h
      · obtain ⟨v, hv, hs⟩ := shown_tuple hs
        exact (ih e v hv hs).left _ _
      · exact (ihs.2 e v h hs).right _ _

end Oak
