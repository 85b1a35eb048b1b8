import Verif.Proofs.TypingDoc
/-!
The bounds of the model do not change its results.
-/
set_option linter.constructorNameAsVariable false
set_option autoImplicit false

namespace Oak
namespace Typing

/-- `y` is the result `x`, unless the bound was too small. -/
def RLe {α : Type} (x y : Res α) : Prop := x = .timeout ∨ x = y

theorem RLe.refl {α : Type} (x : Res α) : RLe x x := .inr rfl

theorem RLe.bind {α β : Type} {x y : Res α} {f g : α → Res β} (h : RLe x y) (hf : ∀ a, RLe (f a) (g a)) : RLe (x >>= f) (y >>= g) := by
  rcases h with rfl | rfl
  · exact .inl rfl
  · cases x with
    | ok a => exact hf a
    | _ => exact .inr rfl

theorem RLe.ite {α : Type} {c : Prop} [Decidable c] {x y x' y' : Res α} (h : RLe x x') (h' : RLe y y') : RLe (if c then x else y) (if c then x' else y') := by
  split
  · exact h
  · exact h'

theorem allEq_mono {f g : Nat → Nat → Res Bool} (h : ∀ i j, RLe (f i j) (g i j)) (is js : List Nat) : RLe (allEq f is js) (allEq g is js) := by
  induction is generalizing js with
  | nil => exact .refl _
  | cons i is ih =>
    cases js with
    | nil => exact .refl _
    | cons j js =>
      rw [allEq, allEq]
      exact (h i j).bind fun b => .ite (ih js) (.refl _)

theorem anyRes_mono {α : Type} {f g : α → Res Bool} (h : ∀ x, RLe (f x) (g x)) (l : List α) : RLe (anyRes f l) (anyRes g l) := by
  induction l with
  | nil => exact .refl _
  | cons x l ih => rw [anyRes, anyRes]; exact (h x).bind fun b => .ite (.refl _) ih

section
variable {T : Nat → IType} {m m' : Nat}

theorem synEq_mono (hm : m ≤ m') (a b : IType) : RLe (synEq T m a b) (synEq T m' a b) := by
  induction m generalizing m' a b with
  | zero => exact .inl rfl
  | succ m ih =>
    cases m' with
    | zero => omega
    | succ m' =>
      have hm : m ≤ m' := by omega
      cases a with
      | regular t =>
        cases b with
        | regular u =>
          cases t <;> cases u <;> first | exact .refl _ | exact ih hm _ _ | skip
          rw [synEq, synEq]
          exact .ite (allEq_mono (fun i j => ih hm _ _) _ _) (.refl _)
        | _ => exact .refl _
      | _ => cases b <;> exact .refl _

theorem containsExternal_mono (hm : m ≤ m') (a : IType) : RLe (containsExternal T m a) (containsExternal T m' a) := by
  induction m generalizing m' a with
  | zero => exact .inl rfl
  | succ m ih =>
    cases m' with
    | zero => omega
    | succ m' =>
      have hm : m ≤ m' := by omega
      cases a with
      | regular t =>
        cases t with
        | tuple is => rw [containsExternal, containsExternal]; exact anyRes_mono (fun i => ih hm _) _
        | optional i => exact ih hm _
        | list i => exact ih hm _
        | _ => exact .refl _
      | _ => exact .refl _

theorem splitTypes_mono (hm : m ≤ m') (tys : List IType) (r : RecSet) (ts : List IType) : RLe (splitTypes T m tys r ts) (splitTypes T m' tys r ts) := by
  induction tys generalizing r ts with
  | nil => exact .refl _
  | cons t tys ih =>
    cases t with
    | rec_ r2 => exact ih _ _
    | _ =>
      rw [splitTypes, splitTypes]
      · exact (anyRes_mono (fun x => synEq_mono hm _ _) _).bind fun c => ih _ _
      · intro r2 h; cases h
      · intro r2 h; cases h

theorem reduceSum_mono (hm : m ≤ m') (tys : List IType) : RLe (reduceSum T m tys) (reduceSum T m' tys) := by
  unfold reduceSum
  exact .ite (.refl _) ((splitTypes_mono hm _ _ _).bind fun _ => .refl _)

theorem surfChoice_mono (hm : m ≤ m') (i : Nat) (tys : List IType) (s : TState) : RLe (surfChoice m i tys s) (surfChoice m' i tys s) := by
  unfold surfChoice
  exact (reduceSum_mono hm _).bind fun _ => .refl _

theorem surfStep_mono {i : Nat} {s : TState} {w w' : Res (IType × TState)} (h : RLe w w') : RLe (surfStep i s w) (surfStep i s w') := by
  unfold surfStep
  exact .ite (h.bind fun _ => .refl _) (.refl _)

variable {A : AGrammar} {k : Nat}

theorem surfExpr_mono (hm : m ≤ m') {call call' : String → TState → Res (IType × TState)} (hc : ∀ r s, RLe (call r s) (call' r s)) (e : Expr) :
    ∀ s, RLe (surfExpr A k m call e s) (surfExpr A k m' call' e s) := by
  have hall : ∀ es : List Expr, (∀ e ∈ es, ∀ s, RLe (surfExpr A k m call e s) (surfExpr A k m' call' e s)) →
      ∀ s, RLe (surfAll A k m call es s) (surfAll A k m' call' es s) := by
    intro es h
    induction es with
    | nil => intro s; exact .inr (by rw [surfAll, surfAll])
    | cons e es ih =>
      intro s
      rw [List.forall_mem_cons] at h
      rw [surfAll, surfAll]
      exact (h.1 s).bind fun x => (ih h.2 _).bind fun _ => .refl _
  induction e using Expr.kidsInd with
  | h e ih =>
    intro s
    cases e with
    | nt i r => rw [surfExpr, surfExpr]; exact surfStep_mono (hc r s)
    | seq i es => rw [surfExpr, surfExpr]; exact surfStep_mono ((hall es (fun c hc => ih c (by simpa [Expr.kids] using hc)) s).bind fun _ => .refl _)
    | choice i es =>
      rw [surfExpr, surfExpr]
      exact surfStep_mono ((hall es (fun c hc => ih c (by simpa [Expr.kids] using hc)) s).bind fun _ => surfChoice_mono hm _ _ _)
    | star i c => rw [surfExpr, surfExpr]; exact surfStep_mono ((ih c (by simp [Expr.kids]) s).bind fun _ => .refl _)
    | plus i c => rw [surfExpr, surfExpr]; exact surfStep_mono ((ih c (by simp [Expr.kids]) s).bind fun _ => .refl _)
    | opt i c => rw [surfExpr, surfExpr]; exact surfStep_mono ((ih c (by simp [Expr.kids]) s).bind fun _ => .refl _)
    | span i c => rw [surfExpr, surfExpr]; exact surfStep_mono ((ih c (by simp [Expr.kids]) s).bind fun _ => .refl _)
    | range i c => rw [surfExpr, surfExpr]; exact surfStep_mono ((ih c (by simp [Expr.kids]) s).bind fun _ => .refl _)
    | _ => exact .inr (by rw [surfExpr, surfExpr])

theorem surfRule_mono (hm : m ≤ m') {n n' : Nat} (hn : n ≤ n') (path : List String) (r : String) (s : TState) :
    RLe (surfRule A k m n path r s) (surfRule A k m' n' path r s) := by
  induction n generalizing n' path r s with
  | zero => exact .inl rfl
  | succ n ih =>
    cases n' with
    | zero => omega
    | succ n' =>
      rw [surfRule, surfRule]
      cases A.grammar.find r with
      | none => exact .refl _
      | some b =>
        dsimp only
        exact .ite (.ite (.refl _) ((surfExpr_mono hm (fun r s => ih (by omega) _ _ _) b s).bind fun _ => .refl _)) (.refl _)

theorem surfRules_mono (hm : m ≤ m') {n n' : Nat} (hn : n ≤ n') (rs : List (String × Expr)) (s : TState) :
    RLe (surfRules A k m n rs s) (surfRules A k m' n' rs s) := by
  induction rs generalizing s with
  | nil => exact .refl _
  | cons x rs ih =>
    obtain ⟨r, b⟩ := x
    rw [surfRules, surfRules]
    exact (surfRule_mono hm hn _ _ _).bind fun _ => ih _

theorem surfHere_mono (hm : m ≤ m') {n n' : Nat} (hn : n ≤ n') (e : Expr) (s : TState) : RLe (surfHere A k m n e s) (surfHere A k m' n' e s) :=
  surfExpr_mono hm (fun _ _ => surfRule_mono hm hn _ _ _) e s

theorem match_mono (hm : m ≤ m') (i : Nat) (t a : IType) (s : TState) : RLe (matchAscription m i t a s) (matchAscription m' i t a s) := by
  unfold matchAscription
  exact (synEq_mono hm _ _).bind fun _ => .refl _

theorem depthStep_mono (hm : m ≤ m') {i : Nat} {u : Bool} {a : Option IType} {s : TState} {w w' : Bool → TState → Res TState}
    (h : ∀ u s, RLe (w u s) (w' u s)) : RLe (depthStep m i u a s w) (depthStep m' i u a s w') := by
  unfold depthStep
  refine .ite (h _ _) (.ite (h _ _) ?_)
  cases a with
  | none => exact h _ _
  | some a => exact .ite (h _ _) ((match_mono hm _ _ _ _).bind fun s => h _ _)

theorem depthExpr_mono (hm : m ≤ m') {surf surf' : Expr → TState → Res (IType × TState)} (hs : ∀ e s, RLe (surf e s) (surf' e s)) (e : Expr) :
    ∀ u a s, RLe (depthExpr m surf u a e s) (depthExpr m' surf' u a e s) := by
  induction e using Expr.kidsInd with
  | h e ih =>
    intro u a s
    have hone : ∀ c, e.kids = [c] → ∀ u a s, RLe (depthExpr m surf u a c s) (depthExpr m' surf' u a c s) := fun c hc => ih c (by simp [hc])
    cases e with
    | seq i es =>
      rw [depthExpr, depthExpr]
      refine depthStep_mono hm fun u s => ?_
      have : ∀ c ∈ es, ∀ u a s, RLe (depthExpr m surf u a c s) (depthExpr m' surf' u a c s) := fun c hc => ih c (by simpa [Expr.kids] using hc)
      clear ih hone
      revert s
      induction es with
      | nil => intro s; exact .inr (by rw [depthSeq, depthSeq])
      | cons c es ih =>
        intro s
        rw [List.forall_mem_cons] at this
        rw [depthSeq, depthSeq]
        exact (this.1 _ _ _).bind fun s => ih this.2 s
    | choice i es =>
      rw [depthExpr, depthExpr]
      refine depthStep_mono hm fun u s => ?_
      have : ∀ c ∈ es, ∀ u a s, RLe (depthExpr m surf u a c s) (depthExpr m' surf' u a c s) := fun c hc => ih c (by simpa [Expr.kids] using hc)
      clear ih hone
      revert s
      induction es with
      | nil => intro s; exact .inr (by rw [depthAll, depthAll])
      | cons c es ih =>
        intro s
        rw [List.forall_mem_cons] at this
        rw [depthAll, depthAll]
        exact (this.1 _ _ _).bind fun s => ih this.2 s
    | star i c => rw [depthExpr, depthExpr]; exact depthStep_mono hm fun u s => hone c rfl _ _ _
    | plus i c => rw [depthExpr, depthExpr]; exact depthStep_mono hm fun u s => hone c rfl _ _ _
    | opt i c => rw [depthExpr, depthExpr]; exact depthStep_mono hm fun u s => hone c rfl _ _ _
    | not i c => rw [depthExpr, depthExpr]; exact depthStep_mono hm fun u s => hone c rfl _ _ _
    | and i c => rw [depthExpr, depthExpr]; exact depthStep_mono hm fun u s => hone c rfl _ _ _
    | span i c => rw [depthExpr, depthExpr]; exact depthStep_mono hm fun u s => hone c rfl _ _ _
    | range i c => rw [depthExpr, depthExpr]; exact depthStep_mono hm fun u s => hone c rfl _ _ _
    | act i c b f =>
      rw [depthExpr, depthExpr]
      exact depthStep_mono hm fun u s => (hs _ _).bind fun x => hone c rfl _ _ _
    | asc i c ty =>
      rw [depthExpr, depthExpr]
      refine depthStep_mono hm fun u s => ?_
      have hrest : ∀ s, RLe (if u then depthExpr m surf u (some ty) c s else surf c s >>= fun x => depthExpr m surf u (some ty) c x.2)
          (if u then depthExpr m' surf' u (some ty) c s else surf' c s >>= fun x => depthExpr m' surf' u (some ty) c x.2) := fun s =>
        .ite (hone c rfl _ _ _) ((hs _ _).bind fun x => hone c rfl _ _ _)
      cases a with
      | none => cases u with
        | true => exact hrest s
        | false => exact (hs _ _).bind fun x => hone c rfl _ _ _
      | some a =>
        refine (match_mono hm _ _ _ _).bind fun s => ?_
        cases u with
        | true => exact hrest s
        | false => exact (hs _ _).bind fun x => hone c rfl _ _ _
    | _ => rw [depthExpr, depthExpr]; exact depthStep_mono hm fun _ _ => .refl _

theorem depthAll_mono (hm : m ≤ m') {surf surf' : Expr → TState → Res (IType × TState)} (hs : ∀ e s, RLe (surf e s) (surf' e s)) (es : List Expr) (u : Bool)
    (a : Option IType) : ∀ s, RLe (depthAll m surf u a es s) (depthAll m' surf' u a es s) := by
  induction es with
  | nil => intro s; exact .inr (by rw [depthAll, depthAll])
  | cons c es ih =>
    intro s
    rw [depthAll, depthAll]
    exact (depthExpr_mono hm hs c _ _ _).bind fun s => ih s

theorem checkRules_mono (hm : m ≤ m') (rs : List (String × Expr)) : ∀ s, RLe (checkRules m rs s) (checkRules m' rs s) := by
  induction rs with
  | nil => intro s; exact .refl _
  | cons x rs ih =>
    obtain ⟨r, b⟩ := x
    intro s
    rw [checkRules, checkRules]
    exact (containsExternal_mono hm _).bind fun c => .ite (ih _) (ih _)

theorem typeInference_mono (hm : m ≤ m') {n n' : Nat} (hn : n ≤ n') : RLe (typeInference A k m n) (typeInference A k m' n') := by
  rw [typeInference_eq, typeInference_eq]
  refine (surfRules_mono hm hn _ _).bind fun s => .ite (.refl _) ?_
  refine RLe.bind (.refl _) fun w => RLe.bind (.refl _) fun T => ?_
  refine (depthAll_mono hm (fun _ _ => surfHere_mono hm hn _ _) _ _ _ _).bind fun s => .ite (.refl _) ?_
  exact RLe.bind (.refl _) fun T => (checkRules_mono hm _ _).bind fun s => .refl _

end

end Typing
end Oak
