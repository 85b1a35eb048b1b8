import Verif.Proofs.ScopedMain
import Verif.Spec.RustTyping
/-! The generated code is well typed: the types of the variables and the extension of their assignment. -/
set_option autoImplicit false
set_option linter.constructorNameAsVariable false

namespace Oak

/-! ### Assignments of types to all the names of a function -/

/-- Types of the variables, and of the closures: the names of their parameters and the type they return. -/
structure Asg where
  var : Nat → Nat → RTy
  clo : Nat → (List Name × List Name × List Name) × RTy

/-- The type of every name. -/
def Asg.ty (a : Asg) : Name → VTy
  | .var p i => .val (a.var p i)
  | .mark _ => .stream
  | .branchFailed _ => .bool
  | .counter _ => .int
  | .x => .val .char
  | .isSuccess => .bool

/-- The environment in which all the names have their type. -/
def Asg.env (a : Asg) : TEnv := fun x => some (a.ty x)

/-- The type of a closure. -/
def Asg.sig (a : Asg) (k : Nat) : ClosureSig :=
  ⟨(a.clo k).1.1.map a.ty, (a.clo k).1.2.1.map a.ty, (a.clo k).1.2.2.map a.ty, (a.clo k).2⟩

/-- The closures of a list. -/
def Asg.closures (a : Asg) (cs : List Closure) : Nat → Option ClosureSig := fun k => if k ∈ cs.map (·.name) then some (a.sig k) else none

theorem Asg.ty_not_ref (a : Asg) (x : Name) (u : VTy) : a.ty x ≠ .mutRef u := by cases x <;> simp [Asg.ty]

theorem Asg.has (a : Asg) (xs : List Name) : a.env.Has xs (xs.map a.ty) := by
  unfold TEnv.Has Asg.env; simp

theorem Asg.set_env (a : Asg) {x : Name} {t : VTy} (h : a.ty x = t) : a.env.set x t = a.env := by
  funext y
  unfold TEnv.set Asg.env
  split
  · subst_vars; rfl
  · rfl

theorem Asg.setMany_env (a : Asg) : ∀ {xs : List Name} {ts : List VTy}, xs.map a.ty = ts → a.env.setMany xs ts = a.env
  | [], _, h => by subst h; rfl
  | x :: xs, _, h => by
    subst h
    rw [List.map_cons, TEnv.setMany, Asg.setMany_env a rfl, Asg.set_env a rfl]

/-- The two assignments agree on the names made between two contexts. -/
def Asg.Agree (a b : Asg) (c c' : Ctx) : Prop :=
  (∀ p, c.names.prefixUid ≤ p → p < c'.names.prefixUid → a.var p = b.var p) ∧
  (∀ k, c.names.closureUid < k → k ≤ c'.names.closureUid → a.clo k = b.clo k)

/-- For a right choice of the types of the names made between two contexts. -/
def Extends (c c' : Ctx) (Q : Asg → Prop) : Prop :=
  c.names.prefixUid ≤ c'.names.prefixUid ∧ c.names.closureUid ≤ c'.names.closureUid ∧ ∃ b : Asg, ∀ a : Asg, a.Agree b c c' → Q a

theorem Extends.refl {c c' : Ctx} {Q : Asg → Prop} (h1 : c.names.prefixUid = c'.names.prefixUid) (h2 : c.names.closureUid = c'.names.closureUid) (h : ∀ a, Q a) :
    Extends c c' Q := ⟨Nat.le_of_eq h1, Nat.le_of_eq h2, ⟨fun _ _ => .unit, fun _ => (([], [], []), .unit)⟩, fun a _ => h a⟩

theorem Extends.mono {c c' : Ctx} {Q Q' : Asg → Prop} (h : Extends c c' Q) (hq : ∀ a, Q a → Q' a) : Extends c c' Q' :=
  ⟨h.1, h.2.1, h.2.2.choose, fun a ha => hq a (h.2.2.choose_spec a ha)⟩

theorem Extends.congr {c c' d d' : Ctx} {Q : Asg → Prop} (h : Extends c c' Q) (h1 : d.names.prefixUid = c.names.prefixUid) (h2 : d.names.closureUid = c.names.closureUid)
    (h3 : d'.names.prefixUid = c'.names.prefixUid) (h4 : d'.names.closureUid = c'.names.closureUid) : Extends d d' Q := by
  obtain ⟨k1, k2, b, k3⟩ := h
  refine ⟨by omega, by omega, b, fun a ha => k3 a ⟨fun p hp hp' => ha.1 p (by omega) (by omega), fun k hk hk' => ha.2 k (by omega) (by omega)⟩⟩

theorem Extends.trans {c c1 c2 : Ctx} {Q Q' : Asg → Prop} (h : Extends c c1 Q) (h' : Extends c1 c2 Q') : Extends c c2 fun a => Q a ∧ Q' a := by
  obtain ⟨k1, k2, b, k3⟩ := h
  obtain ⟨l1, l2, b', l3⟩ := h'
  refine ⟨by omega, by omega, ⟨fun p => if p < c1.names.prefixUid then b.var p else b'.var p, fun k => if k ≤ c1.names.closureUid then b.clo k else b'.clo k⟩, fun a ha => ?_⟩
  obtain ⟨ha1, ha2⟩ := ha
  refine ⟨k3 a ⟨fun p hp hp' => ?_, fun k hk hk' => ?_⟩, l3 a ⟨fun p hp hp' => ?_, fun k hk hk' => ?_⟩⟩
  · rw [ha1 p hp (by omega)]; simp [hp']
  · rw [ha2 k hk (by omega)]; simp [hk']
  · rw [ha1 p (by omega) hp']; exact if_neg (by omega)
  · rw [ha2 k (by omega) hk']; exact if_neg (by omega)

/-! ### Monotonicity -/

section
variable {sg : Sigs}

theorem OkAll.weaken {ok ok' : Name → VTy → Prop} (h : ∀ x t, ok x t → ok' x t) {xs : List Name} {ts : List VTy} (h' : OkAll ok xs ts) : OkAll ok' xs ts :=
  fun p hp => h _ _ (h' p hp)

theorem StmtOk.weaken {ok ok' : Name → VTy → Prop} (hk : ∀ x t, ok x t → ok' x t) {Γ Γ' : TEnv} {D D' : SVar} {s : Stmt} (h : StmtOk sg ok Γ D s Γ' D') :
    StmtOk sg ok' Γ D s Γ' D' := by
  cases h with
  | letMark h => exact .letMark (hk _ _ h)
  | setMark h => exact .setMark h
  | letVal h h' => exact .letVal (hk _ _ h) h'
  | letNone h => exact .letNone (hk _ _ h)
  | letVec h => exact .letVec (hk _ _ h)
  | letTrue h => exact .letTrue (hk _ _ h)
  | letZero h => exact .letZero (hk _ _ h)
  | letIsSuccess h => exact .letIsSuccess (hk _ _ h)
  | setSome h h' => exact .setSome h h'
  | push h h' => exact .push h h'
  | setFalse h => exact .setFalse h
  | restoreFailed h => exact .restoreFailed h
  | restore h => exact .restore h
  | ifFailedRestore h => exact .ifFailedRestore h
  | error => exact .error
  | discard => exact .discard
  | recognize => exact .recognize
  | parse h => exact .parse h
  | extract h h' => exact .extract (h.weaken hk) h'
  | fail => exact .fail

theorem ExOk.weaken {ok ok' : Name → VTy → Prop} (hk : ∀ x t, ok x t → ok' x t) {K K' : Nat → Option ClosureSig} (hK : ∀ k s, K k = some s → K' k = some s) {Γ : TEnv}
    {D : SVar} {e : Ex} {t : RTy} (h : ExOk sg ok K Γ D e t) : ExOk sg ok' K' Γ D e t := by
  induction h with
  | st => exact .st
  | success h => exact .success h
  | failure => exact .failure
  | call h1 h2 h3 h4 h5 => exact .call (hK _ _ h1) h2 h3 h4 h5
  | stmt h _ ih => exact .stmt (h.weaken hk) ih
  | bind _ _ ih1 ih2 => exact .bind ih1 ih2
  | loop _ h1 h2 _ ih1 ih2 => exact .loop ih1 h1 h2 ih2
  | ite h _ _ ih1 ih2 => exact .ite h ih1 ih2
  | ifPrefix _ _ ih1 ih2 => exact .ifPrefix ih1 ih2
  | matchNext _ _ ih1 ih2 => exact .matchNext ih1 ih2
  | matchNextVar h _ _ ih1 ih2 => exact .matchNextVar (hk _ _ h) ih1 ih2
  | matchClass h _ _ ih1 ih2 => exact .matchClass (hk _ _ h) ih1 ih2

theorem ExOk.mono {ok : Name → VTy → Prop} {K K' : Nat → Option ClosureSig} (hK : ∀ k s, K k = some s → K' k = some s) {Γ : TEnv} {D : SVar} {e : Ex} {t : RTy}
    (h : ExOk sg ok K Γ D e t) : ExOk sg ok K' Γ D e t := h.weaken (fun _ _ h => h) hK

theorem ClosuresTyped.weaken {ok ok' : Name → VTy → Prop} (hk : ∀ x t, ok x t → ok' x t) {K K' : Nat → Option ClosureSig} {cs : List Closure}
    (h : ClosuresTyped sg ok K cs K') : ClosuresTyped sg ok' K cs K' := by
  induction h with
  | nil => exact .nil
  | cons h1 h2 h3 h4 h5 h6 h7 _ ih => exact .cons h1 h2 h3 (h4.weaken hk) (h5.weaken hk) (h6.weaken hk) (h7.weaken hk fun _ _ h => h) ih

theorem FnTyped.ok {ok : Name → VTy → Prop} {f : Fn} {t : RTy} (h : FnTyped sg ok f t) : FnOk sg f t :=
  ⟨h.choose, h.choose_spec.1.weaken fun _ _ _ => trivial, h.choose_spec.2.weaken (fun _ _ _ => trivial) fun _ _ h => h⟩

theorem Asg.okAll (a : Asg) (xs : List Name) : OkAll (fun x t => a.ty x = t) xs (xs.map a.ty) := by
  intro p hp
  induction xs with
  | nil => simp at hp
  | cons x xs ih =>
    simp only [List.map_cons, List.zip_cons_cons, List.mem_cons] at hp
    rcases hp with rfl | hp
    · rfl
    · exact ih hp

theorem Asg.closures_mono (a : Asg) {cs cs' : List Closure} (h : ∀ c ∈ cs, c ∈ cs') {k : Nat} {s : ClosureSig} (hk : a.closures cs k = some s) :
    a.closures cs' k = some s := by
  unfold Asg.closures at hk ⊢
  split at hk
  · rename_i h0
    rw [if_pos, hk]
    rw [List.mem_map] at h0 ⊢
    obtain ⟨c, hc, rfl⟩ := h0
    exact ⟨c, h c hc, rfl⟩
  · cases hk

/-- The closures are well typed: each one calls those before it. -/
def CloTyped (sg : Sigs) (a : Asg) (cs : List Closure) : Prop :=
  ∀ pre c post, cs = pre ++ c :: post → (a.clo c.name).1 = (c.muts, c.vars, c.marks) ∧ ExOk sg (fun x t => a.ty x = t) (a.closures pre) a.env (.state .unit) c.body (a.clo c.name).2

/-- The code is well typed in the context. -/
def CodeOk (sg : Sigs) (a : Asg) (cs : List Closure) (S : Ex) (R : RTy) : Prop := ExOk sg (fun x t => a.ty x = t) (a.closures cs) a.env (.state .unit) S R

theorem CodeOk.mono {a : Asg} {cs cs' : List Closure} {S : Ex} {R : RTy} (h : CodeOk sg a cs S R) (hc : ∀ c ∈ cs, c ∈ cs') : CodeOk sg a cs' S R :=
  ExOk.mono (fun _ _ hk => a.closures_mono hc hk) h

/-- The last variables have these types. -/
def FvTyped (a : Asg) (fv : List Name) (ts : List RTy) : Prop := ∃ A P, fv = A ++ P ∧ P.map a.ty = ts.map .val

end

/-! ### Types of the values given by an expression -/

/-- The value given by a semantic action. -/
def ActTyped (sg : Sigs) (boxed : Bool) (f : Path) (u : Bool) (t : RTy) : Prop :=
  ∀ (Γ : TEnv) (vs : List Name) (ts : List RTy), Γ.Has vs (ts.map .val) → ValOk sg Γ (actionCall boxed f u vs) t

mutual
/-- The values an expression gives have types `ts`. -/
def Gives (sg : Sigs) (T : Nat → Ty) (p : Bool) (e : Expr) (ts : List RTy) : Prop :=
  match e with
  | .str _ _ => ts = []
  | .any i => ts = if p && T i ≠ .unit then [.char] else []
  | .cls i _ => ts = if p && T i ≠ .unit then [.char] else []
  | .nt i r => if p && T i ≠ .unit then sg.parser [r] (.pack ts) ∧ ts.length = (T i).card else ts = []
  | .ext i f => if p && T i ≠ .unit then sg.parser f (.pack ts) ∧ ts.length = (T i).card else ts = []
  | .seq i es => GivesSeq sg T (p && T i ≠ .unit) es ts
  | .choice i es => (es = [] → ts = []) ∧ GivesAll sg T (p && T i ≠ .unit) es ts
  | .star i e => if p && T i ≠ .unit then ∃ us, Gives sg T true e us ∧ us.length = (T e.id).card ∧ ts = [.vec (.pack us)] else ts = []
  | .plus i e => if p && T i ≠ .unit then ∃ us, Gives sg T true e us ∧ us.length = (T e.id).card ∧ ts = [.vec (.pack us)] else ts = []
  | .opt i e => if p && T i ≠ .unit then ∃ us, Gives sg T true e us ∧ us.length = (T e.id).card ∧ ts = [.option (.pack us)] else ts = []
  | .not i _ => (p && T i ≠ .unit) = false ∧ ts = []
  | .and i _ => (p && T i ≠ .unit) = false ∧ ts = []
  | .act i e b f =>
    if p && T i ≠ .unit then ∃ us u, Gives sg T true e us ∧ us.length = (T e.id).card ∧ ts = [u] ∧ ActTyped sg b f (T e.id = .unit) u else ts = []
  | .asc i e _ => Gives sg T (p && T i ≠ .unit) e ts
  | .span i e => if p && T i ≠ .unit then ∃ us, Gives sg T true e us ∧ us.length = (T e.id).card ∧ ts = .rust spanTy :: us else ts = []
  | .range i e => if p && T i ≠ .unit then ∃ us, Gives sg T true e us ∧ us.length = (T e.id).card ∧ ts = .rust rangeTy :: us else ts = []
/-- The values of a sequence. -/
def GivesSeq (sg : Sigs) (T : Nat → Ty) (p : Bool) (es : List Expr) (ts : List RTy) : Prop :=
  match es with
  | [] => ts = []
  | e :: es => ∃ us vs, Gives sg T p e us ∧ GivesSeq sg T p es vs ∧ ts = us ++ vs
/-- The values of the branches of a choice. -/
def GivesAll (sg : Sigs) (T : Nat → Ty) (p : Bool) (es : List Expr) (ts : List RTy) : Prop :=
  match es with
  | [] => True
  | e :: es => Gives sg T p e ts ∧ GivesAll sg T p es ts
end

section
variable {sg : Sigs} {T : Nat → Ty}

theorem givesAll_iff {p : Bool} {es : List Expr} {ts : List RTy} : GivesAll sg T p es ts ↔ ∀ e ∈ es, Gives sg T p e ts := by
  induction es with
  | nil => simp [GivesAll]
  | cons e es ih => simp [GivesAll, ih]

/-- Expressions compiled to recognizers give nothing. -/
theorem gives_false (e : Expr) : Gives sg T false e [] := by
  induction e using Expr.ind with
  | seq i es ih =>
    rw [Gives]
    simp only [Bool.false_and]
    induction es with
    | nil => rfl
    | cons e es ihe =>
      rw [List.forall_mem_cons] at ih
      rw [GivesSeq]
      exact ⟨[], [], ih.1, ihe ih.2, rfl⟩
  | choice i es ih =>
    rw [Gives, givesAll_iff]
    simp only [Bool.false_and]
    exact ⟨fun _ => by trivial, ih⟩
  | asc i e t ih => rw [Gives]; simp only [Bool.false_and]; exact ih
  | _ => simp [Gives]

/-- They are as many as the code generator expects. -/
theorem gives_sized (e : Expr) : ∀ p ts, Gives sg T p e ts → sized T p e = true ∧ arity T p e = ts.length := by
  induction e using Expr.ind with
  | str i l => intro p ts h; rw [Gives] at h; subst h; simp [sized, arity]
  | any i => intro p ts h; rw [Gives] at h; subst h; rw [sized, arity]; split <;> simp
  | cls i l => intro p ts h; rw [Gives] at h; subst h; rw [sized, arity]; split <;> simp
  | nt i r =>
    intro p ts h; rw [Gives] at h; rw [sized, arity]
    split
    · rename_i hp; rw [if_pos hp] at h; exact ⟨rfl, h.2.symm⟩
    · rename_i hp; rw [if_neg hp] at h; subst h; simp
  | ext i r =>
    intro p ts h; rw [Gives] at h; rw [sized, arity]
    split
    · rename_i hp; rw [if_pos hp] at h; exact ⟨rfl, h.2.symm⟩
    · rename_i hp; rw [if_neg hp] at h; subst h; simp
  | seq i es ih =>
    intro p ts h
    rw [Gives] at h; rw [sized, arity]
    generalize (p && decide (T i ≠ .unit)) = q at *
    induction es generalizing ts with
    | nil => rw [GivesSeq] at h; subst h; exact ⟨rfl, rfl⟩
    | cons e es ihe =>
      rw [List.forall_mem_cons] at ih
      rw [GivesSeq] at h
      obtain ⟨us, vs, h1, h2, rfl⟩ := h
      obtain ⟨k1, k2⟩ := ih.1 _ _ h1
      obtain ⟨l1, l2⟩ := ihe ih.2 _ h2
      exact ⟨by simp [sizedAll, k1, l1], by simp [aritySeq, k2, l2]⟩
  | choice i es ih =>
    intro p ts h
    rw [Gives, givesAll_iff] at h; rw [sized, arity]
    generalize (p && decide (T i ≠ .unit)) = q at *
    have hh : arityHead T q es = ts.length := by
      cases es with
      | nil => rw [h.1 rfl]; rfl
      | cons e es => exact (ih e (by simp) _ _ (h.2 e (by simp))).2
    refine ⟨?_, hh⟩
    rw [Bool.and_eq_true, sizedAll_iff, sameArity_iff]
    exact ⟨fun e he => (ih e he _ _ (h.2 e he)).1, fun e he => by rw [hh]; exact (ih e he _ _ (h.2 e he)).2⟩
  | star i e ih =>
    intro p ts h; rw [Gives] at h; rw [sized, arity]
    split at h
    · rename_i hp
      obtain ⟨us, h1, h2, rfl⟩ := h
      obtain ⟨k1, k2⟩ := ih _ _ h1
      rw [if_pos hp]; simp [k1, k2, h2]
    · rename_i hp; subst h; rw [if_neg hp]; simp only [Bool.not_eq_true] at hp; exact ⟨by rw [hp]; rfl, rfl⟩
  | plus i e ih =>
    intro p ts h; rw [Gives] at h; rw [sized, arity]
    split at h
    · rename_i hp
      obtain ⟨us, h1, h2, rfl⟩ := h
      obtain ⟨k1, k2⟩ := ih _ _ h1
      rw [if_pos hp]; simp [k1, k2, h2]
    · rename_i hp; subst h; rw [if_neg hp]; simp only [Bool.not_eq_true] at hp; exact ⟨by rw [hp]; rfl, rfl⟩
  | opt i e ih =>
    intro p ts h; rw [Gives] at h; rw [sized, arity]
    split at h
    · rename_i hp
      obtain ⟨us, h1, h2, rfl⟩ := h
      obtain ⟨k1, k2⟩ := ih _ _ h1
      rw [if_pos hp]; simp [k1, k2, h2]
    · rename_i hp; subst h; rw [if_neg hp]; simp only [Bool.not_eq_true] at hp; exact ⟨by rw [hp]; rfl, rfl⟩
  | not i e ih => intro p ts h; rw [Gives] at h; obtain ⟨h1, rfl⟩ := h; rw [sized, arity]; exact ⟨by rw [h1]; rfl, rfl⟩
  | and i e ih => intro p ts h; rw [Gives] at h; obtain ⟨h1, rfl⟩ := h; rw [sized, arity]; exact ⟨by rw [h1]; rfl, rfl⟩
  | act i e b f ih =>
    intro p ts h; rw [Gives] at h; rw [sized, arity]
    split at h
    · rename_i hp
      obtain ⟨us, u, h1, h2, rfl, _⟩ := h
      obtain ⟨k1, k2⟩ := ih _ _ h1
      rw [if_pos hp]; simp [k1, k2, h2]
    · rename_i hp; subst h; rw [if_neg hp]; simp only [Bool.not_eq_true] at hp; exact ⟨by rw [hp]; rfl, rfl⟩
  | asc i e t ih => intro p ts h; rw [Gives] at h; rw [sized, arity]; exact ih _ _ h
  | span i e ih =>
    intro p ts h; rw [Gives] at h; rw [sized, arity]
    split at h
    · rename_i hp
      obtain ⟨us, h1, h2, rfl⟩ := h
      obtain ⟨k1, k2⟩ := ih _ _ h1
      rw [if_pos hp]; simp [k1, k2, h2]
    · rename_i hp; subst h; rw [if_neg hp]; simp only [Bool.not_eq_true] at hp; exact ⟨by rw [hp]; rfl, rfl⟩
  | range i e ih =>
    intro p ts h; rw [Gives] at h; rw [sized, arity]
    split at h
    · rename_i hp
      obtain ⟨us, h1, h2, rfl⟩ := h
      obtain ⟨k1, k2⟩ := ih _ _ h1
      rw [if_pos hp]; simp [k1, k2, h2]
    · rename_i hp; subst h; rw [if_neg hp]; simp only [Bool.not_eq_true] at hp; exact ⟨by rw [hp]; rfl, rfl⟩

end

end Oak
