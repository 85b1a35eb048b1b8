import Verif.Proofs.ActionCall
import Verif.Proofs.Owned
import Verif.Spec.RustTyping
/-! The compilation as a relation, and the occurrences of variables in the generated code. -/
set_option autoImplicit false
set_option linter.constructorNameAsVariable false

namespace Oak

/-! ### Occurrences -/

/-- The free variables that are not only used by `r.push(v)` or passed by value to closures. -/
def Ex.own : Ex → List Name
  | .st => []
  | .success v => v.fv
  | .failure => []
  | .call _ muts _ marks => muts ++ marks
  | .stmt s e => s.direct ++ e.own.filter (fun x => decide (x ∉ s.binds))
  | .bind e k => e.own ++ k.own
  | .loop body c m k => c.toList ++ m :: (body.own ++ k.own)
  | .ite c a b => c.fv ++ (a.own ++ b.own)
  | .ifPrefix _ a b => a.own ++ b.own
  | .matchNext p a b => a.own.filter (fun x => decide (x ∉ p.toList)) ++ b.own
  | .matchClass p _ a b => a.own.filter (fun x => decide (x ≠ p)) ++ b.own

/-- The occurrences that count: all of them, those that are not only used by `push`, those that are also not passed by value. -/
inductive Occ where
  | all
  | direct
  | own
/-- The free variables of the code. -/
def Ex.occ (b : Occ) (k : Ex) : List Name := match b with | .all => k.fv | .direct => k.direct | .own => k.own
/-- The same for statements. -/
def Stmt.occ (b : Occ) (s : Stmt) : List Name := match b with | .all => s.fv | _ => s.direct

section
variable {b : Occ} {x : Name}
theorem occ_st : x ∉ Ex.st.occ b := by cases b <;> simp [Ex.occ, Ex.fv, Ex.direct, Ex.own]
theorem occ_failure : x ∉ Ex.failure.occ b := by cases b <;> simp [Ex.occ, Ex.fv, Ex.direct, Ex.own]
theorem occ_success {v : VEx} : x ∈ (Ex.success v).occ b ↔ x ∈ v.fv := by cases b <;> simp [Ex.occ, Ex.fv, Ex.direct, Ex.own]
theorem occ_call {k : Nat} {us vs ms : List Name} : x ∈ (Ex.call k us vs ms).occ b ↔ x ∈ us ∨ (b ≠ .own ∧ x ∈ vs) ∨ x ∈ ms := by
  cases b <;> simp [Ex.occ, Ex.fv, Ex.direct, Ex.own]
theorem occ_stmt {s : Stmt} {k : Ex} : x ∈ (Ex.stmt s k).occ b ↔ x ∈ s.occ b ∨ (x ∈ k.occ b ∧ x ∉ s.binds) := by
  cases b <;> simp [Ex.occ, Stmt.occ, Ex.fv, Ex.direct, Ex.own]
theorem occ_bind {a k : Ex} : x ∈ (Ex.bind a k).occ b ↔ x ∈ a.occ b ∨ x ∈ k.occ b := by cases b <;> simp [Ex.occ, Ex.fv, Ex.direct, Ex.own]
theorem occ_loop {a k : Ex} {c : Option Name} {m : Name} : x ∈ (Ex.loop a c m k).occ b ↔ x ∈ c.toList ∨ x = m ∨ x ∈ a.occ b ∨ x ∈ k.occ b := by
  cases b <;> simp [Ex.occ, Ex.fv, Ex.direct, Ex.own]
theorem occ_ite {c : Cond} {a k : Ex} : x ∈ (Ex.ite c a k).occ b ↔ x ∈ c.fv ∨ x ∈ a.occ b ∨ x ∈ k.occ b := by cases b <;> simp [Ex.occ, Ex.fv, Ex.direct, Ex.own]
theorem occ_ifPrefix {l : String} {a k : Ex} : x ∈ (Ex.ifPrefix l a k).occ b ↔ x ∈ a.occ b ∨ x ∈ k.occ b := by cases b <;> simp [Ex.occ, Ex.fv, Ex.direct, Ex.own]
theorem occ_matchNext {p : Option Name} {a k : Ex} : x ∈ (Ex.matchNext p a k).occ b ↔ (x ∈ a.occ b ∧ x ∉ p.toList) ∨ x ∈ k.occ b := by
  cases b <;> simp [Ex.occ, Ex.fv, Ex.direct, Ex.own]
theorem occ_matchClass {p : Name} {c : CharCond} {a k : Ex} : x ∈ (Ex.matchClass p c a k).occ b ↔ (x ∈ a.occ b ∧ x ≠ p) ∨ x ∈ k.occ b := by
  cases b <;> simp [Ex.occ, Ex.fv, Ex.direct, Ex.own]
/-- Statements other than `push`. -/
theorem occ_other {s : Stmt} (h : ∀ r v, s ≠ .push r v) : x ∈ s.occ b ↔ x ∈ s.fv := by
  cases b
  · rfl
  · cases s <;> first | rfl | exact absurd rfl (h _ _)
  · cases s <;> first | rfl | exact absurd rfl (h _ _)
theorem occ_push {r : Name} {v : VEx} : x ∈ (Stmt.push r v).occ b ↔ (b = .all ∧ x = r) ∨ x ∈ v.fv := by
  cases b <;> simp [Stmt.occ, Stmt.fv, Stmt.direct]
end

theorem occ_choiceCode {b : Occ} {x m f : Name} (hm : x ≠ m) (hf : x ≠ f) {l : List Ex} : x ∈ (choiceCode m f l).occ b ↔ ∃ k ∈ l, x ∈ k.occ b := by
  induction l with
  | nil => simp [choiceCode, occ_st]
  | cons k l ih =>
    simp only [choiceCode, occ_ite, occ_stmt, occ_bind, ih, Cond.fv, Stmt.binds, List.mem_cons, List.not_mem_nil, or_false, hf, false_or, not_false_eq_true, and_true]
    rw [occ_other (by simp)]
    simp [Stmt.fv, hm, occ_st]

/-! ### The compilation as a relation -/

/-- What is compiled: an expression, a sequence, or the branches of a choice. -/
inductive Job where
  | one (p : Bool) (e : Expr)
  | seq (p : Bool) (es : List Expr)
  | alts (p : Bool) (es : List Expr) (b : Name) (scope : Ctx.Scope)

/-- Expressions compiled to code around the code that follows. -/
inductive Leaf : Expr → Prop where
  | str {i l} : Leaf (.str i l)
  | any {i} : Leaf (.any i)
  | cls {i l} : Leaf (.cls i l)
  | nt {i r} : Leaf (.nt i r)
  | ext {i p} : Leaf (.ext i p)

/-- Expressions that contain an expression compiled as a recognizer, and before what follows. -/
inductive Discards (T : Nat → Ty) (p : Bool) : Expr → Expr → Prop where
  | star {i e} : (p && T i ≠ .unit) = false → Discards T p (.star i e) e
  | plus {i e} : (p && T i ≠ .unit) = false → Discards T p (.plus i e) e
  | opt {i e} : (p && T i ≠ .unit) = false → Discards T p (.opt i e) e
  | not {i e} : Discards T p (.not i e) e
  | and {i e} : Discards T p (.and i e) e

/-- Expressions that build a vector or an option. -/
inductive Builds (T : Nat → Ty) (p : Bool) : Expr → Expr → Bool → Prop where
  | star {i e} : (p && T i ≠ .unit) = true → Builds T p (.star i e) e true
  | plus {i e} : (p && T i ≠ .unit) = true → Builds T p (.plus i e) e true
  | opt {i e} : (p && T i ≠ .unit) = true → Builds T p (.opt i e) e false

/-- Expressions compiled as the one they contain. -/
inductive Pass (T : Nat → Ty) (p : Bool) : Expr → Bool → Expr → Prop where
  | act {i e b f} : (p && T i ≠ .unit) = false → Pass T p (.act i e b f) false e
  | span {i e} : (p && T i ≠ .unit) = false → Pass T p (.span i e) false e
  | range {i e} : (p && T i ≠ .unit) = false → Pass T p (.range i e) false e
  | asc {i e t} : Pass T p (.asc i e t) (p && T i ≠ .unit) e

/-- Expressions that give their position. -/
inductive Places (T : Nat → Ty) (p : Bool) : Expr → Expr → Prop where
  | span {i e} : (p && T i ≠ .unit) = true → Places T p (.span i e) e
  | range {i e} : (p && T i ≠ .unit) = true → Places T p (.range i e) e

/-- The code that follows a choice, and the context in which its branches are compiled. -/
structure Split (c : Ctx) (S S1 : Ex) (b : Name) (c2 : Ctx) : Prop where
  what : (c.ncomb = 0 ∧ S1 = S ∧ c2.closures = c.closures) ∨
    (0 < c.ncomb ∧ ∃ k, S1 = .call k c.muts c.fv c.marks ∧ c2.closures = c.closures ++ [⟨k, c.muts, c.fv, c.marks, S⟩])
  fv : c2.fv = c.fv
  muts : c2.muts = c.muts ++ [b]
  marks : c2.marks = c.marks
  ncomb : c2.ncomb = 0
  le : c.names.le c2.names
  fresh : ¬ c.names.old b
  old : c2.names.old b

/-- A new scope. -/
structure Opens (c c2 : Ctx) : Prop where
  nodup : c2.fv.Nodup
  fresh : ∀ x ∈ c2.fv, ¬ c.names.old x
  old : ∀ x ∈ c2.fv, c2.names.old x
  marks : c2.marks = c.marks
  closures : c2.closures = c.closures
  ncomb : c2.ncomb = 0
  le : c.names.le c2.names

/-- The variables of the context are those of the scope again. -/
structure Back (c3 c' : Ctx) : Prop where
  marks : c'.marks = c3.marks
  closures : c'.closures = c3.closures
  le : c3.names.le c'.names

/-- The compilation. -/
inductive Comp (T : Nat → Ty) : Job → Ex → Ex → Ctx → List Ex → Ctx → Prop where
  | leaf {p e S F c code c' vs} : Leaf e → c.fv = c'.fv ++ vs → c'.muts = c.muts → c'.marks = c.marks → c'.closures = c.closures → c.names.le c'.names →
      (∀ b x, c.names.old x → x ∉ vs → x ∉ F.occ b → (x ∈ code.occ b ↔ x ∈ S.occ b)) → Comp T (.one p e) S F c [code] c'
  | under {p e e0 S F c c0 body c1 code c'} : Discards T p e e0 → c0.fv = c.fv → c0.muts = c.muts → c0.ncomb = c.ncomb → c0.marks = c.marks → c0.closures = c.closures →
      c.names.le c0.names → Comp T (.one false e0) .st .failure c0 [body] c1 → c'.fv = c1.fv → c'.muts = c1.muts → Back c1 c' →
      (∀ b x, c.names.old x → x ∉ F.occ b → (x ∈ code.occ b ↔ x ∈ body.occ b ∨ x ∈ S.occ b)) → Comp T (.one p e) S F c [code] c'
  | build {p e e0 vec S F c r c2 body c3 code c'} : Builds T p e e0 vec → c.fv = c'.fv ++ [r] → Opens c c2 → c2.muts = [r] →
      Comp T (.one true e0) (.stmt (if vec then .push r (.tup c2.fv) else .setSome r (.tup c2.fv)) .st) .failure c2 [body] c3 → c3.fv = [] → c'.muts = c.muts → Back c3 c' →
      (∀ b x, c.names.old x → x ≠ r → x ∉ F.occ b → (x ∈ code.occ b ↔ x ∈ body.occ b ∨ x ∈ S.occ b)) → Comp T (.one p e) S F c [code] c'
  | act {p i e0 bx f S F c r c2 v code c3 c'} : (p && T i ≠ .unit) = true → c.fv = c'.fv ++ [r] → Opens c c2 → c2.muts = [] → (∀ x ∈ v.fv, x ∈ c2.fv) → (∀ x ∈ c2.fv, x ∈ v.fv) →
      Comp T (.one true e0) (.stmt (.letVal r v) S) F c2 [code] c3 → c3.fv = [] → c'.muts = c.muts → Back c3 c' → Comp T (.one p (.act i e0 bx f)) S F c [code] c'
  | pass {p e p0 e0 S F c code c'} : Pass T p e p0 e0 → Comp T (.one p0 e0) S F c [code] c' → Comp T (.one p e) S F c [code] c'
  | place {p e e0 S F c m r A B c2 v code c3 c'} : Places T p e e0 → c.fv = A ++ r :: B → c2.fv = A ++ B → c2.muts = c.muts → c2.marks = c.marks ++ [m] → c2.ncomb = c.ncomb →
      c2.closures = c.closures → c.names.le c2.names → ¬ c.names.old m → c2.names.old m → v.fv = [m] →
      Comp T (.one true e0) (.stmt (.letVal r v) S) F c2 [code] c3 → c'.fv = c3.fv → c'.muts = c3.muts → c'.marks = c3.marks.dropLast → c'.closures = c3.closures →
      c'.names = c3.names → Comp T (.one p e) S F c [.stmt (.letMark m) code] c'
  | seq {p i es S F c code c'} : Comp T (.seq (p && T i ≠ .unit) es) S F c [code] c' → Comp T (.one p (.seq i es)) S F c [code] c'
  | nil {p S F c} : Comp T (.seq p []) S F c [S] c
  | cons {p e es S F c S1 c1 code c2} : Comp T (.seq p es) S F c [S1] c1 → compile T p e S1 F c1 = .ok (code, c2) → Comp T (.one p e) S1 F c1 [code] c2 → (es ≠ [] → 0 < c1.ncomb) →
      (es = [] → c1 = c) → Comp T (.seq p (e :: es)) S F c [code] c2.incr
  | choice {p i es S F c S1 m b c2 first rest c'} : Split c S S1 b c2 → ¬ c.names.old m → Comp T (.alts (p && T i ≠ .unit) es b c2.saveScope) S1 F c2 (first :: rest) c' →
      Comp T (.one p (.choice i es)) S F c [.stmt (.letMark m) (.stmt (.letTrue b) (.bind first (choiceCode m b rest)))] c'
  | last {p e b scope S F c code c'} : Comp T (.one p e) S F { c.restoreScope scope with muts := scope.muts.dropLast } [code] c' → Comp T (.alts p [e] b scope) S F c [code] c'
  | more {p e es b scope S F c code c1 codes c'} : es ≠ [] → Comp T (.one p e) (.stmt (.setFalse b) S) F (c.restoreScope scope) [code] c1 →
      Comp T (.alts p es b scope) S F c1.incr codes c' → Comp T (.alts p (e :: es) b scope) S F c (code :: codes) c'

/-! ### From the function to the relation -/

theorem opens_scope {c c1 : Ctx} {r : Name} {n : Nat} (h : c.nextFreeVar = .ok (r, c1)) : Opens c (c1.openScope n).2 := by
  obtain ⟨_, e2⟩ := nextFreeVar_eq h
  refine ⟨freshNames_nodup c1 n, fun x hx ho => ?_, fun x hx => freshNames_old hx, ?_, ?_, rfl, ?_⟩
  · simp only [openScope_fv, freshNames, List.mem_map] at hx
    obtain ⟨i, _, rfl⟩ := hx
    have : c1.names = c.names := by rw [e2]
    simp [NameFactory.old, this] at ho
  · rw [openScope_marks, e2]
  · rw [openScope_closures, e2]
  · have := openScope_le c1 n
    rw [e2] at this ⊢
    exact this

theorem occ_repeat {plus : Bool} {body S F : Ex} {c : Ctx} {b : Occ} {x : Name} (ho : c.names.old x) (hF : x ∉ F.occ b) :
    x ∈ (repeatCode plus body S F c).1.occ b ↔ x ∈ body.occ b ∨ x ∈ S.occ b := by
  have h1 : x ≠ c.nextMark.1 := fun h => nextMark_fresh c (h ▸ ho)
  have h2 : x ≠ c.nextMark.2.nextCounter.1 := fun h => nextCounter_fresh c.nextMark.2 (h ▸ (nextMark_adds c).le.old ho)
  cases plus
  · simp only [repeatCode, Bool.false_eq_true, if_false, occ_stmt, occ_loop, Stmt.binds]
    rw [occ_other (by simp), occ_other (by simp)]
    simp [Stmt.fv, h1]
  · simp only [repeatCode, if_true, occ_stmt, occ_loop, occ_ite, Stmt.binds, Cond.fv]
    rw [occ_other (by simp), occ_other (by simp), occ_other (by simp)]
    simp [Stmt.fv, h1, h2, hF]

theorem occ_optional {body S : Ex} {c : Ctx} {b : Occ} {x : Name} (ho : c.names.old x) :
    x ∈ (optionalCode body S c).1.occ b ↔ x ∈ body.occ b ∨ x ∈ S.occ b := by
  have h1 : x ≠ c.nextMark.1 := fun h => nextMark_fresh c (h ▸ ho)
  simp only [optionalCode, occ_stmt, occ_bind, Stmt.binds]
  rw [occ_other (by simp), occ_other (by simp)]
  simp [Stmt.fv, h1]

theorem comp_call {T : Nat → Ty} {p : Bool} {i : Nat} {path : Path} {S F code : Ex} {c c' : Ctx} {e : Expr} (he : Leaf e)
    (h : compileCall T p i path S F c = .ok (code, c')) : Comp T (.one p e) S F c [code] c' := by
  unfold compileCall at h
  split at h
  · obtain ⟨⟨vs, c1⟩, h1, h⟩ := except_bind_eq_ok h
    cases h
    obtain ⟨e1, e2, e3⟩ := nextFreeVars_eq h1
    refine .leaf he e1 (by rw [e2]) (by rw [e2]) (by rw [e2]) (nextFreeVars_adds h1).le fun b x _ hx hF => ?_
    simp only [occ_stmt, occ_ite, Stmt.binds, Cond.fv]
    rw [occ_other (by simp), occ_other (by simp), occ_other (by simp)]
    simp [Stmt.fv, hx, hF]
  · cases h
    refine .leaf (vs := []) he (by simp) rfl rfl rfl (.refl _) fun b x _ hx hF => ?_
    simp only [occ_stmt, occ_ite, Stmt.binds, Cond.fv]
    rw [occ_other (by simp), occ_other (by simp)]
    simp [Stmt.fv, hF]

theorem comp_seq {T : Nat → Ty} {p : Bool} {es : List Expr} (ih : ∀ e ∈ es, ∀ p S F c code c', compile T p e S F c = .ok (code, c') → Comp T (.one p e) S F c [code] c')
    {S F code : Ex} {c c' : Ctx} (h : compileSeq T p es S F c = .ok (code, c')) : Comp T (.seq p es) S F c [code] c' ∧ (es ≠ [] → 0 < c'.ncomb) ∧ (es = [] → c' = c) := by
  induction es generalizing code c' with
  | nil => simp only [compileSeq] at h; cases h; exact ⟨.nil, fun h => absurd rfl h, fun _ => rfl⟩
  | cons e es ihe =>
    rw [compileSeq] at h
    obtain ⟨⟨S1, c1⟩, h1, h⟩ := except_bind_eq_ok h
    obtain ⟨⟨code2, c2⟩, h2, h⟩ := except_bind_eq_ok h
    cases h
    rw [List.forall_mem_cons] at ih
    obtain ⟨g1, g2, g3⟩ := ihe ih.2 h1
    exact ⟨.cons g1 h2 (ih.1 _ _ _ _ _ _ h2) g2 g3, fun _ => Nat.succ_pos _, fun h => by cases h⟩

theorem comp_alts {T : Nat → Ty} {p : Bool} {es : List Expr} (ih : ∀ e ∈ es, ∀ p S F c code c', compile T p e S F c = .ok (code, c') → Comp T (.one p e) S F c [code] c')
    {b : Name} {S F : Ex} {codes : List Ex} {c c' : Ctx} {scope : Ctx.Scope} (h : compileBranches T p es b S F scope c = .ok (codes, c')) :
    Comp T (.alts p es b scope) S F c codes c' := by
  induction es generalizing c codes with
  | nil => simp [compileBranches] at h
  | cons e es ihe =>
    rw [compileBranches] at h
    rw [List.forall_mem_cons] at ih
    split at h
    · rename_i hes
      rw [List.isEmpty_iff] at hes
      subst hes
      obtain ⟨c1, h1, h⟩ := except_bind_eq_ok h
      obtain ⟨⟨code, c2⟩, h2, h⟩ := except_bind_eq_ok h
      cases h
      have := popMut_eq h1
      subst this
      exact .last (ih.1 _ _ _ _ _ _ h2)
    · rename_i hes
      obtain ⟨⟨code, c1⟩, h1, h⟩ := except_bind_eq_ok h
      obtain ⟨⟨codes', c2⟩, h2, h⟩ := except_bind_eq_ok h
      cases h
      exact .more (fun h => by rw [h] at hes; exact hes rfl) (ih.1 _ _ _ _ _ _ h1) (ihe ih.2 h2)

theorem comp_build {T : Nat → Ty} {p : Bool} {e e0 : Expr} (ih : ∀ p S F c code c', compile T p e0 S F c = .ok (code, c') → Comp T (.one p e0) S F c [code] c')
    {vec : Bool} {S F : Ex} {c c1 : Ctx} {body : Ex} {r : Name} {card : Nat} (h : valueConstructor (compile T true e0) card vec c = .ok (body, r, c1)) (he : Builds T p e e0 vec)
    {code : Ex} {c' : Ctx} (hfv : c'.fv = c1.fv) (hmuts : c'.muts = c1.muts) (hb : Back c1 c')
    (hocc : ∀ b x, c1.names.old x → x ≠ r → x ∉ F.occ b → (x ∈ code.occ b ↔ x ∈ body.occ b ∨ x ∈ S.occ b)) : Comp T (.one p e) S F c [code] c' := by
  unfold valueConstructor at h
  obtain ⟨⟨r1, c2⟩, h1, h⟩ := except_bind_eq_ok h
  obtain ⟨⟨body1, c3⟩, h2, h⟩ := except_bind_eq_ok h
  obtain ⟨c4, h3, h⟩ := except_bind_eq_ok h
  cases h
  obtain ⟨e3, e4⟩ := closeScope_eq h3
  subst e4
  obtain ⟨e1, e2⟩ := nextFreeVar_eq h1
  have ho := opens_scope (n := card) h1
  have hc := ih _ _ _ _ _ _ h2
  refine .build (c2 := (c2.openScope card).2.pushMut r) he ?_ ⟨ho.nodup, ho.fresh, ho.old, ho.marks, ho.closures, ho.ncomb, ho.le⟩ rfl hc e3 ?_ ⟨hb.marks, hb.closures, hb.le⟩ fun b x hx => hocc b x ?_
  · rw [hfv]; exact e1
  · rw [hmuts]; show c2.muts = c.muts; rw [e2]
  · have := compile_adds T e0 _ _ _ _ _ _ h2
    exact this.le.old (ho.le.old hx)

theorem comp_under {T : Nat → Ty} {p : Bool} {e e0 : Expr} (ih : ∀ p S F c code c', compile T p e0 S F c = .ok (code, c') → Comp T (.one p e0) S F c [code] c')
    {S F body : Ex} {c c1 : Ctx} (h : compile T false e0 .st .failure c = .ok (body, c1)) (he : Discards T p e e0) {code : Ex} {c' : Ctx} (hfv : c'.fv = c1.fv)
    (hmuts : c'.muts = c1.muts) (hb : Back c1 c') (hocc : ∀ b x, c1.names.old x → x ∉ F.occ b → (x ∈ code.occ b ↔ x ∈ body.occ b ∨ x ∈ S.occ b)) :
    Comp T (.one p e) S F c [code] c' :=
  .under he rfl rfl rfl rfl rfl (.refl _) (ih _ _ _ _ _ _ h) hfv hmuts hb fun b x hx => hocc b x ((compile_adds T e0 _ _ _ _ _ _ h).le.old hx)

/-- Code of predicates. -/
theorem occ_pred {neg : Bool} {body S F : Ex} {m : Name} {b : Occ} {x : Name} (hm : x ≠ m) (hx : x ≠ .isSuccess) (hF : x ∉ F.occ b) :
    x ∈ (Ex.stmt (.letMark m) (.bind body (.stmt .letIsSuccess (.stmt (.restore m) (.ite (.var .isSuccess) (if neg then F else S) (if neg then S else F)))))).occ b ↔
      x ∈ body.occ b ∨ x ∈ S.occ b := by
  simp only [occ_stmt, occ_bind, occ_ite, Stmt.binds, Cond.fv]
  rw [occ_other (by simp), occ_other (by simp), occ_other (by simp)]
  cases neg <;> simp [Stmt.fv, hm, hx, hF]

theorem successAsClosure_what (c : Ctx) (S : Ex) : (c.ncomb = 0 ∧ (c.successAsClosure S).1 = S ∧ (c.successAsClosure S).2.closures = c.closures) ∨
    (0 < c.ncomb ∧ ∃ k, (c.successAsClosure S).1 = .call k c.muts c.fv c.marks ∧
      (c.successAsClosure S).2.closures = c.closures ++ [⟨k, c.muts, c.fv, c.marks, S⟩]) := by
  unfold Ctx.successAsClosure
  split
  · rename_i h; exact .inr ⟨h, _, rfl, rfl⟩
  · exact .inl ⟨by omega, rfl, rfl⟩

theorem actionCall_sub (b : Bool) (f : Path) (u : Bool) (vs : List Name) : ∀ x ∈ (actionCall b f u vs).fv, x ∈ vs := by
  rw [actionCall_eq]
  split <;> split <;> simp [VEx.fv]

theorem compile_comp (T : Nat → Ty) (e : Expr) : ∀ p S F c code c', compile T p e S F c = .ok (code, c') → Comp T (.one p e) S F c [code] c' := by
  induction e using Expr.ind with
  | str i l =>
    intro p S F c code c' h
    rw [compile] at h
    cases h
    refine .leaf (vs := []) .str (by simp) rfl rfl rfl (.refl _) fun b x _ _ hF => ?_
    simp only [occ_ifPrefix, occ_stmt]
    rw [occ_other (by simp)]
    simp [Stmt.fv, hF]
  | any i =>
    intro p S F c code c' h
    rw [compile] at h
    split at h
    · obtain ⟨⟨v, c1⟩, h1, h⟩ := except_bind_eq_ok h
      cases h
      obtain ⟨e1, e2⟩ := nextFreeVar_eq h1
      refine .leaf .any e1 (by rw [e2]) (by rw [e2]) (by rw [e2]) (nextFreeVar_adds h1).le fun b x _ hx hF => ?_
      simp only [occ_matchNext, occ_stmt]
      rw [occ_other (by simp)]
      have : x ≠ v := by simpa using hx
      simp [Stmt.fv, hF, this]
    · cases h
      refine .leaf (vs := []) .any (by simp) rfl rfl rfl (.refl _) fun b x _ _ hF => ?_
      simp only [occ_matchNext, occ_stmt]
      rw [occ_other (by simp)]
      simp [Stmt.fv, hF]
  | cls i ivs =>
    intro p S F c code c' h
    rw [compile] at h
    have key : ∀ (v : Name) (c1 : Ctx) (cond : CharCond) (b : Occ) (x : Name), c1.names.old x → x ≠ v → x ∉ F.occ b →
        (x ∈ (Ex.stmt (.letMark c1.nextMark.1) (.matchClass v cond S (.stmt (.restore c1.nextMark.1) (.stmt (.error (classDesc ivs)) F)))).occ b ↔ x ∈ S.occ b) := by
      intro v c1 cond b x ho hx hF
      have h1 : x ≠ c1.nextMark.1 := fun h => nextMark_fresh c1 (h ▸ ho)
      simp only [occ_matchClass, occ_stmt]
      rw [occ_other (by simp), occ_other (by simp), occ_other (by simp)]
      simp [Stmt.fv, hF, hx, h1, Stmt.binds]
    split at h
    · obtain ⟨⟨v, c1⟩, h1, h⟩ := except_bind_eq_ok h
      obtain ⟨cond, h2, h⟩ := except_bind_eq_ok h
      cases h
      obtain ⟨e1, e2⟩ := nextFreeVar_eq h1
      have hn : c1.names = c.names := by rw [e2]
      refine .leaf (c' := c1.nextMark.2) .cls e1 (by show c1.muts = _; rw [e2]) (by show c1.marks = _; rw [e2]) (by show c1.closures = _; rw [e2])
        ((nextFreeVar_adds h1).trans (nextMark_adds c1)).le fun b x ho hx hF => ?_
      exact key v c1 cond b x (hn ▸ ho) (by simpa using hx) hF
    · obtain ⟨⟨v, c1⟩, h1, h⟩ := except_bind_eq_ok h
      cases h1
      obtain ⟨cond, h2, h⟩ := except_bind_eq_ok h
      cases h
      refine .leaf (vs := []) (c' := c.nextMark.2) .cls (by simp [Ctx.nextMark]) rfl rfl rfl (nextMark_adds c).le fun b x ho hx hF => ?_
      exact key .x c cond b x ho (fun h => by rw [h] at ho; exact ho) hF
  | nt i r => intro p S F c code c' h; rw [compile] at h; exact comp_call .nt h
  | ext i r => intro p S F c code c' h; rw [compile] at h; exact comp_call .ext h
  | seq i es ih => intro p S F c code c' h; rw [compile] at h; exact .seq (comp_seq ih h).1
  | choice i es ih =>
    intro p S F c code c' h
    rw [compile] at h
    obtain ⟨⟨brs, c1⟩, h1, h⟩ := except_bind_eq_ok h
    cases brs with
    | nil => cases h
    | cons b brs =>
      cases h
      obtain ⟨g1, g2, g3, g4⟩ := successAsClosure_ctx c S
      have a1 := successAsClosure_adds c S
      have a2 := a1.trans (nextMark_adds _)
      have a3 := a2.trans (nextBranchFailed_adds _)
      have hb := comp_alts ih h1
      refine .choice (S1 := (c.successAsClosure S).1) ⟨?_, ?_, ?_, ?_, ?_, ?_, ?_, ?_⟩ ?_ hb
      · exact successAsClosure_what c S
      · exact g1
      · show (c.successAsClosure S).2.muts ++ [_] = _
        rw [g2]
      · exact g3
      · exact g4
      · exact a3.le
      · exact fun ho => nextBranchFailed_fresh _ (a2.le.old ho)
      · exact nextBranchFailed_old _
      · exact fun ho => nextMark_fresh _ (a1.le.old ho)
  | star i e ih =>
    intro p S F c code c' h
    rw [compile] at h
    split at h
    · rename_i hp
      obtain ⟨⟨body, r, c1⟩, h1, h⟩ := except_bind_eq_ok h
      cases h
      refine comp_build ih h1 (.star hp) rfl rfl ⟨rfl, rfl, (repeatCode_adds false body S F c1).le⟩ fun b x ho hx hF => ?_
      have q := occ_repeat (plus := false) (body := body) (S := S) ho hF
      rw [occ_stmt, occ_other (by simp)]
      refine Iff.trans (or_congr Iff.rfl (and_congr q Iff.rfl)) ?_
      simp [Stmt.fv, Stmt.binds, hx]
    · rename_i hp
      obtain ⟨⟨body, c1⟩, h1, h⟩ := except_bind_eq_ok h
      cases h
      refine comp_under ih h1 (.star (by simpa using hp)) rfl rfl ⟨rfl, rfl, (repeatCode_adds false body S F c1.incr).le⟩ fun b x ho hF => ?_
      have q := occ_repeat (plus := false) (body := body) (S := S) (c := c1.incr) ho hF
      exact q
  | plus i e ih =>
    intro p S F c code c' h
    rw [compile] at h
    split at h
    · rename_i hp
      obtain ⟨⟨body, r, c1⟩, h1, h⟩ := except_bind_eq_ok h
      cases h
      refine comp_build ih h1 (.plus hp) rfl rfl ⟨rfl, rfl, (repeatCode_adds true body S F c1).le⟩ fun b x ho hx hF => ?_
      have q := occ_repeat (plus := true) (body := body) (S := S) ho hF
      rw [occ_stmt, occ_other (by simp)]
      refine Iff.trans (or_congr Iff.rfl (and_congr q Iff.rfl)) ?_
      simp [Stmt.fv, Stmt.binds, hx]
    · rename_i hp
      obtain ⟨⟨body, c1⟩, h1, h⟩ := except_bind_eq_ok h
      cases h
      refine comp_under ih h1 (.plus (by simpa using hp)) rfl rfl ⟨rfl, rfl, (repeatCode_adds true body S F c1.incr).le⟩ fun b x ho hF => ?_
      have q := occ_repeat (plus := true) (body := body) (S := S) (c := c1.incr) ho hF
      exact q
  | opt i e ih =>
    intro p S F c code c' h
    rw [compile] at h
    split at h
    · rename_i hp
      obtain ⟨⟨body, r, c1⟩, h1, h⟩ := except_bind_eq_ok h
      cases h
      refine comp_build ih h1 (.opt hp) rfl rfl ⟨rfl, rfl, (optionalCode_adds body S c1).le⟩ fun b x ho hx hF => ?_
      have q := occ_optional (body := body) (S := S) (b := b) ho
      rw [occ_stmt, occ_other (by simp)]
      refine Iff.trans (or_congr Iff.rfl (and_congr q Iff.rfl)) ?_
      simp [Stmt.fv, Stmt.binds, hx]
    · rename_i hp
      obtain ⟨⟨body, c1⟩, h1, h⟩ := except_bind_eq_ok h
      cases h
      refine comp_under ih h1 (.opt (by simpa using hp)) rfl rfl ⟨rfl, rfl, (optionalCode_adds body S c1.incr).le⟩ fun b x ho hF => ?_
      have q := occ_optional (body := body) (S := S) (b := b) (c := c1.incr) ho
      exact q
  | not i e ih =>
    intro p S F c code c' h
    rw [compile] at h
    split at h
    · cases h
    · obtain ⟨⟨body, c1⟩, h1, h⟩ := except_bind_eq_ok h
      cases h
      have hc := ih _ _ _ _ _ _ h1
      refine .under (c0 := c.nextMark.2) .not rfl rfl rfl rfl rfl (nextMark_adds c).le hc rfl rfl ⟨rfl, rfl, .refl _⟩ fun b x ho hF => ?_
      have q := occ_pred (neg := true) (body := body) (S := S) (F := F) (m := c.nextMark.1) (b := b) (x := x) (fun h => nextMark_fresh c (h ▸ ho)) (fun h => by rw [h] at ho; exact ho) hF
      exact q
  | and i e ih =>
    intro p S F c code c' h
    rw [compile] at h
    split at h
    · cases h
    · obtain ⟨⟨body, c1⟩, h1, h⟩ := except_bind_eq_ok h
      cases h
      have hc := ih _ _ _ _ _ _ h1
      refine .under (c0 := c.nextMark.2) .and rfl rfl rfl rfl rfl (nextMark_adds c).le hc rfl rfl ⟨rfl, rfl, .refl _⟩ fun b x ho hF => ?_
      have q := occ_pred (neg := false) (body := body) (S := S) (F := F) (m := c.nextMark.1) (b := b) (x := x) (fun h => nextMark_fresh c (h ▸ ho)) (fun h => by rw [h] at ho; exact ho) hF
      exact q
  | act i e boxed f ih =>
    intro p S F c code c' h
    rw [compile] at h
    split at h
    · rename_i hp
      obtain ⟨⟨r, c1⟩, h1, h⟩ := except_bind_eq_ok h
      obtain ⟨⟨code1, c2⟩, h2, h⟩ := except_bind_eq_ok h
      obtain ⟨c3, h3, h⟩ := except_bind_eq_ok h
      cases h
      obtain ⟨e1, e2⟩ := nextFreeVar_eq h1
      obtain ⟨e3, e4⟩ := closeScope_eq h3
      subst e4
      refine .act hp e1 (opens_scope h1) rfl ?_ ?_ (ih _ _ _ _ _ _ h2) e3 (by show c1.muts = _; rw [e2]) ⟨rfl, rfl, .refl _⟩
      · exact actionCall_sub _ _ _ _
      · intro x hx
        rw [actionCall_eq]
        cases hv : (Spec.isVariant f && decide (T e.id = .unit))
        · cases boxed <;> exact hx
        · simp only [Bool.and_eq_true, decide_eq_true_eq] at hv
          rw [openScope_fv, hv.2] at hx
          simp [freshNames, Ty.card] at hx
    · rename_i hp
      exact .pass (.act (by simpa using hp)) (ih _ _ _ _ _ _ h)
  | asc i e t ih =>
    intro p S F c code c' h
    rw [compile] at h
    exact .pass .asc (ih _ _ _ _ _ _ h)
  | span i e ih =>
    intro p S F c code c' h
    rw [compile] at h
    split at h
    · rename_i hp
      obtain ⟨⟨r, c1⟩, h1, h⟩ := except_bind_eq_ok h
      obtain ⟨⟨code1, c2⟩, h2, h⟩ := except_bind_eq_ok h
      cases h
      obtain ⟨A, B, e1, e2, rfl⟩ := nextFreeVarSkip_eq h1
      have hc := ih _ _ _ _ _ _ h2
      exact .place (c2 := Ctx.pushMark ({ c.nextMark.2 with fv := A ++ B } : Ctx) c.nextMark.1) (c3 := c2) (v := .span c.nextMark.1) (.span hp) e1 rfl rfl rfl rfl rfl (nextMark_adds c).le (nextMark_fresh c) (nextMark_old c) rfl hc rfl rfl rfl rfl rfl
    · rename_i hp
      exact .pass (.span (by simpa using hp)) (ih _ _ _ _ _ _ h)
  | range i e ih =>
    intro p S F c code c' h
    rw [compile] at h
    split at h
    · rename_i hp
      obtain ⟨⟨r, c1⟩, h1, h⟩ := except_bind_eq_ok h
      obtain ⟨⟨code1, c2⟩, h2, h⟩ := except_bind_eq_ok h
      cases h
      obtain ⟨A, B, e1, e2, rfl⟩ := nextFreeVarSkip_eq h1
      have hc := ih _ _ _ _ _ _ h2
      exact .place (c2 := Ctx.pushMark ({ c.nextMark.2 with fv := A ++ B } : Ctx) c.nextMark.1) (c3 := c2) (v := .range c.nextMark.1) (.range hp) e1 rfl rfl rfl rfl rfl (nextMark_adds c).le (nextMark_fresh c) (nextMark_old c) rfl hc rfl rfl rfl rfl rfl
    · rename_i hp
      exact .pass (.range (by simpa using hp)) (ih _ _ _ _ _ _ h)

end Oak
