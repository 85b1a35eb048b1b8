import Verif.Proofs.ActionCall
import Verif.Proofs.TypingEnd
import Verif.Proofs.Owned
/-! The types of the variables that hold `Copy` values, in any typing of the generated code. -/
set_option autoImplicit false
set_option linter.constructorNameAsVariable false

namespace Oak

/-- The variables in scope have the types of `ty`; closures see references. -/
def Consistent (ty : Name → VTy) (Γ : TEnv) : Prop := ∀ x u, Γ x = some u → u = ty x ∨ u = .mutRef (ty x)

/-- The code is typed somewhere. -/
def CodeTyped (sg : Sigs) (ty : Name → VTy) (S : Ex) : Prop := ∃ K Γ D t, Consistent ty Γ ∧ ExOk sg (fun x u => ty x = u) K Γ D S t

section
variable {sg : Sigs} {ty : Name → VTy}

theorem Consistent.set {Γ : TEnv} (h : Consistent ty Γ) {x : Name} {t : VTy} (hx : ty x = t) : Consistent ty (Γ.set x t) := by
  intro y u hy
  unfold TEnv.set at hy
  split at hy
  · cases hy; subst_vars; exact .inl rfl
  · exact h y u hy

theorem Consistent.setMany {Γ : TEnv} (h : Consistent ty Γ) {xs : List Name} {ts : List VTy} (hx : OkAll (fun x u => ty x = u) xs ts) : Consistent ty (Γ.setMany xs ts) := by
  induction xs generalizing ts with
  | nil => exact h
  | cons x xs ih =>
    cases ts with
    | nil => exact h
    | cons t ts =>
      rw [TEnv.setMany]
      refine (ih fun p hp => hx p (by simp [hp])).set ?_
      exact hx (x, t) (by simp)

theorem Consistent.setRefs {Γ : TEnv} (h : Consistent ty Γ) {xs : List Name} {ts : List VTy} (hx : OkAll (fun x u => ty x = u) xs ts) :
    Consistent ty (Γ.setMany xs (ts.map .mutRef)) := by
  induction xs generalizing ts with
  | nil => exact h
  | cons x xs ih =>
    cases ts with
    | nil => exact h
    | cons t ts =>
      rw [List.map_cons, TEnv.setMany]
      have h1 := ih (ts := ts) fun p hp => hx p (by simp [hp])
      have h2 : ty x = t := hx (x, t) (by simp)
      intro y u hy
      unfold TEnv.set at hy
      split at hy
      · cases hy; subst_vars; exact .inr rfl
      · exact h1 y u hy

theorem Consistent.stmt {Γ Γ' : TEnv} {D D' : SVar} {s : Stmt} (h : Consistent ty Γ) (hs : StmtOk sg (fun x u => ty x = u) Γ D s Γ' D') : Consistent ty Γ' := by
  cases hs with
  | letMark k => exact h.set k
  | letVal k _ => exact h.set k
  | letNone k => exact h.set k
  | letVec k => exact h.set k
  | letTrue k => exact h.set k
  | letZero k => exact h.set k
  | letIsSuccess k => exact h.set k
  | extract k _ => exact h.setMany k
  | _ => exact h

theorem Consistent.empty : Consistent ty TEnv.empty := by intro x u h; cases h

theorem Consistent.closure {sig : ClosureSig} {c : Closure} (h1 : OkAll (fun x u => ty x = u) c.muts sig.muts) (h2 : OkAll (fun x u => ty x = u) c.vars sig.vars)
    (h3 : OkAll (fun x u => ty x = u) c.marks sig.marks) : Consistent ty (sig.env c) :=
  ((Consistent.empty.setMany h3).setMany h2).setRefs h1

theorem CodeTyped.stmt {s : Stmt} {e : Ex} (h : CodeTyped sg ty (.stmt s e)) : CodeTyped sg ty e := by
  obtain ⟨K, Γ, D, t, h1, h2⟩ := h
  cases h2 with
  | stmt a b => exact ⟨K, _, _, t, h1.stmt a, b⟩

theorem CodeTyped.bind {e k : Ex} (h : CodeTyped sg ty (.bind e k)) : CodeTyped sg ty e ∧ CodeTyped sg ty k := by
  obtain ⟨K, Γ, D, t, h1, h2⟩ := h
  cases h2 with
  | bind a b => exact ⟨⟨K, _, _, _, h1, a⟩, ⟨K, _, _, _, h1, b⟩⟩

theorem CodeTyped.loop {e k : Ex} {c : Option Name} {m : Name} (h : CodeTyped sg ty (.loop e c m k)) : CodeTyped sg ty e ∧ CodeTyped sg ty k := by
  obtain ⟨K, Γ, D, t, h1, h2⟩ := h
  cases h2 with
  | loop a _ _ b => exact ⟨⟨K, _, _, _, h1, a⟩, ⟨K, _, _, _, h1, b⟩⟩

theorem CodeTyped.ite {c : Cond} {a b : Ex} (h : CodeTyped sg ty (.ite c a b)) : CodeTyped sg ty a ∧ CodeTyped sg ty b := by
  obtain ⟨K, Γ, D, t, h1, h2⟩ := h
  cases h2 with
  | ite _ a b => exact ⟨⟨K, _, _, _, h1, a⟩, ⟨K, _, _, _, h1, b⟩⟩

theorem CodeTyped.ifPrefix {l : String} {a b : Ex} (h : CodeTyped sg ty (.ifPrefix l a b)) : CodeTyped sg ty a := by
  obtain ⟨K, Γ, D, t, h1, h2⟩ := h
  cases h2 with
  | ifPrefix a b => exact ⟨K, _, _, _, h1, a⟩

theorem CodeTyped.matchNext {a b : Ex} (h : CodeTyped sg ty (.matchNext none a b)) : CodeTyped sg ty a := by
  obtain ⟨K, Γ, D, t, h1, h2⟩ := h
  cases h2 with
  | matchNext a b => exact ⟨K, _, _, _, h1, a⟩

theorem CodeTyped.matchNextVar {x : Name} {a b : Ex} (h : CodeTyped sg ty (.matchNext (some x) a b)) : CodeTyped sg ty a ∧ ty x = .val .char := by
  obtain ⟨K, Γ, D, t, h1, h2⟩ := h
  cases h2 with
  | matchNextVar h a b => exact ⟨⟨K, _, _, _, h1.set h, a⟩, h⟩

theorem CodeTyped.matchClass {x : Name} {c : CharCond} {a b : Ex} (h : CodeTyped sg ty (.matchClass x c a b)) : CodeTyped sg ty a ∧ ty x = .val .char := by
  obtain ⟨K, Γ, D, t, h1, h2⟩ := h
  cases h2 with
  | matchClass h a b => exact ⟨⟨K, _, _, _, h1.set h, a⟩, h⟩

theorem CodeTyped.letVal {r : Name} {v : VEx} {e : Ex} (h : CodeTyped sg ty (.stmt (.letVal r v) e)) : ∃ Γ u, Consistent ty Γ ∧ ty r = .val u ∧ ValOk sg Γ v u := by
  obtain ⟨K, Γ, D, t, h1, h2⟩ := h
  cases h2 with
  | stmt a b => cases a with | letVal a1 a2 => exact ⟨Γ, _, h1, a1, a2⟩

theorem CodeTyped.setSome {r : Name} {v : VEx} {e : Ex} (h : CodeTyped sg ty (.stmt (.setSome r v) e)) :
    ∃ Γ u, Consistent ty Γ ∧ ty r = .val (.option u) ∧ ValOk sg Γ v u := by
  obtain ⟨K, Γ, D, t, h1, h2⟩ := h
  cases h2 with
  | stmt a b => cases a with
    | setSome a1 a2 =>
      refine ⟨Γ, _, h1, ?_, a2⟩
      rcases h1 _ _ a1 with h | h
      · exact h.symm
      · cases h

/-- The variables of a tuple. -/
theorem ValOk.tup_inv {Γ : TEnv} (hc : Consistent ty Γ) {vs : List Name} {u : RTy} (h : ValOk sg Γ (.tup vs) u) : ∃ ts : List RTy, u = .pack ts ∧ vs.map ty = ts.map .val := by
  cases h with
  | @tup _ ts h =>
    refine ⟨ts, rfl, ?_⟩
    unfold TEnv.Has at h
    induction vs generalizing ts with
    | nil => cases ts with | nil => rfl | cons => simp at h
    | cons x vs ih =>
      cases ts with
      | nil => simp at h
      | cons t ts =>
        simp only [List.map_cons, List.cons.injEq] at h ⊢
        refine ⟨?_, ih h.2⟩
        rcases hc _ _ h.1 with h | h
        · exact h.symm
        · cases h

/-- The variables that take the result of a parser. -/
theorem CodeTyped.extract {p : Path} {vs : List Name} {S F : Ex} {c : Cond} (h : CodeTyped sg ty (.stmt (.call ⟨true, p⟩) (.ite c (.stmt (.extract vs) S) F))) :
    CodeTyped sg ty S ∧ ∃ ts : List RTy, sg.parser p (.pack ts) ∧ vs.length = ts.length ∧ OkAll (fun x u => ty x = u) vs (ts.map .val) := by
  refine ⟨h.stmt.ite.1.stmt, ?_⟩
  obtain ⟨K, Γ, D, t, h1, h2⟩ := h
  cases h2 with
  | stmt a b => cases a with
    | parse hp => cases b with
      | ite _ b _ => cases b with
        | stmt a' _ => cases a' with
          | extract k1 k2 => exact ⟨_, hp, k2, k1⟩

theorem closures_codeTyped {K K' : Nat → Option ClosureSig} {cs : List Closure} (h : ClosuresTyped sg (fun x u => ty x = u) K cs K') : ∀ cl ∈ cs, CodeTyped sg ty cl.body := by
  induction h with
  | nil => simp
  | cons _ _ _ h1 h2 h3 h4 _ ih =>
    rw [List.forall_mem_cons]
    exact ⟨⟨_, _, _, _, .closure h1 h2 h3, h4⟩, ih⟩

end

/-! ### Copy types -/

theorem copyAll_iff {cp : String → Bool} {ts : List RTy} : copyAll cp ts = true ↔ ∀ t ∈ ts, t.copy cp = true := by
  induction ts with
  | nil => simp [copyAll]
  | cons t ts ih => simp [copyAll, ih]

theorem pack_copy {cp : String → Bool} {ts : List RTy} : (RTy.pack ts).copy cp = true ↔ ∀ t ∈ ts, t.copy cp = true := by
  match ts with
  | [] => simp [RTy.pack, RTy.copy]
  | [t] => simp [RTy.pack]
  | a :: b :: l =>
    show (RTy.tuple (a :: b :: l)).copy cp = true ↔ _
    rw [RTy.copy, copyAll_iff]

theorem copy_of_okAll {ty : Name → VTy} {cp : String → Bool} {vs : List Name} {ts : List RTy} (h : OkAll (fun x u => ty x = u) vs (ts.map .val)) (hl : vs.length = ts.length)
    (hc : ∀ t ∈ ts, t.copy cp = true) : ∀ x ∈ vs, (ty x).copy cp = true := by
  induction vs generalizing ts with
  | nil => simp
  | cons x vs ih =>
    cases ts with
    | nil => simp at hl
    | cons t ts =>
      rw [List.forall_mem_cons] at hc ⊢
      have h1 : ty x = .val t := h (x, .val t) (by simp)
      refine ⟨by rw [h1]; exact hc.1, ih (fun p hp => h p (by simp [hp])) (by simpa using hl) hc.2⟩

theorem copy_of_map {ty : Name → VTy} {cp : String → Bool} {vs : List Name} {ts : List RTy} (h : vs.map ty = ts.map .val) (hc : ∀ x ∈ vs, (ty x).copy cp = true) :
    ∀ t ∈ ts, t.copy cp = true := by
  intro t ht
  have : VTy.val t ∈ vs.map ty := by rw [h]; exact List.mem_map_of_mem ht
  obtain ⟨x, hx, hx'⟩ := List.mem_map.1 this
  have := hc x hx
  rw [hx'] at this
  exact this

theorem action_rust {A : AGrammar} {T : Nat → Ty} {Γ : TEnv} {b : Bool} {f : Path} {u : Bool} {vs : List Name} {s : String} {t : RTy} (h : actionType A b f = .rust s)
    (hv : ValOk (A.sigs T) Γ (actionCall b f u vs) t) : t = .rust s := by
  unfold actionType at h
  split at h
  · rename_i name
    split at h
    · rename_i n fn hf
      split at h
      · cases h
      · rename_i t0 ht0
        have hfn : (A.sigs T).function [name] = some (.rust t0) := by simp only [AGrammar.sigs, hf, ht0, Option.map_some]
        have key : ∀ w, ValOk (A.sigs T) Γ (if Spec.isVariant [name] && u then .path [name] else .call [name] vs) w → w = .rust t0 := by
          intro w hw
          split at hw
          · cases hw with | path h => rw [hfn] at h; cases h
          · cases hw with
            | call _ h => rw [hfn] at h; cases h; rfl
            | callUnknown _ h => rw [hfn] at h; cases h
        cases h
        rw [actionCall_eq] at hv
        cases b
        · exact key t hv
        · rw [if_pos rfl] at hv
          cases hv with
          | box h => have := key _ h; cases this; rfl
          | boxUnknown h => have := key .unit (h .unit); cases this
    · cases h
  · cases h

/-! ### Inversion of the typing of compiled code -/

theorem compileType_mono {T : Nat → Ty} : ∀ {n i : Nat} {t : RTy}, compileType T n i = .ok t → compileType T (n + 1) i = .ok t := by
  intro n
  induction n with
  | zero => intro i t h; cases h
  | succ n ih =>
    intro i t h
    rw [compileType] at h ⊢
    split at h
    · exact h
    · exact h
    · obtain ⟨u, h1, h2⟩ := Res.bind_eq_ok h
      rw [ih h1]; exact h2
    · obtain ⟨u, h1, h2⟩ := Res.bind_eq_ok h
      rw [ih h1]; exact h2
    · exact h
    · obtain ⟨us, h1, h2⟩ := Res.bind_eq_ok h
      have key : ∀ (is : List Nat) (us : List RTy), is.mapM (fun i => compileType T n i) = .ok us → is.mapM (fun i => compileType T (n + 1) i) = .ok us := by
        intro is
        induction is with
        | nil => intro us h; exact h
        | cons j is ihs =>
          intro us h
          rw [List.mapM_cons] at h ⊢
          obtain ⟨u, a1, h⟩ := Res.bind_eq_ok h
          obtain ⟨us', a2, h⟩ := Res.bind_eq_ok h
          rw [ih a1]
          show (List.mapM (fun i => compileType T (n + 1) i) is >>= fun us' => pure (u :: us')) = _
          rw [ihs _ a2]; exact h
      rw [key _ _ h1]; exact h2

theorem compileType_det {T : Nat → Ty} {n m i : Nat} {t u : RTy} (h1 : compileType T n i = .ok t) (h2 : compileType T m i = .ok u) : t = u := by
  have key : ∀ k, compileType T (n + k) i = .ok t ∧ compileType T (m + k) i = .ok u := by
    intro k
    induction k with
    | zero => exact ⟨h1, h2⟩
    | succ k ih => exact ⟨compileType_mono ih.1, compileType_mono ih.2⟩
  have a := (key m).1
  have b := (key n).2
  rw [Nat.add_comm m n] at b
  rw [a] at b; cases b; rfl

section
variable {A : AGrammar} {T : Nat → Ty} {ty : Name → VTy} {cp : String → Bool}

/-- What is proved of every expression. -/
def Inverts (A : AGrammar) (T : Nat → Ty) (ty : Name → VTy) (cp : String → Bool) (e : Expr) : Prop :=
  ∀ p S F c code c', sized T p e = true → compile T p e S F c = .ok (code, c') → CodeTyped (A.sigs T) ty code → (∀ cl ∈ c'.closures, CodeTyped (A.sigs T) ty cl.body) →
    CodeTyped (A.sigs T) ty S ∧ (CopyValue A T cp e → ∀ L Q, c.fv = L ++ Q → Q.length = arity T p e → ∀ x ∈ Q, (ty x).copy cp = true)

theorem last_eq {L Q M : List Name} {r : Name} (h : L ++ Q = M ++ [r]) (hl : Q.length = 1) : Q = [r] := by
  obtain ⟨_, h⟩ := List.append_inj' h (by simpa using hl)
  exact h

theorem choiceCode_typed {sg : Sigs} {m b : Name} : ∀ {l : List Ex}, CodeTyped sg ty (choiceCode m b l) → ∀ e ∈ l, CodeTyped sg ty e
  | [], _ => by simp
  | e :: l, h => by
    rw [choiceCode] at h
    have h1 := h.ite.1.stmt.bind
    rw [List.forall_mem_cons]
    exact ⟨h1.1, choiceCode_typed h1.2⟩

theorem call_inverts {e : Expr} {i : Nat} {path : Path}
    (hcomp : ∀ p S F c, compile T p e S F c = compileCall T p i path S F c) (har : ∀ p, arity T p e = if p && T i ≠ .unit then (T i).card else 0)
    (hP : CopyValue A T cp e → ∃ r b n t, path = [r] ∧ A.grammar.find r = some b ∧ compileType T n b.id = .ok t ∧ t.copy cp = true) : Inverts A T ty cp e := by
  intro p S F c code c' hsz h ht hcl
  rw [hcomp, compileCall] at h
  rw [har]
  split at h
  · rename_i hp
    obtain ⟨⟨vs, c1⟩, h1, h⟩ := except_bind_eq_ok h
    cases h
    obtain ⟨e1, e2, e3⟩ := nextFreeVars_eq h1
    obtain ⟨k1, ts, k2, k3, k4⟩ := ht.extract
    refine ⟨k1, fun hc L Q hQ hl => ?_⟩
    rw [if_pos hp] at hl
    rw [e1] at hQ
    obtain ⟨_, rfl⟩ := List.append_inj' hQ (by rw [e3, hl])
    obtain ⟨r, b, n, t, rfl, hb, hv, hcv⟩ := hP hc
    obtain ⟨m, hm⟩ := k2 r b rfl hb
    rw [compileType_det hv hm, pack_copy] at hcv
    exact copy_of_okAll k4 k3 hcv
  · rename_i hp
    cases h
    refine ⟨ht.stmt.ite.1.stmt, fun _ L Q _ hl => ?_⟩
    rw [if_neg hp] at hl
    rw [List.eq_nil_of_length_eq_zero hl]
    simp

theorem seq_inverts {es : List Expr} (ih : ∀ e ∈ es, Inverts A T ty cp e) {p : Bool} {S F code : Ex} {c c' : Ctx} (hsz : sizedAll T p es = true)
    (h : compileSeq T p es S F c = .ok (code, c')) (ht : CodeTyped (A.sigs T) ty code) (hcl : ∀ cl ∈ c'.closures, CodeTyped (A.sigs T) ty cl.body) :
    CodeTyped (A.sigs T) ty S ∧ ((∀ e ∈ es, CopyValue A T cp e) → ∀ L Q, c.fv = L ++ Q → Q.length = aritySeq T p es → ∀ x ∈ Q, (ty x).copy cp = true) := by
  induction es generalizing code c' with
  | nil =>
    simp only [compileSeq] at h; cases h
    refine ⟨ht, fun _ L Q _ hl => ?_⟩
    rw [List.eq_nil_of_length_eq_zero hl]; simp
  | cons e es ihe =>
    rw [compileSeq] at h
    obtain ⟨⟨S1, c1⟩, h1, h⟩ := except_bind_eq_ok h
    obtain ⟨⟨code2, c2⟩, h2, h⟩ := except_bind_eq_ok h
    cases h
    rw [List.forall_mem_cons] at ih
    rw [sizedAll, Bool.and_eq_true] at hsz
    have hcl2 : ∀ cl ∈ c2.closures, CodeTyped (A.sigs T) ty cl.body := hcl
    obtain ⟨k1, k2⟩ := ih.1 _ _ _ _ _ _ hsz.1 h2 ht hcl2
    have g := compile_adds T e _ _ _ _ _ _ h2
    obtain ⟨k3, k4⟩ := ihe ih.2 hsz.2 h1 k1 fun cl h => hcl2 cl (g.sub cl h)
    refine ⟨k3, fun hc L Q hQ hl => ?_⟩
    rw [List.forall_mem_cons] at hc
    obtain ⟨⟨P, m1, m2⟩, _, _⟩ := seq_moves (fun e' he' => compile_moves T e' p (sizedAll_iff.1 hsz.2 e' he')) h1
    rw [aritySeq] at hl
    -- `Q` is made of the variables of `e` and of those of `es`
    have hlen : P.length ≤ Q.length := by omega
    obtain ⟨Q1, rfl⟩ : ∃ Q1, Q = Q1 ++ P := by
      have hs : P <:+ Q := by
        have h1 : P <:+ L ++ Q := ⟨c1.fv, by rw [← hQ, m1]⟩
        have h2 : Q <:+ L ++ Q := ⟨L, rfl⟩
        exact List.suffix_of_suffix_length_le h1 h2 hlen
      obtain ⟨Q1, h⟩ := hs
      exact ⟨Q1, h.symm⟩
    have hQ' : c1.fv = L ++ Q1 := by
      rw [m1, ← List.append_assoc] at hQ
      exact List.append_cancel_right hQ
    intro x hx
    rcases List.mem_append.1 hx with hx | hx
    · exact k2 hc.1 L Q1 hQ' (by simp at hl; omega) x hx
    · exact k4 hc.2 _ P m1 m2 x hx

theorem sac_inverts {c c1 : Ctx} {S : Ex} (g : Adds (c.successAsClosure S).2 c1) (hcl : ∀ cl ∈ c1.closures, CodeTyped (A.sigs T) ty cl.body)
    (h : CodeTyped (A.sigs T) ty (c.successAsClosure S).1) : CodeTyped (A.sigs T) ty S := by
  unfold Ctx.successAsClosure at g h
  split at h
  · rename_i hn
    rw [if_pos hn] at g
    exact hcl _ (g.sub ⟨c.names.closureUid + 1, c.muts, c.fv, c.marks, S⟩ (by simp))
  · exact h

theorem branches_inverts {es : List Expr} (ih : ∀ e ∈ es, Inverts A T ty cp e) {p : Bool} {b : Name} {S F : Ex} {codes : List Ex} {c c' : Ctx} {scope : Ctx.Scope}
    (hsz : sizedAll T p es = true) (h : compileBranches T p es b S F scope c = .ok (codes, c')) (ht : ∀ code ∈ codes, CodeTyped (A.sigs T) ty code)
    (hcl : ∀ cl ∈ c'.closures, CodeTyped (A.sigs T) ty cl.body) :
    CodeTyped (A.sigs T) ty S ∧
      ((∀ e ∈ es, CopyValue A T cp e) → ∀ L Q, scope.fv = L ++ Q → Q.length = arityHead T p es → ∀ x ∈ Q, (ty x).copy cp = true) := by
  cases es with
  | nil => simp [compileBranches] at h
  | cons e es =>
    rw [compileBranches] at h
    rw [List.forall_mem_cons] at ih
    rw [sizedAll, Bool.and_eq_true] at hsz
    split at h
    · obtain ⟨c1, h1, h⟩ := except_bind_eq_ok h
      obtain ⟨⟨code, c2⟩, h2, h⟩ := except_bind_eq_ok h
      cases h
      have := popMut_eq h1
      subst this
      obtain ⟨k1, k2⟩ := ih.1 _ _ _ _ _ _ hsz.1 h2 (ht code (by simp)) hcl
      exact ⟨k1, fun hc L Q hQ hl => k2 (hc e (by simp)) L Q hQ hl⟩
    · obtain ⟨⟨code, c1⟩, h1, h⟩ := except_bind_eq_ok h
      obtain ⟨⟨codes', c2⟩, h2, h⟩ := except_bind_eq_ok h
      cases h
      have g := branches_adds (fun e _ => compile_adds T e) h2
      obtain ⟨k1, k2⟩ := ih.1 _ _ _ _ _ _ hsz.1 h1 (ht code (by simp)) fun cl h => hcl cl (g.sub cl h)
      exact ⟨k1.stmt, fun hc L Q hQ hl => k2 (hc e (by simp)) L Q hQ hl⟩

theorem repeat_typed {sg : Sigs} {plus : Bool} {body S F : Ex} {c : Ctx} (h : CodeTyped sg ty (repeatCode plus body S F c).1) :
    CodeTyped sg ty body ∧ CodeTyped sg ty S := by
  cases plus
  · have h1 := h.stmt.loop
    exact ⟨h1.1, h1.2.stmt⟩
  · have h1 := h.stmt.stmt.loop
    exact ⟨h1.1, h1.2.ite.2.stmt⟩

theorem optional_typed {sg : Sigs} {body S : Ex} {c : Ctx} (h : CodeTyped sg ty (optionalCode body S c).1) : CodeTyped sg ty body ∧ CodeTyped sg ty S :=
  ⟨h.stmt.bind.1, h.stmt.bind.2.stmt⟩

/-- The code of an option. -/
theorem some_inverts {e : Expr} (ih : Inverts A T ty cp e) (hsz : sized T true e = true) (har : arity T true e = (T e.id).card) {c c' : Ctx} {body : Ex} {r : Name}
    (h : valueConstructor (compile T true e) (T e.id).card false c = .ok (body, r, c')) (ht : CodeTyped (A.sigs T) ty body)
    (hcl : ∀ cl ∈ c'.closures, CodeTyped (A.sigs T) ty cl.body) : CopyValue A T cp e → (ty r).copy cp = true := by
  unfold valueConstructor at h
  obtain ⟨⟨r1, c1⟩, h1, h⟩ := except_bind_eq_ok h
  obtain ⟨⟨body1, c2⟩, h2, h⟩ := except_bind_eq_ok h
  obtain ⟨c3, h3, h⟩ := except_bind_eq_ok h
  cases h
  obtain ⟨e3, e4⟩ := closeScope_eq h3
  subst e4
  obtain ⟨k1, k2⟩ := ih _ _ _ _ _ _ hsz h2 ht hcl
  intro hc
  obtain ⟨Γ, u, l1, l2, l3⟩ := k1.setSome
  obtain ⟨ts, rfl, l4⟩ := ValOk.tup_inv l1 l3
  have := k2 hc [] _ rfl (by rw [har]; simp [Ctx.openScope, Ctx.freshVars, Ctx.pushMut])
  rw [l2]
  exact pack_copy.2 (copy_of_map l4 this)

theorem spanned_inverts {e : Expr} (ih : Inverts A T ty cp e) (hsz : sized T true e = true) (har : arity T true e = (T e.id).card) {v : Name → VEx} {s : String}
    (hv : ∀ Γ m u, ValOk (A.sigs T) Γ (v m) u → u = .rust s) {S F code : Ex} {c c1 c2 : Ctx} {r : Name}
    (h1 : c.nextMark.2.nextFreeVarSkip (T e.id).card = .ok (r, c1)) (h2 : compile T true e (.stmt (.letVal r (v c.nextMark.1)) S) F (c1.pushMark c.nextMark.1) = .ok (code, c2))
    (ht : CodeTyped (A.sigs T) ty code) (hcl : ∀ cl ∈ c2.closures, CodeTyped (A.sigs T) ty cl.body) :
    CodeTyped (A.sigs T) ty S ∧ (CopyValue A T cp e → cp s = true → ∀ L Q, c.fv = L ++ Q → Q.length = 1 + arity T true e → ∀ x ∈ Q, (ty x).copy cp = true) := by
  obtain ⟨B, C, e1, e2, e3⟩ := nextFreeVarSkip_eq h1
  obtain ⟨k1, k2⟩ := ih _ _ _ _ _ _ hsz h2 ht hcl
  refine ⟨k1.stmt, fun hc hs L Q hQ hl => ?_⟩
  have e1' : c.fv = B ++ r :: C := e1
  obtain ⟨rfl, rfl⟩ := List.append_inj' (hQ.symm.trans e1') (by simp; omega)
  rw [List.forall_mem_cons]
  refine ⟨?_, k2 hc L C (by rw [e3]; rfl) (by omega)⟩
  obtain ⟨Γ, u, l1, l2, l3⟩ := k1.letVal
  rw [l2, hv _ _ _ l3]
  exact hs

/-- Any typing of the generated code gives `Copy` types to the values that are. -/
theorem compile_inverts (e : Expr) : Inverts A T ty cp e := by
  have none : ∀ {Q : List Name}, Q.length = 0 → ∀ x ∈ Q, (ty x).copy cp = true := fun h => by rw [List.eq_nil_of_length_eq_zero h]; simp
  induction e using Expr.ind with
  | str i l =>
    intro p S F c code c' hsz h ht hcl
    rw [compile] at h; cases h
    exact ⟨ht.ifPrefix, fun _ L Q _ hl => none hl⟩
  | any i =>
    intro p S F c code c' hsz h ht hcl
    rw [compile] at h
    rw [arity]
    split at h
    · rename_i hp
      obtain ⟨⟨v, c1⟩, h1, h⟩ := except_bind_eq_ok h
      cases h
      obtain ⟨k1, k2⟩ := ht.matchNextVar
      refine ⟨k1, fun _ L Q hQ hl => ?_⟩
      rw [if_pos hp] at hl
      rw [last_eq (hQ.symm.trans (nextFreeVar_eq h1).1) hl]
      simp [k2, VTy.copy, RTy.copy]
    · rename_i hp
      cases h
      refine ⟨ht.matchNext, fun _ L Q _ hl => none (by rw [if_neg hp] at hl; exact hl)⟩
  | cls i ivs =>
    intro p S F c code c' hsz h ht hcl
    rw [compile] at h
    rw [arity]
    split at h
    · rename_i hp
      obtain ⟨⟨v, c1⟩, h1, h⟩ := except_bind_eq_ok h
      obtain ⟨cond, h2, h⟩ := except_bind_eq_ok h
      cases h
      obtain ⟨k1, k2⟩ := ht.stmt.matchClass
      refine ⟨k1, fun _ L Q hQ hl => ?_⟩
      rw [if_pos hp] at hl
      rw [last_eq (hQ.symm.trans (nextFreeVar_eq h1).1) hl]
      simp [k2, VTy.copy, RTy.copy]
    · rename_i hp
      obtain ⟨⟨v, c1⟩, h1, h⟩ := except_bind_eq_ok h
      cases h1
      obtain ⟨cond, h2, h⟩ := except_bind_eq_ok h
      cases h
      refine ⟨ht.stmt.matchClass.1, fun _ L Q _ hl => none (by rw [if_neg hp] at hl; exact hl)⟩
  | nt i r =>
    refine call_inverts (i := i) (path := [r]) (fun _ _ _ _ => by rw [compile]) (fun _ => by rw [arity]) fun hc => ?_
    cases hc with
    | nt h1 h2 h3 => exact ⟨_, _, _, _, rfl, h1, h2, h3⟩
  | ext i f => exact call_inverts (i := i) (path := f) (fun _ _ _ _ => by rw [compile]) (fun _ => by rw [arity]) fun hc => by cases hc
  | seq i es ih =>
    intro p S F c code c' hsz h ht hcl
    rw [compile] at h
    rw [sized] at hsz
    rw [arity]
    obtain ⟨k1, k2⟩ := seq_inverts ih hsz h ht hcl
    exact ⟨k1, fun hc => by cases hc with | seq hc => exact k2 hc⟩
  | choice i es ih =>
    intro p S F c code c' hsz h ht hcl
    rw [compile] at h
    rw [sized, Bool.and_eq_true] at hsz
    rw [arity]
    obtain ⟨⟨brs, c1⟩, h1, h⟩ := except_bind_eq_ok h
    cases brs with
    | nil => cases h
    | cons b brs =>
      cases h
      have hb := ht.stmt.stmt.bind
      obtain ⟨k1, k2⟩ := branches_inverts ih hsz.1 h1 (List.forall_mem_cons.2 ⟨hb.1, choiceCode_typed hb.2⟩) hcl
      have g := branches_adds (fun e _ => compile_adds T e) h1
      refine ⟨sac_inverts (c1 := c') ⟨?_, g.sub⟩ hcl k1, fun hc => by
        cases hc with
        | choice hc =>
          intro L Q hQ hl
          exact k2 hc L Q ((successAsClosure_ctx c S).1.trans hQ) hl⟩
      exact ((nextMark_adds _).trans (nextBranchFailed_adds _)).le.trans g.le
  | star i e ih =>
    intro p S F c code c' hsz h ht hcl
    rw [compile] at h
    split at h
    · obtain ⟨⟨body, r, c1⟩, h1, h⟩ := except_bind_eq_ok h
      cases h
      exact ⟨(repeat_typed (plus := false) (body := body) (S := S) (F := F) (c := c1) ht.stmt).2, fun hc => by cases hc⟩
    · obtain ⟨⟨body, c1⟩, h1, h⟩ := except_bind_eq_ok h
      cases h
      exact ⟨(repeat_typed (plus := false) (body := body) (S := S) (F := F) (c := c1.incr) ht).2, fun hc => by cases hc⟩
  | plus i e ih =>
    intro p S F c code c' hsz h ht hcl
    rw [compile] at h
    split at h
    · obtain ⟨⟨body, r, c1⟩, h1, h⟩ := except_bind_eq_ok h
      cases h
      exact ⟨(repeat_typed (plus := true) (body := body) (S := S) (F := F) (c := c1) ht.stmt).2, fun hc => by cases hc⟩
    · obtain ⟨⟨body, c1⟩, h1, h⟩ := except_bind_eq_ok h
      cases h
      exact ⟨(repeat_typed (plus := true) (body := body) (S := S) (F := F) (c := c1.incr) ht).2, fun hc => by cases hc⟩
  | opt i e ih =>
    intro p S F c code c' hsz h ht hcl
    rw [compile] at h
    rw [arity]
    split at h
    · rename_i hp
      rw [sized, hp, Bool.not_true, Bool.false_or, Bool.and_eq_true] at hsz
      obtain ⟨⟨body, r, c1⟩, h1, h⟩ := except_bind_eq_ok h
      cases h
      obtain ⟨k1, k2⟩ := optional_typed ht.stmt
      refine ⟨k2, fun hc L Q hQ hl => ?_⟩
      rw [if_pos hp] at hl
      obtain ⟨e1, _, _⟩ := valueConstructor_moves (compile_moves T e true hsz.1) h1
      rw [last_eq (hQ.symm.trans e1) hl, List.forall_mem_singleton]
      cases hc with
      | opt hc => exact some_inverts ih hsz.1 (by simpa using hsz.2) h1 k1 hcl hc
    · rename_i hp
      obtain ⟨⟨body, c1⟩, h1, h⟩ := except_bind_eq_ok h
      cases h
      exact ⟨(optional_typed ht).2, fun _ L Q _ hl => none (by rw [if_neg hp] at hl; exact hl)⟩
  | not i e ih =>
    intro p S F c code c' hsz h ht hcl
    rw [compile] at h
    split at h
    · cases h
    · obtain ⟨⟨body, c1⟩, h1, h⟩ := except_bind_eq_ok h
      cases h
      exact ⟨ht.stmt.bind.2.stmt.stmt.ite.2, fun _ L Q _ hl => none hl⟩
  | and i e ih =>
    intro p S F c code c' hsz h ht hcl
    rw [compile] at h
    split at h
    · cases h
    · obtain ⟨⟨body, c1⟩, h1, h⟩ := except_bind_eq_ok h
      cases h
      exact ⟨ht.stmt.bind.2.stmt.stmt.ite.1, fun _ L Q _ hl => none hl⟩
  | act i e boxed f ih =>
    intro p S F c code c' hsz h ht hcl
    rw [compile] at h
    rw [arity]
    split at h
    · rename_i hp
      rw [sized, hp, Bool.not_true, Bool.false_or, Bool.and_eq_true] at hsz
      obtain ⟨⟨r, c1⟩, h1, h⟩ := except_bind_eq_ok h
      obtain ⟨⟨code1, c2⟩, h2, h⟩ := except_bind_eq_ok h
      obtain ⟨c3, h3, h⟩ := except_bind_eq_ok h
      cases h
      obtain ⟨e3, e4⟩ := closeScope_eq h3
      subst e4
      obtain ⟨k1, k2⟩ := ih _ _ _ _ _ _ hsz.1 h2 ht hcl
      refine ⟨k1.stmt, fun hc L Q hQ hl => ?_⟩
      rw [if_pos hp] at hl
      rw [last_eq (hQ.symm.trans (nextFreeVar_eq h1).1) hl, List.forall_mem_singleton]
      obtain ⟨Γ, u, l1, l2, l3⟩ := k1.letVal
      cases hc with
      | act ha hs => rw [l2, action_rust ha l3]; exact hs
    · rename_i hp
      obtain ⟨k1, k2⟩ := ih _ _ _ _ _ _ (sized_false T e) h ht hcl
      exact ⟨k1, fun _ L Q _ hl => none (by rw [if_neg hp] at hl; exact hl)⟩
  | asc i e t ih =>
    intro p S F c code c' hsz h ht hcl
    rw [compile] at h
    rw [arity]
    rw [sized] at hsz
    obtain ⟨k1, k2⟩ := ih _ _ _ _ _ _ hsz h ht hcl
    exact ⟨k1, fun hc => by cases hc with | asc hc => exact k2 hc⟩
  | span i e ih =>
    intro p S F c code c' hsz h ht hcl
    rw [compile] at h
    rw [arity]
    split at h
    · rename_i hp
      rw [sized, hp, Bool.not_true, Bool.false_or, Bool.and_eq_true] at hsz
      obtain ⟨⟨r, c1⟩, h1, h⟩ := except_bind_eq_ok h
      obtain ⟨⟨code1, c2⟩, h2, h⟩ := except_bind_eq_ok h
      cases h
      obtain ⟨k1, k2⟩ := spanned_inverts (cp := cp) ih hsz.1 (by simpa using hsz.2) (s := spanTy) (fun Γ m u h => by cases h; rfl) h1 h2 ht.stmt hcl
      rw [if_pos hp]
      exact ⟨k1, fun hc L Q hQ hl => by cases hc with | span hs hc => exact k2 hc hs L Q hQ (by omega)⟩
    · rename_i hp
      obtain ⟨k1, k2⟩ := ih _ _ _ _ _ _ (sized_false T e) h ht hcl
      exact ⟨k1, fun _ L Q _ hl => none (by rw [if_neg hp] at hl; exact hl)⟩
  | range i e ih =>
    intro p S F c code c' hsz h ht hcl
    rw [compile] at h
    rw [arity]
    split at h
    · rename_i hp
      rw [sized, hp, Bool.not_true, Bool.false_or, Bool.and_eq_true] at hsz
      obtain ⟨⟨r, c1⟩, h1, h⟩ := except_bind_eq_ok h
      obtain ⟨⟨code1, c2⟩, h2, h⟩ := except_bind_eq_ok h
      cases h
      obtain ⟨k1, k2⟩ := spanned_inverts (cp := cp) ih hsz.1 (by simpa using hsz.2) (s := rangeTy) (fun Γ m u h => by cases h; rfl) h1 h2 ht.stmt hcl
      rw [if_pos hp]
      exact ⟨k1, fun hc L Q hQ hl => by cases hc with | range hs hc => exact k2 hc hs L Q hQ (by omega)⟩
    · rename_i hp
      obtain ⟨k1, k2⟩ := ih _ _ _ _ _ _ (sized_false T e) h ht hcl
      exact ⟨k1, fun _ L Q _ hl => none (by rw [if_neg hp] at hl; exact hl)⟩

end

end Oak
