import Verif.Proofs.OwnedMain
import Verif.Proofs.RustGives
/-! The generated functions use no moved variable. -/
set_option autoImplicit false
set_option linter.constructorNameAsVariable false

namespace Oak

/-- Recognizers have no value that waits. -/
theorem apart_false (T : Nat → Ty) (P : Expr → Prop) (e : Expr) : Apart T P false False e := by
  have seq : ∀ {live : Prop}, ¬ live → ∀ es, (∀ e ∈ es, Apart T P false False e) → ApartSeq T P false live es := by
    intro live hl es h
    induction es generalizing live with
    | nil => simp [ApartSeq]
    | cons e es ih =>
      rw [List.forall_mem_cons] at h
      rw [ApartSeq]
      have : live = False := by simpa using hl
      refine ⟨this ▸ h.1, ih (by simpa using hl) h.2⟩
  induction e using Expr.ind with
  | seq i es ih => simp only [Apart, Bool.false_and]; exact seq id es ih
  | choice i es ih =>
    simp only [Apart, Bool.false_and]
    refine ⟨id, ?_⟩
    clear seq
    induction es with
    | nil => simp [ApartAlts]
    | cons e es ihe => rw [List.forall_mem_cons] at ih; rw [ApartAlts]; exact ⟨ih.1, ihe ih.2⟩
  | _ => simp_all [Apart]

section
variable {A : AGrammar} {T : Nat → Ty} {ty : Name → VTy} {cp : String → Bool}

theorem distinct_new (n : Nat) : Distinct (Ctx.new.openScope n).2 := by
  have h : Distinct Ctx.new := ⟨by simp [Ctx.new], by simp [Ctx.new]⟩
  exact h.open n (muts := []) (by simp) (by simp) (by simp)

theorem recognizer_owned (hinv : ∀ ty e, Inverts A T ty cp e) {e : Expr} {f : Fn} (h : compileRecognizer T e = .ok f) : f.Owned (A.sigs T) cp := by
  intro ty t ht
  unfold compileRecognizer at h
  obtain ⟨⟨body, c⟩, h1, h⟩ := except_bind_eq_ok h
  cases h
  obtain ⟨K, k1, k2⟩ := ht
  have hm := compile_moves T e false (sized_false T e) _ _ _ _ _ h1
  obtain ⟨P, p1, p2⟩ := hm.fv
  have hcf : c.fv = [] := (List.append_eq_nil_iff.1 p1.symm).1
  have hd : Distinct Ctx.new := ⟨by simp [Ctx.new], by simp [Ctx.new]⟩
  obtain ⟨n1, n2⟩ := compile_owns (hinv ty) e false False _ _ _ _ (fun _ => False) [] (sized_false T e) (apart_false T _ e) h1 ⟨K, _, _, _, .empty, k2⟩ (closures_codeTyped k1) hd
    (fun _ h => h.elim) (fun M _ => ⟨M, rfl, fun _ h => .inl h⟩) (by simp [ClosuresOwn, Ctx.new]) (by rw [hcf]; rfl) fun _ => ⟨fun _ h => h.elim, by simp [hcf]⟩
  obtain ⟨M, m1, _⟩ := n2 [] (by simp)
  have m1' : body.owns (fun x => (ty x).copy cp) [] = some M := m1
  have n1' : ∀ cl ∈ c.closures, cl.owns (fun x => (ty x).copy cp) = true := n1
  simp only [Fn.owns, m1', Option.isSome_some, Bool.and_true, List.all_eq_true]
  exact n1'

theorem parser_owned (hinv : ∀ ty e, Inverts A T ty cp e) {r : String} {e : Expr} {f : Fn} (h : compileParser T r e = .ok f)
    (hz : T e.id = .unit ∨ (sized T true e = true ∧ arity T true e = (T e.id).card)) (hap : T e.id = .unit ∨ Apart T (CopyValue A T cp) true False e) : f.Owned (A.sigs T) cp := by
  intro ty t ht
  unfold compileParser at h
  split at h
  · cases h
    simp [Fn.owns, Ex.owns, Stmt.owns]
  · rename_i hT
    replace hz := hz.resolve_left hT
    replace hap := hap.resolve_left hT
    obtain ⟨⟨body, c⟩, h1, h⟩ := except_bind_eq_ok h
    obtain ⟨c2, h2, h⟩ := except_bind_eq_ok h
    cases h
    obtain ⟨e1, rfl⟩ := closeScope_eq h2
    obtain ⟨K, k1, k2⟩ := ht
    have hv : OwnV (kappa ty cp) (Ctx.new.openScope (T e.id).card).2.names (.tup (freshNames Ctx.new (T e.id).card)) fun x => x ∈ freshNames Ctx.new (T e.id).card ∧ kappa ty cp x = false :=
      OwnV.tup (fun x hx => freshNames_old hx) (freshNames_nodup _ _)
    obtain ⟨n1, n2⟩ := compile_owns (hinv ty) e true False _ _ _ _ _ (freshNames Ctx.new (T e.id).card) hz.1 hap h1 ⟨K, _, _, _, .empty, k2⟩ (closures_codeTyped k1) (distinct_new _)
      (fun x h => h.2) (Own.success hv) (by simp [ClosuresOwn, Ctx.new, openScope_closures]) (by rw [e1]; rfl) fun _ => ⟨fun _ h => h.1, by simp [e1]⟩
    obtain ⟨M, m1, _⟩ := n2 [] (by simp)
    have m1' : body.owns (fun x => (ty x).copy cp) [] = some M := m1
    have n1' : ∀ cl ∈ c.closures, cl.owns (fun x => (ty x).copy cp) = true := n1
    simp only [Fn.owns, m1', Option.isSome_some, Bool.and_true, List.all_eq_true]
    exact n1'

theorem grammar_owned (hinv : ∀ ty e, Inverts A T ty cp e) {rules : List (String × Expr)} {fs : List (FnRef × Fn)} (h : compileGrammar T rules = .ok fs)
    (hz : ∀ r ∈ rules, T r.2.id = .unit ∨ (sized T true r.2 = true ∧ arity T true r.2 = (T r.2.id).card)) :
    ∀ f ∈ fs, (f.1.parser = true → ∀ r ∈ rules, T r.2.id = .unit ∨ Apart T (CopyValue A T cp) true False r.2) → f.2.Owned (A.sigs T) cp := by
  induction rules generalizing fs with
  | nil => cases h; simp
  | cons r rs ih =>
    obtain ⟨r, e⟩ := r
    simp only [compileGrammar] at h
    obtain ⟨f, h1, h⟩ := except_bind_eq_ok h
    obtain ⟨g, h2, h⟩ := except_bind_eq_ok h
    obtain ⟨fs', h3, h⟩ := except_bind_eq_ok h
    cases h
    intro x hx hap
    simp only [List.mem_cons] at hx
    rcases hx with rfl | rfl | hx
    · exact recognizer_owned hinv h1
    · exact parser_owned hinv h2 (hz (r, e) (by simp)) (hap rfl (r, e) (by simp))
    · exact ih h3 (fun r hr => hz r (by simp [hr])) x hx fun hp r hr => hap hp r (by simp [hr])

end

namespace Typing

variable {A : AGrammar} {k : Nat} {N : Prop} {T : Nat → Ty}

/-- In an accepted grammar, the type of a parser is that of its rule. -/
theorem accepted_sig (H : A.Ready k) {m : Nat} (h : Accepted A k m N T) (nn : N) :
    ∀ r b v t, A.grammar.find r = some b → HasType A b v → (A.sigs T).parser [r] t → t = v.toRust := by
  obtain ⟨U, h1, h2, h3⟩ := h
  intro r b v t hb hv ht
  obtain ⟨⟨w, w1, _, w3⟩, _⟩ := h1.rules nn r b hb b .root
  have := hv.det w1
  subst this
  obtain ⟨n, hn⟩ := ht r b rfl hb
  exact compile_unf h1 h2 v b.id n t (Nat.le_of_lt (H.lt (.body hb) _ (id_mem_indices _))) w3 hn

end Typing

/-- No function generated for a sized grammar uses a moved variable, if choices do not follow values that are not `Copy`. -/
theorem sized_owned {A : AGrammar} {T : Nat → Ty} (hs : A.grammar.sized T = true) (cp : String → Bool) {fs : List (FnRef × Fn)}
    (hc : compileGrammar T A.grammar.rules = .ok fs) : ∀ f ∈ fs, (f.1.parser = true → A.Apart T cp) → f.2.Owned (A.sigs T) cp := by
  refine grammar_owned (fun ty => compile_inverts) hc fun r hr => ?_
  have := List.all_eq_true.1 hs r hr
  simpa using this

end Oak
