import Verif.Proofs.TypingFuel
/-!
Tests that grammars are ready for the typing phase, for the examples.
-/
set_option linter.constructorNameAsVariable false
set_option autoImplicit false

namespace Oak
namespace Typing

mutual
/-- The ascribed types. -/
def ascribed (e : Expr) : List IType :=
  match e with
  | .str _ _ | .any _ | .cls _ _ | .ext _ _ | .nt _ _ => []
  | .seq _ es | .choice _ es => ascribedAll es
  | .star _ e | .plus _ e | .opt _ e | .span _ e | .range _ e | .not _ e | .and _ e | .act _ e _ _ => ascribed e
  | .asc _ e t => t :: ascribed e
/-- The same for lists. -/
def ascribedAll (es : List Expr) : List IType :=
  match es with
  | [] => []
  | e :: es => ascribed e ++ ascribedAll es
end

theorem ascribed_kid {e c : Expr} (h : c ∈ e.kids) {t : IType} (ht : t ∈ ascribed c) : t ∈ ascribed e := by
  have hall : ∀ es : List Expr, c ∈ es → t ∈ ascribedAll es := by
    intro es hc
    induction es with
    | nil => cases hc
    | cons e es ih =>
      rw [ascribedAll, List.mem_append]
      cases hc with
      | head => exact .inl ht
      | tail _ hc => exact .inr (ih hc)
  cases e <;> simp [Expr.kids] at h
  case seq => rw [ascribed]; exact hall _ h
  case choice => rw [ascribed]; exact hall _ h
  all_goals subst h; simp [ascribed, ht]

theorem ascribed_sub {i : Nat} {c : Expr} {t : IType} (e : Expr) (h : Sub (.asc i c t) e) : t ∈ ascribed e := by
  induction e using Expr.kidsInd with
  | h e ih =>
    rcases sub_kids.1 h with rfl | ⟨d, hd, h⟩
    · simp [ascribed]
    · exact ascribed_kid hd (ih d hd h)

/-- Can the type be written in an ascription? -/
def writtenTy : IType → Bool
  | .invisible | .regular .unit | .regular (.rust _) => true
  | _ => false

/-- Is the grammar ready? -/
def readyTest (A : AGrammar) (k : Nat) : Bool :=
  decide (A.grammar.rules.map (·.1)).Nodup && A.grammar.rules.all (fun r => r.2.resolved A.grammar && r.2.filled && (ascribed r.2).all writtenTy) &&
    indicesAll (A.grammar.rules.map (·.2)) == List.range k

theorem ready_of {A : AGrammar} {k : Nat} (h : readyTest A k = true) : A.Ready k := by
  simp only [readyTest, Bool.and_eq_true, List.all_eq_true, decide_eq_true_eq, beq_iff_eq] at h
  obtain ⟨⟨h1, h2⟩, h3⟩ := h
  refine ⟨h1, fun r hr => (h2 r hr).1.1, fun r hr => (h2 r hr).1.2, h3, ?_⟩
  rintro i e t ⟨r, b, hb, hs⟩
  have := (h2 _ (grammar_find_mem hb)).2 t (ascribed_sub b hs)
  unfold writtenTy at this
  split at this
  · exact .inl rfl
  · exact .inr (.inl rfl)
  · exact .inr (.inr ⟨_, rfl⟩)
  · cases this

theorem noSeenRec_of {G : Grammar} (rank : String → Nat) (h : (G.rules.all fun r => r.2.seenCalls.all fun s => decide (rank s < rank r.1)) = true) : G.NoSeenRec := by
  refine ⟨rank, fun r b s hb hs => ?_⟩
  simp only [List.all_eq_true, decide_eq_true_eq] at h
  exact h _ (grammar_find_mem hb) s hs

theorem directRec_of {G : Grammar} (rank : String → Nat) (h : (G.rules.all fun r => r.2.seenCalls.all fun s => decide (s = r.1 ∨ rank s < rank r.1)) = true) :
    G.DirectRec := by
  refine ⟨rank, fun r b s hb hs => ?_⟩
  simp only [List.all_eq_true, decide_eq_true_eq] at h
  exact h _ (grammar_find_mem hb) s hs

/-- The expressions whose type is never a tuple. -/
def single : Expr → Bool
  | .str _ _ | .any _ | .cls _ _ | .ext _ _ | .not _ _ | .and _ _ | .act _ _ _ _ | .asc _ _ _ | .star _ _ | .plus _ _ | .opt _ _ => true
  | _ => false

/-- The same through a call. -/
def singleIn (G : Grammar) : Expr → Bool
  | .nt _ r => (match G.find r with
    | some e => single e
    | none => false)
  | e => single e

mutual
/-- The branches of the choices are such expressions, or calls of rules with such a body. -/
def singles (G : Grammar) (e : Expr) : Bool :=
  match e with
  | .str _ _ | .any _ | .cls _ _ | .ext _ _ | .nt _ _ => true
  | .choice _ es => singlesAll G true es
  | .seq _ es => singlesAll G false es
  | .star _ e | .plus _ e | .opt _ e | .span _ e | .range _ e | .not _ e | .and _ e | .act _ e _ _ | .asc _ e _ => singles G e
/-- The same for lists. -/
def singlesAll (G : Grammar) (b : Bool) (es : List Expr) : Bool :=
  match es with
  | [] => true
  | e :: es => (!b || singleIn G e) && singles G e && singlesAll G b es
end

theorem single_type {A : AGrammar} {e : Expr} (h : single e = true) {ts : List DType} : ¬ HasType A e (.tuple ts) := by
  intro ht
  cases e <;> simp only [single, Bool.false_eq_true] at h <;> (try cases ht)
  case act =>
    generalize hT : DType.tuple ts = t at ht
    cases ht
    unfold actionType at hT
    split at hT
    · split at hT
      · split at hT <;> cases hT
      · cases hT
    · cases hT
  case asc h => cases h

theorem singlesAll_mem {G : Grammar} {b : Bool} {es : List Expr} (h : singlesAll G b es = true) {e : Expr} (he : e ∈ es) : singles G e = true := by
  induction he with
  | head => rw [singlesAll] at h; simp only [Bool.and_eq_true] at h; exact h.1.2
  | tail _ _ ih => rw [singlesAll] at h; simp only [Bool.and_eq_true] at h; exact ih h.2

theorem singlesAll_type {A : AGrammar} {es : List Expr} (h : singlesAll A.grammar true es = true) {e : Expr} (he : e ∈ es) {ts : List DType} :
    ¬ HasType A e (.tuple ts) := by
  induction he with
  | @head es =>
    rw [singlesAll] at h
    simp only [Bool.not_true, Bool.false_or, Bool.and_eq_true] at h
    have h := h.1.1
    unfold singleIn at h
    split at h
    · split at h
      · rename_i hf
        intro ht
        cases ht with | nt hb ht => rw [hf] at hb; cases hb; exact single_type h ht
      · cases h
    · exact single_type h
  | tail _ _ ih => rw [singlesAll] at h; simp only [Bool.and_eq_true] at h; exact ih h.2

theorem singles_sub {G : Grammar} {x e : Expr} (h : Sub x e) (he : singles G e = true) : singles G x = true := by
  induction h with
  | refl => exact he
  | seq hm _ ih => rw [singles] at he; exact ih (singlesAll_mem he hm)
  | choice hm _ ih => rw [singles] at he; exact ih (singlesAll_mem he hm)
  | _ _ ih => rw [singles] at he; exact ih he

theorem unmixed_of {A : AGrammar} (h : (A.grammar.rules.all fun r => singles A.grammar r.2) = true) : A.Unmixed := by
  rintro i es ⟨r, b, hb, hs⟩ _ e he ts
  have := singles_sub hs (List.all_eq_true.1 h _ (grammar_find_mem hb))
  rw [singles] at this
  exact singlesAll_type this he

end Typing
end Oak
