import Verif.Model.FrontSpans
import Verif.Proofs.FrontSound
/-! The front-end with spans is the front-end without them. -/
set_option autoImplicit false
set_option linter.constructorNameAsVariable false

namespace Oak

/-- Two outcomes are the same up to a relation between the results. -/
def Res.Same {α β : Type} (R : α → β → Prop) : Res α → Res β → Prop
  | .ok a, .ok b => R a b
  | .panic, .panic => True
  | .stuck, .stuck => True
  | .timeout, .timeout => True
  | _, _ => False

theorem Res.Same.bind {α β γ δ : Type} {R : α → β → Prop} {S : γ → δ → Prop} {x : Res α} {y : Res β} {f : α → Res γ} {g : β → Res δ}
    (h : Res.Same R x y) (hf : ∀ a b, x = .ok a → y = .ok b → R a b → Res.Same S (f a) (g b)) : Res.Same S (x >>= f) (y >>= g) := by
  cases x <;> cases y <;> first | exact h.elim | exact hf _ _ rfl rfl h | trivial

theorem Res.Same.ok_left {α β : Type} {R : α → β → Prop} {x : Res α} {y : Res β} (h : Res.Same R x y) {a : α} (hx : x = .ok a) :
    ∃ b, y = .ok b ∧ R a b := by
  subst hx
  cases y <;> first | exact h.elim | exact ⟨_, rfl, h⟩

theorem eraseAll_append (a b : List LTok) : eraseAll (a ++ b) = eraseAll a ++ eraseAll b := by
  induction a with
  | nil => rw [List.nil_append, eraseAll, List.nil_append]
  | cons t a ih => rw [List.cons_append, eraseAll, eraseAll, ih, List.cons_append]

theorem eraseAll_length (a : List LTok) : (eraseAll a).length = a.length := by
  induction a with
  | nil => rw [eraseAll]; rfl
  | cons t a ih => rw [eraseAll, List.length_cons, List.length_cons, ih]

theorem eraseAll_drop (a : List LTok) (n : Nat) : eraseAll (a.drop n) = (eraseAll a).drop n := by
  induction a generalizing n with
  | nil => rw [List.drop_nil, eraseAll, List.drop_nil]
  | cons t a ih =>
    cases n with
    | zero => rfl
    | succ n => rw [List.drop_succ_cons, ih, eraseAll, List.drop_succ_cons]

theorem eraseAll_eq_nil {a : List LTok} (h : eraseAll a = []) : a = [] := by
  cases a with
  | nil => rfl
  | cons t a => rw [eraseAll] at h; cases h

theorem eraseAll_isEmpty (a : List LTok) : (eraseAll a).isEmpty = a.isEmpty := by
  cases a with
  | nil => rw [eraseAll]; rfl
  | cons t a => rw [eraseAll]; rfl

theorem eraseAll_eq_cons {a : List LTok} {t : Tok} {ts : List Tok} (h : eraseAll a = t :: ts) :
    ∃ u us, a = u :: us ∧ u.erase = t ∧ eraseAll us = ts := by
  cases a with
  | nil => rw [eraseAll] at h; cases h
  | cons u us => rw [eraseAll] at h; cases h; exact ⟨u, us, rfl, rfl, rfl⟩

/-- If the tokens are cut after erasing, they can be cut before. -/
theorem eraseAll_split {a : List LTok} {p q : List Tok} (h : eraseAll a = p ++ q) : ∃ u v, a = u ++ v ∧ eraseAll u = p ∧ eraseAll v = q := by
  induction p generalizing a with
  | nil => exact ⟨[], a, rfl, by rw [eraseAll], h⟩
  | cons t p ih =>
    obtain ⟨u, us, rfl, rfl, h'⟩ := eraseAll_eq_cons h
    obtain ⟨w, v, rfl, rfl, h2⟩ := ih h'
    exact ⟨u :: w, v, rfl, by rw [eraseAll], h2⟩

theorem erase_leaf {t : LTok} {l : TokLeaf} (h : t.erase = l.tok) : ∃ a b, t = .leaf l a b := by
  cases t with
  | leaf m a b =>
    rw [LTok.erase] at h
    cases m <;> cases l <;> cases h <;> exact ⟨a, b, rfl⟩
  | paren => rw [LTok.erase] at h; cases l <;> cases h
  | bracket => rw [LTok.erase] at h; cases l <;> cases h

theorem erase_paren {t : LTok} {g : List Tok} (h : t.erase = .paren g) : ∃ us a b, t = .paren us a b ∧ eraseAll us = g := by
  cases t with
  | leaf m a b => rw [LTok.erase] at h; cases m <;> cases h
  | paren us a b => rw [LTok.erase] at h; cases h; exact ⟨us, a, b, rfl, rfl⟩
  | bracket => rw [LTok.erase] at h; cases h

theorem erase_bracket {t : LTok} {g : List Tok} (h : t.erase = .bracket g) : ∃ us a b, t = .bracket us a b ∧ eraseAll us = g := by
  cases t with
  | leaf m a b => rw [LTok.erase] at h; cases m <;> cases h
  | paren => rw [LTok.erase] at h; cases h
  | bracket us a b => rw [LTok.erase] at h; cases h; exact ⟨us, a, b, rfl, rfl⟩

/-- The first token is a leaf. -/
theorem eraseAll_leaf {a : List LTok} {l : TokLeaf} {ts : List Tok} (h : eraseAll a = l.tok :: ts) : ∃ x y us, a = .leaf l x y :: us ∧ eraseAll us = ts := by
  obtain ⟨u, us, rfl, h1, h2⟩ := eraseAll_eq_cons h
  obtain ⟨x, y, rfl⟩ := erase_leaf h1
  exact ⟨x, y, us, rfl, h2⟩

theorem eraseAll_paren {a : List LTok} {g : List Tok} {ts : List Tok} (h : eraseAll a = .paren g :: ts) :
    ∃ gs x y us, a = .paren gs x y :: us ∧ eraseAll gs = g ∧ eraseAll us = ts := by
  obtain ⟨u, us, rfl, h1, h2⟩ := eraseAll_eq_cons h
  obtain ⟨gs, x, y, rfl, h3⟩ := erase_paren h1
  exact ⟨gs, x, y, us, rfl, h3, h2⟩

theorem eraseAll_bracket {a : List LTok} {g : List Tok} {ts : List Tok} (h : eraseAll a = .bracket g :: ts) :
    ∃ gs x y us, a = .bracket gs x y :: us ∧ eraseAll gs = g ∧ eraseAll us = ts := by
  obtain ⟨u, us, rfl, h1, h2⟩ := eraseAll_eq_cons h
  obtain ⟨gs, x, y, rfl, h3⟩ := erase_bracket h1
  exact ⟨gs, x, y, us, rfl, h3, h2⟩

@[simp] theorem eraseAll_cons (t : LTok) (ts : List LTok) : eraseAll (t :: ts) = t.erase :: eraseAll ts := by rw [eraseAll]
@[simp] theorem eraseAll_nil : eraseAll [] = [] := by rw [eraseAll]
@[simp] theorem erase_leaf_eq (l : TokLeaf) (a b : SrcSpan) : (LTok.leaf l a b).erase = l.tok := by rw [LTok.erase]
@[simp] theorem erase_paren_eq (g : List LTok) (a b : SrcSpan) : (LTok.paren g a b).erase = .paren (eraseAll g) := by rw [LTok.erase]
@[simp] theorem erase_bracket_eq (g : List LTok) (a b : SrcSpan) : (LTok.bracket g a b).erase = .bracket (eraseAll g) := by rw [LTok.erase]

theorem spanOf_ok {T : List SrcSpan} {i : Nat} (h : i < T.length) : spanOf T i = .ok T[i] := by
  unfold spanOf
  rw [List.getElem?_eq_getElem h]

/-- Results of the functions that read an expression. -/
def SameE (T : List SrcSpan) (x : Expr × List SrcSpan × List LTok) (y : Expr × Nat × List Tok) : Prop :=
  x.1 = y.1 ∧ y.2.1 = x.2.1.length ∧ y.2.2 = eraseAll x.2.2 ∧ x.1.id < x.2.1.length ∧ T.length ≤ x.2.1.length

/-- Results of the functions that may read an expression. -/
def SameO (T : List SrcSpan) (x : Option Expr × List SrcSpan × List LTok) (y : Option Expr × Nat × List Tok) : Prop :=
  x.1 = y.1 ∧ y.2.1 = x.2.1.length ∧ y.2.2 = eraseAll x.2.2 ∧ (∀ e, x.1 = some e → e.id < x.2.1.length) ∧ T.length ≤ x.2.1.length

/-- Results of the functions that read expressions. -/
def SameL (T : List SrcSpan) (x : List Expr × List SrcSpan × List LTok) (y : List Expr × Nat × List Tok) : Prop :=
  x.1 = y.1 ∧ y.2.1 = x.2.1.length ∧ y.2.2 = eraseAll x.2.2 ∧ (∀ e ∈ x.1, e.id < x.2.1.length) ∧ T.length ≤ x.2.1.length

theorem parseType_pre {ts r : List Tok} {ty : IType} (h : parseType ts = .ok (ty, r)) : ∃ pre, ts = pre ++ r := by
  rcases parseType_sound h with ⟨_, h, _⟩ | ⟨j, pre, b, h, _⟩
  · exact ⟨[], h⟩
  · exact ⟨_, h⟩

theorem lparseType_same (ts : List LTok) :
    Res.Same (fun x y => x.2.1 = y.1 ∧ y.2 = eraseAll x.2.2) (lparseType ts) (parseType (eraseAll ts)) := by
  unfold lparseType
  cases h : parseType (eraseAll ts) with
  | ok a =>
    obtain ⟨ty, r⟩ := a
    refine ⟨rfl, ?_⟩
    have : ∃ pre, eraseAll ts = pre ++ r := by
      rcases parseType_pre h with ⟨pre, hp⟩
      exact ⟨pre, hp⟩
    obtain ⟨pre, hp⟩ := this
    simp only [eraseAll_drop]
    have hl := congrArg List.length hp
    rw [eraseAll_length, List.length_append] at hl
    rw [hp, hl, Nat.add_sub_cancel, List.drop_left]
  | panic => trivial
  | stuck => trivial
  | timeout => trivial

theorem lparseAction_same (T0 T : List SrcSpan) (e : Expr) (ts : List LTok) (he : e.id < T.length) (hT : T0.length ≤ T.length) :
    Res.Same (SameE T0) (lparseAction T e ts) (parseAction T.length e (eraseAll ts)) := by
  unfold lparseAction
  split
  · simp only [eraseAll_cons, erase_leaf_eq, TokLeaf.tok, parseAction]
    exact ⟨rfl, by simp, rfl, by simp [Expr.id], by simp; omega⟩
  · simp only [eraseAll_cons, erase_leaf_eq, TokLeaf.tok, parseAction]
    exact ⟨rfl, by simp, rfl, by simp [Expr.id], by simp; omega⟩
  · rename_i h1 h2
    unfold parseAction
    split
    · rename_i h3
      simp only [eraseAll_cons, erase_leaf_eq, TokLeaf.tok, List.cons.injEq, Tok.punct.injEq, true_and] at h3
      obtain ⟨x, y, us, rfl, h4⟩ := eraseAll_leaf (l := .box) h3.2
      obtain ⟨x, y, us, rfl, h5⟩ := eraseAll_leaf (l := .path _) h4
      exact (h1 _ _ _ _ _ _ rfl).elim
    · rename_i h3
      simp only [eraseAll_cons, erase_leaf_eq, TokLeaf.tok, List.cons.injEq, Tok.punct.injEq, true_and] at h3
      obtain ⟨x, y, us, rfl, h4⟩ := eraseAll_leaf (l := .path _) h3.2
      exact (h2 _ _ _ _ rfl).elim
    · trivial
    · rename_i h3
      exact (h3 _ _ rfl).elim
  · rename_i h1 h2 h3
    unfold parseAction
    split
    · rename_i h4
      obtain ⟨x, y, us, rfl, _⟩ := eraseAll_leaf (l := .punct _ _) h4
      exact (h3 _ _ _ _ rfl).elim
    · rename_i h4
      obtain ⟨x, y, us, rfl, _⟩ := eraseAll_leaf (l := .punct _ _) h4
      exact (h3 _ _ _ _ rfl).elim
    · rename_i h4
      obtain ⟨x, y, us, rfl, _⟩ := eraseAll_leaf (l := .punct _ _) h4
      exact (h3 _ _ _ _ rfl).elim
    · exact ⟨rfl, rfl, rfl, he, hT⟩

theorem lparseSuffix_same (T0 T : List SrcSpan) (lo : SrcSpan) (e : Expr) (ts : List LTok) (he : e.id < T.length) (hT : T0.length ≤ T.length) :
    SameE T0 (lparseSuffix T lo e ts) (parseSuffix T.length e (eraseAll ts)) := by
  unfold lparseSuffix
  split
  · simp only [eraseAll_cons, erase_leaf_eq, TokLeaf.tok, parseSuffix]
    exact ⟨rfl, by simp, rfl, by simp [Expr.id], by simp; omega⟩
  · simp only [eraseAll_cons, erase_leaf_eq, TokLeaf.tok, parseSuffix]
    exact ⟨rfl, by simp, rfl, by simp [Expr.id], by simp; omega⟩
  · simp only [eraseAll_cons, erase_leaf_eq, TokLeaf.tok, parseSuffix]
    exact ⟨rfl, by simp, rfl, by simp [Expr.id], by simp; omega⟩
  · rename_i h1 h2 h3
    unfold parseSuffix
    split
    · rename_i h4
      obtain ⟨x, y, us, rfl, _⟩ := eraseAll_leaf (l := .punct _ _) h4
      exact (h1 _ _ _ _ rfl).elim
    · rename_i h4
      obtain ⟨x, y, us, rfl, _⟩ := eraseAll_leaf (l := .punct _ _) h4
      exact (h2 _ _ _ _ rfl).elim
    · rename_i h4
      obtain ⟨x, y, us, rfl, _⟩ := eraseAll_leaf (l := .punct _ _) h4
      exact (h3 _ _ _ _ rfl).elim
    · exact ⟨rfl, rfl, rfl, he, hT⟩

/-- The functions are the same, for a depth. -/
structure SameAt (n : Nat) : Prop where
  choice : ∀ T ts, Res.Same (SameE T) (lparseChoice n T ts) (parseChoice n T.length (eraseAll ts))
  branches : ∀ T ts, Res.Same (fun x y => SameL T x y ∧ x.1 ≠ []) (lparseBranches n T ts) (parseBranches n T.length (eraseAll ts))
  spanned : ∀ T ts, Res.Same (SameE T) (lparseSpanned n T ts) (parseSpanned n T.length (eraseAll ts))
  seq : ∀ T ts, Res.Same (SameE T) (lparseSeq n T ts) (parseSeq n T.length (eraseAll ts))
  typeds : ∀ T ts, Res.Same (SameL T) (lparseTypeds n T ts) (parseTypeds n T.length (eraseAll ts))
  typed : ∀ T ts, Res.Same (SameO T) (lparseTyped n T ts) (parseTyped n T.length (eraseAll ts))
  prefixed : ∀ T ts, Res.Same (SameO T) (lparsePrefixed n T ts) (parsePrefixed n T.length (eraseAll ts))
  suffixed : ∀ T ts, Res.Same (SameO T) (lparseSuffixed n T ts) (parseSuffixed n T.length (eraseAll ts))
  atom : ∀ T ts, Res.Same (SameO T) (lparseAtom n T ts) (parseAtom n T.length (eraseAll ts))

theorem same_all : ∀ n, SameAt n := by
  intro n
  induction n with
  | zero =>
    constructor <;> intro T ts
    · rw [lparseChoice, parseChoice]; trivial
    · rw [lparseBranches, parseBranches]; trivial
    · rw [lparseSpanned, parseSpanned]; trivial
    · rw [lparseSeq, parseSeq]; trivial
    · rw [lparseTypeds, parseTypeds]; trivial
    · rw [lparseTyped, parseTyped]; trivial
    · rw [lparsePrefixed, parsePrefixed]; trivial
    · rw [lparseSuffixed, parseSuffixed]; trivial
    · rw [lparseAtom, parseAtom]; trivial
  | succ n ih =>
    constructor <;> intro T ts
    · -- choice
      rw [lparseChoice, parseChoice]
      refine (ih.branches T ts).bind ?_
      rintro ⟨es, T1, ts1⟩ ⟨es', k1, us1⟩ _ _ ⟨⟨h1, h2, h3, h4, h5⟩, hne⟩
      simp only at h1 h2 h3 h4 h5 hne
      subst h1 h2 h3
      simp only
      cases es with
      | nil => exact (hne rfl).elim
      | cons e1 es =>
        cases es with
        | nil => exact ⟨rfl, rfl, rfl, h4 _ (by simp), h5⟩
        | cons e2 es =>
          simp only
          rw [spanOf_ok (h4 e1 (by simp)), spanOf_ok (h4 ((e2 :: es).getLast (by simp)) (List.mem_cons_of_mem _ (List.getLast_mem _)))]
          exact ⟨rfl, by simp, rfl, by simp [Expr.id], by simp; omega⟩
    · -- branches
      rw [lparseBranches, parseBranches]
      refine (ih.spanned T ts).bind ?_
      rintro ⟨e, T1, ts1⟩ ⟨e', k1, us1⟩ _ _ ⟨h1, h2, h3, h4, h5⟩
      simp only at h1 h2 h3 h4 h5
      subst h1 h2 h3
      simp only
      refine (lparseAction_same T T1 e ts1 h4 h5).bind ?_
      rintro ⟨e, T1, ts1⟩ ⟨e', k1, us1⟩ _ _ ⟨h1, h2, h3, h4, h5⟩
      simp only at h1 h2 h3 h4 h5
      subst h1 h2 h3
      simp only
      split
      · simp only [eraseAll_cons, erase_leaf_eq, TokLeaf.tok]
        refine (ih.branches T1 _).bind ?_
        rintro ⟨es, T2, ts2⟩ ⟨es', k2, us2⟩ _ _ ⟨⟨h1, h2, h3, h6, h7⟩, hne⟩
        simp only at h1 h2 h3 h6 h7 hne
        subst h1 h2 h3
        exact ⟨⟨rfl, rfl, rfl, fun x hx => (List.mem_cons.1 hx).elim (fun he => by subst he; simp only; omega) (h6 x), by simp only; omega⟩, by simp⟩
      · rename_i h6
        split
        · rename_i h7
          obtain ⟨x, y, us, rfl, _⟩ := eraseAll_leaf (l := .punct _ _) h7
          exact (h6 _ _ _ _ rfl).elim
        · exact ⟨⟨rfl, rfl, rfl, by intro x hx; simp at hx; subst hx; exact h4, h5⟩, by simp⟩
    · -- spanned
      unfold lparseSpanned
      split
      · simp only [eraseAll_cons, erase_leaf_eq, TokLeaf.tok]
        rw [parseSpanned]
        refine (ih.seq T _).bind ?_
        rintro ⟨e, T1, ts1⟩ ⟨e', k1, us1⟩ _ _ ⟨h1, h2, h3, h4, h5⟩
        simp only at h1 h2 h3 h4 h5
        subst h1 h2 h3
        exact ⟨rfl, by simp, rfl, by simp [Expr.id], by simp; omega⟩
      · rename_i h0
        simp only [eraseAll_cons, erase_leaf_eq, TokLeaf.tok]
        unfold parseSpanned
        split
        · rename_i h1
          simp only [List.cons.injEq, Tok.punct.injEq, true_and] at h1
          obtain ⟨x, y, us, rfl, _⟩ := eraseAll_leaf (l := .punct _ _) h1.2
          obtain rfl := h1.1
          exact (h0 _ _ _ _ rfl rfl).elim
        · rename_i h1
          simp only [List.cons.injEq, Tok.punct.injEq, true_and] at h1
          obtain ⟨rfl, rfl⟩ := h1
          refine (ih.seq T _).bind ?_
          rintro ⟨e, T1, ts1⟩ ⟨e', k1, us1⟩ _ _ ⟨h1, h2, h3, h4, h5⟩
          simp only at h1 h2 h3 h4 h5
          subst h1 h2 h3
          exact ⟨rfl, by simp, rfl, by simp [Expr.id], by simp; omega⟩
        · rename_i h1
          exact (h1 _ _ rfl).elim
      · rename_i h1 h2
        unfold parseSpanned
        split
        · rename_i h3
          obtain ⟨x, y, us, rfl, h4⟩ := eraseAll_leaf (l := .punct _ _) h3
          obtain ⟨x, y, us, rfl, h5⟩ := eraseAll_leaf (l := .punct _ _) h4
          exact (h2 _ _ _ _ _ _ rfl).elim
        · rename_i h3
          obtain ⟨x, y, us, rfl, h4⟩ := eraseAll_leaf (l := .punct _ _) h3
          obtain ⟨x, y, us, rfl, h5⟩ := eraseAll_leaf (l := .punct _ _) h4
          exact (h2 _ _ _ _ _ _ rfl).elim
        · exact ih.seq T ts
    · -- seq
      rw [lparseSeq, parseSeq]
      refine (ih.typeds T ts).bind ?_
      rintro ⟨es, T1, ts1⟩ ⟨es', k1, us1⟩ _ _ ⟨h1, h2, h3, h4, h5⟩
      simp only at h1 h2 h3 h4 h5
      subst h1 h2 h3
      simp only
      cases es with
      | nil => trivial
      | cons e1 es =>
        cases es with
        | nil => exact ⟨rfl, rfl, rfl, h4 _ (by simp), h5⟩
        | cons e2 es =>
          simp only
          rw [spanOf_ok (h4 ((e2 :: es).getLast (by simp)) (List.mem_cons_of_mem _ (List.getLast_mem _)))]
          exact ⟨rfl, by simp, rfl, by simp [Expr.id], by simp; omega⟩
    · -- typeds
      rw [lparseTypeds, parseTypeds]
      refine (ih.typed T ts).bind ?_
      rintro ⟨o, T1, ts1⟩ ⟨o', k1, us1⟩ _ _ ⟨h1, h2, h3, h4, h5⟩
      simp only at h1 h2 h3 h4 h5
      subst h1 h2 h3
      cases o with
      | none => exact ⟨rfl, rfl, rfl, by simp, h5⟩
      | some e =>
        simp only
        refine (ih.typeds T1 ts1).bind ?_
        rintro ⟨es, T2, ts2⟩ ⟨es', k2, us2⟩ _ _ ⟨h1, h2, h3, h6, h7⟩
        simp only at h1 h2 h3 h6 h7
        subst h1 h2 h3
        have := h4 e rfl
        exact ⟨rfl, rfl, rfl, fun x hx => (List.mem_cons.1 hx).elim (fun he => by subst he; simp only; omega) (h6 x), by simp only; omega⟩
    · -- typed
      rw [lparseTyped, parseTyped]
      refine (ih.prefixed T ts).bind ?_
      rintro ⟨o, T1, ts1⟩ ⟨o', k1, us1⟩ _ _ ⟨h1, h2, h3, h4, h5⟩
      simp only at h1 h2 h3 h4 h5
      subst h1 h2 h3
      simp only
      refine (lparseType_same ts1).bind ?_
      rintro ⟨sp, ty, ts2⟩ ⟨ty', us2⟩ _ _ ⟨h1, h2⟩
      simp only at h1 h2
      subst h1 h2
      simp only
      cases ty
      case infer => exact ⟨rfl, rfl, rfl, h4, h5⟩
      all_goals
        cases o with
        | none => trivial
        | some e => exact ⟨rfl, by simp, rfl, by intro x hx; cases hx; simp [Expr.id], by simp; omega⟩
    · -- prefixed
      unfold lparsePrefixed
      split
      · simp only [eraseAll_cons, erase_leaf_eq, TokLeaf.tok]
        rw [parsePrefixed]
        refine (ih.suffixed T _).bind ?_
        rintro ⟨o, T1, ts1⟩ ⟨o', k1, us1⟩ _ _ ⟨h1, h2, h3, h4, h5⟩
        simp only at h1 h2 h3 h4 h5
        subst h1 h2 h3
        cases o with
        | none => trivial
        | some e =>
          simp only
          rw [spanOf_ok (h4 e rfl)]
          exact ⟨rfl, by simp, rfl, by intro x hx; cases hx; simp [Expr.id], by simp; omega⟩
      · simp only [eraseAll_cons, erase_leaf_eq, TokLeaf.tok]
        rw [parsePrefixed]
        refine (ih.suffixed T _).bind ?_
        rintro ⟨o, T1, ts1⟩ ⟨o', k1, us1⟩ _ _ ⟨h1, h2, h3, h4, h5⟩
        simp only at h1 h2 h3 h4 h5
        subst h1 h2 h3
        cases o with
        | none => trivial
        | some e =>
          simp only
          rw [spanOf_ok (h4 e rfl)]
          exact ⟨rfl, by simp, rfl, by intro x hx; cases hx; simp [Expr.id], by simp; omega⟩
      · rename_i h1 h2
        unfold parsePrefixed
        split
        · rename_i h3
          obtain ⟨x, y, us, rfl, h4⟩ := eraseAll_leaf (l := .punct _ _) h3
          exact (h1 _ _ _ _ rfl).elim
        · rename_i h3
          obtain ⟨x, y, us, rfl, h4⟩ := eraseAll_leaf (l := .punct _ _) h3
          exact (h2 _ _ _ _ rfl).elim
        · exact ih.suffixed T ts
    · -- suffixed
      rw [lparseSuffixed, parseSuffixed]
      refine (ih.atom T ts).bind ?_
      rintro ⟨o, T1, ts1⟩ ⟨o', k1, us1⟩ _ _ ⟨h1, h2, h3, h4, h5⟩
      simp only at h1 h2 h3 h4 h5
      subst h1 h2 h3
      cases o with
      | none => exact ⟨rfl, rfl, rfl, by simp, h5⟩
      | some e =>
        obtain ⟨h1, h2, h3, h6, h7⟩ := lparseSuffix_same T T1 (peekSpan ts) e ts1 (h4 e rfl) h5
        exact ⟨congrArg some h1, h2, h3, by intro x hx; cases hx; exact h6, h7⟩
    · -- atom
      unfold lparseAtom
      split
      · simp only [eraseAll_cons, erase_leaf_eq, TokLeaf.tok]
        rw [parseAtom]
        exact ⟨rfl, by simp, rfl, by intro x hx; cases hx; simp [Expr.id], by simp⟩
      · simp only [eraseAll_cons, erase_leaf_eq, TokLeaf.tok]
        rw [parseAtom]
        exact ⟨rfl, by simp, rfl, by intro x hx; cases hx; simp [Expr.id], by simp⟩
      · simp only [eraseAll_cons, erase_paren_eq]
        rw [parseAtom, eraseAll_isEmpty]
        split
        · trivial
        · refine (ih.choice T _).bind ?_
          rintro ⟨e, T1, g1⟩ ⟨e', k1, us1⟩ _ _ ⟨h1, h2, h3, h4, h5⟩
          simp only at h1 h2 h3 h4 h5
          subst h1 h2 h3
          simp only [eraseAll_isEmpty]
          split
          · exact ⟨rfl, rfl, rfl, by intro x hx; cases hx; exact h4, h5⟩
          · trivial
      · rename_i p a b us
        simp only [eraseAll_cons, erase_leaf_eq, TokLeaf.tok]
        rw [parseAtom]
        split
        · exact ⟨rfl, rfl, by simp [TokLeaf.tok], by simp, by simp⟩
        · exact ⟨rfl, by simp, rfl, by intro x hx; cases hx; simp [Expr.id], by simp⟩
      · rename_i g a b us
        simp only [eraseAll_cons, erase_bracket_eq]
        rw [parseAtom]
        cases hc : parseClass T.length (eraseAll g) with
        | ok x =>
          obtain ⟨e, k⟩ := x
          unfold parseClass at hc
          split at hc
          · obtain ⟨ivs, _, hc⟩ := Res.bind_eq_ok hc
            cases hc
            exact ⟨rfl, by simp, rfl, by intro x hx; cases hx; simp [Expr.id], by simp⟩
          · cases hc
        | panic => trivial
        | stuck => trivial
        | timeout => trivial
      · rename_i h1 h2 h3 h4 h5
        unfold parseAtom
        split
        · rename_i h6
          obtain ⟨x, y, us, rfl, _⟩ := eraseAll_leaf (l := .lit _) h6
          exact (h1 _ _ _ _ rfl).elim
        · rename_i h6
          obtain ⟨x, y, us, rfl, _⟩ := eraseAll_leaf (l := .punct _ _) h6
          exact (h2 _ _ _ _ rfl).elim
        · rename_i h6
          obtain ⟨gs, x, y, us, rfl, _⟩ := eraseAll_paren h6
          exact (h3 _ _ _ _ rfl).elim
        · rename_i h6
          obtain ⟨x, y, us, rfl, _⟩ := eraseAll_leaf (l := .path _) h6
          exact (h4 _ _ _ _ rfl).elim
        · rename_i h6
          obtain ⟨gs, x, y, us, rfl, _⟩ := eraseAll_bracket h6
          exact (h5 _ _ _ _ rfl).elim
        · exact ⟨rfl, rfl, rfl, by simp, by simp⟩

theorem lsplitAttrs_same (ts : List LTok) : splitAttrs (eraseAll ts) = ((lsplitAttrs ts).1, eraseAll (lsplitAttrs ts).2) := by
  induction ts with
  | nil => rfl
  | cons t ts ih =>
    unfold lsplitAttrs
    split
    · rename_i h
      cases h
      simp only [eraseAll_cons, erase_leaf_eq, TokLeaf.tok]
      rw [splitAttrs, ih]
    · rename_i h
      unfold splitAttrs
      split
      · rename_i h6
        obtain ⟨x, y, us, h7, _⟩ := eraseAll_leaf (l := .attr _) h6
        exact (h _ _ _ _ h7).elim
      · rfl

theorem lparseRule_same (n : Nat) (T : List SrcSpan) (ts : List LTok) :
    Res.Same (fun x y => x.1 = y.1 ∧ y.2.1 = x.2.1.length ∧ y.2.2 = eraseAll x.2.2) (lparseRule n T ts) (parseRule n T.length (eraseAll ts)) := by
  unfold lparseRule
  split
  · simp only [eraseAll_cons, erase_leaf_eq, TokLeaf.tok]
    rw [parseRule]
    refine (lparseType_same _).bind ?_
    rintro ⟨sp, ty, ts2⟩ ⟨ty', us2⟩ _ _ ⟨h1, h2⟩
    simp only at h1 h2
    subst h1 h2
    simp only
    split
    · simp only [eraseAll_cons, erase_leaf_eq, TokLeaf.tok]
      refine ((same_all n).choice T _).bind ?_
      rintro ⟨e, T1, ts1⟩ ⟨e', k1, us1⟩ _ _ ⟨h1, h2, h3, h4, h5⟩
      simp only at h1 h2 h3 h4 h5
      subst h1 h2 h3
      cases ty <;> exact ⟨rfl, by simp, rfl⟩
    · rename_i h
      split
      · rename_i h6
        obtain ⟨x, y, us, rfl, _⟩ := eraseAll_leaf (l := .punct _ _) h6
        exact (h _ _ _ _ rfl).elim
      · trivial
  · rename_i h
    unfold parseRule
    split
    · rename_i h6
      obtain ⟨x, y, us, rfl, _⟩ := eraseAll_leaf (l := .path _) h6
      exact (h _ _ _ _ rfl).elim
    · trivial

theorem lparseBlocks_same : ∀ (n : Nat) (T : List SrcSpan) (ts : List LTok),
    Res.Same (fun x y => x.1 = y.1 ∧ y.2 = x.2.length) (lparseBlocks n T ts) (parseBlocks n T.length (eraseAll ts)) := by
  intro n
  induction n with
  | zero => intro T ts; trivial
  | succ n ih =>
    intro T ts
    rw [lparseBlocks, parseBlocks, eraseAll_isEmpty, lsplitAttrs_same]
    split
    · exact ⟨rfl, rfl⟩
    · simp only
      split
      · refine (lparseRule_same n T _).bind ?_
        rintro ⟨r, T1, ts1⟩ ⟨r', k1, us1⟩ _ _ ⟨h1, h2, h3⟩
        simp only at h1 h2 h3
        subst h1 h2 h3
        simp only
        refine (ih T1 ts1).bind ?_
        rintro ⟨F, T2⟩ ⟨F', k2⟩ _ _ ⟨h1, h2⟩
        simp only at h1 h2
        subst h1 h2
        exact ⟨rfl, rfl⟩
      · split
        · simp_all only [eraseAll_cons, erase_leaf_eq, TokLeaf.tok]
          refine (ih T _).bind ?_
          rintro ⟨F, T2⟩ ⟨F', k2⟩ _ _ ⟨h1, h2⟩
          simp only at h1 h2
          subst h1 h2
          exact ⟨rfl, rfl⟩
        · rename_i h
          split
          · rename_i h6
            obtain ⟨x, y, us, h7, _⟩ := eraseAll_leaf (l := .item _) h6
            exact (h _ _ _ _ h7).elim
          · trivial

end Oak
