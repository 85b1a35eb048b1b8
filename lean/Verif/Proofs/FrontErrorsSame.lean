import Verif.Proofs.FrontErrorsRules
import Verif.Proofs.FrontTotal
/-! The errors of the front-end: a grammar has none, and reading ends. -/
set_option autoImplicit false
set_option linter.constructorNameAsVariable false

namespace Oak
open Syntax

/-! ### A grammar has no error -/

/-- When an expression is read, no error is found. -/
def Sim {α : Type} (f : α → Bool) (x : Res (α × List SrcSpan × List LTok)) (y : FOut FRead) : Prop :=
  ∀ a T rest, x = .ok (a, T, rest) → y = .ok (f a, none, rest)

/-- What is known of each function, for a depth. -/
structure SimAt (n : Nat) : Prop where
  choice : ∀ r T ts, Sim (fun _ => true) (lparseChoice n T ts) (eparseChoice r n none ts)
  branches : ∀ r T ts, Sim (fun _ => true) (lparseBranches n T ts) (eparseBranches r n none ts)
  spanned : ∀ r T ts, Sim (fun _ => true) (lparseSpanned n T ts) (eparseSpanned r n none ts)
  seq : ∀ r T ts, Sim (fun _ => true) (lparseSeq n T ts) (eparseSeq r n none ts)
  elems : ∀ r T ts, Sim (fun es => !es.isEmpty) (lparseTypeds n T ts) (eparseTypeds r n none ts)
  typed : ∀ r T ts, Sim Option.isSome (lparseTyped n T ts) (eparseTyped r n none ts)
  prefixed : ∀ r T ts, Sim Option.isSome (lparsePrefixed n T ts) (eparsePrefixed r n none ts)
  suffixed : ∀ r T ts, Sim Option.isSome (lparseSuffixed n T ts) (eparseSuffixed r n none ts)
  atom : ∀ r T ts, Sim Option.isSome (lparseAtom n T ts) (eparseAtom r n none ts)

theorem eparseType_sim {ts rest : List LTok} {sp : SrcSpan} {ty : IType} (h : lparseType ts = .ok (sp, ty, rest)) :
    eparseType none ts = .ok (decide (ty ≠ .infer), none, rest) := by
  unfold lparseType at h
  replace h := Res.bind_eq_ok h; obtain ⟨⟨ty', r⟩, h1, h⟩ := h
  simp only at h
  cases h
  unfold eparseType
  split
  · rename_i j a b c d ts
    simp [parseType, TokLeaf.tok] at h1
    obtain ⟨rfl, rfl⟩ := h1
    simp [eraseAll_length, Nat.add_assoc]
  · rename_i j a b k c d g e f ts
    simp only [eraseAll_cons, erase_leaf_eq, erase_paren_eq, TokLeaf.tok, parseType] at h1
    split at h1
    · rename_i hg
      cases h1
      have : g = [] := by
        cases g with
        | nil => rfl
        | cons => simp at hg
      subst this
      simp [eraseAll_length, closeGroup, Nat.add_assoc]
    · cases h1
  · rename_i j a b ts h2 h3
    have h4 : parseType (eraseAll (.leaf (.punct ':' j) a b :: ts)) = (do
        let (t, ts) ← parseRustTy (eraseAll ts)
        .ok (.regular (.rust t), ts)) := by
      simp only [eraseAll_cons, erase_leaf_eq, TokLeaf.tok]
      unfold parseType
      split
      · rename_i he
        simp only [List.cons.injEq] at he
        obtain ⟨gs, x, y, us, rfl, h5, _⟩ := eraseAll_paren he.2
        obtain rfl := eraseAll_eq_nil h5
        exact (h2 _ _ _ rfl).elim
      · rename_i he
        simp only [List.cons.injEq] at he
        obtain ⟨gs, x, y, us, rfl, h5, _⟩ := eraseAll_paren he.2
        obtain ⟨u, v, us', rfl, _⟩ := eraseAll_leaf (l := .punct _ _) h5
        exact (h3 _ _ _ _ _ _ _ rfl).elim
      · rename_i he
        simp only [List.cons.injEq, true_and] at he
        rw [he.2]
      · rename_i he
        exact (he _ _ rfl).elim
    rw [h4] at h1
    replace h1 := Res.bind_eq_ok h1; obtain ⟨⟨t, r'⟩, h5, h1⟩ := h1
    cases h1
    rw [h5]
    obtain ⟨pre, b', h6, _⟩ := parseRustTy_sound h5
    have h7 := congrArg List.length h6
    rw [eraseAll_length, List.length_append] at h7
    simp only [reduceCtorEq, decide_not, decide_false, Bool.not_false, ne_eq, not_false_eq_true, decide_true]
    rw [List.length_cons, show ts.length + 1 - r.length = (ts.length - r.length) + 1 by omega, List.drop_succ_cons]
  · rename_i h2 h3 h4
    have h5 : ∀ j us, eraseAll ts ≠ .punct ':' j :: us := by
      intro j us he
      obtain ⟨x, y, us, rfl, _⟩ := eraseAll_leaf (l := .punct _ _) he
      exact h4 _ _ _ _ rfl
    unfold parseType at h1
    split at h1
    · rename_i he; exact (h5 _ _ he).elim
    · rename_i he; exact (h5 _ _ he).elim
    · rename_i he; exact (h5 _ _ he).elim
    · cases h1; simp [eraseAll_length]

theorem eparseAction_sim {T T' : List SrcSpan} {e e' : Expr} {ts rest : List LTok} (h : lparseAction T e ts = .ok (e', T', rest)) :
    eparseAction none ts = .ok (true, none, rest) := by
  unfold lparseAction at h
  split at h
  · cases h; rfl
  · cases h; rfl
  · cases h
  · rename_i h1 h2 h3
    cases h
    unfold eparseAction
    split
    · exact (h3 _ _ _ _ rfl).elim
    · exact (h3 _ _ _ _ rfl).elim
    · exact (h3 _ _ _ _ rfl).elim
    · exact (h3 _ _ _ _ rfl).elim
    · rfl

theorem eparseSuffix_sim (T : List SrcSpan) (lo : SrcSpan) (e : Expr) (ts : List LTok) : (lparseSuffix T lo e ts).2.2 = eparseSuffix ts := by
  unfold lparseSuffix eparseSuffix
  split <;> first | rfl | skip
  rename_i h1 h2 h3
  split
  · exact (h1 _ _ _ _ rfl).elim
  · exact (h2 _ _ _ _ rfl).elim
  · exact (h3 _ _ _ _ rfl).elim
  · rfl

theorem sim_all : ∀ n, SimAt n := by
  intro n
  induction n with
  | zero =>
    constructor <;> intro r T ts a T' rest h <;> exfalso
    · rw [lparseChoice] at h; cases h
    · rw [lparseBranches] at h; cases h
    · rw [lparseSpanned] at h; cases h
    · rw [lparseSeq] at h; cases h
    · rw [lparseTypeds] at h; cases h
    · rw [lparseTyped] at h; cases h
    · rw [lparsePrefixed] at h; cases h
    · rw [lparseSuffixed] at h; cases h
    · rw [lparseAtom] at h; cases h
  | succ n ih =>
    constructor <;> intro r T ts a T' rest h
    · -- choice
      rw [lparseChoice] at h
      rw [eparseChoice]
      replace h := Res.bind_eq_ok h; obtain ⟨⟨es, T1, ts1⟩, h1, h⟩ := h
      rw [ih.branches r _ _ _ _ _ h1]
      simp only at h
      split at h
      · cases h
      · cases h; rfl
      · replace h := Res.bind_eq_ok h; obtain ⟨_, _, h⟩ := h
        replace h := Res.bind_eq_ok h; obtain ⟨_, _, h⟩ := h
        cases h; rfl
    · -- branches
      rw [lparseBranches] at h
      rw [eparseBranches]
      replace h := Res.bind_eq_ok h; obtain ⟨⟨e, T1, ts1⟩, h1, h⟩ := h
      rw [ih.spanned r _ _ _ _ _ h1, fbind_ok]
      simp only at h ⊢
      replace h := Res.bind_eq_ok h; obtain ⟨⟨e, T2, ts2⟩, h2, h⟩ := h
      rw [eparseAction_sim h2, fbind_ok]
      simp only at h ⊢
      split at h
      · replace h := Res.bind_eq_ok h; obtain ⟨⟨es, T3, ts3⟩, h3, h⟩ := h
        cases h
        exact ih.branches r _ _ _ _ _ h3
      · rename_i hn
        cases h
        split
        · exact (hn _ _ _ _ rfl).elim
        · rfl
    · -- spanned
      unfold lparseSpanned at h
      unfold eparseSpanned
      split at h
      · replace h := Res.bind_eq_ok h; obtain ⟨⟨e, T1, ts1⟩, h1, h⟩ := h
        cases h
        exact ih.seq r _ _ _ _ _ h1
      · rename_i hn
        replace h := Res.bind_eq_ok h; obtain ⟨⟨e, T1, ts1⟩, h1, h⟩ := h
        cases h
        split
        · rename_i he; cases he; exact (hn _ _ _ _ rfl rfl).elim
        · rename_i he; cases he; exact ih.seq r _ _ _ _ _ h1
        · rename_i he; exact (he _ _ _ _ _ _ rfl).elim
      · rename_i h1 h2
        split
        · rename_i he; exact (h1 _ _ _ _ _ _ _ _ rfl).elim
        · rename_i he; exact (h2 _ _ _ _ _ _ rfl).elim
        · exact ih.seq r _ _ _ _ _ h
    · -- seq
      rw [lparseSeq] at h
      rw [eparseSeq]
      simp only at h ⊢
      replace h := Res.bind_eq_ok h; obtain ⟨⟨es, T1, ts1⟩, h1, h⟩ := h
      rw [ih.elems r _ _ _ _ _ h1, fbind_ok]
      simp only at h ⊢
      split at h
      · cases h
      · cases h; rfl
      · replace h := Res.bind_eq_ok h; obtain ⟨_, _, h⟩ := h
        cases h; rfl
    · -- elems
      rw [lparseTypeds] at h
      rw [eparseTypeds]
      replace h := Res.bind_eq_ok h; obtain ⟨⟨o, T1, ts1⟩, h1, h⟩ := h
      rw [ih.typed r _ _ _ _ _ h1, fbind_ok]
      cases o with
      | none => cases h; rfl
      | some e =>
        simp only at h
        replace h := Res.bind_eq_ok h; obtain ⟨⟨es, T2, ts2⟩, h2, h⟩ := h
        cases h
        simp only [Option.isSome_some, if_true]
        rw [ih.elems r _ _ _ _ _ h2, fbind_ok]
        rfl
    · -- typed
      rw [lparseTyped] at h
      rw [eparseTyped]
      replace h := Res.bind_eq_ok h; obtain ⟨⟨o, T1, ts1⟩, h1, h⟩ := h
      rw [ih.prefixed r _ _ _ _ _ h1, fbind_ok]
      simp only at h ⊢
      replace h := Res.bind_eq_ok h; obtain ⟨⟨sp, ty, ts2⟩, h2, h⟩ := h
      rw [eparseType_sim h2, fbind_ok]
      simp only at h ⊢
      cases ty
      case infer => cases h; rfl
      all_goals
        cases o with
        | none => cases h
        | some e => cases h; rfl
    · -- prefixed
      unfold lparsePrefixed at h
      unfold eparsePrefixed
      split at h
      · replace h := Res.bind_eq_ok h; obtain ⟨⟨o, T1, ts1⟩, h1, h⟩ := h
        cases o with
        | none => cases h
        | some e =>
          simp only at h
          replace h := Res.bind_eq_ok h; obtain ⟨_, _, h⟩ := h
          cases h
          simp only
          rw [ih.suffixed r _ _ _ _ _ h1, fbind_ok]
          rfl
      · replace h := Res.bind_eq_ok h; obtain ⟨⟨o, T1, ts1⟩, h1, h⟩ := h
        cases o with
        | none => cases h
        | some e =>
          simp only at h
          replace h := Res.bind_eq_ok h; obtain ⟨_, _, h⟩ := h
          cases h
          simp only
          rw [ih.suffixed r _ _ _ _ _ h1, fbind_ok]
          rfl
      · rename_i h1 h2
        split
        · exact (h1 _ _ _ _ rfl).elim
        · exact (h2 _ _ _ _ rfl).elim
        · exact ih.suffixed r _ _ _ _ _ h
    · -- suffixed
      rw [lparseSuffixed] at h
      rw [eparseSuffixed]
      simp only at h
      replace h := Res.bind_eq_ok h; obtain ⟨⟨o, T1, ts1⟩, h1, h⟩ := h
      rw [ih.atom r _ _ _ _ _ h1, fbind_ok]
      cases o with
      | none => cases h; rfl
      | some e =>
        simp only at h
        have h3 := eparseSuffix_sim T1 (peekSpan ts) e ts1
        generalize lparseSuffix T1 (peekSpan ts) e ts1 = x at h h3
        obtain ⟨e', T2, ts2⟩ := x
        cases h
        simp only at h3
        rw [h3]
        rfl
    · -- atom
      unfold lparseAtom at h
      unfold eparseAtom
      split at h
      · cases h; rfl
      · cases h; rfl
      · split at h
        · cases h
        · rename_i hg
          replace h := Res.bind_eq_ok h; obtain ⟨⟨e, T1, g1⟩, h1, h⟩ := h
          simp only at h
          split at h
          · rename_i hg1
            cases h
            simp only
            rw [if_neg hg, ih.choice r _ _ _ _ _ h1, fbind_ok]
            cases g1 with
            | nil => rfl
            | cons => cases hg1
          · cases h
      · split at h
        · rename_i hp; cases h; simp only; rw [if_pos hp]; rfl
        · rename_i hp; cases h; simp only; rw [if_neg hp]; rfl
      · replace h := Res.bind_eq_ok h; obtain ⟨⟨e, k⟩, h1, h⟩ := h
        cases h
        simp only
        unfold parseClass at h1
        split at h1
        · rename_i s he
          replace h1 := Res.bind_eq_ok h1; obtain ⟨ivs, h2, h1⟩ := h1
          obtain ⟨x, y, us, rfl, h3⟩ := eraseAll_leaf (l := .lit _) he
          obtain rfl := eraseAll_eq_nil h3
          have hne : s.toList.isEmpty = false := by
            cases hs : s.toList with
            | nil => rw [hs] at h2; cases h2
            | cons => rfl
          simp only [eparseClass, hne, h2]
          rfl
        · cases h1
      · rename_i h1 h2 h3 h4 h5
        cases h
        split
        · exact (h1 _ _ _ _ rfl).elim
        · exact (h2 _ _ _ _ rfl).elim
        · exact (h3 _ _ _ _ rfl).elim
        · exact (h4 _ _ _ _ rfl).elim
        · exact (h5 _ _ _ _ rfl).elim
        · rfl

theorem eparseRule_sim {n : Nat} {T T' : List SrcSpan} {ts rest : List LTok} {r : String × Expr} (h : lparseRule n T ts = .ok (r, T', rest)) :
    eparseRule n none ts = .ok (true, none, rest) := by
  unfold lparseRule at h
  split at h
  · replace h := Res.bind_eq_ok h; obtain ⟨⟨sp, ty, ts1⟩, h1, h⟩ := h
    simp only at h
    rw [eparseRule, eparseType_sim h1, fbind_ok]
    split at h
    · replace h := Res.bind_eq_ok h; obtain ⟨⟨e, T1, ts2⟩, h2, h⟩ := h
      have h3 := (sim_all n).choice
      simp only at h ⊢
      split at h <;> cases h <;> exact h3 _ _ _ _ _ _ h2
    · cases h
  · cases h

theorem eparseBlocks_sim : ∀ (n : Nat) (T : List SrcSpan) (ts : List LTok) (x : FGrammar × List SrcSpan), lparseBlocks n T ts = .ok x →
    eparseBlocks n none ts = .ok none := by
  intro n
  induction n with
  | zero => intro T ts x h; cases h
  | succ n ih =>
    intro T ts x h
    unfold lparseBlocks at h
    unfold eparseBlocks
    split at h
    · rename_i he; rw [if_pos he]
    · rename_i he
      rw [if_neg he]
      generalize lsplitAttrs ts = y at h ⊢
      obtain ⟨ps, ts1⟩ := y
      simp only at h ⊢
      split at h
      · rename_i hl
        rw [if_pos hl]
        replace h := Res.bind_eq_ok h; obtain ⟨⟨r, T1, ts2⟩, h1, h⟩ := h
        replace h := Res.bind_eq_ok h; obtain ⟨⟨F, T2⟩, h2, h⟩ := h
        rw [eparseRule_sim h1, fbind_ok]
        exact ih _ _ _ h2
      · rename_i hl
        rw [if_neg hl]
        split at h
        · replace h := Res.bind_eq_ok h; obtain ⟨⟨F, T2⟩, h2, h⟩ := h
          exact ih _ _ _ h2
        · cases h

/-! ### Reading ends -/

/-- The reading ends. -/
def FOut.Ends {α : Type} : FOut α → Prop
  | .timeout => False
  | _ => True

theorem FOut.Ends.bind {α β : Type} {x : FOut α} {f : α → FOut β} (hx : x.Ends) (hf : ∀ a, x = .ok a → (f a).Ends) : (x >>= f).Ends := by
  cases x with
  | ok a => exact hf a rfl
  | err => trivial
  | timeout => exact hx

/-- The size of the tokens. -/
noncomputable def lsize (ts : List LTok) : Nat := sizeOf (eraseAll ts)

theorem lsize_cons (t : LTok) (ts : List LTok) : lsize (t :: ts) = 1 + sizeOf t.erase + lsize ts := by
  simp [lsize]

theorem lsize_pos (t : LTok) (ts : List LTok) : lsize ts + 1 ≤ lsize (t :: ts) := by
  rw [lsize_cons]; omega

theorem lsize_append (a b : List LTok) : lsize b ≤ lsize (a ++ b) := by
  induction a with
  | nil => exact Nat.le_refl _
  | cons t a ih => have := lsize_pos t (a ++ b); simp only [List.cons_append]; omega

theorem lsize_append_lt {a : List LTok} (b : List LTok) (h : a ≠ []) : lsize b + 1 ≤ lsize (a ++ b) := by
  cases a with
  | nil => exact (h rfl).elim
  | cons t a => have := lsize_append a b; have := lsize_pos t (a ++ b); simp only [List.cons_append]; omega

theorem lsize_paren (g ts : List LTok) (h w : SrcSpan) : lsize g + 1 ≤ lsize (.paren g h w :: ts) := by
  simp [lsize]; omega

/-- A function that reads something takes a token at least. -/
theorem ReadOk.less {r : String} {X B : List Tok → List Tok → Prop} {N : List LTok → Prop} {l l' : Option SrcSpan} {ts rest : List LTok}
    (h : ReadOk r X B N l ts (.ok (true, l', rest))) : lsize rest + 1 ≤ lsize ts := by
  obtain ⟨_, _, h⟩ := h
  obtain ⟨pre, us, hne, rfl, _⟩ := h rfl
  exact lsize_append_lt rest hne

theorem eparseType_ends (l : Option SrcSpan) (ts : List LTok) : (eparseType l ts).Ends := by
  have := eparseType_spec l ts
  cases h : eparseType l ts with
  | timeout => rw [h] at this; exact this
  | _ => trivial

theorem eparseType_size {l l' : Option SrcSpan} {ts rest : List LTok} {f : Bool} (h : eparseType l ts = .ok (f, l', rest)) : lsize rest ≤ lsize ts := by
  have h1 := eparseType_spec l ts
  rw [h] at h1
  obtain ⟨_, h2, h3⟩ := h1
  cases f with
  | false => rw [(h2 rfl).2.1]; exact Nat.le_refl _
  | true =>
    obtain ⟨j, a, b, tys, us, ty, c, rfl, _⟩ := h3 rfl
    have h4 := lsize_append tys rest
    have h5 := lsize_pos (.leaf (.punct ':' j) a b) (tys ++ rest)
    omega

theorem eparseAction_ends (l : Option SrcSpan) (ts : List LTok) : (eparseAction l ts).Ends := by
  unfold eparseAction
  split <;> trivial

theorem eparseAction_size {l l' : Option SrcSpan} {ts rest : List LTok} {f : Bool} (h : eparseAction l ts = .ok (f, l', rest)) : lsize rest ≤ lsize ts := by
  unfold eparseAction at h
  split at h <;> cases h
  · simp only [lsize_cons]; omega
  · simp only [lsize_cons]; omega
  · exact Nat.le_refl _

theorem eparseClass_ends (r : String) (sp : SrcSpan) (l : Option SrcSpan) (g : List LTok) : (eparseClass r sp l g).Ends := by
  unfold eparseClass
  split
  · split
    · trivial
    · split <;> trivial
  · trivial

/-- Enough fuel for each function. -/
structure EndsAt (n : Nat) : Prop where
  choice : ∀ r l ts, 10 * lsize ts + 9 ≤ n → (eparseChoice r n l ts).Ends
  branches : ∀ r l ts, 10 * lsize ts + 8 ≤ n → (eparseBranches r n l ts).Ends
  spanned : ∀ r l ts, 10 * lsize ts + 7 ≤ n → (eparseSpanned r n l ts).Ends
  seq : ∀ r l ts, 10 * lsize ts + 6 ≤ n → (eparseSeq r n l ts).Ends
  elems : ∀ r l ts, 10 * lsize ts + 5 ≤ n → (eparseTypeds r n l ts).Ends
  typed : ∀ r l ts, 10 * lsize ts + 4 ≤ n → (eparseTyped r n l ts).Ends
  prefixed : ∀ r l ts, 10 * lsize ts + 3 ≤ n → (eparsePrefixed r n l ts).Ends
  suffixed : ∀ r l ts, 10 * lsize ts + 2 ≤ n → (eparseSuffixed r n l ts).Ends
  atom : ∀ r l ts, 10 * lsize ts + 1 ≤ n → (eparseAtom r n l ts).Ends

theorem ends_all : ∀ n, EndsAt n := by
  intro n
  induction n with
  | zero => constructor <;> intro r l ts h <;> omega
  | succ n ih =>
    constructor <;> intro r l ts h
    · rw [eparseChoice]; exact ih.branches r l ts (by omega)
    · rw [eparseBranches]
      refine (ih.spanned r l ts (by omega)).bind fun a ha => ?_
      obtain ⟨f, l1, ts1⟩ := a
      have hg := (read_ok_all n).spanned r l ts
      rw [ha] at hg
      cases f with
      | false => exact ((hg.2.1 rfl).2.2).elim
      | true =>
        have h1 := hg.less
        refine (eparseAction_ends _ _).bind fun b hb => ?_
        obtain ⟨f2, l2, ts2⟩ := b
        have h2 := eparseAction_size hb
        simp only
        split
        · rename_i j a b ts3
          have := lsize_pos (.leaf (.punct '/' j) a b) ts3
          exact ih.branches _ _ _ (by omega)
        · trivial
    · unfold eparseSpanned
      split
      · simp only [lsize_cons] at h; exact ih.seq _ _ _ (by omega)
      · simp only [lsize_cons] at h; exact ih.seq _ _ _ (by omega)
      · exact ih.seq _ _ _ (by omega)
    · rw [eparseSeq]
      refine (ih.elems r l ts (by omega)).bind fun a _ => ?_
      obtain ⟨f, l1, ts1⟩ := a
      cases f <;> trivial
    · rw [eparseTypeds]
      refine (ih.typed r l ts (by omega)).bind fun a ha => ?_
      obtain ⟨f, l1, ts1⟩ := a
      cases f with
      | false => trivial
      | true =>
        have hg := (read_ok_all n).typed r l ts
        rw [ha] at hg
        have h1 := hg.less
        simp only [if_true]
        exact (ih.elems _ _ _ (by omega)).bind fun _ _ => trivial
    · rw [eparseTyped]
      refine (ih.prefixed r l ts (by omega)).bind fun a ha => ?_
      obtain ⟨f, l1, ts1⟩ := a
      refine (eparseType_ends _ _).bind fun b _ => ?_
      obtain ⟨f2, l2, ts2⟩ := b
      simp only
      split
      · split <;> trivial
      · trivial
    · unfold eparsePrefixed
      split
      · simp only [lsize_cons] at h
        refine (ih.suffixed _ _ _ (by omega)).bind fun a _ => ?_
        obtain ⟨f, l1, ts1⟩ := a
        cases f <;> trivial
      · simp only [lsize_cons] at h
        refine (ih.suffixed _ _ _ (by omega)).bind fun a _ => ?_
        obtain ⟨f, l1, ts1⟩ := a
        cases f <;> trivial
      · exact ih.suffixed _ _ _ (by omega)
    · rw [eparseSuffixed]
      refine (ih.atom r l ts (by omega)).bind fun a _ => ?_
      obtain ⟨f, l1, ts1⟩ := a
      cases f <;> trivial
    · unfold eparseAtom
      split
      · trivial
      · trivial
      · rename_i g a b ts1
        have := lsize_paren g ts1 a b
        split
        · trivial
        · exact (ih.choice _ _ _ (by omega)).bind fun _ _ => trivial
      · split <;> trivial
      · exact (eparseClass_ends _ _ _ _).bind fun _ _ => trivial
      · trivial

theorem blocks_ends : ∀ n l ts, 10 * lsize ts + 10 ≤ n → (eparseBlocks n l ts).Ends := by
  intro n
  induction n with
  | zero => intro l ts h; omega
  | succ n ih =>
    intro l ts hn
    unfold eparseBlocks
    split
    · trivial
    · obtain ⟨pre, h1, _, _⟩ := lsplitAttrs_spec ts
      generalize lsplitAttrs ts = y at h1
      obtain ⟨ps, ts1⟩ := y
      simp only at h1 ⊢
      have h2 := lsize_append pre ts1
      rw [← h1] at h2
      split
      · rename_i hl
        obtain ⟨name, hd, hd', l1, body, h3, h4, h5, _⟩ := eparseRule_spec n l (header_of_peek hl)
        rw [h5]
        have h6 := lsize_append_lt body h4
        rw [← h3] at h6
        refine ((ends_all n).choice _ _ _ (by omega)).bind fun a ha => ?_
        obtain ⟨f, l2, ts2⟩ := a
        have hg := (read_ok_all n).choice name l1 body
        rw [ha] at hg
        cases f with
        | false => exact ((hg.2.1 rfl).2.2).elim
        | true =>
          have h7 := hg.less
          have h8 : 10 * lsize ts2 + 10 ≤ n := by omega
          exact ih _ _ h8
      · split
        · rename_i it a b ts2 _
          have := lsize_pos (.leaf (.item it) a b) ts2
          exact ih _ _ (by omega)
        · trivial

/-! ### The time does not matter -/

theorem FOut.bind_stable {α β : Type} {x y : FOut α} {f g : α → FOut β} (hx : x ≠ .timeout → y = x)
    (hf : ∀ a, f a ≠ .timeout → g a = f a) (h : (x >>= f) ≠ .timeout) : (y >>= g) = (x >>= f) := by
  cases x with
  | ok a => rw [hx (by simp)]; exact hf a h
  | err e l => rw [hx (by simp)]; rfl
  | timeout => exact (h rfl).elim

/-- More fuel does not change a result. -/
structure FixedAt (n : Nat) : Prop where
  choice : ∀ r l ts, eparseChoice r n l ts ≠ .timeout → eparseChoice r (n + 1) l ts = eparseChoice r n l ts
  branches : ∀ r l ts, eparseBranches r n l ts ≠ .timeout → eparseBranches r (n + 1) l ts = eparseBranches r n l ts
  spanned : ∀ r l ts, eparseSpanned r n l ts ≠ .timeout → eparseSpanned r (n + 1) l ts = eparseSpanned r n l ts
  seq : ∀ r l ts, eparseSeq r n l ts ≠ .timeout → eparseSeq r (n + 1) l ts = eparseSeq r n l ts
  elems : ∀ r l ts, eparseTypeds r n l ts ≠ .timeout → eparseTypeds r (n + 1) l ts = eparseTypeds r n l ts
  typed : ∀ r l ts, eparseTyped r n l ts ≠ .timeout → eparseTyped r (n + 1) l ts = eparseTyped r n l ts
  prefixed : ∀ r l ts, eparsePrefixed r n l ts ≠ .timeout → eparsePrefixed r (n + 1) l ts = eparsePrefixed r n l ts
  suffixed : ∀ r l ts, eparseSuffixed r n l ts ≠ .timeout → eparseSuffixed r (n + 1) l ts = eparseSuffixed r n l ts
  atom : ∀ r l ts, eparseAtom r n l ts ≠ .timeout → eparseAtom r (n + 1) l ts = eparseAtom r n l ts

theorem fixed_all : ∀ n, FixedAt n := by
  intro n
  induction n with
  | zero =>
    constructor <;> intro r l ts h
    all_goals exfalso; apply h
    all_goals first
      | rw [eparseChoice] | rw [eparseBranches] | rw [eparseSpanned] | rw [eparseSeq] | rw [eparseTypeds] | rw [eparseTyped]
      | rw [eparsePrefixed] | rw [eparseSuffixed] | rw [eparseAtom]
  | succ n ih =>
    constructor <;> intro r l ts h
    · rw [eparseChoice] at h
      rw [eparseChoice, eparseChoice]
      exact ih.branches r l ts h
    · rw [eparseBranches] at h
      rw [eparseBranches, eparseBranches]
      refine FOut.bind_stable (ih.spanned r l ts) (fun a h1 => ?_) h
      refine FOut.bind_stable (fun _ => rfl) (fun b h2 => ?_) h1
      obtain ⟨b1, b2, b3⟩ := b
      simp only at h2 ⊢
      split at h2
      · exact ih.branches _ _ _ h2
      · rfl
    · unfold eparseSpanned at h ⊢
      split at h
      · exact ih.seq _ _ _ h
      · exact ih.seq _ _ _ h
      · exact ih.seq _ _ _ h
    · rw [eparseSeq] at h
      rw [eparseSeq, eparseSeq]
      exact FOut.bind_stable (ih.elems r l ts) (fun a _ => rfl) h
    · rw [eparseTypeds] at h
      rw [eparseTypeds, eparseTypeds]
      refine FOut.bind_stable (ih.typed r l ts) (fun a h1 => ?_) h
      obtain ⟨f, l1, ts1⟩ := a
      cases f with
      | false => rfl
      | true => exact FOut.bind_stable (ih.elems _ _ _) (fun _ _ => rfl) h1
    · rw [eparseTyped] at h
      rw [eparseTyped, eparseTyped]
      exact FOut.bind_stable (ih.prefixed r l ts) (fun a _ => rfl) h
    · unfold eparsePrefixed at h ⊢
      split at h
      · exact FOut.bind_stable (ih.suffixed _ _ _) (fun _ _ => rfl) h
      · exact FOut.bind_stable (ih.suffixed _ _ _) (fun _ _ => rfl) h
      · exact ih.suffixed _ _ _ h
    · rw [eparseSuffixed] at h
      rw [eparseSuffixed, eparseSuffixed]
      exact FOut.bind_stable (ih.atom r l ts) (fun a _ => rfl) h
    · unfold eparseAtom at h ⊢
      split at h
      · rfl
      · rfl
      · split at h
        · rename_i hg; rw [if_pos hg, if_pos hg]
        · rename_i hg
          rw [if_neg hg, if_neg hg]
          exact FOut.bind_stable (ih.choice _ _ _) (fun _ _ => rfl) h
      · rfl
      · rfl
      · rfl

theorem eparseRule_fixed (n : Nat) (l : Option SrcSpan) (ts : List LTok) (h : eparseRule n l ts ≠ .timeout) : eparseRule (n + 1) l ts = eparseRule n l ts := by
  unfold eparseRule at h ⊢
  split at h
  · refine FOut.bind_stable (fun _ => rfl) (fun a h1 => ?_) h
    obtain ⟨f, l1, ts1⟩ := a
    simp only at h1 ⊢
    split at h1
    · exact (fixed_all n).choice _ _ _ h1
    · rfl
  · rfl

theorem eparseBlocks_fixed : ∀ n l ts, eparseBlocks n l ts ≠ .timeout → eparseBlocks (n + 1) l ts = eparseBlocks n l ts := by
  intro n
  induction n with
  | zero => intro l ts h; exact (h rfl).elim
  | succ n ih =>
    intro l ts h
    unfold eparseBlocks at h ⊢
    split at h
    · rename_i he; rw [if_pos he, if_pos he]
    · rename_i he
      rw [if_neg he, if_neg he]
      generalize lsplitAttrs ts = x at h ⊢
      obtain ⟨ps, ts1⟩ := x
      simp only at h ⊢
      split at h
      · rename_i hl
        rw [if_pos hl, if_pos hl]
        exact FOut.bind_stable (eparseRule_fixed _ _ _) (fun a h1 => ih _ _ h1) h
      · rename_i hl
        rw [if_neg hl, if_neg hl]
        split at h
        · exact ih _ _ h
        · rfl

theorem eparseBlocks_mono {n m : Nat} {l : Option SrcSpan} {ts : List LTok} (hm : n ≤ m) (h : eparseBlocks n l ts ≠ .timeout) :
    eparseBlocks m l ts = eparseBlocks n l ts := by
  induction hm with
  | refl => rfl
  | step _ ih => rw [← ih]; exact eparseBlocks_fixed _ l ts (by rw [ih]; exact h)

end Oak
