import Verif.Proofs.FrontErase
import Verif.Proofs.FrontTotal
import Verif.Spec.FrontErrors
/-! The errors of the front-end: their places. -/
set_option autoImplicit false
set_option linter.constructorNameAsVariable false

namespace Oak
open Syntax

/-! ### Trimmed tokens -/

theorem Trim.mono {b c : Bool} {ts : List LTok} {us : List Tok} (h : Trim b ts us) (hb : b = true → c = true) : Trim c ts us := by
  have hz : ∀ {z : List LTok}, (b = false → z = []) → c = false → z = [] := by
    intro z hz hc
    cases b with
    | false => exact hz rfl
    | true => rw [hb rfl] at hc; cases hc
  induction h with
  | nil => exact .nil
  | leaf _ ih => exact .leaf ih
  | paren _ h2 _ ih1 ih2 => exact .paren ih1 (hz h2) ih2
  | bracket _ h2 _ ih1 ih2 => exact .bracket ih1 (hz h2) ih2

theorem Trim.append {b : Bool} {ts ts' : List LTok} {us us' : List Tok} (h : Trim b ts us) (h' : Trim b ts' us') : Trim b (ts ++ ts') (us ++ us') := by
  induction h with
  | nil => exact h'
  | leaf _ ih => exact .leaf ih
  | paren h1 h2 _ _ ih => exact .paren h1 h2 ih
  | bracket h1 h2 _ _ ih => exact .bracket h1 h2 ih

theorem Trim.exact {ts : List LTok} {us : List Tok} (h : Trim false ts us) : us = eraseAll ts := by
  generalize hb : false = b at h
  induction h with
  | nil => simp
  | leaf _ ih => simp [ih]
  | paren h1 h2 _ ih1 ih2 => simp [ih1, ih2, h2 hb.symm]
  | bracket h1 h2 _ ih1 ih2 => simp [ih1, ih2, h2 hb.symm]

mutual
theorem trim_tok (b : Bool) (t : LTok) : Trim b [t] [t.erase] := by
  cases t with
  | leaf l h w => rw [erase_leaf_eq]; exact .leaf .nil
  | paren g h w => rw [erase_paren_eq]; simpa using Trim.paren (z := []) (trim_refl b g) (fun _ => rfl) Trim.nil
  | bracket g h w => rw [erase_bracket_eq]; simpa using Trim.bracket (z := []) (trim_refl b g) (fun _ => rfl) Trim.nil
theorem trim_refl (b : Bool) (ts : List LTok) : Trim b ts (eraseAll ts) := by
  cases ts with
  | nil => simpa using Trim.nil
  | cons t ts => rw [eraseAll_cons]; exact (trim_tok b t).append (trim_refl b ts)
end

theorem trim_leaf (b : Bool) (l : TokLeaf) (h w : SrcSpan) : Trim b [.leaf l h w] [l.tok] := .leaf .nil

theorem Cut.mono {b c : Bool} {ts rest : List LTok} {p us : List Tok} (h : Cut b ts rest p us) (hb : b = true → c = true) : Cut c ts rest p us := by
  induction h with
  | here h => exact .here (h.mono hb)
  | paren h _ ih => exact .paren (h.mono hb) ih
  | bracket h _ ih => exact .bracket (h.mono hb) ih

theorem Cut.after {b : Bool} {ts rest pre : List LTok} {p us vs : List Tok} (h : Cut b ts rest p us) (hp : Trim b pre vs) :
    Cut b (pre ++ ts) rest p (vs ++ us) := by
  cases h with
  | here h => rw [← List.append_assoc, ← List.append_assoc]; exact .here (hp.append h)
  | paren h hc => rw [← List.append_assoc, ← List.append_assoc]; exact .paren (hp.append h) hc
  | bracket h hc => rw [← List.append_assoc, ← List.append_assoc]; exact .bracket (hp.append h) hc

/-- `us` begins like `ts`, as far as the conditions of the syntax are concerned. -/
def SameStart (us ts : List Tok) : Prop :=
  (startsParen us = true → startsParen ts = true) ∧ (startsDot us = true → startsDot ts = true) ∧ (startsDots us = true → startsDots ts = true)

/-- Neither a group nor a dot. -/
def Mild (p : List Tok) : Prop := startsParen p = false ∧ startsDot p = false

theorem startsDots_dot {ts : List Tok} (h : startsDots ts = true) : startsDot ts = true := by
  obtain ⟨j, us, rfl⟩ := startsDots_iff h
  rfl

theorem trim_alike {b : Bool} {ts : List LTok} {us : List Tok} (h : Trim b ts us) {p q : List Tok} (hp : SameStart p q) : SameStart (us ++ p) (eraseAll ts ++ q) := by
  cases h with
  | nil => simpa using hp
  | paren => exact ⟨by simp [startsParen], by simp [startsDot], by simp [startsDots]⟩
  | bracket => exact ⟨by simp [startsParen], by simp [startsDot], by simp [startsDots]⟩
  | @leaf l h w ts us h1 =>
    refine ⟨?_, ?_, ?_⟩
    · intro hs; obtain ⟨g, vs, he⟩ := startsParen_iff hs; cases l <;> cases he
    · intro hs; obtain ⟨j, vs, he⟩ := startsDot_iff hs; cases l <;> cases he; simp [startsDot, TokLeaf.tok]
    · intro hs
      obtain ⟨j, vs, he⟩ := startsDots_iff hs
      obtain ⟨he1, he2⟩ := List.cons.inj he
      replace he2 : us ++ p = _ := he2
      cases l <;> cases he1
      simp only [eraseAll_cons, erase_leaf_eq, TokLeaf.tok, List.cons_append]
      have : startsDot (us ++ p) = true := by rw [he2]; rfl
      have h2 : startsDot (eraseAll ts ++ q) = true := by
        cases h1 with
        | nil => exact hp.2.1 (by simpa using this)
        | @leaf l h w ts us h1 => obtain ⟨j, vs, he⟩ := startsDot_iff this; cases l <;> cases he; simp [startsDot, TokLeaf.tok]
        | paren => simp [startsDot] at this
        | bracket => simp [startsDot] at this
      obtain ⟨j', vs', h3⟩ := startsDot_iff h2
      rw [h3]
      rfl

theorem Mild.alike {p : List Tok} (h : Mild p) (q : List Tok) : SameStart p q := by
  refine ⟨?_, ?_, ?_⟩
  · rw [h.1]; simp
  · rw [h.2]; simp
  · intro h1; have := startsDots_dot h1; rw [h.2] at this; cases this

theorem cut_alike {b : Bool} {ts rest : List LTok} {p us : List Tok} (h : Cut b ts rest p us) (hp : Mild p) : SameStart us (eraseAll ts) := by
  cases h with
  | here h => rw [eraseAll_append]; exact trim_alike h (hp.alike _)
  | paren h _ =>
    rw [eraseAll_append]
    refine trim_alike h ⟨?_, ?_, ?_⟩
    · simp [startsParen]
    · simp [startsDot]
    · simp [startsDots]
  | bracket h _ =>
    rw [eraseAll_append]
    refine trim_alike h ⟨?_, ?_, ?_⟩
    · simp [startsParen]
    · simp [startsDot]
    · simp [startsDots]

theorem patch_mild (k : FKind) : Mild k.patch := by
  cases k <;> exact ⟨rfl, rfl⟩

/-! ### Errors in a part of the syntax -/

/-- The error is about tokens that should be in `X`, in the rule `r`. -/
def BadIn (r : String) (X : List Tok → Prop) (b : Bool) (e : FErr) (ts : List LTok) : Prop :=
  ∃ rest us, Cut b ts rest e.kind.patch us ∧ X us ∧ e.kind.Cause rest ∧ e.span = e.kind.at rest ∧ ∀ q, e.kind.ruleOf = some q → q = r

theorem BadIn.weaken {r : String} {X Y : List Tok → Prop} {b c : Bool} {e : FErr} {ts : List LTok} (h : BadIn r X b e ts) (hb : b = true → c = true)
    (hf : ∀ vs, X vs → SameStart vs (eraseAll ts) → Y vs) : BadIn r Y c e ts := by
  obtain ⟨rest, us, h1, h2, h3⟩ := h
  exact ⟨rest, us, h1.mono hb, hf us h2 (cut_alike h1 (patch_mild _)), h3⟩

theorem BadIn.after {r : String} {X Y : List Tok → Prop} {b : Bool} {e : FErr} {pre ts : List LTok} {us : List Tok} (h : BadIn r X b e ts) (hp : Trim b pre us)
    (hf : ∀ vs, X vs → SameStart vs (eraseAll ts) → Y (us ++ vs)) : BadIn r Y b e (pre ++ ts) := by
  obtain ⟨rest, vs, h1, h2, h3⟩ := h
  exact ⟨rest, us ++ vs, h1.after hp, hf vs h2 (cut_alike h1 (patch_mild _)), h3⟩

/-- What is known of a function that reads some `X`, as `X us rest` when `rest` follows, or nothing, when `N` holds; at an error, there is some `B`. -/
def ReadOk (r : String) (X B : List Tok → List Tok → Prop) (N : List LTok → Prop) (l : Option SrcSpan) (ts : List LTok) : FOut FRead → Prop
  | .timeout => True
  | .err e l' => BadIn r (B · []) l'.isSome e ts ∧ (l.isSome = true → l'.isSome = true)
  | .ok (f, l', rest) => (l.isSome = true → l' = l) ∧ (f = false → l' = l ∧ rest = ts ∧ N ts) ∧
      (f = true → ∃ pre us, pre ≠ [] ∧ ts = pre ++ rest ∧ Trim l'.isSome pre us ∧ X us (eraseAll rest))

theorem fbind_ok {α β : Type} (a : α) (f : α → FOut β) : (FOut.ok a >>= f) = f a := rfl
theorem fbind_err {α β : Type} (e : FErr) (l : Option SrcSpan) (f : α → FOut β) : ((FOut.err e l : FOut α) >>= f) = .err e l := rfl
theorem fbind_timeout {α β : Type} (f : α → FOut β) : ((FOut.timeout : FOut α) >>= f) = .timeout := rfl

/-- The levels of the syntax, with what follows. -/
def isAtom (us _rest : List Tok) : Prop := ∃ x, Atom us x
def isSuffixed (us _rest : List Tok) : Prop := ∃ x, Suffixed us x
def isPrefixed (us _rest : List Tok) : Prop := ∃ x, Prefixed us x
def isTyped (us rest : List Tok) : Prop := ∃ x b, Typed us x b ∧ (b = true → startsParen rest = false)
def isElems (us _rest : List Tok) : Prop := ∃ xs, Elems us xs
def isSeq (us _rest : List Tok) : Prop := ∃ x, Seq us x
def isSpanned (us _rest : List Tok) : Prop := ∃ x, Spanned us x
def isBranches (us _rest : List Tok) : Prop := ∃ xs, Branches us xs
def isChoice (us _rest : List Tok) : Prop := ∃ x, Choice us x

theorem isElems.seq {us rest : List Tok} (h : isElems us rest) : isSeq us rest := by
  obtain ⟨xs, h⟩ := h
  cases xs with
  | nil => cases h
  | cons x xs =>
    cases xs with
    | nil => exact ⟨_, .one h⟩
    | cons y xs => exact ⟨_, .many h⟩

theorem isBranches.choice {us rest : List Tok} (h : isBranches us rest) : isChoice us rest := by
  obtain ⟨xs, h⟩ := h
  cases xs with
  | nil => cases h
  | cons x xs =>
    cases xs with
    | nil => exact ⟨_, .one h⟩
    | cons y xs => exact ⟨_, .many h⟩

/-- A literal can stand for everything. -/
theorem lit_atom (s : String) (rest : List Tok) : isAtom [.lit s] rest := ⟨_, .lit⟩
theorem isAtom.suffixed {us rest : List Tok} (h : isAtom us rest) : isSuffixed us rest := let ⟨_, h⟩ := h; ⟨_, .atom h⟩
theorem isSuffixed.prefixed {us rest : List Tok} (h : isSuffixed us rest) : isPrefixed us rest := let ⟨_, h⟩ := h; ⟨_, .suffixed h⟩
theorem isPrefixed.typed {us rest : List Tok} (h : isPrefixed us rest) : isTyped us rest := let ⟨_, h⟩ := h; ⟨_, _, .prefixed h, by simp⟩
theorem isTyped.elems {us rest : List Tok} (h : isTyped us rest) : isElems us rest := let ⟨_, _, h, _⟩ := h; ⟨_, .one h⟩
theorem isSeq.spanned {us rest : List Tok} (h : isSeq us rest) (hd : startsDots us = false) : isSpanned us rest := let ⟨_, h⟩ := h; ⟨_, .seq h hd⟩
theorem isSpanned.branches {us rest : List Tok} (h : isSpanned us rest) : isBranches us rest := let ⟨_, h⟩ := h; ⟨_, .one (.spanned h)⟩
theorem lit_typed (s : String) (rest : List Tok) : isTyped [.lit s] rest := (lit_atom s rest).suffixed.prefixed.typed
theorem lit_elems (s : String) (rest : List Tok) : isElems [.lit s] rest := (lit_typed s rest).elems

/-- An error at the first token. -/
theorem bad_here {r : String} {X : List Tok → Prop} {b : Bool} {e : FErr} {ts : List LTok} (hX : X e.kind.patch) (hc : e.kind.Cause ts)
    (hs : e.span = e.kind.at ts) (hr : ∀ q, e.kind.ruleOf = some q → q = r) : BadIn r X b e ts :=
  ⟨ts, e.kind.patch, by simpa using Cut.here (rest := ts) (p := e.kind.patch) (Trim.nil (cut := b)), hX, hc, hs, hr⟩

/-- What is known of each function, for a depth. -/
structure ReadOkAt (n : Nat) : Prop where
  choice : ∀ r l ts, ReadOk r isChoice isChoice (fun _ => False) l ts (eparseChoice r n l ts)
  branches : ∀ r l ts, ReadOk r isBranches isBranches (fun _ => False) l ts (eparseBranches r n l ts)
  spanned : ∀ r l ts, ReadOk r isSpanned isSpanned (fun _ => False) l ts (eparseSpanned r n l ts)
  seq : ∀ r l ts, ReadOk r isSeq isSeq (fun _ => False) l ts (eparseSeq r n l ts)
  elems : ∀ r l ts, ReadOk r isElems isElems (fun ts => NoElem ts ∧ ∀ j h w us, ts ≠ .leaf (.punct ':' j) h w :: us) l ts (eparseTypeds r n l ts)
  typed : ∀ r l ts, ReadOk r isTyped isElems (fun ts => NoElem ts ∧ ∀ j h w us, ts ≠ .leaf (.punct ':' j) h w :: us) l ts (eparseTyped r n l ts)
  prefixed : ∀ r l ts, ReadOk r isPrefixed isPrefixed NoElem l ts (eparsePrefixed r n l ts)
  suffixed : ∀ r l ts, ReadOk r isSuffixed isSuffixed NoAtom l ts (eparseSuffixed r n l ts)
  atom : ∀ r l ts, ReadOk r isAtom isAtom NoAtom l ts (eparseAtom r n l ts)

@[simp] theorem tok_punct (c : Char) (j : Bool) : (TokLeaf.punct c j).tok = .punct c j := rfl
@[simp] theorem tok_lit (s : String) : (TokLeaf.lit s).tok = .lit s := rfl
@[simp] theorem tok_path (p : Path) : (TokLeaf.path p).tok = .path p := rfl
@[simp] theorem tok_box : TokLeaf.box.tok = .box := rfl
@[simp] theorem tok_attr (p : Path) : (TokLeaf.attr p).tok = .attr p := rfl
@[simp] theorem tok_item (i : Item) : (TokLeaf.item i).tok = .item i := rfl

theorem eparseSuffix_spec (ts : List LTok) : ∃ pre, ts = pre ++ eparseSuffix ts ∧ ∀ us rest rest', isAtom us rest → isSuffixed (us ++ eraseAll pre) rest' := by
  unfold eparseSuffix
  split
  · rename_i j h w ts; exact ⟨[.leaf (.punct '*' j) h w], rfl, fun us _ _ ⟨x, hx⟩ => ⟨_, by simpa using Suffixed.star hx⟩⟩
  · rename_i j h w ts; exact ⟨[.leaf (.punct '+' j) h w], rfl, fun us _ _ ⟨x, hx⟩ => ⟨_, by simpa using Suffixed.plus hx⟩⟩
  · rename_i j h w ts; exact ⟨[.leaf (.punct '?' j) h w], rfl, fun us _ _ ⟨x, hx⟩ => ⟨_, by simpa using Suffixed.opt hx⟩⟩
  · exact ⟨[], rfl, fun us _ _ ⟨x, hx⟩ => ⟨_, by simpa using Suffixed.atom hx⟩⟩

theorem closeGroup_some {l : Option SrcSpan} (h : l.isSome = true) (g : List LTok) : closeGroup l g = l := by
  cases l with
  | none => cases h
  | some s => rfl

theorem closeGroup_mono {l : Option SrcSpan} (h : l.isSome = true) (g : List LTok) : (closeGroup l g).isSome = true := by
  rw [closeGroup_some h]; exact h

theorem closeGroup_none {l : Option SrcSpan} {g : List LTok} (h : (closeGroup l g).isSome = false) : g = [] ∧ l = none := by
  cases l with
  | some s => cases h
  | none =>
    cases g with
    | nil => exact ⟨rfl, rfl⟩
    | cons t g => cases h

theorem closeGroup_new {l : Option SrcSpan} {g : List LTok} {s : SrcSpan} (hl : l = none) (h : closeGroup l g = some s) : g ≠ [] ∧ s = peekSpan g := by
  subst hl
  cases g with
  | nil => cases h
  | cons t g => cases h; exact ⟨by simp, rfl⟩

/-- What follows the header of a rule. -/
theorem parseType_lsplit {ts : List LTok} {t : String} {r : List Tok} (h : parseRustTy (eraseAll ts) = .ok (t, r)) :
    ∃ pre b, ts = pre ++ ts.drop (ts.length - r.length) ∧ IsType (eraseAll pre) (.regular (.rust t)) b ∧ r = eraseAll (ts.drop (ts.length - r.length)) ∧
      (b = true → startsParen r = false) := by
  obtain ⟨pre, b, h1, h2, h3⟩ := parseRustTy_sound h
  obtain ⟨u, v, rfl, hu, hv⟩ := eraseAll_split h1
  have hd : (u ++ v).drop ((u ++ v).length - r.length) = v := by
    have : r.length = v.length := by rw [← hv, eraseAll_length]
    rw [this, List.length_append, Nat.add_sub_cancel, List.drop_left]
  rw [hd]
  exact ⟨u, b, rfl, by rw [hu]; exact h2, hv.symm, h3⟩

/-- What is known of `parse_type`. -/
def TypeRead (l : Option SrcSpan) (ts : List LTok) : FOut FRead → Prop
  | .timeout => False
  | .err e l' => l' = l ∧ ∃ j h w us, ts = .leaf (.punct ':' j) h w :: us ∧ e = ⟨.rustType, peekSpan us⟩ ∧ FKind.Cause ts .rustType
  | .ok (f, l', rest) => (l.isSome = true → l' = l) ∧ (f = false → l' = l ∧ rest = ts ∧ ∀ j h w us, ts ≠ .leaf (.punct ':' j) h w :: us) ∧
      (f = true → ∃ j h w tys us ty b, ts = .leaf (.punct ':' j) h w :: (tys ++ rest) ∧ Trim l'.isSome tys us ∧ IsType us ty b ∧
        (b = true → startsParen (eraseAll rest) = false) ∧ Trim true tys us ∧
        (l = none → ∀ s, l' = some s → ∀ q, BadIn q (fun vs => ∃ i j, vs = [.punct ':' i, .paren [.punct '^' j]]) false ⟨.unexpected, s⟩ ts))

theorem eparseType_spec (l : Option SrcSpan) (ts : List LTok) : TypeRead l ts (eparseType l ts) := by
  unfold eparseType
  split
  · rename_i j h w h' w' ts
    refine ⟨fun _ => rfl, by simp, fun _ => ⟨j, h, w, [.paren [] h' w'], _, _, _, rfl, trim_refl _ _, by simpa using IsType.unit, by simp, trim_refl _ _, ?_⟩⟩
    intro h1 s h2; rw [h1] at h2; cases h2
  · rename_i j h w j2 h2 w2 g h' w' ts
    refine ⟨fun hl => closeGroup_some hl g, by simp, fun _ => ⟨j, h, w, [.paren (.leaf (.punct '^' j2) h2 w2 :: g) h' w'], [.paren [.punct '^' j2]], _, _,
      rfl, ?_, .invisible, by simp, ?_, ?_⟩⟩
    · exact Trim.paren (g := [.leaf (.punct '^' j2) h2 w2]) (.leaf .nil) (fun hc => (closeGroup_none hc).1) .nil
    · exact Trim.paren (g := [.leaf (.punct '^' j2) h2 w2]) (.leaf .nil) (by simp) .nil
    · intro hl s hs q
      obtain ⟨h3, rfl⟩ := closeGroup_new hl hs
      refine ⟨g, [.punct ':' j, .paren [.punct '^' j2]], ?_, ⟨j, j2, rfl⟩, h3, rfl, by simp [FKind.ruleOf]⟩
      have := Cut.paren (cut := false) (h := h') (w := w') (post := ts) (trim_leaf false (.punct ':' j) h w)
        (Cut.here (rest := g) (p := []) (Trim.leaf (l := .punct '^' j2) (h := h2) (w := w2) Trim.nil))
      simpa [FKind.patch] using this
  · rename_i j h w ts h1 h2
    cases hp : parseRustTy (eraseAll ts) with
    | ok a =>
      obtain ⟨t, r⟩ := a
      obtain ⟨pre, b, h3, h4, h5, h6⟩ := parseType_lsplit hp
      refine ⟨fun _ => rfl, by simp, fun _ => ⟨j, h, w, pre, _, _, b, by rw [← h3], trim_refl _ _, h4, by rw [← h5]; exact h6, trim_refl _ _, ?_⟩⟩
      intro h1 s h2; rw [h1] at h2; cases h2
    | _ =>
      refine ⟨rfl, j, h, w, ts, rfl, rfl, j, h, w, ts, rfl, ?_⟩
      intro tys us ty b he ht
      cases hb : b with
      | false =>
        exfalso
        have key : ∀ t, IsType tys (.regular (.rust t)) b → False := by
          intro t ht
          have := parseRustTy_complete (rest := us) ht (by rw [hb]; simp)
          rw [← he, hp] at this
          cases this
        cases ht with
        | unit =>
          obtain ⟨gs, x, y, vs, rfl, hg, _⟩ := eraseAll_paren he
          rw [eraseAll_eq_nil hg] at h1
          exact h1 _ _ _ rfl
        | invisible =>
          obtain ⟨gs, x, y, vs, rfl, hg, _⟩ := eraseAll_paren he
          obtain ⟨a1, a2, gs', rfl, _⟩ := eraseAll_leaf (l := .punct '^' _) hg
          exact h2 _ _ _ _ _ _ _ rfl
        | path => exact key _ .path
        | rust => exact key _ .rust
        | paren ht => exact key _ (.paren ht)
        | args0 => exact key _ .args0
        | args ht => exact key _ (.args ht)
      | true =>
        refine ⟨rfl, ?_⟩
        cases hs : startsParen us with
        | true => rfl
        | false =>
          exfalso
          cases ht with
          | @path p =>
            have := parseRustTy_complete (rest := us) (IsType.path (p := p)) (fun _ => hs)
            rw [← he, hp] at this
            cases this
          | _ => cases hb
  · rename_i ts h1 h2 h3
    exact ⟨fun _ => rfl, fun _ => ⟨rfl, rfl, fun j h w us he => h3 _ _ _ _ he⟩, by simp⟩

theorem peekEq_iff {ts : List LTok} : peekEq (eraseAll ts) = true ↔ ∃ j h w us, ts = .leaf (.punct '=' j) h w :: us := by
  constructor
  · intro h
    unfold peekEq at h
    split at h
    · rename_i j us he
      obtain ⟨x, y, vs, rfl, _⟩ := eraseAll_leaf (l := .punct '=' j) he
      exact ⟨_, _, _, _, rfl⟩
    · cases h
  · rintro ⟨j, h, w, us, rfl⟩
    simp [peekEq]

theorem header_of_peek {ts : List LTok} (h : peekLhs (eraseAll ts) = true) : Header ts := by
  unfold peekLhs at h
  split at h
  · rename_i name us he
    obtain ⟨x, y, vs, rfl, rfl⟩ := eraseAll_leaf (l := .path [name]) he
    split at h
    · rename_i h1
      obtain ⟨j, a, b, ws, rfl⟩ := peekEq_iff.1 h1
      exact .plain
    · rename_i hne
      split at h
      · rename_i ty r hp
        unfold peekType at hp
        split at hp
        · rename_i j1 j2 g ws hx
          cases hp
          obtain ⟨a1, b1, vs', hv, hx⟩ := eraseAll_leaf (l := .punct ':' _) hx
          obtain ⟨gs, a2, b2, vs2, hv2, hg, rfl⟩ := eraseAll_paren hx
          obtain ⟨a3, b3, gs', rfl, rfl⟩ := eraseAll_leaf (l := .punct '^' _) hg
          obtain ⟨j, a, b, ws, rfl⟩ := peekEq_iff.1 h
          subst hv2 hv
          exact .invisible
        · rcases parseType_sound hp with ⟨_, he, _⟩ | ⟨j1, pre, b, he, ht, _⟩
          · rw [he] at hne; exact (hne h).elim
          · obtain ⟨a1, b1, vs', hv, he⟩ := eraseAll_leaf (l := .punct ':' j1) he
            obtain ⟨u, v, hv2, rfl, rfl⟩ := eraseAll_split he
            obtain ⟨j, a, b, ws, rfl⟩ := peekEq_iff.1 h
            subst hv2 hv
            exact .typed ht
      · cases h
  · cases h

theorem peek_of_header {ts : List LTok} (h : Header ts) : peekLhs (eraseAll ts) = true := by
  cases h with
  | plain => simp [peekLhs, peekEq]
  | @typed name i j h w h' w' h'' w'' tys ty b ts hty =>
    have := peekLhs_typed hty name i j (eraseAll ts)
    simpa [eraseAll_append] using this
  | invisible => simp [peekLhs, peekType, peekEq]

/-! ### The places of the errors -/

theorem read_ok_atom {n : Nat} (ih : ReadOkAt n) (r : String) (l : Option SrcSpan) (ts : List LTok) : ReadOk r isAtom isAtom NoAtom l ts (eparseAtom r (n + 1) l ts) := by
  have noAtom : ∀ {ts : List LTok}, (∀ s h w us, ts ≠ .leaf (.lit s) h w :: us) → (∀ j h w us, ts ≠ .leaf (.punct '.' j) h w :: us) →
      (∀ g h w us, ts ≠ .paren g h w :: us) → (∀ g h w us, ts ≠ .bracket g h w :: us) →
      (∀ p h w us, ts = .leaf (.path p) h w :: us → Header ts) → NoAtom ts := fun h1 h2 h3 h4 h5 => ⟨h1, h2, h3, h4, h5⟩
  unfold eparseAtom
  split
  · exact ⟨fun _ => rfl, by simp, fun _ => ⟨[_], _, by simp, rfl, trim_leaf _ _ _ _, _, .lit⟩⟩
  · exact ⟨fun _ => rfl, by simp, fun _ => ⟨[_], _, by simp, rfl, trim_leaf _ _ _ _, _, .any⟩⟩
  · rename_i g h w ts
    split
    · rename_i hg
      cases g with
      | cons => cases hg
      | nil => exact ⟨bad_here (lit_atom _ _) ⟨h, w, ts, rfl⟩ rfl (by simp [FKind.ruleOf]), fun h => h⟩
    · have := ih.choice r l g
      generalize eparseChoice r n l g = x at this
      cases x with
      | timeout => trivial
      | err e l' =>
        obtain ⟨⟨rest, us, h1, ⟨x, h2⟩, h3⟩, h4⟩ := this
        refine ⟨⟨rest, [.paren us], ?_, ⟨x, .paren h2⟩, h3⟩, h4⟩
        simpa using Cut.paren (pre := []) (us := []) (h := h) (w := w) (post := ts) Trim.nil h1
      | ok a =>
        obtain ⟨f, l', rest⟩ := a
        obtain ⟨h1, h2, h3⟩ := this
        cases f with
        | false => exact (h2 rfl).2.2.elim
        | true =>
          obtain ⟨pre, us, _, rfl, h5, x, h6⟩ := h3 rfl
          refine ⟨fun hl => by rw [closeGroup_some (by rw [h1 hl]; exact hl), h1 hl], by simp, fun _ => ⟨[_], [.paren us], by simp, rfl, ?_, x, .paren h6⟩⟩
          exact Trim.paren (h5.mono fun h => closeGroup_mono h rest) (fun hc => (closeGroup_none hc).1) .nil
  · rename_i p h w ts
    split
    · rename_i hp
      exact ⟨fun _ => rfl, fun _ => ⟨rfl, rfl, noAtom (by simp) (by simp) (by simp) (by simp) fun _ _ _ _ _ => header_of_peek hp⟩, by simp⟩
    · exact ⟨fun _ => rfl, by simp, fun _ => ⟨[_], _, by simp, rfl, trim_leaf _ _ _ _, _, .call⟩⟩
  · rename_i g h w ts
    unfold eparseClass
    split
    · rename_i s a b g
      split
      · rename_i hs
        have hs' : s = "" := by
          have : s.toList = [] := by simpa using hs
          exact String.toList_eq_nil_iff.1 this
        subst hs'
        exact ⟨bad_here (lit_atom _ _) ⟨a, b, g, h, w, ts, rfl⟩ rfl (by simp [FKind.ruleOf]), fun h => h⟩
      · rename_i hs
        cases hc : parseCharClass (s.toList.length + 2) s.toList with
        | ok ivs =>
          obtain ⟨K, hK, ht⟩ := parseCharClass_sound hc
          refine ⟨fun hl => closeGroup_some hl g, by simp, fun _ => ⟨[_], [.bracket [.lit s]], by simp, rfl, ?_, _, .cls hK ht⟩⟩
          exact Trim.bracket (g := [.leaf (.lit s) a b]) (.leaf .nil) (fun hc => (closeGroup_none hc).1) .nil
        | _ =>
          refine ⟨bad_here (lit_atom _ _) ⟨s, a, b, g, h, w, ts, rfl, ?_, ?_⟩ rfl (by simp [FKind.ruleOf]), fun h => h⟩
          · rintro rfl; exact hs rfl
          · rintro ⟨K, hK, ht⟩
            have := parseCharClass_complete K hK (s.toList.length + 2) (by rw [ht]; exact Nat.le_refl _)
            rw [ht, hc] at this
            exact absurd this (by simp)
    · rename_i hg
      exact ⟨bad_here (lit_atom _ _) ⟨g, h, w, ts, rfl, fun s a b us he => hg _ _ _ _ he⟩ rfl (by simp [FKind.ruleOf]), fun h => h⟩
  · rename_i h1 h2 h3 h4 h5
    exact ⟨fun _ => rfl, fun _ => ⟨rfl, rfl, noAtom (fun _ _ _ _ he => h1 _ _ _ _ he) (fun _ _ _ _ he => h2 _ _ _ _ he) (fun _ _ _ _ he => h3 _ _ _ _ he)
      (fun _ _ _ _ he => h5 _ _ _ _ he) fun _ _ _ _ he => (h4 _ _ _ _ he).elim⟩, by simp⟩

theorem read_ok_suffixed {n : Nat} (ih : ReadOkAt n) (r : String) (l : Option SrcSpan) (ts : List LTok) :
    ReadOk r isSuffixed isSuffixed NoAtom l ts (eparseSuffixed r (n + 1) l ts) := by
  rw [eparseSuffixed]
  have := ih.atom r l ts
  generalize eparseAtom r n l ts = x at this
  cases x with
  | timeout => trivial
  | err e l' => exact ⟨this.1.weaken (fun h => h) fun _ h _ => h.suffixed, this.2⟩
  | ok a =>
    obtain ⟨f, l', rest⟩ := a
    obtain ⟨h1, h2, h3⟩ := this
    rw [fbind_ok]
    cases f with
    | false => exact ⟨h1, fun _ => h2 rfl, by simp⟩
    | true =>
      obtain ⟨pre, us, h4, h5, h6, h7⟩ := h3 rfl
      obtain ⟨p2, h8, h9⟩ := eparseSuffix_spec rest
      refine ⟨h1, by simp, fun _ => ⟨pre ++ p2, us ++ eraseAll p2, by simp [h4], ?_, h6.append (trim_refl _ _), h9 _ _ _ h7⟩⟩
      rw [h5, List.append_assoc, ← h8]

theorem noElem_ne {ts : List LTok} (h : NoAtom ts) (h1 : ∀ j h w us, ts ≠ .leaf (.punct '!' j) h w :: us)
    (h2 : ∀ j h w us, ts ≠ .leaf (.punct '&' j) h w :: us) : NoElem ts := ⟨h, h1, h2⟩

theorem read_ok_prefixed {n : Nat} (ih : ReadOkAt n) (r : String) (l : Option SrcSpan) (ts : List LTok) :
    ReadOk r isPrefixed isPrefixed NoElem l ts (eparsePrefixed r (n + 1) l ts) := by
  have pred : ∀ (neg : Bool) (j : Bool) (h w : SrcSpan) (ts : List LTok),
      ReadOk r isPrefixed isPrefixed NoElem l (.leaf (.punct (if neg then '!' else '&') j) h w :: ts)
        (eparseSuffixed r n l ts >>= fun x => if x.1 then .ok (true, x.2.1, x.2.2) else .err ⟨.operand neg r, h⟩ x.2.1) := by
    intro neg j h w ts
    have hp : ∀ us rest, isSuffixed us rest → isPrefixed ([.punct (if neg then '!' else '&') j] ++ us) rest := by
      rintro us rest ⟨x, hx⟩
      cases neg with
      | true => exact ⟨_, .not hx⟩
      | false => exact ⟨_, .and hx⟩
    have := ih.suffixed r l ts
    generalize eparseSuffixed r n l ts = x at this
    cases x with
    | timeout => trivial
    | err e l' =>
      exact ⟨this.1.after (pre := [_]) (trim_leaf _ _ h w) fun vs h _ => hp vs _ h, this.2⟩
    | ok a =>
      obtain ⟨f, l', rest⟩ := a
      obtain ⟨h1, h2, h3⟩ := this
      rw [fbind_ok]
      cases f with
      | false =>
        obtain ⟨rfl, rfl, h4⟩ := h2 rfl
        exact ⟨bad_here (lit_atom _ _).suffixed.prefixed ⟨j, h, w, rest, rfl, h4⟩ rfl (by simp [FKind.ruleOf]), fun h => h⟩
      | true =>
        obtain ⟨pre, us, h4, h5, h6, h7⟩ := h3 rfl
        exact ⟨h1, by simp, fun _ => ⟨_ :: pre, .punct (if neg then '!' else '&') j :: us, by simp, by rw [h5]; rfl, .leaf h6, hp _ _ h7⟩⟩
  unfold eparsePrefixed
  split
  · rename_i j h w ts; exact pred true j h w ts
  · rename_i j h w ts; exact pred false j h w ts
  · rename_i h1 h2
    have := ih.suffixed r l ts
    generalize eparseSuffixed r n l ts = x at this
    cases x with
    | timeout => trivial
    | err e l' => exact ⟨this.1.weaken (fun h => h) fun _ h _ => h.prefixed, this.2⟩
    | ok a =>
      obtain ⟨f, l', rest⟩ := a
      obtain ⟨h3, h4, h5⟩ := this
      refine ⟨h3, fun hf => ⟨(h4 hf).1, (h4 hf).2.1, (h4 hf).2.2, fun _ _ _ _ he => h1 _ _ _ _ he, fun _ _ _ _ he => h2 _ _ _ _ he⟩, fun hf => ?_⟩
      obtain ⟨pre, us, a1, a2, a3, a4⟩ := h5 hf
      exact ⟨pre, us, a1, a2, a3, a4.prefixed⟩

theorem read_ok_typed {n : Nat} (ih : ReadOkAt n) (r : String) (l : Option SrcSpan) (ts : List LTok) :
    ReadOk r isTyped isElems (fun ts => NoElem ts ∧ ∀ j h w us, ts ≠ .leaf (.punct ':' j) h w :: us) l ts (eparseTyped r (n + 1) l ts) := by
  rw [eparseTyped]
  have := ih.prefixed r l ts
  generalize eparsePrefixed r n l ts = x at this
  cases x with
  | timeout => trivial
  | err e l' => exact ⟨this.1.weaken (fun h => h) fun _ h _ => h.typed.elems, this.2⟩
  | ok a =>
    obtain ⟨f, l1, rest⟩ := a
    obtain ⟨h1, h2, h3⟩ := this
    rw [fbind_ok]
    have ht := eparseType_spec l1 rest
    simp only
    generalize eparseType l1 rest = y at ht
    cases y with
    | timeout => exact ht.elim
    | err e l2 =>
      obtain ⟨rfl, j, h, w, us, rfl, rfl, hc⟩ := ht
      rw [fbind_err]
      refine ⟨?_, fun h => by rw [h1 h]; exact h⟩
      cases f with
      | true =>
        obtain ⟨pre, vs, _, rfl, h6, x, h7⟩ := h3 rfl
        exact ⟨_, _, .here h6, ⟨_, .cons (.prefixed h7) (.one (.prefixed (.suffixed (.atom .lit)))) (by simp)⟩, hc, rfl, by simp [FKind.ruleOf]⟩
      | false =>
        obtain ⟨rfl, rfl, _⟩ := h2 rfl
        exact bad_here (lit_elems _ _) hc rfl (by simp [FKind.ruleOf])
    | ok a =>
      obtain ⟨t, l2, us⟩ := a
      obtain ⟨g1, g2, g3⟩ := ht
      rw [fbind_ok]
      have hl : l.isSome = true → l2 = l := fun h => by rw [g1 (by rw [h1 h]; exact h), h1 h]
      cases t with
      | false =>
        obtain ⟨rfl, rfl, g4⟩ := g2 rfl
        refine ⟨hl, fun hf => ?_, fun hf => ?_⟩
        · obtain ⟨a1, rfl, a3⟩ := h2 hf
          exact ⟨a1, rfl, a3, g4⟩
        · obtain ⟨pre, vs, a1, a2, a3, a4⟩ := h3 hf
          exact ⟨pre, vs, a1, a2, a3, a4.typed⟩
      | true =>
        obtain ⟨j, h, w, tys, vs, ty, b, rfl, g4, g5, g6, g7, _⟩ := g3 rfl
        cases f with
        | false =>
          obtain ⟨rfl, rfl, _⟩ := h2 rfl
          exact ⟨bad_here (lit_elems _ _) ⟨j, h, w, us, tys, vs, ty, b, rfl, g7, g5⟩ rfl (by simp [FKind.ruleOf]), fun h => by rw [hl h]; exact h⟩
        | true =>
          obtain ⟨pre, ws, a1, rfl, a3, x, a4⟩ := h3 rfl
          refine ⟨hl, by simp, fun _ => ⟨pre ++ .leaf (.punct ':' j) h w :: tys, ws ++ .punct ':' j :: vs, by simp, by simp, ?_, _, b, .asc a4 g5, g6⟩⟩
          exact (a3.mono fun h => by rw [g1 h]; exact h).append (.leaf g4)

theorem read_ok_elems {n : Nat} (ih : ReadOkAt n) (r : String) (l : Option SrcSpan) (ts : List LTok) :
    ReadOk r isElems isElems (fun ts => NoElem ts ∧ ∀ j h w us, ts ≠ .leaf (.punct ':' j) h w :: us) l ts (eparseTypeds r (n + 1) l ts) := by
  rw [eparseTypeds]
  have := ih.typed r l ts
  generalize eparseTyped r n l ts = x at this
  cases x with
  | timeout => trivial
  | err e l' => exact this
  | ok a =>
    obtain ⟨f, l1, rest⟩ := a
    obtain ⟨h1, h2, h3⟩ := this
    rw [fbind_ok]
    cases f with
    | false => exact ⟨h1, fun _ => h2 rfl, by simp⟩
    | true =>
      obtain ⟨pre, us, h4, rfl, h5, x, b, h6, h7⟩ := h3 rfl
      have := ih.elems r l1 rest
      simp only [if_true]
      generalize eparseTypeds r n l1 rest = y at this
      cases y with
      | timeout => trivial
      | err e l2 =>
        rw [fbind_err]
        refine ⟨this.1.after (h5.mono fun h => this.2 h) ?_, fun h => this.2 (by rw [h1 h]; exact h)⟩
        rintro vs ⟨xs, hv⟩ ha
        refine ⟨_, .cons h6 hv fun hb => ?_⟩
        cases hs : startsParen vs with
        | false => rfl
        | true => rw [ha.1 hs] at h7; exact absurd (h7 hb) (by simp)
      | ok a =>
        obtain ⟨f2, l2, rest2⟩ := a
        obtain ⟨g1, g2, g3⟩ := this
        rw [fbind_ok]
        have hl : l.isSome = true → l2 = l := fun h => by rw [g1 (by rw [h1 h]; exact h), h1 h]
        refine ⟨hl, by simp, fun _ => ?_⟩
        have hm : l1.isSome = true → l2.isSome = true := fun h => by rw [g1 h]; exact h
        cases f2 with
        | false =>
          obtain ⟨rfl, rfl, _⟩ := g2 rfl
          exact ⟨pre, us, h4, rfl, h5, _, .one h6⟩
        | true =>
          obtain ⟨p2, u2, k1, rfl, k2, xs, k3⟩ := g3 rfl
          refine ⟨pre ++ p2, us ++ u2, by simp [h4], by simp, (h5.mono hm).append k2, _, .cons h6 k3 fun hb => ?_⟩
          have h8 := h7 hb
          rw [eraseAll_append] at h8
          cases hs : startsParen u2 with
          | false => rfl
          | true =>
            have := (trim_alike k2 (p := []) (q := eraseAll rest2) ⟨by simp [startsParen], by simp [startsDot], by simp [startsDots]⟩).1 (by simpa using hs)
            rw [h8] at this
            cases this

theorem read_ok_seq {n : Nat} (ih : ReadOkAt n) (r : String) (l : Option SrcSpan) (ts : List LTok) :
    ReadOk r isSeq isSeq (fun _ => False) l ts (eparseSeq r (n + 1) l ts) := by
  rw [eparseSeq]
  have := ih.elems r l ts
  simp only
  generalize eparseTypeds r n l ts = x at this
  cases x with
  | timeout => trivial
  | err e l' => exact ⟨this.1.weaken (fun h => h) fun _ h _ => h.seq, this.2⟩
  | ok a =>
    obtain ⟨f, l1, rest⟩ := a
    obtain ⟨h1, h2, h3⟩ := this
    rw [fbind_ok]
    cases f with
    | false =>
      obtain ⟨rfl, rfl, h4⟩ := h2 rfl
      exact ⟨bad_here (lit_elems _ []).seq h4 rfl (by simp [FKind.ruleOf]), fun h => h⟩
    | true =>
      obtain ⟨pre, us, h4, h5, h6, h7⟩ := h3 rfl
      exact ⟨h1, by simp, fun _ => ⟨pre, us, h4, h5, h6, h7.seq⟩⟩

/-- A prefix of the tokens of an error or of what is read. -/
theorem ReadOk.after {r : String} {X B Y C : List Tok → List Tok → Prop} {N M : List LTok → Prop} {l : Option SrcSpan} {ts : List LTok} {x : FOut FRead} {pre : List LTok}
    (h : ReadOk r X B N l ts x) (hN : ∀ ts, ¬ N ts) (hX : ∀ us rest, X us rest → SameStart us (eraseAll ts) → Y (eraseAll pre ++ us) rest)
    (hB : ∀ us, B us [] → SameStart us (eraseAll ts) → C (eraseAll pre ++ us) []) : ReadOk r Y C M l (pre ++ ts) x := by
  cases x with
  | timeout => trivial
  | err e l' => exact ⟨h.1.after (trim_refl _ _) hB, h.2⟩
  | ok a =>
    obtain ⟨f, l1, rest⟩ := a
    obtain ⟨h1, h2, h3⟩ := h
    cases f with
    | false => exact (hN _ (h2 rfl).2.2).elim
    | true =>
      obtain ⟨p, us, h4, rfl, h6, h7⟩ := h3 rfl
      refine ⟨h1, by simp, fun _ => ⟨pre ++ p, _, by simp [h4], by simp, (trim_refl _ _).append h6, hX _ _ h7 ?_⟩⟩
      have := trim_alike h6 (p := []) (q := eraseAll rest) ⟨by simp [startsParen], by simp [startsDot], by simp [startsDots]⟩
      rw [eraseAll_append]
      simpa using this

theorem read_ok_spanned {n : Nat} (ih : ReadOkAt n) (r : String) (l : Option SrcSpan) (ts : List LTok) :
    ReadOk r isSpanned isSpanned (fun _ => False) l ts (eparseSpanned r (n + 1) l ts) := by
  unfold eparseSpanned
  split
  · rename_i h1 w1 h2 w2 j h3 w3 ts
    have key : ∀ us rest, isSeq us rest → isSpanned (eraseAll [.leaf (.punct '.' true) h1 w1, .leaf (.punct '.' true) h2 w2, .leaf (.punct '.' j) h3 w3] ++ us) rest := by
      rintro us rest ⟨x, hx⟩
      exact ⟨_, by simpa using Spanned.range hx⟩
    exact (ih.seq r l ts).after (by simp) (fun us rest h _ => key us rest h) fun us h _ => key us [] h
  · rename_i h1 w1 j h2 w2 ts hne
    have key : ∀ us rest, isSeq us rest → SameStart us (eraseAll ts) → isSpanned (eraseAll [.leaf (.punct '.' true) h1 w1, .leaf (.punct '.' j) h2 w2] ++ us) rest := by
      rintro us rest ⟨x, hx⟩ ha
      suffices h : j = true → startsDot us = false from ⟨_, by simpa using Spanned.span hx h⟩
      rintro rfl
      cases hs : startsDot us with
      | false => rfl
      | true =>
        obtain ⟨j', vs, he⟩ := startsDot_iff (ha.2.1 hs)
        obtain ⟨a, b, ws, rfl, _⟩ := eraseAll_leaf (l := .punct '.' j') he
        exact (hne _ _ _ _ rfl rfl).elim
    exact (ih.seq r l ts).after (by simp) (fun us rest h ha => key us rest h ha) fun us h ha => key us [] h ha
  · rename_i h1 h2
    have key : ∀ us rest, isSeq us rest → SameStart us (eraseAll ts) → isSpanned (eraseAll [] ++ us) rest := by
      intro us rest h ha
      rw [eraseAll_nil, List.nil_append]
      refine h.spanned ?_
      cases hs : startsDots us with
      | false => rfl
      | true =>
        obtain ⟨j', vs, he⟩ := startsDots_iff (ha.2.2 hs)
        obtain ⟨a, b, ws, rfl, he⟩ := eraseAll_leaf (l := .punct '.' true) he
        rw [eraseAll_cons] at he
        obtain ⟨a2, b2, ws, rfl, _⟩ := eraseAll_leaf (l := .punct '.' j') (List.cons.inj he).2
        exact (h2 _ _ _ _ _ _ rfl).elim
    exact (ih.seq r l ts).after (pre := []) (by simp) (fun us rest h ha => key us rest h ha) fun us h ha => key us [] h ha

/-- What is known of `parse_semantic_action`. -/
theorem eparseAction_spec (l : Option SrcSpan) (ts : List LTok) :
    (∃ pre rest, ts = pre ++ rest ∧ eparseAction l ts = .err ⟨.action, peekSpan rest⟩ l ∧ FKind.Cause rest .action ∧
      ∀ us x, Spanned us x → ∃ y, Branch (us ++ (eraseAll pre ++ [.path []])) y) ∨
    ∃ pre rest, ts = pre ++ rest ∧ eparseAction l ts = .ok (true, l, rest) ∧ ∀ us x, Spanned us x → ∃ y, Branch (us ++ eraseAll pre) y := by
  unfold eparseAction
  split
  · rename_i j h1 w1 h2 w2 p h3 w3 ts
    exact .inr ⟨[_, _, _], ts, rfl, rfl, fun us x hx => ⟨_, by simpa using Branch.boxed hx⟩⟩
  · rename_i j h1 w1 h2 w2 ts hne
    exact .inl ⟨[_, _], ts, rfl, rfl, fun p h w us he => hne _ _ _ _ he, fun us x hx => ⟨_, by simpa using Branch.boxed hx⟩⟩
  · rename_i j h1 w1 p h2 w2 ts
    exact .inr ⟨[_, _], ts, rfl, rfl, fun us x hx => ⟨_, by simpa using Branch.act hx⟩⟩
  · rename_i j h1 w1 ts hne1 hne2 hne3
    exact .inl ⟨[_], ts, rfl, rfl, fun p h w us he => hne3 _ _ _ _ he, fun us x hx => ⟨_, by simpa using Branch.act hx⟩⟩
  · exact .inr ⟨[], ts, rfl, rfl, fun us x hx => ⟨_, by simpa using Branch.spanned hx⟩⟩

theorem read_ok_branches {n : Nat} (ih : ReadOkAt n) (r : String) (l : Option SrcSpan) (ts : List LTok) :
    ReadOk r isBranches isBranches (fun _ => False) l ts (eparseBranches r (n + 1) l ts) := by
  rw [eparseBranches]
  have := ih.spanned r l ts
  generalize eparseSpanned r n l ts = x at this
  cases x with
  | timeout => trivial
  | err e l' => exact ⟨this.1.weaken (fun h => h) fun _ h _ => h.branches, this.2⟩
  | ok a =>
    obtain ⟨f, l1, rest⟩ := a
    obtain ⟨h1, h2, h3⟩ := this
    rw [fbind_ok]
    cases f with
    | false => exact (h2 rfl).2.2.elim
    | true =>
      obtain ⟨pre, us, h4, rfl, h5, x, h6⟩ := h3 rfl
      simp only
      rcases eparseAction_spec l1 rest with ⟨p2, r2, rfl, g1, g2, g3⟩ | ⟨p2, r2, rfl, g1, g2⟩
      · rw [g1, fbind_err]
        obtain ⟨y, hy⟩ := g3 us x h6
        refine ⟨⟨r2, _, ?_, ⟨_, .one hy⟩, g2, rfl, by simp [FKind.ruleOf]⟩, fun h => by rw [h1 h]; exact h⟩
        rw [← List.append_assoc, ← List.append_assoc]
        exact .here (h5.append (trim_refl _ _))
      · rw [g1, fbind_ok]
        obtain ⟨y, hy⟩ := g2 us x h6
        simp only
        split
        · rename_i j h w ts
          have := ih.branches r l1 ts
          have ht := (h5.append (trim_refl _ p2)).append (trim_leaf l1.isSome (.punct '/' j) h w)
          have he : pre ++ (p2 ++ .leaf (.punct '/' j) h w :: ts) = (pre ++ p2 ++ [.leaf (.punct '/' j) h w]) ++ ts := by simp
          have key : ∀ vs rest, isBranches vs rest → isBranches (us ++ eraseAll p2 ++ [.punct '/' j] ++ vs) rest := by
            rintro vs rest ⟨xs, hv⟩
            exact ⟨_, by simpa using Branches.cons (j := j) hy hv⟩
          rw [he]
          generalize eparseBranches r n l1 ts = z at this
          cases z with
          | timeout => trivial
          | err e l2 =>
            exact ⟨this.1.after (ht.mono this.2) fun vs h _ => key vs _ h, fun h => this.2 (by rw [h1 h]; exact h)⟩
          | ok a =>
            obtain ⟨f2, l2, r3⟩ := a
            obtain ⟨k1, k2, k3⟩ := this
            cases f2 with
            | false => exact (k2 rfl).2.2.elim
            | true =>
              obtain ⟨p3, u3, k4, rfl, k5, k6⟩ := k3 rfl
              refine ⟨fun h => by rw [k1 (by rw [h1 h]; exact h), h1 h], by simp, fun _ =>
                ⟨pre ++ p2 ++ [.leaf (.punct '/' j) h w] ++ p3, _, by simp, by simp, (ht.mono fun h => by rw [k1 h]; exact h).append k5, key _ _ k6⟩⟩
        · exact ⟨h1, by simp, fun _ => ⟨pre ++ p2, _, by simp [h4], by simp, h5.append (trim_refl _ _), _, .one hy⟩⟩

theorem read_ok_choice {n : Nat} (ih : ReadOkAt n) (r : String) (l : Option SrcSpan) (ts : List LTok) :
    ReadOk r isChoice isChoice (fun _ => False) l ts (eparseChoice r (n + 1) l ts) := by
  rw [eparseChoice]
  exact (ih.branches r l ts).after (pre := []) (by simp) (fun us rest h _ => by simpa using h.choice) fun us h _ => by simpa using h.choice

theorem read_ok_all : ∀ n, ReadOkAt n := by
  intro n
  induction n with
  | zero =>
    constructor <;> intro r l ts
    · rw [eparseChoice]; trivial
    · rw [eparseBranches]; trivial
    · rw [eparseSpanned]; trivial
    · rw [eparseSeq]; trivial
    · rw [eparseTypeds]; trivial
    · rw [eparseTyped]; trivial
    · rw [eparsePrefixed]; trivial
    · rw [eparseSuffixed]; trivial
    · rw [eparseAtom]; trivial
  | succ n ih =>
    exact ⟨read_ok_choice ih, read_ok_branches ih, read_ok_spanned ih, read_ok_seq ih, read_ok_elems ih, read_ok_typed ih, read_ok_prefixed ih, read_ok_suffixed ih, read_ok_atom ih⟩

/-! ### The tokens left in a group -/

/-- If a function leaves tokens in a group, there is an error there. -/
def Leaves (B : List Tok → List Tok → Prop) (ts : List LTok) (x : FOut FRead) : Prop :=
  ∀ f s rest, x = .ok (f, some s, rest) → ∀ r, BadIn r (B · []) false ⟨.unexpected, s⟩ ts

/-- What is known of each function, for a depth. -/
structure LeavesAt (n : Nat) : Prop where
  choice : ∀ r ts, Leaves isChoice ts (eparseChoice r n none ts)
  branches : ∀ r ts, Leaves isBranches ts (eparseBranches r n none ts)
  spanned : ∀ r ts, Leaves isSpanned ts (eparseSpanned r n none ts)
  seq : ∀ r ts, Leaves isSeq ts (eparseSeq r n none ts)
  elems : ∀ r ts, Leaves isElems ts (eparseTypeds r n none ts)
  typed : ∀ r ts, Leaves isTyped ts (eparseTyped r n none ts)
  prefixed : ∀ r ts, Leaves isPrefixed ts (eparsePrefixed r n none ts)
  suffixed : ∀ r ts, Leaves isSuffixed ts (eparseSuffixed r n none ts)
  atom : ∀ r ts, Leaves isAtom ts (eparseAtom r n none ts)

theorem fbind_eq_ok {α β : Type} {x : FOut α} {f : α → FOut β} {b : β} (h : (x >>= f) = .ok b) : ∃ a, x = .ok a ∧ f a = .ok b := by
  cases x with
  | ok a => exact ⟨a, rfl, h⟩
  | err => cases h
  | timeout => cases h

theorem Leaves.after {B C : List Tok → List Tok → Prop} {pre ts : List LTok} {x : FOut FRead} (h : Leaves B ts x)
    (hB : ∀ us, B us [] → SameStart us (eraseAll ts) → C (eraseAll pre ++ us) []) : Leaves C (pre ++ ts) x :=
  fun f s rest hx r => (h f s rest hx r).after (trim_refl _ _) hB

theorem leaves_atom {n : Nat} (ih : LeavesAt n) (r : String) (ts : List LTok) : Leaves isAtom ts (eparseAtom r (n + 1) none ts) := by
  intro f s rest hx q
  unfold eparseAtom at hx
  split at hx
  · cases hx
  · cases hx
  · rename_i g h w ts
    split at hx
    · cases hx
    · obtain ⟨⟨f', l', g'⟩, h1, h2⟩ := fbind_eq_ok hx
      cases l' with
      | some s' =>
        cases h2
        obtain ⟨rest, us, k1, ⟨x, k2⟩, k3⟩ := ih.choice r g _ _ _ h1 q
        refine ⟨_, [.paren us], ?_, ⟨x, .paren k2⟩, k3⟩
        simpa using Cut.paren (pre := []) (us := []) (h := h) (w := w) (post := _) Trim.nil k1
      | none =>
        have hg := (read_ok_all n).choice r none g
        rw [h1] at hg
        obtain ⟨_, k2, k3⟩ := hg
        cases f' with
        | false => exact (k2 rfl).2.2.elim
        | true =>
          obtain ⟨pre, us, _, rfl, k5, x, k6⟩ := k3 rfl
          simp only at h2
          have h3 : closeGroup none g' = some s := by injection h2 with h2; injection h2 with _ h2; injection h2
          obtain ⟨k7, rfl⟩ := closeGroup_new rfl h3
          refine ⟨g', [.paren us], ?_, ⟨x, .paren k6⟩, k7, rfl, by simp [FKind.ruleOf]⟩
          have := Cut.paren (pre := []) (us := []) (h := h) (w := w) (post := ts) Trim.nil (Cut.here (rest := g') (p := []) k5)
          simpa [FKind.patch] using this
  · split at hx <;> cases hx
  · rename_i g h w ts
    obtain ⟨l', h1, h2⟩ := fbind_eq_ok hx
    cases h2
    unfold eparseClass at h1
    split at h1
    · rename_i c a b g
      split at h1
      · cases h1
      · split at h1
        · rename_i hc
          obtain ⟨K, hK, ht⟩ := parseCharClass_sound hc
          injection h1 with h1
          obtain ⟨k7, rfl⟩ := closeGroup_new rfl h1
          refine ⟨g, [.bracket [.lit c]], ?_, ⟨_, .cls hK ht⟩, k7, rfl, by simp [FKind.ruleOf]⟩
          have := Cut.bracket (cut := false) (pre := []) (us := []) (h := h) (w := w) (post := rest) Trim.nil
            (Cut.here (rest := g) (p := []) (trim_leaf _ (.lit c) a b))
          simpa [FKind.patch] using this
        · cases h1
    · cases h1
  · cases hx

theorem leaves_all : ∀ n, LeavesAt n := by
  intro n
  induction n with
  | zero =>
    constructor <;> intro r ts f s rest hx
    · rw [eparseChoice] at hx; cases hx
    · rw [eparseBranches] at hx; cases hx
    · rw [eparseSpanned] at hx; cases hx
    · rw [eparseSeq] at hx; cases hx
    · rw [eparseTypeds] at hx; cases hx
    · rw [eparseTyped] at hx; cases hx
    · rw [eparsePrefixed] at hx; cases hx
    · rw [eparseSuffixed] at hx; cases hx
    · rw [eparseAtom] at hx; cases hx
  | succ n ih =>
    refine ⟨?_, ?_, ?_, ?_, ?_, ?_, ?_, ?_, fun r ts => leaves_atom ih r ts⟩
    · intro r ts
      rw [eparseChoice]
      exact (ih.branches r ts).after (pre := []) fun us h _ => by simpa using h.choice
    · intro r ts f s rest hx q
      rw [eparseBranches] at hx
      replace hx := fbind_eq_ok hx
      obtain ⟨⟨f1, l1, r1⟩, h1, hx⟩ := hx
      have hg := (read_ok_all n).spanned r none ts
      rw [h1] at hg
      obtain ⟨_, k2, k3⟩ := hg
      cases f1 with
      | false => exact (k2 rfl).2.2.elim
      | true =>
        obtain ⟨pre, us, _, rfl, k5, x, k6⟩ := k3 rfl
        simp only at hx
        rcases eparseAction_spec l1 r1 with ⟨p2, r2, rfl, g1, _⟩ | ⟨p2, r2, rfl, g1, g2⟩
        · rw [g1] at hx; cases hx
        · rw [g1, fbind_ok] at hx
          obtain ⟨y, hy⟩ := g2 us x k6
          cases l1 with
          | some s1 =>
            have hs : s1 = s := by
              simp only at hx
              split at hx
              · rename_i ts
                have := (read_ok_all n).branches r (some s1) ts
                rw [hx] at this
                exact Option.some.inj (this.1 rfl).symm
              · cases hx; rfl
            subst hs
            exact (ih.spanned r _ _ _ _ h1 q).weaken (fun h => h) fun _ h _ => h.branches
          | none =>
            simp only at hx
            split at hx
            · rename_i j h w ts
              have he : pre ++ (p2 ++ .leaf (.punct '/' j) h w :: ts) = (pre ++ p2 ++ [.leaf (.punct '/' j) h w]) ++ ts := by simp
              rw [he]
              refine (ih.branches r ts _ _ _ hx q).after ((k5.append (trim_refl _ p2)).append (trim_leaf false (.punct '/' j) h w)) ?_
              rintro vs ⟨xs, hv⟩ _
              exact ⟨_, by simpa using Branches.cons (j := j) hy hv⟩
            · cases hx
    · intro r ts
      unfold eparseSpanned
      split
      · rename_i h1 w1 h2 w2 j h3 w3 ts
        refine (ih.seq r ts).after (pre := [.leaf (.punct '.' true) h1 w1, .leaf (.punct '.' true) h2 w2, .leaf (.punct '.' j) h3 w3]) ?_
        rintro us ⟨x, hx⟩ _
        exact ⟨_, by simpa using Spanned.range hx⟩
      · rename_i h1 w1 j h2 w2 ts hne
        refine (ih.seq r ts).after (pre := [.leaf (.punct '.' true) h1 w1, .leaf (.punct '.' j) h2 w2]) ?_
        rintro us ⟨x, hx⟩ ha
        suffices h : j = true → startsDot us = false from ⟨_, by simpa using Spanned.span hx h⟩
        rintro rfl
        cases hs : startsDot us with
        | false => rfl
        | true =>
          obtain ⟨j', vs, he⟩ := startsDot_iff (ha.2.1 hs)
          obtain ⟨a, b, ws, rfl, _⟩ := eraseAll_leaf (l := .punct '.' j') he
          exact (hne _ _ _ _ rfl rfl).elim
      · rename_i h1 h2
        refine (ih.seq r ts).after (pre := []) ?_
        intro us h ha
        rw [eraseAll_nil, List.nil_append]
        refine h.spanned ?_
        cases hs : startsDots us with
        | false => rfl
        | true =>
          obtain ⟨j', vs, he⟩ := startsDots_iff (ha.2.2 hs)
          obtain ⟨a, b, ws, rfl, he⟩ := eraseAll_leaf (l := .punct '.' true) he
          rw [eraseAll_cons] at he
          obtain ⟨a2, b2, ws, rfl, _⟩ := eraseAll_leaf (l := .punct '.' j') (List.cons.inj he).2
          exact (h2 _ _ _ _ _ _ rfl).elim
    · intro r ts f s rest hx q
      rw [eparseSeq] at hx
      obtain ⟨⟨f1, l1, r1⟩, h1, hx⟩ := fbind_eq_ok hx
      simp only at hx
      split at hx
      · cases hx; exact (ih.elems r _ _ _ _ h1 q).weaken (fun h => h) fun _ h _ => h.seq
      · cases hx
    · intro r ts f s rest hx q
      rw [eparseTypeds] at hx
      obtain ⟨⟨f1, l1, r1⟩, h1, hx⟩ := fbind_eq_ok hx
      have hg := (read_ok_all n).typed r none ts
      rw [h1] at hg
      obtain ⟨_, k2, k3⟩ := hg
      cases f1 with
      | false =>
        obtain ⟨rfl, _⟩ := k2 rfl
        cases hx
      | true =>
        simp only [if_true] at hx
        obtain ⟨⟨f2, l2, r2⟩, h2, hx⟩ := fbind_eq_ok hx
        cases hx
        cases l1 with
        | some s1 =>
          have := (read_ok_all n).elems r (some s1) r1
          rw [h2] at this
          have hs := Option.some.inj (this.1 rfl)
          subst hs
          exact (ih.typed r _ _ _ _ h1 q).weaken (fun h => h) fun _ h _ => h.elems
        | none =>
          obtain ⟨pre, us, _, rfl, k5, x, b, k6, k7⟩ := k3 rfl
          refine (ih.elems r r1 _ _ _ h2 q).after k5 ?_
          rintro vs ⟨xs, hv⟩ ha
          refine ⟨_, .cons k6 hv fun hb => ?_⟩
          cases hs : startsParen vs with
          | false => rfl
          | true => have h9 := k7 hb; rw [ha.1 hs] at h9; cases h9
    · intro r ts f s rest hx q
      rw [eparseTyped] at hx
      obtain ⟨⟨f1, l1, r1⟩, h1, hx⟩ := fbind_eq_ok hx
      have hg := (read_ok_all n).prefixed r none ts
      rw [h1] at hg
      obtain ⟨_, k2, k3⟩ := hg
      simp only at hx
      obtain ⟨⟨t, l2, r2⟩, h2, hx⟩ := fbind_eq_ok hx
      have ht := eparseType_spec l1 r1
      rw [h2] at ht
      obtain ⟨g1, g2, g3⟩ := ht
      simp only at hx
      have hl2 : l2 = some s := by
        split at hx
        · split at hx <;> cases hx
          rfl
        · cases hx; rfl
      subst hl2
      cases l1 with
      | some s1 =>
        have hs := Option.some.inj (g1 rfl)
        subst hs
        exact (ih.prefixed r _ _ _ _ h1 q).weaken (fun h => h) fun _ h _ => h.typed
      | none =>
        cases t with
        | false => have := (g2 rfl).1; cases this
        | true =>
          obtain ⟨j, h, w, tys, vs, ty, b, rfl, g4, g5, g6, g7, g8⟩ := g3 rfl
          cases f1 with
          | false => simp at hx
          | true =>
            obtain ⟨pre, us, _, rfl, k5, x, k6⟩ := k3 rfl
            obtain ⟨rest', us', m1, ⟨i, j', rfl⟩, m3⟩ := g8 rfl s rfl q
            exact ⟨rest', us ++ .punct ':' i :: [.paren [.punct '^' j']], m1.after k5, ⟨_, _, .asc k6 .invisible, by simp⟩, m3⟩
    · intro r ts f s rest hx q
      unfold eparsePrefixed at hx
      split at hx
      · rename_i j h w ts
        obtain ⟨⟨f1, l1, r1⟩, h1, hx⟩ := fbind_eq_ok hx
        simp only at hx
        split at hx
        · cases hx
          refine (ih.suffixed r ts _ _ _ h1 q).after (trim_leaf false (.punct '!' j) h w) ?_
          rintro us ⟨x, hx⟩ _
          exact ⟨_, .not hx⟩
        · cases hx
      · rename_i j h w ts
        obtain ⟨⟨f1, l1, r1⟩, h1, hx⟩ := fbind_eq_ok hx
        simp only at hx
        split at hx
        · cases hx
          refine (ih.suffixed r ts _ _ _ h1 q).after (trim_leaf false (.punct '&' j) h w) ?_
          rintro us ⟨x, hx⟩ _
          exact ⟨_, .and hx⟩
        · cases hx
      · exact (ih.suffixed r ts _ _ _ hx q).weaken (fun h => h) fun _ h _ => h.prefixed
    · intro r ts f s rest hx q
      rw [eparseSuffixed] at hx
      obtain ⟨⟨f1, l1, r1⟩, h1, hx⟩ := fbind_eq_ok hx
      simp only at hx
      have hl : l1 = some s := by
        split at hx <;> cases hx <;> rfl
      subst hl
      exact (ih.atom r _ _ _ _ h1 q).weaken (fun h => h) fun _ h _ => h.suffixed

end Oak
