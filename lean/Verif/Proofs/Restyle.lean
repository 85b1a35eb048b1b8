import Verif.Spec.Restyle
import Verif.Proofs.PegVals
/-!
Grammars that are the same but for the functions.
-/
set_option linter.constructorNameAsVariable false
set_option autoImplicit false

namespace Oak
open Spec

variable {K : Restyling} {E : Val → Prop} {R : String → String → Prop} {ρ : String → Path → Prop} {T T' : Nat → Ty} {sp : SpanSpec}
  {G G' : Grammar} {X X' : ExtSpec}

theorem ValsStyle.nil : ValsStyle K E [] [] := ⟨rfl, by simp⟩

theorem ValsStyle.cons {v v' : Val} {vs vs' : List Val} (h : ValStyle K E v v') (hs : ValsStyle K E vs vs') : ValsStyle K E (v :: vs) (v' :: vs') := by
  refine ⟨by simp [hs.1], fun k w w' h1 h2 => ?_⟩
  cases k with
  | zero => simp at h1 h2; subst h1 h2; exact h
  | succ k => simp at h1 h2; exact hs.2 k w w' h1 h2

theorem ValsStyle.one {v v' : Val} (h : ValStyle K E v v') : ValsStyle K E [v] [v'] := .cons h .nil

theorem ValsStyle.uncons {v v' : Val} {vs vs' : List Val} (h : ValsStyle K E (v :: vs) (v' :: vs')) : ValStyle K E v v' ∧ ValsStyle K E vs vs' :=
  ⟨h.2 0 v v' rfl rfl, by simpa using h.1, fun k w w' h1 h2 => h.2 (k + 1) w w' (by simpa using h1) (by simpa using h2)⟩

theorem ValsStyle.nil_left {vs' : List Val} (h : ValsStyle K E [] vs') : vs' = [] := by
  cases vs' with
  | nil => rfl
  | cons => have := h.1; simp at this

theorem ValsStyle.cons_left {v : Val} {vs vs' : List Val} (h : ValsStyle K E (v :: vs) vs') : ∃ v' ws, vs' = v' :: ws ∧ ValStyle K E v v' ∧ ValsStyle K E vs ws := by
  cases vs' with
  | nil => have := h.1; simp at this
  | cons v' ws => exact ⟨v', ws, rfl, h.uncons⟩

theorem ValsStyle.append {a a' b b' : List Val} (h : ValsStyle K E a a') (h2 : ValsStyle K E b b') : ValsStyle K E (a ++ b) (a' ++ b') := by
  induction a generalizing a' with
  | nil => rw [h.nil_left]; exact h2
  | cons v a ih =>
    obtain ⟨v', ws, rfl, h3, h4⟩ := h.cons_left
    exact .cons h3 (ih h4)

theorem ValsStyle.append_left {a b vs' : List Val} (h : ValsStyle K E (a ++ b) vs') : ∃ a' b', vs' = a' ++ b' ∧ ValsStyle K E a a' ∧ ValsStyle K E b b' := by
  induction a generalizing vs' with
  | nil => exact ⟨[], vs', rfl, .nil, h⟩
  | cons v a ih =>
    obtain ⟨v', ws, rfl, h3, h4⟩ := h.cons_left
    obtain ⟨a', b', rfl, h5, h6⟩ := ih h4
    exact ⟨v' :: a', b', rfl, .cons h3 h5, h6⟩

theorem ValsStyle.tuple {vs vs' : List Val} (h : ValsStyle K E vs vs') : ValStyle K E (tupleVal vs) (tupleVal vs') := by
  match vs, vs', h with
  | [], [], h => exact .tup h.1 h.2
  | [v], [v'], h => exact h.2 0 v v' rfl rfl
  | v :: w :: vs, v' :: w' :: vs', h => exact .tup h.1 h.2
  | [], _ :: _, h => have := h.1; simp at this
  | _ :: _, [], h => have := h.1; simp at this
  | [_], _ :: _ :: _, h => have := h.1; simp at this
  | _ :: _ :: _, [_], h => have := h.1; simp at this

theorem vals_if {i j : Nat} {vs vs' : List Val} (hl : Level T T' i j) (h : T i ≠ .unit → ValsStyle K E vs vs') :
    ValsStyle K E (if T i = .unit then [] else vs) (if T' j = .unit then [] else vs') := by
  by_cases h0 : T i = .unit
  · rw [if_pos h0, if_pos (hl.1 h0)]; exact .nil
  · rw [if_neg h0, if_neg (fun h => h0 (hl.2 h))]; exact h h0

theorem Restyled.seq_level {i j : Nat} {es es' : List Expr} (h : Restyled K R ρ T T' (.seq i es) (.seq j es')) : Level T T' i j := by
  induction es generalizing es' with
  | nil => cases h with | seq_nil h => exact h
  | cons e es ih => cases h with | seq_cons _ h => exact ih h

theorem Restyled.choice_level {i j : Nat} {es es' : List Expr} (h : Restyled K R ρ T T' (.choice i es) (.choice j es')) : Level T T' i j := by
  induction es generalizing es' with
  | nil => cases h with | choice_nil h => exact h
  | cons e es ih => cases h with | choice_cons _ h => exact ih h

/-- A type written in the second grammar only. -/
theorem OutStyle.typed {j : Nat} {e e' : Expr} {t : IType} (hl : Level T T' e.id j) {o o' : Out} {s : List Char} {L : Log}
    (h1 : Peg G' X' e' s o' L) (h2 : OutStyle K E (ast G T sp e) (ast G' T' sp e') o o') :
    ∃ o1, Peg G' X' (.asc j e' t) s o1 L ∧ OutStyle K E (ast G T sp e) (ast G' T' sp (.asc j e' t)) o o1 := by
  match o, o', h2 with
  | .fail, .fail, _ => exact ⟨_, .asc_fail h1, trivial⟩
  | .ok s1 u, .ok s2 u', h2 =>
    refine ⟨_, .asc_ok h1, h2.1, ?_⟩
    have : ast G' T' sp (.asc j e' t) (.asc u') = if T' j = .unit then [] else ast G' T' sp e' u' := by (simp only [ast, Expr.id] <;> try rfl)
    rw [this]
    by_cases h0 : T e.id = .unit
    · rw [ast_unit h0, if_pos (hl.1 h0)]; exact .nil
    · rw [if_neg (fun h => h0 (hl.2 h))]; exact h2.2

/-- The relation where the outermost expression of the second grammar is not a type written there only. -/
inductive RestyledTop (K : Restyling) (R : String → String → Prop) (ρ : String → Path → Prop) (T T' : Nat → Ty) : Expr → Expr → Prop where
  | str {i j l} : RestyledTop K R ρ T T' (.str i l) (.str j l)
  | any {i j} : Level T T' i j → RestyledTop K R ρ T T' (.any i) (.any j)
  | cls {i j l} : Level T T' i j → RestyledTop K R ρ T T' (.cls i l) (.cls j l)
  | nt {i j r r'} : Level T T' i j → R r r' → RestyledTop K R ρ T T' (.nt i r) (.nt j r')
  | ext {i j p} : Level T T' i j → RestyledTop K R ρ T T' (.ext i p) (.ext j p)
  | link {i j r p} : Level T T' i j → ρ r p → RestyledTop K R ρ T T' (.nt i r) (.ext j p)
  | seq_nil {i j} : Level T T' i j → RestyledTop K R ρ T T' (.seq i []) (.seq j [])
  | seq_cons {i j e e' es es'} : Restyled K R ρ T T' e e' → Restyled K R ρ T T' (.seq i es) (.seq j es') → RestyledTop K R ρ T T' (.seq i (e :: es)) (.seq j (e' :: es'))
  | choice_nil {i j} : Level T T' i j → RestyledTop K R ρ T T' (.choice i []) (.choice j [])
  | choice_cons {i j e e' es es'} : Restyled K R ρ T T' e e' → Restyled K R ρ T T' (.choice i es) (.choice j es') →
      RestyledTop K R ρ T T' (.choice i (e :: es)) (.choice j (e' :: es'))
  | star {i j e e'} : Level T T' i j → Restyled K R ρ T T' e e' → RestyledTop K R ρ T T' (.star i e) (.star j e')
  | plus {i j e e'} : Level T T' i j → Restyled K R ρ T T' e e' → RestyledTop K R ρ T T' (.plus i e) (.plus j e')
  | opt {i j e e'} : Level T T' i j → Restyled K R ρ T T' e e' → RestyledTop K R ρ T T' (.opt i e) (.opt j e')
  | not {i j e e'} : Restyled K R ρ T T' e e' → RestyledTop K R ρ T T' (.not i e) (.not j e')
  | and {i j e e'} : Restyled K R ρ T T' e e' → RestyledTop K R ρ T T' (.and i e) (.and j e')
  | act {i j e e' u b b' f f'} : Level T T' i j → Restyled K R ρ T T' e e' → Level T T' e.id e'.id → decide (T e.id = .unit) = u → K u b f b' f' →
      RestyledTop K R ρ T T' (.act i e b f) (.act j e' b' f')
  | asc {i j e e' t t'} : Level T T' i j → Restyled K R ρ T T' e e' → RestyledTop K R ρ T T' (.asc i e t) (.asc j e' t')
  | span {i j e e'} : Level T T' i j → Restyled K R ρ T T' e e' → RestyledTop K R ρ T T' (.span i e) (.span j e')
  | range {i j e e'} : Level T T' i j → Restyled K R ρ T T' e e' → RestyledTop K R ρ T T' (.range i e) (.range j e')

/-- What is proved: the second expression has an outcome alike. -/
abbrev Follows (K : Restyling) (E : Val → Prop) (T T' : Nat → Ty) (sp : SpanSpec) (G G' : Grammar) (X' : ExtSpec) (e e' : Expr) (s : List Char) (o : Out) (L : Log) : Prop :=
  ∃ o', Peg G' X' e' s o' L ∧ OutStyle K E (ast G T sp e) (ast G' T' sp e') o o' ∧
    ∀ i c j c' s1 ts s2 ts', e = .star i c → e' = .star j c' → o = .ok s1 (.rep ts) → o' = .ok s2 (.rep ts') → ValsStyle K E (astRep G T sp c ts) (astRep G' T' sp c' ts')

theorem Restyled.top {e e' : Expr} (hr : Restyled K R ρ T T' e e') : ∃ e0, RestyledTop K R ρ T T' e e0 ∧
    ∀ {s o L}, Follows K E T T' sp G G' X' e e0 s o L → Follows K E T T' sp G G' X' e e' s o L := by
  induction hr with
  | @typed j e e' t hl _ ih =>
    obtain ⟨e0, h1, h2⟩ := ih
    refine ⟨e0, h1, fun h => ?_⟩
    obtain ⟨o', h3, h4, _⟩ := h2 h
    obtain ⟨o1, h5, h6⟩ := OutStyle.typed (t := t) hl h3 h4
    exact ⟨o1, h5, h6, fun _ _ _ _ _ _ _ _ _ h => by cases h⟩
  | str => exact ⟨_, .str, id⟩
  | any h1 => exact ⟨_, .any h1, id⟩
  | cls h1 => exact ⟨_, .cls h1, id⟩
  | nt h1 h2 => exact ⟨_, .nt h1 h2, id⟩
  | ext h1 => exact ⟨_, .ext h1, id⟩
  | link h1 h2 => exact ⟨_, .link h1 h2, id⟩
  | seq_nil h1 => exact ⟨_, .seq_nil h1, id⟩
  | seq_cons h1 h2 => exact ⟨_, .seq_cons h1 h2, id⟩
  | choice_nil h1 => exact ⟨_, .choice_nil h1, id⟩
  | choice_cons h1 h2 => exact ⟨_, .choice_cons h1 h2, id⟩
  | star h1 h2 => exact ⟨_, .star h1 h2, id⟩
  | plus h1 h2 => exact ⟨_, .plus h1 h2, id⟩
  | opt h1 h2 => exact ⟨_, .opt h1 h2, id⟩
  | not h1 => exact ⟨_, .not h1, id⟩
  | and h1 => exact ⟨_, .and h1, id⟩
  | act h1 h2 h3 h4 h5 => exact ⟨_, .act h1 h2 h3 h4 h5, id⟩
  | asc h1 h2 => exact ⟨_, .asc h1 h2, id⟩
  | span h1 h2 => exact ⟨_, .span h1 h2, id⟩
  | range h1 h2 => exact ⟨_, .range h1 h2, id⟩

theorem ast_seq {i : Nat} {es : List Expr} {ts : List Tree} : ast G T sp (.seq i es) (.seq ts) = if T i = .unit then [] else astSeq G T sp es ts := by
  (simp only [ast, Expr.id] <;> try rfl)

theorem ast_star {i : Nat} {e : Expr} {ts : List Tree} : ast G T sp (.star i e) (.rep ts) = if T i = .unit then [] else [.list (astRep G T sp e ts)] := by
  (simp only [ast, Expr.id] <;> try rfl)

theorem ast_plus {i : Nat} {e : Expr} {ts : List Tree} : ast G T sp (.plus i e) (.rep ts) = if T i = .unit then [] else [.list (astRep G T sp e ts)] := by
  (simp only [ast, Expr.id] <;> try rfl)

theorem ast_alt_first {i : Nat} {e : Expr} {es : List Expr} {t : Tree} : ast G T sp (.choice i (e :: es)) (.alt 0 t) = if T i = .unit then [] else ast G T sp e t := by
  (simp only [ast, Expr.id, List.getElem?_cons_zero] <;> try rfl)

theorem ast_alt_next {i k : Nat} {e : Expr} {es : List Expr} {t : Tree} : ast G T sp (.choice i (e :: es)) (.alt (k + 1) t) = ast G T sp (.choice i es) (.alt k t) := by
  (simp only [ast, Expr.id, List.getElem?_cons_succ] <;> try rfl)

theorem ast_act {i : Nat} {e : Expr} {b : Bool} {f : Path} {t : Tree} : ast G T sp (.act i e b f) (.act t) =
    if T i = .unit then [] else [called (decide (T e.id = .unit)) b f (ast G T sp e t)] := by
  (simp only [ast, Expr.id] <;> try rfl)

theorem ast_asc {i : Nat} {e : Expr} {ty : IType} {t : Tree} : ast G T sp (.asc i e ty) (.asc t) = if T i = .unit then [] else ast G T sp e t := by
  (simp only [ast, Expr.id] <;> try rfl)

theorem ast_opt {i : Nat} {e : Expr} {t : Tree} : ast G T sp (.opt i e) (.some t) = if T i = .unit then [] else [.some (tupleVal (ast G T sp e t))] := by
  (simp only [ast, Expr.id] <;> try rfl)

theorem ast_opt_none {i : Nat} {e : Expr} : ast G T sp (.opt i e) .none = if T i = .unit then [] else [.none] := by
  (simp only [ast, Expr.id] <;> try rfl)

theorem ast_span {i : Nat} {e : Expr} {a b : List Char} {t : Tree} : ast G T sp (.span i e) (.spanned a b t) =
    if T i = .unit then [] else .span (sp.span a b).1 (sp.span a b).2 :: ast G T sp e t := by
  (simp only [ast, Expr.id] <;> try rfl)

theorem ast_range {i : Nat} {e : Expr} {a b : List Char} {t : Tree} : ast G T sp (.range i e) (.spanned a b t) =
    if T i = .unit then [] else .range (sp.pos a) (sp.pos b) :: ast G T sp e t := by
  (simp only [ast, Expr.id] <;> try rfl)

theorem ast_nt {i : Nat} {r : String} {b : Expr} {t : Tree} (hb : G.find r = some b) : ast G T sp (.nt i r) (.nt t) = if T i = .unit then [] else ast G T sp b t := by
  (simp only [ast, Expr.id, hb] <;> try rfl)

theorem ast_cls {i : Nat} {v : List Interval} {c : Char} : ast G T sp (.cls i v) (.chr c) = if T i = .unit then [] else [.chr c] := by
  (simp only [ast, Expr.id] <;> try rfl)

theorem ast_any {i : Nat} {c : Char} : ast G T sp (.any i) (.chr c) = if T i = .unit then [] else [.chr c] := by
  (simp only [ast, Expr.id] <;> try rfl)

theorem ast_leaf {e : Expr} : ast G T sp e .leaf = [] := by simp only [ast]

theorem ast_ext {i : Nat} {p : Path} {v : Val} : ast G T sp (.ext i p) (.ext v) = if T i = .unit then [] else [v] := by
  (simp only [ast, Expr.id] <;> try rfl)

theorem ast_ext_chr {i : Nat} {p : Path} {c : Char} : ast G T sp (.ext i p) (.chr c) = if T i = .unit then [] else [.chr c] := by
  (simp only [ast, Expr.id] <;> try rfl)

theorem ast_ext_none {i : Nat} {p : Path} : ast G T sp (.ext i p) .none = if T i = .unit then [] else [.none] := by
  (simp only [ast, Expr.id] <;> try rfl)

theorem called_style {u : Bool} {b b' : Bool} {f f' : Path} {vs vs' : List Val} (hk : K u b f b' f') (h : ValsStyle K E vs vs') :
    ValStyle K E (called u b f vs) (called u b' f' vs') := .call hk h.1 h.2

theorem level_dec {i j : Nat} (h : Level T T' i j) : decide (T' j = .unit) = decide (T i = .unit) := by
  unfold Level at h; simp only [decide_eq_decide, h]

theorem vals_unless {i j : Nat} {vs vs' : List Val} (hl : Level T T' i j) (h : ValsStyle K E (if T i = .unit then [] else vs) (if T' j = .unit then [] else vs'))
    (h0 : T i ≠ .unit) : ValsStyle K E vs vs' := by
  rwa [if_neg h0, if_neg (fun h => h0 (hl.2 h))] at h

theorem out_fail {vals vals' : Tree → List Val} {o' : Out} (h : OutStyle K E vals vals' .fail o') : o' = .fail := by
  cases o' with
  | fail => rfl
  | ok => exact h.elim

theorem out_ok {vals vals' : Tree → List Val} {o' : Out} {s : List Char} {t : Tree} (h : OutStyle K E vals vals' (.ok s t) o') :
    ∃ t', o' = .ok s t' ∧ ValsStyle K E (vals t) (vals' t') := by
  cases o' with
  | fail => exact h.elim
  | ok s' t' => obtain ⟨rfl, h⟩ := h; exact ⟨t', rfl, h⟩

/-- Expressions that are the same but for the functions have the same outcomes, but for the functions. -/
theorem restyled_peg (C : RestyledBy K E R ρ T T' sp G X G' X') {e : Expr} {s : List Char} {o : Out} {L : Log} (h : Peg G X e s o L) :
    ∀ {e' : Expr}, Restyled K R ρ T T' e e' → Follows K E T T' sp G G' X' e e' s o L := by
  have fail : ∀ {e e' : Expr} {s : List Char} {L : Log}, Peg G' X' e' s .fail L → Follows K E T T' sp G G' X' e e' s .fail L := fun h =>
    ⟨.fail, h, trivial, fun _ _ _ _ _ _ _ _ _ _ h => by cases h⟩
  have ok : ∀ {e e' : Expr} {s s1 : List Char} {t t' : Tree} {L : Log}, Peg G' X' e' s (.ok s1 t') L → (∀ i c, e ≠ .star i c) →
      ValsStyle K E (ast G T sp e t) (ast G' T' sp e' t') → Follows K E T T' sp G G' X' e e' s (.ok s1 t) L := fun h hn hv =>
    ⟨_, h, ⟨rfl, hv⟩, fun _ _ _ _ _ _ _ _ h => absurd h (hn _ _)⟩
  have ok' : ∀ {i j : Nat} {e e' : Expr} {s s1 : List Char} {ts ts' : List Tree} {L : Log}, Peg G' X' (.star j e') s (.ok s1 (.rep ts')) L → Level T T' i j →
      ValsStyle K E (astRep G T sp e ts) (astRep G' T' sp e' ts') → Follows K E T T' sp G G' X' (.star i e) (.star j e') s (.ok s1 (.rep ts)) L := fun h hl hv =>
    ⟨_, h, ⟨rfl, by rw [ast_star, ast_star]; exact vals_if hl fun _ => .one (.list hv.1 hv.2)⟩, fun _ _ _ _ _ _ _ _ h1 h2 h3 h4 => by
      cases h1; cases h2; cases h3; cases h4; exact hv⟩
  have link : ∀ {i j : Nat} {r : String} {p : Path} {b : Expr} {s : List Char} {L : Log} {o : Out}, Level T T' i j → ρ r p → G.find r = some b → Peg G X b s o L →
      Follows K E T T' sp G G' X' (.nt i r) (.ext j p) s (match o with | .fail => .fail | .ok s t => .ok s (.nt t)) L := by
    intro i j r p b s L o hl hp hb h
    obtain ⟨b', hb', hx⟩ := C.links r p hp
    rw [hb] at hb'; cases hb'
    obtain ⟨o', h1, h2⟩ := hx s o L h
    match o, o', h2 with
    | .fail, .fail, _ => exact fail (.ext h1)
    | .ok s1 t, .ok s2 (.ext v), h2 =>
      obtain ⟨rfl, h2⟩ := h2
      exact ok (.ext h1) nofun (by rw [ast_nt hb, ast_ext]; exact vals_if hl fun _ => h2)
  have nt : ∀ {i j : Nat} {r r' : String} {b : Expr} {s : List Char} {L : Log} {o : Out}, Level T T' i j → R r r' → G.find r = some b →
      (∀ {e'}, Restyled K R ρ T T' b e' → Follows K E T T' sp G G' X' b e' s o L) →
      Follows K E T T' sp G G' X' (.nt i r) (.nt j r') s (match o with | .fail => .fail | .ok s t => .ok s (.nt t)) L := by
    intro i j r r' b s L o hl hr hb ih
    obtain ⟨c, b', h1, h2, h3⟩ := C.rules r r' hr
    rw [hb] at h1; cases h1
    obtain ⟨o', h4, h5, _⟩ := ih h3
    cases o with
    | fail => cases out_fail h5; exact fail (.nt_fail h2 h4)
    | ok s1 t =>
      obtain ⟨t', rfl, h6⟩ := out_ok h5
      exact ok (.nt_ok h2 h4) nofun (by rw [ast_nt hb, ast_nt h2]; exact vals_if hl fun _ => h6)
  induction h with
  | str_ok => intro e' h; obtain ⟨e0, h, w⟩ := h.top; refine w ?_; cases h; exact ok .str_ok nofun (by rw [ast_leaf, ast_leaf]; exact .nil)
  | str_fail hn => intro e' h; obtain ⟨e0, h, w⟩ := h.top; refine w ?_; cases h; exact fail (.str_fail hn)
  | any_ok => intro e' h; obtain ⟨e0, h, w⟩ := h.top; refine w ?_; cases h with | any hl => exact ok .any_ok nofun (by rw [ast_any, ast_any]; exact vals_if hl fun _ => .one .chr)
  | any_fail => intro e' h; obtain ⟨e0, h, w⟩ := h.top; refine w ?_; cases h; exact fail .any_fail
  | cls_ok hn => intro e' h; obtain ⟨e0, h, w⟩ := h.top; refine w ?_; cases h with | cls hl => exact ok (.cls_ok hn) nofun (by rw [ast_cls, ast_cls]; exact vals_if hl fun _ => .one .chr)
  | cls_fail hn => intro e' h; obtain ⟨e0, h, w⟩ := h.top; refine w ?_; cases h; exact fail (.cls_fail hn)
  | cls_eof => intro e' h; obtain ⟨e0, h, w⟩ := h.top; refine w ?_; cases h; exact fail .cls_eof
  | nt_ok hf h0 ih =>
    intro e' h; obtain ⟨e0, h, w⟩ := h.top; refine w ?_
    cases h with
    | nt hl hr => exact nt hl hr hf ih
    | link hl hp => exact link hl hp hf h0
  | nt_fail hf h0 ih =>
    intro e' h; obtain ⟨e0, h, w⟩ := h.top; refine w ?_
    cases h with
    | nt hl hr => exact nt hl hr hf ih
    | link hl hp => exact link hl hp hf h0
  | @ext i p s o L hx =>
    intro e' h; obtain ⟨e0, h, w⟩ := h.top; refine w ?_
    cases h with
    | ext hl =>
      cases o with
      | fail => exact fail (.ext (C.exts _ _ _ _ hx))
      | ok s1 t =>
        refine ok (.ext (C.exts _ _ _ _ hx)) nofun ?_
        cases t with
        | ext v => rw [ast_ext, ast_ext]; exact vals_if hl fun _ => .one (.ext (C.vals _ _ _ _ _ hx))
        | leaf => rw [ast_leaf, ast_leaf]; exact .nil
        | chr c =>
          rw [ast_ext_chr, ast_ext_chr]; exact vals_if hl fun _ => .one .chr
        | none =>
          rw [ast_ext_none, ast_ext_none]; exact vals_if hl fun _ => .one .none
        | _ =>
          have : ∀ (P : Prop) [Decidable P], (if P then ([] : List Val) else []) = [] := by intro P _; split <;> rfl
          simp only [ast, this]
          exact .nil
  | seq_nil =>
    intro e' h; obtain ⟨e0, h, w⟩ := h.top; refine w ?_
    cases h with
    | seq_nil hl => exact ok .seq_nil nofun (by rw [ast_seq, ast_seq]; exact vals_if hl fun _ => by simp only [astSeq]; exact .nil)
  | seq_cons _ h0 ih1 ih2 =>
    intro e' h; obtain ⟨e0, h, w⟩ := h.top; refine w ?_
    cases h with
    | seq_cons h1 h2 =>
      obtain ⟨_, h3, h4, _⟩ := ih1 h1
      have q := out_ok h4; clear h4; obtain ⟨t1, rfl, h4⟩ := q
      obtain ⟨_, h5, h6, _⟩ := ih2 h2
      have q := out_ok h6; clear h6; obtain ⟨t2, rfl, h6⟩ := q
      obtain ⟨ts2, rfl⟩ := seq_ok_seq h5
      refine ok (.seq_cons h3 h5) nofun ?_
      rw [ast_seq, ast_seq] at h6 ⊢
      refine vals_if h2.seq_level fun h0 => ?_
      simp only [astSeq]
      exact h4.append (vals_unless h2.seq_level h6 h0)
  | seq_fail _ ih1 =>
    intro e' h; obtain ⟨e0, h, w⟩ := h.top; refine w ?_
    cases h with
    | seq_cons h1 h2 => obtain ⟨_, h3, h4, _⟩ := ih1 h1; cases out_fail h4; exact fail (.seq_fail h3)
  | seq_later _ _ ih1 ih2 =>
    intro e' h; obtain ⟨e0, h, w⟩ := h.top; refine w ?_
    cases h with
    | seq_cons h1 h2 =>
      obtain ⟨_, h3, h4, _⟩ := ih1 h1
      have q := out_ok h4; clear h4; obtain ⟨t1, rfl, h4⟩ := q
      obtain ⟨_, h5, h6, _⟩ := ih2 h2
      cases out_fail h6
      exact fail (.seq_later h3 h5)
  | choice_nil => intro e' h; obtain ⟨e0, h, w⟩ := h.top; refine w ?_; cases h; exact fail .choice_nil
  | choice_first _ ih1 =>
    intro e' h; obtain ⟨e0, h, w⟩ := h.top; refine w ?_
    cases h with
    | choice_cons h1 h2 =>
      obtain ⟨_, h3, h4, _⟩ := ih1 h1
      have q := out_ok h4; clear h4; obtain ⟨t1, rfl, h4⟩ := q
      exact ok (.choice_first h3) nofun (by rw [ast_alt_first, ast_alt_first]; exact vals_if h2.choice_level fun _ => h4)
  | choice_next _ _ ih1 ih2 =>
    intro e' h; obtain ⟨e0, h, w⟩ := h.top; refine w ?_
    cases h with
    | choice_cons h1 h2 =>
      obtain ⟨_, h3, h4, _⟩ := ih1 h1
      cases out_fail h4
      obtain ⟨_, h5, h6, _⟩ := ih2 h2
      have q := out_ok h6; clear h6; obtain ⟨t1, rfl, h6⟩ := q
      obtain ⟨k, u, rfl⟩ := choice_ok_alt h5
      exact ok (.choice_next h3 h5) nofun (by rw [ast_alt_next, ast_alt_next]; exact h6)
  | choice_fail _ _ ih1 ih2 =>
    intro e' h; obtain ⟨e0, h, w⟩ := h.top; refine w ?_
    cases h with
    | choice_cons h1 h2 =>
      obtain ⟨_, h3, h4, _⟩ := ih1 h1
      cases out_fail h4
      obtain ⟨_, h5, h6, _⟩ := ih2 h2
      cases out_fail h6
      exact fail (.choice_fail h3 h5)
  | star_stop _ ih =>
    intro e' h; obtain ⟨e0, h, w⟩ := h.top; refine w ?_
    cases h with
    | star hl h1 => obtain ⟨_, h3, h4, _⟩ := ih h1; cases out_fail h4; exact ok' (.star_stop h3) hl (by simp only [astRep]; exact .nil)
  | star_more _ h0 ih1 ih2 =>
    intro e' h; obtain ⟨e0, h, w⟩ := h.top; refine w ?_
    cases h with
    | @star i j _ _ hl h1 =>
      obtain ⟨_, h3, h4, _⟩ := ih1 h1
      have q := out_ok h4; clear h4; obtain ⟨t1, rfl, h4⟩ := q
      obtain ⟨_, h5, h6, h7⟩ := ih2 (.star (j := j) hl h1)
      have q := out_ok h6; clear h6; obtain ⟨t2, rfl, h6⟩ := q
      obtain ⟨ts2, rfl⟩ := star_ok_rep h5
      refine ok' (.star_more h3 h5) hl ?_
      simp only [astRep]
      exact .cons h4.tuple (h7 _ _ _ _ _ _ _ _ rfl rfl rfl rfl)
  | plus_fail _ ih =>
    intro e' h; obtain ⟨e0, h, w⟩ := h.top; refine w ?_
    cases h with
    | plus hl h1 => obtain ⟨_, h3, h4, _⟩ := ih h1; cases out_fail h4; exact fail (.plus_fail h3)
  | plus_ok _ h0 ih1 ih2 =>
    intro e' h; obtain ⟨e0, h, w⟩ := h.top; refine w ?_
    cases h with
    | @plus i j _ _ hl h1 =>
      obtain ⟨_, h3, h4, _⟩ := ih1 h1
      have q := out_ok h4; clear h4; obtain ⟨t1, rfl, h4⟩ := q
      obtain ⟨_, h5, h6, h7⟩ := ih2 (.star (j := j) hl h1)
      have q := out_ok h6; clear h6; obtain ⟨t2, rfl, h6⟩ := q
      obtain ⟨ts2, rfl⟩ := star_ok_rep h5
      refine ok (.plus_ok h3 h5) nofun ?_
      rw [ast_plus, ast_plus]
      refine vals_if hl fun _ => .one ?_
      simp only [astRep]
      have := ValsStyle.cons h4.tuple (h7 _ _ _ _ _ _ _ _ rfl rfl rfl rfl)
      exact .list this.1 this.2
  | opt_some _ ih =>
    intro e' h; obtain ⟨e0, h, w⟩ := h.top; refine w ?_
    cases h with
    | opt hl h1 =>
      obtain ⟨_, h3, h4, _⟩ := ih h1
      have q := out_ok h4; clear h4; obtain ⟨t1, rfl, h4⟩ := q
      exact ok (.opt_some h3) nofun (by rw [ast_opt, ast_opt]; exact vals_if hl fun _ => .one (.some h4.tuple))
  | opt_none _ ih =>
    intro e' h; obtain ⟨e0, h, w⟩ := h.top; refine w ?_
    cases h with
    | opt hl h1 =>
      obtain ⟨_, h3, h4, _⟩ := ih h1
      cases out_fail h4
      exact ok (.opt_none h3) nofun (by rw [ast_opt_none, ast_opt_none]; exact vals_if hl fun _ => .one .none)
  | not_ok _ ih =>
    intro e' h; obtain ⟨e0, h, w⟩ := h.top; refine w ?_
    cases h with
    | not h1 => obtain ⟨_, h3, h4, _⟩ := ih h1; cases out_fail h4; exact ok (.not_ok h3) nofun (by rw [ast_leaf, ast_leaf]; exact .nil)
  | not_fail _ ih =>
    intro e' h; obtain ⟨e0, h, w⟩ := h.top; refine w ?_
    cases h with
    | not h1 => obtain ⟨_, h3, h4, _⟩ := ih h1; have q := out_ok h4; clear h4; obtain ⟨t1, rfl, h4⟩ := q; exact fail (.not_fail h3)
  | and_ok _ ih =>
    intro e' h; obtain ⟨e0, h, w⟩ := h.top; refine w ?_
    cases h with
    | and h1 => obtain ⟨_, h3, h4, _⟩ := ih h1; have q := out_ok h4; clear h4; obtain ⟨t1, rfl, h4⟩ := q; exact ok (.and_ok h3) nofun (by rw [ast_leaf, ast_leaf]; exact .nil)
  | and_fail _ ih =>
    intro e' h; obtain ⟨e0, h, w⟩ := h.top; refine w ?_
    cases h with
    | and h1 => obtain ⟨_, h3, h4, _⟩ := ih h1; cases out_fail h4; exact fail (.and_fail h3)
  | act_ok _ ih =>
    intro e' h; obtain ⟨e0, h, w⟩ := h.top; refine w ?_
    cases h with
    | act hl h1 h2 hu hk =>
      obtain ⟨_, h3, h4, _⟩ := ih h1
      have q := out_ok h4; clear h4; obtain ⟨t1, rfl, h4⟩ := q
      refine ok (.act_ok h3) nofun ?_
      rw [ast_act, ast_act]
      refine vals_if hl fun _ => .one ?_
      rw [level_dec h2, hu]
      exact called_style hk h4
  | act_fail _ ih =>
    intro e' h; obtain ⟨e0, h, w⟩ := h.top; refine w ?_
    cases h with
    | act hl h1 h2 hu hk => obtain ⟨_, h3, h4, _⟩ := ih h1; cases out_fail h4; exact fail (.act_fail h3)
  | asc_ok _ ih =>
    intro e' h; obtain ⟨e0, h, w⟩ := h.top; refine w ?_
    cases h with
    | asc hl h1 =>
      obtain ⟨_, h3, h4, _⟩ := ih h1
      have q := out_ok h4; clear h4; obtain ⟨t1, rfl, h4⟩ := q
      exact ok (.asc_ok h3) nofun (by rw [ast_asc, ast_asc]; exact vals_if hl fun _ => h4)
  | asc_fail _ ih =>
    intro e' h; obtain ⟨e0, h, w⟩ := h.top; refine w ?_
    cases h with
    | asc hl h1 => obtain ⟨_, h3, h4, _⟩ := ih h1; cases out_fail h4; exact fail (.asc_fail h3)
  | span_ok _ ih =>
    intro e' h; obtain ⟨e0, h, w⟩ := h.top; refine w ?_
    cases h with
    | span hl h1 =>
      obtain ⟨_, h3, h4, _⟩ := ih h1
      have q := out_ok h4; clear h4; obtain ⟨t1, rfl, h4⟩ := q
      exact ok (.span_ok h3) nofun (by rw [ast_span, ast_span]; exact vals_if hl fun _ => .cons .span h4)
  | span_fail _ ih =>
    intro e' h; obtain ⟨e0, h, w⟩ := h.top; refine w ?_
    cases h with
    | span hl h1 => obtain ⟨_, h3, h4, _⟩ := ih h1; cases out_fail h4; exact fail (.span_fail h3)
  | range_ok _ ih =>
    intro e' h; obtain ⟨e0, h, w⟩ := h.top; refine w ?_
    cases h with
    | range hl h1 =>
      obtain ⟨_, h3, h4, _⟩ := ih h1
      have q := out_ok h4; clear h4; obtain ⟨t1, rfl, h4⟩ := q
      exact ok (.range_ok h3) nofun (by rw [ast_range, ast_range]; exact vals_if hl fun _ => .cons .range h4)
  | range_fail _ ih =>
    intro e' h; obtain ⟨e0, h, w⟩ := h.top; refine w ?_
    cases h with
    | range hl h1 => obtain ⟨_, h3, h4, _⟩ := ih h1; cases out_fail h4; exact fail (.range_fail h3)

/-- The results of rules that are the same but for the functions. -/
theorem restyled_result {input : List Char} (C : RestyledBy K E R ρ T T' (strSpans input) G X G' X') {r r' : String} (hr : R r r') {p : Bool} {ptr : Nat} {o : Out} {L : Log}
    {b : Expr} (hb : G.find r = some b) (h : Peg G X b input o L) :
    ∃ b' o', G'.find r' = some b' ∧ Peg G' X' b' input o' L ∧
      (if p then ResultStyle K E (expectedResult G T b p ptr input L o) (expectedResult G' T' b' p ptr input L o')
        else expectedResult G T b p ptr input L o = expectedResult G' T' b' p ptr input L o') := by
  obtain ⟨c, b', h1, h2, h3⟩ := C.rules r r' hr
  rw [hb] at h1; cases h1
  obtain ⟨o', h4, h5, _⟩ := restyled_peg C h h3
  refine ⟨b', o', h2, h4, ?_⟩
  cases o with
  | fail => cases out_fail h5; cases p <;> simp [expectedResult, ResultStyle]
  | ok s1 t =>
    obtain ⟨t', rfl, h6⟩ := out_ok h5
    cases p
    · simp [expectedResult]
    · by_cases hs : s1 = []
      · simpa [expectedResult, hs, ResultStyle] using h6.tuple
      · simpa [expectedResult, hs, ResultStyle] using h6.tuple

end Oak
