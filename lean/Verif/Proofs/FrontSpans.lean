import Verif.Proofs.FrontErase
import Verif.Spec.FrontSpans
import Verif.Proofs.TypingBase
/-! The spans of the expressions point at their texts. -/
set_option autoImplicit false
set_option linter.constructorNameAsVariable false

namespace Oak
open Spec

theorem TextPart.refl (us : List LTok) : TextPart us us := by simpa using TextPart.here (us := us) (a := []) (b := [])

theorem TextPart.around {vs us : List LTok} (h : TextPart vs us) (a b : List LTok) : TextPart vs (a ++ us ++ b) := by
  cases h with
  | @here a1 b1 =>
    have := TextPart.here (us := vs) (a := a ++ a1) (b := b1 ++ b)
    simpa using this
  | @group a1 g h w b1 h1 =>
    have := TextPart.group (a := a ++ a1) (h := h) (w := w) (b := b1 ++ b) h1
    simpa using this

theorem TextPart.left {vs us : List LTok} (h : TextPart vs us) (b : List LTok) : TextPart vs (us ++ b) := by simpa using h.around [] b
theorem TextPart.right {vs us : List LTok} (h : TextPart vs us) (a : List LTok) : TextPart vs (a ++ us) := by simpa using h.around a []
theorem TextPart.tail {vs us : List LTok} (h : TextPart vs us) (t : LTok) : TextPart vs (t :: us) := h.right [t]

theorem TextPart.trans {vs us ts : List LTok} (h1 : TextPart vs us) (h2 : TextPart us ts) : TextPart vs ts := by
  induction h2 with
  | here => exact h1.around _ _
  | group _ ih => exact .group ih

theorem TextPart.ne {vs ts : List LTok} (h : TextPart vs ts) (hne : vs ≠ []) : ts ≠ [] := by
  induction h with
  | here => simp [hne]
  | group => simp

/-! ### Places -/

theorem Placed.bounds {t : LTok} (h : t.Placed) : t.head.lo = t.whole.lo ∧ t.head.lo < t.head.hi ∧ t.head.hi ≤ t.whole.hi := by
  cases t with
  | leaf => rw [LTok.Placed] at h; exact h
  | paren => rw [LTok.Placed] at h; exact ⟨h.1, h.2.1, h.2.2.1⟩
  | bracket => rw [LTok.Placed] at h; exact ⟨h.1, h.2.1, h.2.2.1⟩

theorem PlacedAll.mem {ts : List LTok} : ∀ {lo hi : Nat}, PlacedAll lo hi ts → ∀ u ∈ ts, lo ≤ u.whole.lo ∧ u.Placed ∧ u.whole.hi ≤ hi := by
  induction ts with
  | nil => intro lo hi h u hu; cases hu
  | cons t ts ih =>
    intro lo hi h u hu
    rw [PlacedAll] at h
    obtain ⟨h1, h2, h3, h4⟩ := h
    rcases List.mem_cons.1 hu with rfl | hu
    · exact ⟨h1, h2, h3⟩
    · obtain ⟨h5, h6, h7⟩ := ih h4 u hu
      have := Placed.bounds h2
      exact ⟨by omega, h6, h7⟩

theorem PlacedAll.first {t : LTok} {ts : List LTok} {lo hi : Nat} (h : PlacedAll lo hi (t :: ts)) : ∀ u ∈ t :: ts, t.whole.lo ≤ u.whole.lo := by
  intro u hu
  rw [PlacedAll] at h
  obtain ⟨h1, h2, h3, h4⟩ := h
  rcases List.mem_cons.1 hu with rfl | hu
  · exact Nat.le_refl _
  · have := (h4.mem u hu).1
    have := Placed.bounds h2
    omega

theorem PlacedAll.last {ts : List LTok} : ∀ {lo hi : Nat}, PlacedAll lo hi ts → ∀ (hne : ts ≠ []), ∀ u ∈ ts, u.whole.hi ≤ (ts.getLast hne).whole.hi := by
  induction ts with
  | nil => intro lo hi h hne; exact (hne rfl).elim
  | cons t ts ih =>
    intro lo hi h hne u hu
    rw [PlacedAll] at h
    obtain ⟨h1, h2, h3, h4⟩ := h
    cases ts with
    | nil => simp at hu; subst hu; exact Nat.le_refl _
    | cons t2 ts =>
      rw [List.getLast_cons (by simp)]
      rcases List.mem_cons.1 hu with rfl | hu
      · obtain ⟨h5, h6, _⟩ := h4.mem _ (List.getLast_mem (l := t2 :: ts) (by simp))
        have := Placed.bounds h6
        omega
      · exact ih h4 (by simp) u hu

theorem PlacedAll.inside {ts : List LTok} {lo hi : Nat} (h : PlacedAll lo hi ts) {u : LTok} (hu : u ∈ ts) : u.whole.Inside (extent ts) := by
  cases ts with
  | nil => cases hu
  | cons t ts => exact ⟨h.first u hu, h.last (by simp) u hu⟩

theorem PlacedAll.head {ts : List LTok} {lo hi : Nat} (h : PlacedAll lo hi ts) {u : LTok} (hu : u ∈ ts) :
    u.head.Inside (extent ts) ∧ u.head.lo < u.head.hi := by
  have h1 := h.inside hu
  have h2 := Placed.bounds (h.mem u hu).2.1
  exact ⟨⟨by have := h1.1; omega, by have := h1.2; omega⟩, h2.2.1⟩

theorem PlacedAll.split {a b : List LTok} : ∀ {lo hi : Nat}, PlacedAll lo hi (a ++ b) → ∃ mid, PlacedAll lo mid a ∧ PlacedAll mid hi b := by
  induction a with
  | nil => intro lo hi h; exact ⟨lo, by rw [PlacedAll]; exact Nat.le_refl _, h⟩
  | cons t a ih =>
    intro lo hi h
    rw [List.cons_append, PlacedAll] at h
    obtain ⟨h1, h2, h3, h4⟩ := h
    obtain ⟨mid, h5, h6⟩ := ih h4
    refine ⟨mid, ?_, h6⟩
    rw [PlacedAll]
    refine ⟨h1, h2, ?_, h5⟩
    cases a with
    | nil => rw [PlacedAll] at h5; exact h5
    | cons u a =>
      rw [PlacedAll] at h5
      have := Placed.bounds h5.2.1
      omega

theorem PlacedAll.extent {ts : List LTok} {lo hi : Nat} (h : PlacedAll lo hi ts) (hne : ts ≠ []) : (extent ts).Inside ⟨lo, hi⟩ := by
  cases ts with
  | nil => exact (hne rfl).elim
  | cons t ts => exact ⟨(h.mem t (by simp)).1, (h.mem _ (List.getLast_mem (l := t :: ts) (by simp))).2.2⟩

theorem SrcSpan.Inside.trans {a b c : SrcSpan} (h1 : a.Inside b) (h2 : b.Inside c) : a.Inside c := ⟨Nat.le_trans h2.1 h1.1, Nat.le_trans h1.2 h2.2⟩

theorem extent_inside {vs : List LTok} {t : SrcSpan} (hne : vs ≠ []) (h : ∀ u ∈ vs, u.whole.Inside t) : (extent vs).Inside t := by
  cases vs with
  | nil => exact (hne rfl).elim
  | cons u vs => exact ⟨(h u (by simp)).1, (h _ (List.getLast_mem (l := u :: vs) (by simp))).2⟩

/-- A part of tokens that have places has a place in them. -/
theorem TextPart.placed {vs ts : List LTok} (hp : TextPart vs ts) : ∀ {lo hi : Nat}, PlacedAll lo hi ts → vs ≠ [] →
    (∃ lo' hi', PlacedAll lo' hi' vs) ∧ (Oak.extent vs).Inside (Oak.extent ts) := by
  induction hp with
  | @here a b =>
    intro lo hi h hne
    refine ⟨?_, ?_⟩
    · obtain ⟨_, h1, _⟩ := h.split
      obtain ⟨_, _, h2⟩ := h1.split
      exact ⟨_, _, h2⟩
    · exact extent_inside hne fun u hu => h.inside (by simp [hu])
  | @group a g hd w b h1 ih =>
    intro lo hi h hne
    obtain ⟨_, h2, _⟩ := h.mem (.paren g hd w) (by simp)
    rw [LTok.Placed] at h2
    obtain ⟨_, _, _, h2⟩ := h2
    obtain ⟨h3, h4⟩ := ih h2 hne
    refine ⟨h3, h4.trans ?_⟩
    have hg : g ≠ [] := h1.ne hne
    exact (h2.extent hg).trans (h.inside (u := .paren g hd w) (by simp))

/-! ### Pointing -/

theorem getElem?_grow {T D : List SrcSpan} {i : Nat} {s : SrcSpan} (h : T[i]? = some s) : (T ++ D)[i]? = some s := by
  rw [List.getElem?_append_left (List.getElem?_eq_some_iff.1 h).1]
  exact h

theorem SpanRule.grow {T : List SrcSpan} {us : List LTok} {x : Expr} (h : SpanRule T us x) (D : List SrcSpan) : SpanRule (T ++ D) us x := by
  cases x <;> simp only [SpanRule] at h ⊢
  case str | any | cls | nt | ext => obtain ⟨t, h1, h2⟩ := h; exact ⟨t, h1, getElem?_grow h2⟩
  case star | plus | opt => obtain ⟨t, vs, o, h1, h2⟩ := h; exact ⟨t, vs, o, h1, getElem?_grow h2⟩
  case not | and => obtain ⟨t, vs, s, h1, h2, h3⟩ := h; exact ⟨t, vs, s, h1, getElem?_grow h2, getElem?_grow h3⟩
  case seq => obtain ⟨t, vs, l, s, h1, h2, h3, h4⟩ := h; exact ⟨t, vs, l, s, h1, h2, getElem?_grow h3, getElem?_grow h4⟩
  case choice => obtain ⟨f, l, s1, s2, h1, h2, h3, h4, h5⟩ := h; exact ⟨f, l, s1, s2, h1, h2, getElem?_grow h3, getElem?_grow h4, getElem?_grow h5⟩
  case act => obtain ⟨vs, g, a, w, t, ws, j, h1, h2, h3⟩ := h; exact ⟨vs, g, a, w, t, ws, j, h1, h2, getElem?_grow h3⟩
  case asc =>
    rcases h with ⟨vs, g, a, w, t, ws, j, h1, h2, h3⟩ | ⟨t, vs, a, w, h1, h2, h3⟩
    · exact .inl ⟨vs, g, a, w, t, ws, j, h1, h2, getElem?_grow h3⟩
    · exact .inr ⟨t, vs, a, w, h1, h2, getElem?_grow h3⟩
  case span | range => obtain ⟨t, vs, a, w, h1, h2, h3⟩ := h; exact ⟨t, vs, a, w, h1, h2, getElem?_grow h3⟩

theorem PointsAt.grow {T : List SrcSpan} {ts : List LTok} {x : Expr} (h : PointsAt T ts x) (D : List SrcSpan) : PointsAt (T ++ D) ts x := by
  obtain ⟨us, h1, h2, h3, h4⟩ := h
  refine ⟨us, h1, h2, h3.grow D, fun lo hi hp => ?_⟩
  obtain ⟨s, h5, h6⟩ := h4 lo hi hp
  exact ⟨s, getElem?_grow h5, h6⟩

/-- The span of an expression is in the text that contains the expression. -/
theorem PointsAt.span {T : List SrcSpan} {ts : List LTok} {x : Expr} (h : PointsAt T ts x) {lo hi : Nat} (hp : PlacedAll lo hi ts) :
    ∃ s, T[x.id]? = some s ∧ s.Inside (extent ts) ∧ s.lo < s.hi := by
  obtain ⟨us, h1, h2, h3, h4⟩ := h
  obtain ⟨s, h5, h6, h7⟩ := h4 lo hi hp
  have hne : us ≠ [] := by
    rintro rfl
    have := h6.2
    simp only [extent] at this
    omega
  exact ⟨s, h5, h6.trans (h1.placed hp hne).2, h7⟩

theorem PointsAt.part {T : List SrcSpan} {us ts : List LTok} {x : Expr} (h : PointsAt T us x) (hp : TextPart us ts) (hne : us ≠ []) : PointsAt T ts x := by
  obtain ⟨vs, h1, h2, h3, h4⟩ := h
  refine ⟨vs, h1.trans hp, h2, h3, fun lo hi hpl => ?_⟩
  obtain ⟨lo', hi', h5⟩ := (hp.placed hpl hne).1
  exact h4 lo' hi' h5

theorem PointsAt.mk {T : List SrcSpan} {us : List LTok} {x : Expr} (h1 : SrcText (eraseAll us) x.bare) (h2 : SpanRule T us x)
    (h3 : ∀ lo hi, PlacedAll lo hi us → ∃ s, T[x.id]? = some s ∧ s.Inside (extent us) ∧ s.lo < s.hi) : PointsAt T us x :=
  ⟨us, TextPart.refl us, h1, h2, h3⟩

theorem join_inside {a b t : SrcSpan} (ha : a.Inside t ∧ a.lo < a.hi) (hb : b.Inside t ∧ b.lo < b.hi) : (a.join b).Inside t ∧ (a.join b).lo < (a.join b).hi := by
  obtain ⟨⟨h1, h2⟩, h3⟩ := ha
  obtain ⟨⟨h4, h5⟩, h6⟩ := hb
  refine ⟨⟨?_, ?_⟩, ?_⟩ <;> simp only [SrcSpan.join] <;> omega

theorem text_cut {ts us rest : List LTok} {pre : List Tok} (h1 : ts = us ++ rest) (h2 : eraseAll ts = pre ++ eraseAll rest) : eraseAll us = pre := by
  subst h1
  rw [eraseAll_append] at h2
  exact List.append_cancel_right h2

theorem at_end (T : List SrcSpan) (s : SrcSpan) : (T ++ [s])[T.length]? = some s := by simp

/-- What is known of the expressions that have been read. -/
def Loc (T : List SrcSpan) (ts : List LTok) (es : List Expr) (T' : List SrcSpan) (rest : List LTok) : Prop :=
  ∃ us, us ≠ [] ∧ ts = us ++ rest ∧ (∃ D, T' = T ++ D) ∧ ∀ e ∈ es, ∀ x, Sub x e → PointsAt T' us x

/-- A new expression made of expressions that have been read. -/
theorem points_wrap {T : List SrcSpan} {us ws : List LTok} {x : Expr} {s : SrcSpan} (hk : ∀ e ∈ x.kids, ∀ y, Sub y e → PointsAt T us y) (hne : x.kids ≠ [] → us ≠ [])
    (hp : x.kids ≠ [] → TextPart us ws) (ht : SrcText (eraseAll ws) x.bare) (hid : x.id = T.length) (hr : SpanRule (T ++ [s]) ws x)
    (hs : ∀ lo hi, PlacedAll lo hi ws → s.Inside (extent ws) ∧ s.lo < s.hi) : ∀ y, Sub y x → PointsAt (T ++ [s]) ws y := by
  intro y hy
  rcases sub_kids.1 hy with rfl | ⟨c, hc, hy⟩
  · refine .mk ht hr fun lo hi hpl => ⟨s, ?_, hs lo hi hpl⟩
    rw [hid]
    exact at_end T s
  · have hkn : x.kids ≠ [] := List.ne_nil_of_mem hc
    exact ((hk c hc y hy).part (hp hkn) (hne hkn)).grow [s]

theorem points_leaf {T : List SrcSpan} {t : LTok} {x : Expr} (hk : x.kids = []) (ht : SrcText (eraseAll [t]) x.bare) (hi : x.id = T.length)
    (hr : SpanRule (T ++ [t.head]) [t] x) : ∀ y, Sub y x → PointsAt (T ++ [t.head]) [t] y :=
  points_wrap (us := []) (by rw [hk]; intro e he; cases he) (fun h => (h hk).elim) (fun h => (h hk).elim) ht hi hr
    fun lo hi hpl => hpl.head (by simp)

open Syntax in
theorem atom_seq {ts : List Tok} {e : Expr} (h : Atom ts e) : SrcText ts e := .seq (.one (.one (.prefixed (.suffixed (.atom h)))))
open Syntax in
theorem suffixed_seq {ts : List Tok} {e : Expr} (h : Suffixed ts e) : SrcText ts e := .seq (.one (.one (.prefixed (.suffixed h))))
open Syntax in
theorem prefixed_seq {ts : List Tok} {e : Expr} (h : Prefixed ts e) : SrcText ts e := .seq (.one (.one (.prefixed h)))
open Syntax in
theorem typed_seq {ts : List Tok} {e : Expr} {b : Bool} (h : Typed ts e b) : SrcText ts e := .seq (.one (.one h))
open Syntax in
theorem branch_choice {ts : List Tok} {e : Expr} (h : Branch ts e) : SrcText ts e := .choice (.one (.one h))

theorem lparseType_cut {ts rest : List LTok} {sp : SrcSpan} {ty : IType} (h : lparseType ts = .ok (sp, ty, rest)) :
    (ty = .infer ∧ ts = rest) ∨
    ∃ j h w pre b, ts = .leaf (.punct ':' j) h w :: pre ++ rest ∧ Syntax.IsType (eraseAll pre) ty b ∧ ty ≠ .infer ∧ ∃ t ws, pre = t :: ws ∧ sp = t.head := by
  obtain ⟨⟨ty', r⟩, h1, ⟨h2, h3⟩⟩ := (lparseType_same ts).ok_left h
  simp only at h2 h3
  subst h2 h3
  unfold lparseType at h
  rw [h1] at h
  simp only [Res.bind_ok, Res.ok.injEq, Prod.mk.injEq, true_and] at h
  obtain ⟨hsp, hrest⟩ := h
  rcases parseType_sound h1 with ⟨rfl, he, _⟩ | ⟨j, pre, b, he, ht, _, hne⟩
  · left
    refine ⟨rfl, ?_⟩
    have := congrArg List.length he
    rw [eraseAll_length, eraseAll_length] at this
    rw [eraseAll_length] at hrest
    rw [← hrest, this, Nat.sub_self, List.drop_zero]
  · right
    have hl := congrArg List.length he
    rw [eraseAll_length, List.length_append, eraseAll_length] at hl
    obtain ⟨u, v, rfl, hu, hv⟩ := eraseAll_split he
    obtain ⟨a, w, us, rfl, hus⟩ := eraseAll_leaf (l := .punct ':' j) hu
    have hlen : (Tok.punct ':' j :: pre).length = (LTok.leaf (.punct ':' j) a w :: us).length := by
      rw [← hu, eraseAll_length]
    rw [eraseAll_length, hl, Nat.add_sub_cancel, hlen, List.drop_left] at hrest
    subst hrest
    have hpre : ∃ t ws, us = t :: ws := by
      cases us with
      | nil => rw [eraseAll_nil] at hus; subst hus; cases ht
      | cons t ws => exact ⟨t, ws, rfl⟩
    obtain ⟨t, ws, rfl⟩ := hpre
    refine ⟨j, a, w, t :: ws, b, rfl, ?_, hne, t, ws, rfl, ?_⟩
    · rw [hus]; exact ht
    · rw [← hsp]; rfl

/-- What the functions read, for a depth. -/
structure LocAt (n : Nat) : Prop where
  choice : ∀ {T ts e T' rest}, lparseChoice n T ts = .ok (e, T', rest) → Loc T ts [e] T' rest
  branches : ∀ {T ts es T' rest}, lparseBranches n T ts = .ok (es, T', rest) → Loc T ts es T' rest
  spanned : ∀ {T ts e T' rest}, lparseSpanned n T ts = .ok (e, T', rest) → Loc T ts [e] T' rest
  seq : ∀ {T ts e T' rest}, lparseSeq n T ts = .ok (e, T', rest) → Loc T ts [e] T' rest
  typeds : ∀ {T ts es T' rest}, lparseTypeds n T ts = .ok (es, T', rest) → (es = [] ∧ ts = rest ∧ T' = T) ∨ Loc T ts es T' rest
  typed : ∀ {T ts o T' rest}, lparseTyped n T ts = .ok (o, T', rest) → (o = none ∧ ts = rest ∧ T' = T) ∨ ∃ e, o = some e ∧ Loc T ts [e] T' rest
  prefixed : ∀ {T ts o T' rest}, lparsePrefixed n T ts = .ok (o, T', rest) → (o = none ∧ ts = rest ∧ T' = T) ∨ ∃ e, o = some e ∧ Loc T ts [e] T' rest
  suffixed : ∀ {T ts o T' rest}, lparseSuffixed n T ts = .ok (o, T', rest) → (o = none ∧ ts = rest ∧ T' = T) ∨ ∃ e, o = some e ∧ Loc T ts [e] T' rest
  atom : ∀ {T ts o T' rest}, lparseAtom n T ts = .ok (o, T', rest) → (o = none ∧ ts = rest ∧ T' = T) ∨ ∃ e, o = some e ∧ Loc T ts [e] T' rest

theorem Loc.sub {T : List SrcSpan} {ts : List LTok} {es : List Expr} {T' : List SrcSpan} {rest : List LTok} (h : Loc T ts es T' rest) {fs : List Expr}
    (hf : ∀ e ∈ fs, e ∈ es) : Loc T ts fs T' rest := by
  obtain ⟨us, h1, h2, h3, h4⟩ := h
  exact ⟨us, h1, h2, h3, fun e he => h4 e (hf e he)⟩

theorem lparseAction_loc {T0 T : List SrcSpan} {e e' : Expr} {ts0 ts rest : List LTok} {T' : List SrcSpan} (hl : Loc T0 ts0 [e] T ts)
    (h : lparseAction T e ts = .ok (e', T', rest))
    (ht : ∀ us, ts0 = us ++ rest → ∃ pre, eraseAll ts0 = pre ++ eraseAll rest ∧ Syntax.Branch pre e'.bare) : Loc T0 ts0 [e'] T' rest := by
  obtain ⟨us, h1, rfl, ⟨D, rfl⟩, h4⟩ := hl
  unfold lparseAction at h
  split at h
  · rename_i j a w hd w2 f a3 w3 _
    cases h
    obtain ⟨pre, hp, hb⟩ := ht (us ++ [.leaf (.punct '>' j) a w, .leaf .box hd w2, .leaf (.path f) a3 w3]) (by simp)
    refine ⟨us ++ [.leaf (.punct '>' j) a w, .leaf .box hd w2, .leaf (.path f) a3 w3], by simp, by simp, ⟨D ++ [hd], by simp⟩, ?_⟩
    intro x hx
    simp only [List.mem_singleton] at hx
    subst hx
    refine points_wrap (us := us) (by simpa [Expr.kids] using h4) (fun _ => h1) (fun _ => (TextPart.refl us).left _) ?_ rfl ?_ ?_
    · have := text_cut (us := us ++ [.leaf (.punct '>' j) a w, .leaf .box hd w2, .leaf (.path f) a3 w3]) (rest := rest) (by simp) hp
      rw [this]
      exact branch_choice hb
    · exact ⟨us, _, a, w, .leaf .box hd w2, _, j, rfl, rfl, at_end _ _⟩
    · intro lo hi hpl
      exact hpl.head (u := .leaf .box hd w2) (by simp)
  · rename_i j a w f hd w2 _
    cases h
    obtain ⟨pre, hp, hb⟩ := ht (us ++ [.leaf (.punct '>' j) a w, .leaf (.path f) hd w2]) (by simp)
    refine ⟨us ++ [.leaf (.punct '>' j) a w, .leaf (.path f) hd w2], by simp, by simp, ⟨D ++ [hd], by simp⟩, ?_⟩
    intro x hx
    simp only [List.mem_singleton] at hx
    subst hx
    refine points_wrap (us := us) (by simpa [Expr.kids] using h4) (fun _ => h1) (fun _ => (TextPart.refl us).left _) ?_ rfl ?_ ?_
    · have := text_cut (us := us ++ [.leaf (.punct '>' j) a w, .leaf (.path f) hd w2]) (rest := rest) (by simp) hp
      rw [this]
      exact branch_choice hb
    · exact ⟨us, _, a, w, .leaf (.path f) hd w2, _, j, rfl, rfl, at_end _ _⟩
    · intro lo hi hpl
      exact hpl.head (u := .leaf (.path f) hd w2) (by simp)
  · cases h
  · cases h
    exact ⟨us, h1, rfl, ⟨D, rfl⟩, h4⟩

theorem lparseSuffix_loc {T0 T : List SrcSpan} {lo : SrcSpan} {e e' : Expr} {ts0 ts rest : List LTok} {T' : List SrcSpan} (hl : Loc T0 ts0 [e] T ts)
    (hlo : lo = peekSpan ts0) (h : lparseSuffix T lo e ts = (e', T', rest))
    (ht : ∀ us, ts0 = us ++ rest → ∃ pre, eraseAll ts0 = pre ++ eraseAll rest ∧ Syntax.Suffixed pre e'.bare) : Loc T0 ts0 [e'] T' rest := by
  obtain ⟨us, h1, rfl, ⟨D, rfl⟩, h4⟩ := hl
  obtain ⟨t, vs, rfl⟩ : ∃ t vs, us = t :: vs := by
    cases us with
    | nil => exact (h1 rfl).elim
    | cons t vs => exact ⟨t, vs, rfl⟩
  have key : ∀ (o : LTok) (x : Expr), ts = o :: rest → x.kids = [e] → x.id = (T0 ++ D).length → e' = x → T' = T0 ++ D ++ [lo.join o.head] →
      SpanRule (T0 ++ D ++ [lo.join o.head]) (t :: vs ++ [o]) x → Loc T0 (t :: vs ++ ts) [e'] T' rest := by
    rintro o x rfl hk hid rfl rfl hr
    refine ⟨t :: vs ++ [o], by simp, by simp, ⟨D ++ [lo.join o.head], by simp⟩, ?_⟩
    intro y hy
    simp only [List.mem_singleton] at hy
    subst hy
    refine points_wrap (us := t :: vs) (by rw [hk]; exact h4) (fun _ => h1) (fun _ => (TextPart.refl _).left _) ?_ hid hr ?_
    · obtain ⟨pre, hp, hb⟩ := ht (t :: vs ++ [o]) (by simp)
      rw [text_cut (us := t :: vs ++ [o]) (rest := rest) (by simp) hp]
      exact suffixed_seq hb
    · intro lo' hi hpl
      subst hlo
      exact join_inside (hpl.head (u := t) (by simp)) (hpl.head (u := o) (by simp))
  unfold lparseSuffix at h
  split at h
  · rename_i j hd w us
    cases h
    exact key _ _ rfl rfl rfl rfl rfl ⟨t, vs, _, rfl, by subst hlo; exact at_end _ _⟩
  · rename_i j hd w us
    cases h
    exact key _ _ rfl rfl rfl rfl rfl ⟨t, vs, _, rfl, by subst hlo; exact at_end _ _⟩
  · rename_i j hd w us
    cases h
    exact key _ _ rfl rfl rfl rfl rfl ⟨t, vs, _, rfl, by subst hlo; exact at_end _ _⟩
  · cases h
    exact ⟨t :: vs, h1, rfl, ⟨D, rfl⟩, h4⟩

theorem spanOf_some {T : List SrcSpan} {i : Nat} {s : SrcSpan} (h : spanOf T i = .ok s) : T[i]? = some s := by
  unfold spanOf at h
  split at h
  · cases h; assumption
  · cases h

theorem prefix_loc {T D : List SrcSpan} {us rest : List LTok} {e x : Expr} {hi : SrcSpan} (t : LTok) (h1 : us ≠ [])
    (h4 : ∀ y, Sub y e → PointsAt (T ++ D) us y) (hk : x.kids = [e]) (hid : x.id = (T ++ D).length) (hh : (T ++ D)[e.id]? = some hi)
    (hx : (∃ i, x = .not i e) ∨ ∃ i, x = .and i e) (ht : Syntax.Prefixed (eraseAll (t :: us)) x.bare) :
    Loc T (t :: us ++ rest) [x] (T ++ D ++ [t.head.join hi]) rest := by
  refine ⟨t :: us, by simp, rfl, ⟨D ++ [t.head.join hi], by simp⟩, ?_⟩
  intro y hy
  simp only [List.mem_singleton] at hy
  subst hy
  refine points_wrap (us := us) (by rw [hk]; simpa using h4) (fun _ => h1) (fun _ => (TextPart.refl us).tail t) (prefixed_seq ht) hid ?_ ?_
  · rcases hx with ⟨i, rfl⟩ | ⟨i, rfl⟩ <;>
    · simp only [Expr.id] at hid
      subst hid
      exact ⟨t, us, hi, rfl, getElem?_grow hh, at_end _ _⟩
  · intro lo hi' hpl
    obtain ⟨s, h5, h6⟩ := ((h4 e .refl).part ((TextPart.refl us).tail t) h1).span hpl
    rw [hh] at h5
    cases h5
    exact join_inside (hpl.head (u := t) (by simp)) h6

theorem loc_all : ∀ n, LocAt n := by
  intro n
  induction n with
  | zero =>
    constructor <;> intro T ts o T' rest h
    · rw [lparseChoice] at h; cases h
    · rw [lparseBranches] at h; cases h
    · rw [lparseSpanned] at h; cases h
    · rw [lparseSeq] at h; cases h
    · rw [lparseTypeds] at h; cases h
    · rw [lparseTyped] at h; cases h
    · rw [lparsePrefixed] at h; cases h
    · rw [lparseSuffixed] at h; cases h
    · rw [lparseAtom] at h; cases h
  | succ n ih =>
    constructor
    · -- choice
      intro T ts e T' rest h
      have h0 := h
      rw [lparseChoice] at h
      replace h := Res.bind_eq_ok h; obtain ⟨⟨es, T1, ts1⟩, h1, h⟩ := h
      have hl := ih.branches h1
      simp only at h
      split at h
      · cases h
      · cases h; exact hl
      · rename_i e1 e2 es
        replace h := Res.bind_eq_ok h; obtain ⟨lo, h2, h⟩ := h
        replace h := Res.bind_eq_ok h; obtain ⟨hi, h3, h⟩ := h
        cases h
        obtain ⟨us, hne, rfl, ⟨D, rfl⟩, h4⟩ := hl
        refine ⟨us, hne, rfl, ⟨D ++ [lo.join hi], by simp⟩, ?_⟩
        intro x hx
        simp only [List.mem_singleton] at hx
        subst hx
        refine points_wrap (us := us) h4 (fun _ => hne) (fun _ => TextPart.refl us) ?_ rfl ?_ ?_
        · obtain ⟨⟨e', k, r⟩, h5, h6, _, h7, _⟩ := ((same_all (n + 1)).choice T (us ++ rest)).ok_left h0
          simp only at h6 h7
          subst h6 h7
          obtain ⟨pre, _, h8, h9⟩ := (sound_all (n + 1)).choice h5
          rw [text_cut rfl h8]
          exact .choice h9
        · exact ⟨e1, (e2 :: es).getLast (by simp), lo, hi, rfl, by rw [List.getLast?_eq_some_getLast (by simp), List.getLast_cons (by simp)],
            getElem?_grow (spanOf_some h2), getElem?_grow (spanOf_some h3), at_end _ _⟩
        · intro lo' hi' hpl
          obtain ⟨s1, h5, h6⟩ := (h4 e1 (by simp) e1 .refl).span hpl
          obtain ⟨s2, h7, h8⟩ := (h4 ((e2 :: es).getLast (by simp)) (List.mem_cons_of_mem _ (List.getLast_mem _)) _ .refl).span hpl
          rw [spanOf_some h2] at h5
          rw [spanOf_some h3] at h7
          cases h5; cases h7
          exact join_inside h6 h8
    · -- branches
      intro T ts es T' rest h
      rw [lparseBranches] at h
      replace h := Res.bind_eq_ok h; obtain ⟨⟨e, T1, ts1⟩, h1, h⟩ := h
      simp only at h
      replace h := Res.bind_eq_ok h; obtain ⟨⟨e2, T2, ts2⟩, h2, h⟩ := h
      have hl := ih.spanned h1
      have hl2 : Loc T ts [e2] T2 ts2 := by
        refine lparseAction_loc hl h2 fun us hus => ?_
        obtain ⟨⟨e', k, r⟩, h5, h6, hk, h7, h8, h9⟩ := ((same_all n).spanned T ts).ok_left h1
        simp only at h6 h7 hk h8 h9
        subst h6 h7 hk
        obtain ⟨pre, _, h10, h11⟩ := (sound_all n).spanned h5
        obtain ⟨⟨e'', k, r⟩, h12, h13, hk, h14, _⟩ := (lparseAction_same T T1 e ts1 h8 h9).ok_left h2
        simp only at h13 h14 hk
        subst h13 h14 hk
        obtain ⟨pre', h15, h16⟩ := parseAction_sound h12 h11
        exact ⟨pre ++ pre', by rw [h10, h15, List.append_assoc], h16⟩
      simp only at h
      split at h
      · rename_i j a w ts3
        replace h := Res.bind_eq_ok h; obtain ⟨⟨es3, T3, ts4⟩, h3, h⟩ := h
        cases h
        obtain ⟨us, hne, rfl, ⟨D, rfl⟩, h4⟩ := hl2
        obtain ⟨vs, hne2, rfl, ⟨D2, rfl⟩, h5⟩ := ih.branches h3
        refine ⟨us ++ .leaf (.punct '/' j) a w :: vs, by simp, by simp, ⟨D ++ D2, by simp⟩, ?_⟩
        intro x hx y hy
        rcases List.mem_cons.1 hx with rfl | hx
        · exact ((h4 x (by simp) y hy).part ((TextPart.refl us).left _) hne).grow D2
        · exact (h5 x hx y hy).part (((TextPart.refl vs).tail _).right us) hne2
      · cases h
        exact hl2
    · -- spanned
      intro T ts e T' rest h
      have h0 := h
      unfold lparseSpanned at h
      split at h
      · rename_i hd w1 a2 w2 j a3 w3 ts1
        replace h := Res.bind_eq_ok h; obtain ⟨⟨e1, T1, ts2⟩, h1, h⟩ := h
        cases h
        obtain ⟨us, hne, rfl, ⟨D, rfl⟩, h4⟩ := ih.seq h1
        have htx : Syntax.Spanned (eraseAll (.leaf (.punct '.' true) hd w1 :: .leaf (.punct '.' true) a2 w2 :: .leaf (.punct '.' j) a3 w3 :: us))
            (.range 0 (.asc 0 e1.bare (.regular .unit))) := by
          obtain ⟨⟨e', k, r⟩, h5, h6, _, h7, _⟩ := ((same_all (n + 1)).spanned T _).ok_left h0
          simp only at h6 h7
          subst h6 h7
          obtain ⟨pre, _, h8, h9⟩ := (sound_all (n + 1)).spanned h5
          rw [text_cut (us := .leaf (.punct '.' true) hd w1 :: .leaf (.punct '.' true) a2 w2 :: .leaf (.punct '.' j) a3 w3 :: us) rfl h8]
          exact h9
        have hin : ∀ lo hi, PlacedAll lo hi (.leaf (.punct '.' true) hd w1 :: .leaf (.punct '.' true) a2 w2 :: .leaf (.punct '.' j) a3 w3 :: us) →
            hd.Inside (extent (.leaf (.punct '.' true) hd w1 :: .leaf (.punct '.' true) a2 w2 :: .leaf (.punct '.' j) a3 w3 :: us)) ∧ hd.lo < hd.hi :=
          fun lo hi hpl => hpl.head (u := .leaf (.punct '.' true) hd w1) (by simp)
        refine ⟨.leaf (.punct '.' true) hd w1 :: .leaf (.punct '.' true) a2 w2 :: .leaf (.punct '.' j) a3 w3 :: us, by simp, rfl, ⟨D ++ [hd] ++ [hd], by simp⟩, ?_⟩
        intro x hx
        simp only [List.mem_singleton] at hx
        subst hx
        have hasc := points_wrap (T := T ++ D) (us := us) (s := hd) (x := .asc (T ++ D).length e1 (.regular .unit))
          (ws := .leaf (.punct '.' true) hd w1 :: .leaf (.punct '.' true) a2 w2 :: .leaf (.punct '.' j) a3 w3 :: us) (by simpa [Expr.kids] using h4) (fun _ => hne)
          (fun _ => (((TextPart.refl us).tail _).tail _).tail _) (.range htx) rfl (.inr ⟨_, _, hd, w1, rfl, rfl, at_end _ _⟩) hin
        refine points_wrap (x := .range ((T ++ D).length + 1) (.asc (T ++ D).length e1 (.regular .unit))) (by intro c hc; rw [List.mem_singleton.1 hc]; exact hasc)
          (fun _ => by simp) (fun _ => TextPart.refl _) (branch_choice (.spanned htx)) (by simp [Expr.id]; omega) ?_ hin
        refine ⟨_, _, hd, w1, rfl, rfl, ?_⟩
        have := at_end (T ++ D ++ [hd]) hd
        rw [List.length_append] at this
        exact this
      · rename_i hd w1 j a2 w2 ts1 _
        replace h := Res.bind_eq_ok h; obtain ⟨⟨e1, T1, ts2⟩, h1, h⟩ := h
        cases h
        obtain ⟨us, hne, rfl, ⟨D, rfl⟩, h4⟩ := ih.seq h1
        refine ⟨.leaf (.punct '.' true) hd w1 :: .leaf (.punct '.' j) a2 w2 :: us, by simp, rfl, ⟨D ++ [hd], by simp⟩, ?_⟩
        intro x hx
        simp only [List.mem_singleton] at hx
        subst hx
        refine points_wrap (us := us) (by simpa [Expr.kids] using h4) (fun _ => hne) (fun _ => ((TextPart.refl us).tail _).tail _) ?_ rfl
          ⟨_, _, hd, w1, rfl, rfl, at_end _ _⟩ fun lo hi hpl => hpl.head (u := .leaf (.punct '.' true) hd w1) (by simp)
        obtain ⟨⟨e', k, r⟩, h5, h6, _, h7, _⟩ := ((same_all (n + 1)).spanned T _).ok_left h0
        simp only at h6 h7
        subst h6 h7
        obtain ⟨pre, _, h8, h9⟩ := (sound_all (n + 1)).spanned h5
        rw [text_cut (us := .leaf (.punct '.' true) hd w1 :: .leaf (.punct '.' j) a2 w2 :: us) rfl h8]
        exact branch_choice (.spanned h9)
      · exact ih.seq h
    · -- seq
      intro T ts e T' rest h
      have h0 := h
      rw [lparseSeq] at h
      replace h := Res.bind_eq_ok h; obtain ⟨⟨es, T1, ts1⟩, h1, h⟩ := h
      simp only at h
      rcases ih.typeds h1 with ⟨rfl, _⟩ | hl
      · cases h
      · split at h
        · cases h
        · cases h; exact hl
        · rename_i e1 e2 es
          replace h := Res.bind_eq_ok h; obtain ⟨hi, h3, h⟩ := h
          cases h
          obtain ⟨us, hne, rfl, ⟨D, rfl⟩, h4⟩ := hl
          obtain ⟨t, vs, rfl⟩ : ∃ t vs, us = t :: vs := by
            cases us with
            | nil => exact (hne rfl).elim
            | cons t vs => exact ⟨t, vs, rfl⟩
          refine ⟨t :: vs, hne, rfl, ⟨D ++ [t.head.join hi], by simp [peekSpan]⟩, ?_⟩
          intro x hx
          simp only [List.mem_singleton] at hx
          subst hx
          refine points_wrap (us := t :: vs) h4 (fun _ => hne) (fun _ => TextPart.refl _) ?_ rfl ?_ ?_
          · obtain ⟨⟨e', k, r⟩, h5, h6, _, h7, _⟩ := ((same_all (n + 1)).seq T _).ok_left h0
            simp only at h6 h7
            subst h6 h7
            obtain ⟨pre, _, h8, h9⟩ := (sound_all (n + 1)).seq h5
            rw [text_cut rfl h8]
            exact .seq h9
          · exact ⟨t, vs, (e2 :: es).getLast (by simp), hi, rfl, by rw [List.getLast?_eq_some_getLast (by simp), List.getLast_cons (by simp)],
              getElem?_grow (spanOf_some h3), at_end _ _⟩
          · intro lo' hi' hpl
            obtain ⟨s2, h7, h8⟩ := (h4 ((e2 :: es).getLast (by simp)) (List.mem_cons_of_mem _ (List.getLast_mem _)) _ .refl).span hpl
            rw [spanOf_some h3] at h7
            cases h7
            exact join_inside (hpl.head (u := t) (by simp)) h8
    · -- typeds
      intro T ts es T' rest h
      rw [lparseTypeds] at h
      replace h := Res.bind_eq_ok h; obtain ⟨⟨o, T1, ts1⟩, h1, h⟩ := h
      simp only at h
      rcases ih.typed h1 with ⟨rfl, rfl, rfl⟩ | ⟨e, rfl, us, hne, rfl, ⟨D, rfl⟩, h4⟩
      · cases h; exact .inl ⟨rfl, rfl, rfl⟩
      · replace h := Res.bind_eq_ok h; obtain ⟨⟨es2, T2, ts2⟩, h2, h⟩ := h
        cases h
        right
        rcases ih.typeds h2 with ⟨rfl, rfl, rfl⟩ | ⟨vs, hne2, rfl, ⟨D2, rfl⟩, h5⟩
        · exact ⟨us, hne, rfl, ⟨D, rfl⟩, h4⟩
        · refine ⟨us ++ vs, by simp [hne], by simp, ⟨D ++ D2, by simp⟩, ?_⟩
          intro x hx y hy
          rcases List.mem_cons.1 hx with rfl | hx
          · exact ((h4 x (by simp) y hy).part ((TextPart.refl us).left _) hne).grow D2
          · exact (h5 x hx y hy).part ((TextPart.refl vs).right us) hne2
    · -- typed
      intro T ts o T' rest h
      have h0 := h
      rw [lparseTyped] at h
      replace h := Res.bind_eq_ok h; obtain ⟨⟨o1, T1, ts1⟩, h1, h⟩ := h
      simp only at h
      replace h := Res.bind_eq_ok h; obtain ⟨⟨sp, ty, ts2⟩, h2, h⟩ := h
      simp only at h
      rcases lparseType_cut h2 with ⟨rfl, rfl⟩ | ⟨j, a, w, pre, b, rfl, hty, hni, t, ws, rfl, rfl⟩
      · cases h
        exact ih.prefixed h1
      · rcases ih.prefixed h1 with ⟨rfl, rfl, rfl⟩ | ⟨e, rfl, us, hne, rfl, ⟨D, rfl⟩, h4⟩
        · cases ty <;> first | exact (hni rfl).elim | cases h
        · have h : (Res.ok (some (Expr.asc (T ++ D).length e ty), T ++ D ++ [t.head], ts2) : Res (Option Expr × List SrcSpan × List LTok)) = .ok (o, T', rest) := by
            cases ty <;> first | exact (hni rfl).elim | exact h
          cases h
          refine .inr ⟨_, rfl, us ++ .leaf (.punct ':' j) a w :: t :: ws, by simp, by simp, ⟨D ++ [t.head], by simp⟩, ?_⟩
          intro x hx
          simp only [List.mem_singleton] at hx
          subst hx
          refine points_wrap (us := us) (by simpa [Expr.kids] using h4) (fun _ => hne) (fun _ => (TextPart.refl us).left _) ?_ rfl
            (.inl ⟨us, _, a, w, t, ws, j, rfl, rfl, at_end _ _⟩) fun lo hi hpl => hpl.head (u := t) (by simp)
          obtain ⟨⟨e', k, r⟩, h5, h6, _, h7, _⟩ := ((same_all (n + 1)).typed T _).ok_left h0
          simp only at h6 h7
          subst h6 h7
          rcases (sound_all (n + 1)).typed h5 with ⟨h8, _⟩ | ⟨e', pre, b', he, _, h8, h9, _⟩
          · cases h8
          · cases he
            rw [text_cut (us := us ++ .leaf (.punct ':' j) a w :: t :: ws) (rest := rest) (by simp) h8]
            exact typed_seq h9
    · -- prefixed
      intro T ts o T' rest h
      have h0 := h
      unfold lparsePrefixed at h
      split at h
      · rename_i j hd w ts1
        replace h := Res.bind_eq_ok h; obtain ⟨⟨o1, T1, ts2⟩, h1, h⟩ := h
        simp only at h
        rcases ih.suffixed h1 with ⟨rfl, _⟩ | ⟨e, rfl, us, hne, rfl, ⟨D, rfl⟩, h4⟩
        · cases h
        · replace h := Res.bind_eq_ok h; obtain ⟨hi, h3, h⟩ := h
          cases h
          refine .inr ⟨_, rfl, prefix_loc (.leaf (.punct '!' j) hd w) hne (h4 e (by simp)) rfl rfl (spanOf_some h3) (.inl ⟨_, rfl⟩) ?_⟩
          obtain ⟨⟨e', k, r⟩, h5, h6, _, h7, _⟩ := ((same_all (n + 1)).prefixed T _).ok_left h0
          simp only at h6 h7
          subst h6 h7
          rcases (sound_all (n + 1)).prefixed h5 with ⟨h8, _⟩ | ⟨e', pre, he, _, h8, h9⟩
          · cases h8
          · cases he
            rw [text_cut (us := .leaf (.punct '!' j) hd w :: us) (rest := rest) (by simp) h8]
            exact h9
      · rename_i j hd w ts1
        replace h := Res.bind_eq_ok h; obtain ⟨⟨o1, T1, ts2⟩, h1, h⟩ := h
        simp only at h
        rcases ih.suffixed h1 with ⟨rfl, _⟩ | ⟨e, rfl, us, hne, rfl, ⟨D, rfl⟩, h4⟩
        · cases h
        · replace h := Res.bind_eq_ok h; obtain ⟨hi, h3, h⟩ := h
          cases h
          refine .inr ⟨_, rfl, prefix_loc (.leaf (.punct '&' j) hd w) hne (h4 e (by simp)) rfl rfl (spanOf_some h3) (.inr ⟨_, rfl⟩) ?_⟩
          obtain ⟨⟨e', k, r⟩, h5, h6, _, h7, _⟩ := ((same_all (n + 1)).prefixed T _).ok_left h0
          simp only at h6 h7
          subst h6 h7
          rcases (sound_all (n + 1)).prefixed h5 with ⟨h8, _⟩ | ⟨e', pre, he, _, h8, h9⟩
          · cases h8
          · cases he
            rw [text_cut (us := .leaf (.punct '&' j) hd w :: us) (rest := rest) (by simp) h8]
            exact h9
      · exact ih.suffixed h
    · -- suffixed
      intro T ts o T' rest h
      have h0 := h
      rw [lparseSuffixed] at h
      replace h := Res.bind_eq_ok h; obtain ⟨⟨o1, T1, ts1⟩, h1, h⟩ := h
      simp only at h
      rcases ih.atom h1 with ⟨rfl, rfl, rfl⟩ | ⟨e, rfl, hl⟩
      · cases h; exact .inl ⟨rfl, rfl, rfl⟩
      · obtain ⟨e2, T2, ts2, hs⟩ : ∃ e2 T2 ts2, lparseSuffix T1 (peekSpan ts) e ts1 = (e2, T2, ts2) := ⟨_, _, _, rfl⟩
        simp only [hs] at h
        cases h
        refine .inr ⟨e2, rfl, lparseSuffix_loc hl rfl hs fun us hus => ?_⟩
        obtain ⟨⟨e', k, r⟩, h5, h6, _, h7, _⟩ := ((same_all (n + 1)).suffixed T _).ok_left h0
        simp only at h6 h7
        subst h6 h7
        rcases (sound_all (n + 1)).suffixed h5 with ⟨h8, _⟩ | ⟨e', pre, he, _, h8, h9⟩
        · cases h8
        · cases he
          exact ⟨pre, h8, h9⟩
    · -- atom
      intro T ts o T' rest h
      have h0 := h
      have leaf : ∀ (t : LTok) (x : Expr), x.kids = [] → x.id = T.length → ts = t :: rest → o = some x → T' = T ++ [t.head] →
          SpanRule (T ++ [t.head]) [t] x → ∃ e, o = some e ∧ Loc T ts [e] T' rest := by
        rintro t x hk hid rfl rfl rfl hr
        refine ⟨x, rfl, [t], by simp, rfl, ⟨_, rfl⟩, ?_⟩
        intro y hy
        simp only [List.mem_singleton] at hy
        subst hy
        refine points_leaf hk ?_ hid hr
        obtain ⟨⟨e', k, r⟩, h5, h6, _, h7, _⟩ := ((same_all (n + 1)).atom T _).ok_left h0
        simp only at h6 h7
        subst h6 h7
        rcases (sound_all (n + 1)).atom h5 with ⟨h8, _⟩ | ⟨e', pre, he, _, h8, h9⟩
        · cases h8
        · cases he
          rw [text_cut (us := [t]) (rest := rest) rfl h8]
          exact atom_seq h9
      unfold lparseAtom at h
      split at h
      · cases h; exact .inr (leaf _ _ rfl rfl rfl rfl rfl ⟨_, rfl, at_end _ _⟩)
      · cases h; exact .inr (leaf _ _ rfl rfl rfl rfl rfl ⟨_, rfl, at_end _ _⟩)
      · rename_i g hd w ts1
        split at h
        · cases h
        · replace h := Res.bind_eq_ok h; obtain ⟨⟨e, T1, g1⟩, h1, h⟩ := h
          simp only at h
          split at h
          · rename_i hg
            cases h
            obtain ⟨us, hne, rfl, ⟨D, rfl⟩, h4⟩ := ih.choice h1
            have : g1 = [] := by simpa using hg
            subst this
            refine .inr ⟨e, rfl, [.paren (us ++ []) hd w], by simp, rfl, ⟨D, rfl⟩, ?_⟩
            intro x hx y hy
            refine (h4 x hx y hy).part ?_ hne
            have := TextPart.group (us := us) (a := []) (h := hd) (w := w) (b := []) (TextPart.refl us)
            simpa using this
          · cases h
      · split at h
        · cases h; exact .inl ⟨rfl, rfl, rfl⟩
        · cases h; exact .inr (leaf _ _ rfl rfl rfl rfl rfl ⟨_, rfl, at_end _ _⟩)
      · rename_i g hd w ts1
        replace h := Res.bind_eq_ok h; obtain ⟨⟨e, k⟩, h1, h⟩ := h
        cases h
        unfold parseClass at h1
        split at h1
        · obtain ⟨ivs, _, h1⟩ := Res.bind_eq_ok h1
          cases h1
          exact .inr (leaf _ _ rfl rfl rfl rfl rfl ⟨_, rfl, at_end _ _⟩)
        · cases h1
      · cases h; exact .inl ⟨rfl, rfl, rfl⟩

end Oak
