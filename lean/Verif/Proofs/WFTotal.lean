import Verif.Proofs.WFAccept
import Verif.Proofs.PegBasic
/-!
Accepted grammars have an outcome on every input.
-/
set_option linter.constructorNameAsVariable false
set_option autoImplicit false

namespace Oak
open Spec
variable {G : Grammar} {X : ExtSpec}

theorem suffix_antisymm {a b : List Char} (h : a <:+ b) (h' : b <:+ a) : a = b :=
  h.eq_of_length (Nat.le_antisymm h.length_le h'.length_le)

/-- An expression that succeeds without reading is nullable. -/
theorem Spec.Peg.nullable (hf : X.Forward) (hc : ExtSpec.Consuming X) {e s o L} (h : Peg G X e s o L) : ∀ t, o = .ok s t → Nullable G e := by
  have fwd : ∀ {e s s' t L}, Peg G X e s (.ok s' t) L → s' <:+ s := fun h => (Peg.forward hf h).1 _ _ rfl
  have mid : ∀ {e1 e2 s s1 t1 t2 L1 L2}, Peg G X e1 s (.ok s1 t1) L1 → Peg G X e2 s1 (.ok s t2) L2 → s1 = s :=
    fun h1 h2 => suffix_antisymm (fwd h1) (fwd h2)
  induction h with
  | @str_ok i lit r =>
    intro t h
    injection h with h _
    have hl : lit.toList = [] := by
      have := congrArg List.length h
      rw [List.length_append] at this
      exact List.length_eq_zero_iff.1 (by omega)
    have : lit = "" := String.toList_injective (by simpa using hl)
    subst this
    exact .str
  | any_ok => intro t h; injection h with h _; have := congrArg List.length h; simp at this
  | cls_ok => intro t h; injection h with h _; have := congrArg List.length h; simp at this
  | nt_ok he _ ih => intro t h; cases h; exact .nt he (ih _ rfl)
  | ext h => intro t ho; subst ho; exact absurd rfl (hc _ _ _ _ _ h)
  | seq_nil => intro t h; exact .seq (by simp)
  | seq_cons h1 h2 ih1 ih2 =>
    intro t h
    cases h
    have := mid h1 h2
    subst this
    have hs := ih2 _ rfl
    cases hs with
    | seq hs => exact .seq (List.forall_mem_cons.2 ⟨ih1 _ rfl, hs⟩)
  | choice_first _ ih => intro t h; cases h; exact .choice List.mem_cons_self (ih _ rfl)
  | choice_next _ _ _ ih =>
    intro t h
    cases h
    have hs := ih _ rfl
    cases hs with
    | choice he h => exact .choice (List.mem_cons_of_mem _ he) h
  | star_stop => intro t h; exact .star
  | star_more => intro t h; exact .star
  | plus_ok h1 h2 ih1 _ =>
    intro t h
    cases h
    have := mid h1 h2
    subst this
    exact .plus (ih1 _ rfl)
  | opt_some => intro t h; exact .opt
  | opt_none => intro t h; exact .opt
  | not_ok => intro t h; exact .not
  | and_ok => intro t h; exact .and
  | act_ok _ ih => intro t h; cases h; exact .act (ih _ rfl)
  | asc_ok _ ih => intro t h; cases h; exact .asc (ih _ rfl)
  | span_ok _ ih => intro t h; cases h; exact .span (ih _ rfl)
  | range_ok _ ih => intro t h; cases h; exact .range (ih _ rfl)
  | _ => intro t h; cases h

/-- Calls happen at suffixes. -/
theorem Calls.forward (hf : X.Forward) {q s' e s} (h : Calls G X q s' e s) : s' <:+ s := by
  have fwd : ∀ {e s s' t L}, Peg G X e s (.ok s' t) L → s' <:+ s := fun h => (Peg.forward hf h).1 _ _ rfl
  induction h with
  | here => exact List.suffix_refl _
  | seq_tail hP _ ih => exact ih.trans (fwd hP)
  | star_again hP _ ih => exact ih.trans (fwd hP)
  | plus_again hP _ ih => exact ih.trans (fwd hP)
  | _ => assumption

/-- Calls at the starting position are leftmost calls, through the rules. -/
theorem Calls.left (hf : X.Forward) (hc : ExtSpec.Consuming X) {q s' e s} (h : Calls G X q s' e s) : s' = s →
    LeftCalls G q e ∨ ∃ r, LeftCalls G r e ∧ Relation.TransGen (LeftStep G) q r := by
  have hcons : ∀ {e s s1 t L e'}, Peg G X e s (.ok s1 t) L → Calls G X q s' e' s1 → s' = s → s1 = s ∧ Nullable G e := by
    intro e s s1 t L e' hP hC hs
    subst hs
    have := suffix_antisymm ((Peg.forward hf hP).1 _ _ rfl) (hC.forward hf)
    subst this
    exact ⟨rfl, hP.nullable hf hc _ rfl⟩
  induction h with
  | here => intro _; exact .inl .nt
  | @inside i r e s he _ ih =>
    intro hs
    right
    rcases ih hs with h | ⟨r', h, h'⟩
    · exact ⟨r, .nt, .single ⟨e, he, h⟩⟩
    · exact ⟨r, .nt, .trans h' (.single ⟨e, he, h⟩)⟩
  | seq_head _ ih => intro hs; exact (ih hs).imp .seq_head (fun ⟨r, h, h'⟩ => ⟨r, .seq_head h, h'⟩)
  | seq_tail hP hC ih =>
    intro hs
    obtain ⟨rfl, hn⟩ := hcons hP hC hs
    exact (ih hs).imp (.seq_tail hn) (fun ⟨r, h, h'⟩ => ⟨r, .seq_tail hn h, h'⟩)
  | choice_head _ ih => intro hs; exact (ih hs).imp (.choice List.mem_cons_self) (fun ⟨r, h, h'⟩ => ⟨r, .choice List.mem_cons_self h, h'⟩)
  | choice_tail _ _ ih =>
    intro hs
    have lift : ∀ {r i e es}, LeftCalls G r (.choice i es) → LeftCalls G r (.choice i (e :: es)) := by
      intro r i e es h
      cases h with
      | choice he h => exact .choice (List.mem_cons_of_mem _ he) h
    exact (ih hs).imp lift (fun ⟨r, h, h'⟩ => ⟨r, lift h, h'⟩)
  | star _ ih => intro hs; exact (ih hs).imp .star (fun ⟨r, h, h'⟩ => ⟨r, .star h, h'⟩)
  | star_again hP hC ih =>
    intro hs
    obtain ⟨rfl, hn⟩ := hcons hP hC hs
    exact ih hs
  | plus _ ih => intro hs; exact (ih hs).imp .plus (fun ⟨r, h, h'⟩ => ⟨r, .plus h, h'⟩)
  | plus_again hP hC ih =>
    intro hs
    obtain ⟨rfl, hn⟩ := hcons hP hC hs
    have lift : ∀ {r i e}, LeftCalls G r (.star i e) → LeftCalls G r (.plus i e) := by
      intro r i e h
      cases h with
      | star h => exact .plus h
    exact (ih hs).imp lift (fun ⟨r, h, h'⟩ => ⟨r, lift h, h'⟩)
  | opt _ ih => intro hs; exact (ih hs).imp .opt (fun ⟨r, h, h'⟩ => ⟨r, .opt h, h'⟩)
  | not _ ih => intro hs; exact (ih hs).imp .not (fun ⟨r, h, h'⟩ => ⟨r, .not h, h'⟩)
  | and _ ih => intro hs; exact (ih hs).imp .and (fun ⟨r, h, h'⟩ => ⟨r, .and h, h'⟩)
  | act _ ih => intro hs; exact (ih hs).imp .act (fun ⟨r, h, h'⟩ => ⟨r, .act h, h'⟩)
  | asc _ ih => intro hs; exact (ih hs).imp .asc (fun ⟨r, h, h'⟩ => ⟨r, .asc h, h'⟩)
  | span _ ih => intro hs; exact (ih hs).imp .span (fun ⟨r, h, h'⟩ => ⟨r, .span h, h'⟩)
  | range _ ih => intro hs; exact (ih hs).imp .range (fun ⟨r, h, h'⟩ => ⟨r, .range h, h'⟩)

/-- Well-founded relations have no cycle. -/
theorem no_cycle {α : Type} {R : α → α → Prop} (h : WellFounded R) (a : α) : ¬ Relation.TransGen R a a := by
  have hacc : ∀ a, Acc (Relation.TransGen R) a := by
    intro a
    induction h.apply a with
    | intro a _ ih =>
      refine ⟨a, fun b hb => ?_⟩
      cases hb with
      | single hb => exact ih b hb
      | tail hb hc => exact (ih _ hc).inv hb
  intro ha
  have := hacc a
  induction this with
  | intro a _ ih => exact ih a ha ha

/-- There is an outcome. -/
def Decided (G : Grammar) (X : ExtSpec) (e : Expr) (s : List Char) : Prop := ∃ o L, Peg G X e s o L

/-- Expressions considered: resolved, without repetition of nullable expressions, whose external rules are total. -/
structure TermOk (G : Grammar) (X : ExtSpec) (e : Expr) : Prop where
  resolved : e.resolved G = true
  rep : RepOk G e
  ext : ∀ i p, Sub (.ext i p) e → ∀ s, ∃ o L, X p s o L

theorem resolvedAll_mem {es : List Expr} (h : resolvedAll G es = true) : ∀ e ∈ es, e.resolved G = true := by
  induction es with
  | nil => intro e he; cases he
  | cons x es ih =>
    rw [resolvedAll, Bool.and_eq_true] at h
    exact List.forall_mem_cons.2 ⟨h.1, ih h.2⟩

theorem TermOk.of {e x : Expr} (h : TermOk G X e) (hr : x.resolved G = true) (hs : ∀ y, Sub y x → Sub y e) : TermOk G X x :=
  ⟨hr, fun i c hc => h.rep i c (hc.imp (hs _) (hs _)), fun i p hp => h.ext i p (hs _ hp)⟩

/-- Accepted grammars: every expression has an outcome at every position. -/
theorem decided (hf : X.Forward) (hc : ExtSpec.Consuming X) (hwf : WellFounded (LeftStep G)) (hbody : ∀ r e, G.find r = some e → TermOk G X e) :
    ∀ n s, s.length = n → ∀ e, TermOk G X e → Decided G X e s := by
  intro n
  induction n using Nat.strongRecOn with
  | _ n ihn =>
  intro s hlen
  have shorter : ∀ {e s1 t L}, Peg G X e s (.ok s1 t) L → s1 ≠ s → ∀ e', TermOk G X e' → Decided G X e' s1 := by
    intro e s1 t L hP hne e' he'
    have hsuf := (Peg.forward hf hP).1 _ _ rfl
    have : s1.length < s.length := by
      rcases Nat.lt_or_ge s1.length s.length with h | h
      · exact h
      · exact absurd (hsuf.eq_of_length (Nat.le_antisymm hsuf.length_le h)) hne
    exact ihn s1.length (by omega) s1 rfl e' he'
  have body : ∀ e, TermOk G X e → (∀ q b, LeftCalls G q e → G.find q = some b → Decided G X b s) → Decided G X e s := by
    intro e
    have unary : ∀ {c e : Expr}, TermOk G X e → (∀ {q}, LeftCalls G q c → LeftCalls G q e) → (∀ {y}, Sub y c → Sub y e) → c.resolved G = true →
        (TermOk G X c → (∀ q b, LeftCalls G q c → G.find q = some b → Decided G X b s) → Decided G X c s) →
        (∀ q b, LeftCalls G q e → G.find q = some b → Decided G X b s) → Decided G X c s := by
      intro c e he hl hs hr ih hq
      exact ih (he.of hr fun _ => hs) fun q b h hb => hq q b (hl h) hb
    induction e using Expr.ind with
    | str i l =>
      intro _ _
      by_cases h : l.toList <+: s
      · obtain ⟨r, hr⟩ := h; subst hr; exact ⟨_, _, .str_ok⟩
      · exact ⟨_, _, .str_fail h⟩
    | any i =>
      intro _ _
      cases s with
      | nil => exact ⟨_, _, .any_fail⟩
      | cons c cs => exact ⟨_, _, .any_ok⟩
    | cls i ivs =>
      intro _ _
      cases s with
      | nil => exact ⟨_, _, .cls_eof⟩
      | cons c cs =>
        rcases Classical.em (InClass ivs c) with h | h
        · exact ⟨_, _, .cls_ok h⟩
        · exact ⟨_, _, .cls_fail h⟩
    | nt i r =>
      intro ht hq
      have hr := ht.resolved
      unfold Expr.resolved at hr
      obtain ⟨b, hb⟩ := Option.isSome_iff_exists.1 hr
      obtain ⟨o, L, hP⟩ := hq r b .nt hb
      cases o with
      | fail => exact ⟨_, _, .nt_fail hb hP⟩
      | ok s' t => exact ⟨_, _, .nt_ok hb hP⟩
    | ext i p =>
      intro ht _
      obtain ⟨o, L, h⟩ := ht.ext i p .refl s
      exact ⟨o, L, .ext h⟩
    | seq i es ih =>
      intro ht hq
      induction es with
      | nil => exact ⟨_, _, .seq_nil⟩
      | cons e es ihl =>
        have hr := ht.resolved
        rw [Expr.resolved, resolvedAll, Bool.and_eq_true] at hr
        have hte : TermOk G X e := ht.of hr.1 fun _ h => .seq List.mem_cons_self h
        have htl : TermOk G X (.seq i es) := by
          refine ⟨by rw [Expr.resolved]; exact hr.2, ?_, ?_⟩
          · rintro j c (h | h)
            · cases h with
              | seq he h => exact ht.rep j c (.inl (.seq (List.mem_cons_of_mem _ he) h))
            · cases h with
              | seq he h => exact ht.rep j c (.inr (.seq (List.mem_cons_of_mem _ he) h))
          · intro j p h
            cases h with
            | seq he h => exact ht.ext j p (.seq (List.mem_cons_of_mem _ he) h)
        obtain ⟨o, L, hP⟩ := ih e List.mem_cons_self hte fun q b h hb => hq q b (.seq_head h) hb
        cases o with
        | fail => exact ⟨_, _, .seq_fail hP⟩
        | ok s1 t =>
          have htail : Decided G X (.seq i es) s1 := by
            by_cases hs : s1 = s
            · subst hs
              have hn := hP.nullable hf hc _ rfl
              exact ihl (fun e he => ih e (List.mem_cons_of_mem _ he)) htl fun q b h hb => hq q b (.seq_tail hn h) hb
            · exact shorter hP hs _ htl
          obtain ⟨o, L', hP'⟩ := htail
          cases o with
          | fail => exact ⟨_, _, .seq_later hP hP'⟩
          | ok s2 t' =>
            have : ∃ ts, t' = .seq ts := by cases hP' <;> exact ⟨_, rfl⟩
            obtain ⟨ts, rfl⟩ := this
            exact ⟨_, _, .seq_cons hP hP'⟩
    | choice i es ih =>
      intro ht hq
      induction es with
      | nil => exact ⟨_, _, .choice_nil⟩
      | cons e es ihl =>
        have hr := ht.resolved
        rw [Expr.resolved, resolvedAll, Bool.and_eq_true] at hr
        have hte : TermOk G X e := ht.of hr.1 fun _ h => .choice List.mem_cons_self h
        have htl : TermOk G X (.choice i es) := by
          refine ⟨by rw [Expr.resolved]; exact hr.2, ?_, ?_⟩
          · rintro j c (h | h)
            · cases h with
              | choice he h => exact ht.rep j c (.inl (.choice (List.mem_cons_of_mem _ he) h))
            · cases h with
              | choice he h => exact ht.rep j c (.inr (.choice (List.mem_cons_of_mem _ he) h))
          · intro j p h
            cases h with
            | choice he h => exact ht.ext j p (.choice (List.mem_cons_of_mem _ he) h)
        obtain ⟨o, L, hP⟩ := ih e List.mem_cons_self hte fun q b h hb => hq q b (.choice List.mem_cons_self h) hb
        cases o with
        | ok s1 t => exact ⟨_, _, .choice_first hP⟩
        | fail =>
          obtain ⟨o, L', hP'⟩ := ihl (fun e he => ih e (List.mem_cons_of_mem _ he)) htl fun q b h hb => hq q b (by
            cases h with
            | choice he h => exact .choice (List.mem_cons_of_mem _ he) h) hb
          cases o with
          | fail => exact ⟨_, _, .choice_fail hP hP'⟩
          | ok s2 t' =>
            have : ∃ k t, t' = .alt k t := by cases hP' <;> exact ⟨_, _, rfl⟩
            obtain ⟨k, t, rfl⟩ := this
            exact ⟨_, _, .choice_next hP hP'⟩
    | star i c ih =>
      intro ht hq
      obtain ⟨o, L, hP⟩ := unary ht .star .star (by simpa [Expr.resolved] using ht.resolved) ih hq
      cases o with
      | fail => exact ⟨_, _, .star_stop hP⟩
      | ok s1 t =>
        have hs : s1 ≠ s := by
          intro hs; subst hs
          exact ht.rep i c (.inl .refl) (hP.nullable hf hc _ rfl)
        obtain ⟨o, L', hP'⟩ := shorter hP hs _ ht
        cases o with
        | fail => cases hP'
        | ok s2 t' =>
          have : ∃ ts, t' = .rep ts := by cases hP' <;> exact ⟨_, rfl⟩
          obtain ⟨ts, rfl⟩ := this
          exact ⟨_, _, .star_more hP hP'⟩
    | plus i c ih =>
      intro ht hq
      have hrc : c.resolved G = true := by simpa [Expr.resolved] using ht.resolved
      obtain ⟨o, L, hP⟩ := unary ht .plus .plus hrc ih hq
      cases o with
      | fail => exact ⟨_, _, .plus_fail hP⟩
      | ok s1 t =>
        have hnn := ht.rep i c (.inr .refl)
        have hs : s1 ≠ s := by
          intro hs; subst hs
          exact hnn (hP.nullable hf hc _ rfl)
        have hts : TermOk G X (.star i c) := by
          refine ⟨by rw [Expr.resolved]; exact hrc, ?_, ?_⟩
          · rintro j c' (h | h)
            · cases h with
              | refl => exact hnn
              | star h => exact ht.rep j c' (.inl (.plus h))
            · cases h with
              | star h => exact ht.rep j c' (.inr (.plus h))
          · intro j p h
            cases h with
            | star h => exact ht.ext j p (.plus h)
        obtain ⟨o, L', hP'⟩ := shorter hP hs _ hts
        cases o with
        | fail => cases hP'
        | ok s2 t' =>
          have : ∃ ts, t' = .rep ts := by cases hP' <;> exact ⟨_, rfl⟩
          obtain ⟨ts, rfl⟩ := this
          exact ⟨_, _, .plus_ok hP hP'⟩
    | opt i c ih =>
      intro ht hq
      obtain ⟨o, L, hP⟩ := unary ht .opt .opt (by simpa [Expr.resolved] using ht.resolved) ih hq
      cases o with
      | fail => exact ⟨_, _, .opt_none hP⟩
      | ok s1 t => exact ⟨_, _, .opt_some hP⟩
    | not i c ih =>
      intro ht hq
      obtain ⟨o, L, hP⟩ := unary ht .not .not (by simpa [Expr.resolved] using ht.resolved) ih hq
      cases o with
      | fail => exact ⟨_, _, .not_ok hP⟩
      | ok s1 t => exact ⟨_, _, .not_fail hP⟩
    | and i c ih =>
      intro ht hq
      obtain ⟨o, L, hP⟩ := unary ht .and .and (by simpa [Expr.resolved] using ht.resolved) ih hq
      cases o with
      | fail => exact ⟨_, _, .and_fail hP⟩
      | ok s1 t => exact ⟨_, _, .and_ok hP⟩
    | act i c b f ih =>
      intro ht hq
      obtain ⟨o, L, hP⟩ := unary ht .act .act (by simpa [Expr.resolved] using ht.resolved) ih hq
      cases o with
      | fail => exact ⟨_, _, .act_fail hP⟩
      | ok s1 t => exact ⟨_, _, .act_ok hP⟩
    | asc i c ty ih =>
      intro ht hq
      obtain ⟨o, L, hP⟩ := unary ht .asc .asc (by simpa [Expr.resolved] using ht.resolved) ih hq
      cases o with
      | fail => exact ⟨_, _, .asc_fail hP⟩
      | ok s1 t => exact ⟨_, _, .asc_ok hP⟩
    | span i c ih =>
      intro ht hq
      obtain ⟨o, L, hP⟩ := unary ht .span .span (by simpa [Expr.resolved] using ht.resolved) ih hq
      cases o with
      | fail => exact ⟨_, _, .span_fail hP⟩
      | ok s1 t => exact ⟨_, _, .span_ok hP⟩
    | range i c ih =>
      intro ht hq
      obtain ⟨o, L, hP⟩ := unary ht .range .range (by simpa [Expr.resolved] using ht.resolved) ih hq
      cases o with
      | fail => exact ⟨_, _, .range_fail hP⟩
      | ok s1 t => exact ⟨_, _, .range_ok hP⟩
  have rules : ∀ r, ∀ e, G.find r = some e → Decided G X e s := by
    intro r
    induction hwf.apply r with
    | intro r _ ih =>
      intro e he
      exact body e (hbody r e he) fun q b hq hb => ih q ⟨e, he, hq⟩ b hb
  exact fun e he => body e he fun q b _ hb => rules q b hb

end Oak
