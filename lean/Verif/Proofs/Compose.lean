import Verif.Spec.Compose
import Verif.Proofs.PegSpans
import Verif.Proofs.Main
/-!
A grammar that calls the rules of another one through external rules.
-/
set_option linter.constructorNameAsVariable false
set_option autoImplicit false

namespace Oak
open Spec

section
variable {ρ : Path → Option String} {G1 G2 : Grammar} {T2 : Nat → Ty} {fs2 : List (FnRef × Fn)}
  {ext : Nat → FnRef → PState StrStream Val → Res (PState StrStream Val)} {X : ExtSpec} {ptr : Nat} {input : List Char}

theorem linkSpec_det (hX : X.Det) : (linkSpec ρ G2 T2 input X).Det := by
  intro path s o L o' L' h h'
  unfold linkSpec at h h'
  cases hρ : ρ path with
  | none => rw [hρ] at h h'; exact hX _ _ _ _ _ _ h h'
  | some r =>
    rw [hρ] at h h'
    obtain ⟨e, o2, he, hp, rfl⟩ := h
    obtain ⟨e', o2', he', hp', rfl⟩ := h'
    rw [he] at he'; cases he'
    obtain ⟨rfl, rfl⟩ := hp.det hX hp'
    exact ⟨rfl, rfl⟩

theorem linkSpec_forward (hX : X.Forward) : (linkSpec ρ G2 T2 input X).Forward := by
  intro path s o L h
  unfold linkSpec at h
  cases hρ : ρ path with
  | none => rw [hρ] at h; exact hX _ _ _ _ h
  | some r =>
    rw [hρ] at h
    obtain ⟨e, o2, he, hp, rfl⟩ := h
    refine ⟨?_, (hp.forward hX).2⟩
    intro s' t ho
    cases o2 with
    | fail => cases ho
    | ok s2 t2 => cases ho; exact (hp.forward hX).1 _ _ rfl

/-- The functions of the second program implement the external rules of the first one. -/
theorem linkFns_ok (d2 : Deployed G2 T2 fs2 ext X ptr input) (hext : ExtOk (StrStream.At ptr input) StrStream.rest ext G1 X)
    (hρ : ∀ path r, ρ path = some r → ∃ e, G2.find r = some e) :
    ExtOk (StrStream.At ptr input) StrStream.rest (linkFns ρ fs2 ext) G1 (linkSpec ρ G2 T2 input X) where
  det := linkSpec_det hext.det
  sound n p path st hp hst := by
    unfold linkFns linkSpec
    cases h : ρ path with
    | none => exact hext.sound n p path st hp hst
    | some r =>
      obtain ⟨e, he⟩ := hρ path r h
      simp only
      rcases d2.run_sound n p r e he st hst with h | ⟨o, L, st', h, hp, hr⟩
      · exact .inl h
      · refine .inr ⟨_, L, st', h, ⟨e, o, he, hp, rfl⟩, ?_⟩
        cases o with
        | fail => exact hr
        | ok s t =>
          obtain ⟨h1, h2, ⟨d, hd, hq, _⟩, h3⟩ := hr
          refine ⟨h1, h2, ⟨d, hd, fun hpp => ?_⟩, h3⟩
          rw [hq, hpp]; rfl
  complete p path s o L hp hx := by
    unfold linkFns
    unfold linkSpec at hx
    cases h : ρ path with
    | none => rw [h] at hx; exact hext.complete p path s o L hp hx
    | some r =>
      rw [h] at hx
      obtain ⟨e, o2, he, hp, rfl⟩ := hx
      obtain ⟨n0, hn⟩ := d2.run_complete he hp
      refine ⟨n0, fun n hle st hst hs => ?_⟩
      obtain ⟨st', h1, _⟩ := hn n hle p st hst hs
      simp only [h1]
      exact nofun

/-! ### The two grammars as one -/

theorem link_find_left {r : String} {e : Expr} (h : G1.find r = some e) : (G1.link ρ G2).find r = some (linkE ρ e) := by
  unfold Grammar.find Grammar.link at *
  simp only [List.find?_append, List.find?_map]
  cases hf : G1.rules.find? (fun x => x.1 == r) with
  | none => rw [hf] at h; cases h
  | some x =>
    rw [hf] at h
    simp only [Option.map_some, Option.some.injEq] at h
    have : (List.find? ((fun x => x.1 == r) ∘ fun x : String × Expr => (x.1, linkE ρ x.2)) G1.rules) = some x := by
      rw [← hf]; rfl
    simp [this, h]

theorem link_find_right {r : String} {e : Expr} (hd : ∀ r e, G2.find r = some e → G1.find r = none) (h : G2.find r = some e) :
    (G1.link ρ G2).find r = some e := by
  have h1 := hd r e h
  unfold Grammar.find Grammar.link at *
  simp only [List.find?_append, List.find?_map]
  have : (List.find? ((fun x => x.1 == r) ∘ fun x : String × Expr => (x.1, linkE ρ x.2)) G1.rules) = none := by
    cases hf : G1.rules.find? (fun x => x.1 == r) with
    | none => rw [← hf]; rfl
    | some x => rw [hf] at h1; cases h1
  simp [this, h]

theorem resolvedAll_mem {G : Grammar} {es : List Expr} (h : resolvedAll G es = true) {e : Expr} (he : e ∈ es) : e.resolved G = true := by
  induction es with
  | nil => cases he
  | cons a es ih =>
    simp only [resolvedAll, Bool.and_eq_true] at h
    cases he with
    | head => exact h.1
    | tail _ hm => exact ih h.2 hm

theorem resolved_find {G : Grammar} (h : G.resolved = true) {r : String} {e : Expr} (he : G.find r = some e) : e.resolved G = true := by
  have hm := find_mem he
  simp only [Grammar.resolved, List.all_eq_true] at h
  exact h _ hm

/-- In the linked grammar the rules of the second one behave as before. -/
theorem link_right (hd : ∀ r e, G2.find r = some e → G1.find r = none) (hr : G2.resolved = true) {e s o L}
    (h : Peg G2 X e s o L) : Peg (G1.link ρ G2) X e s o L := by
  induction h with
  | str_ok => exact .str_ok
  | str_fail h => exact .str_fail h
  | any_ok => exact .any_ok
  | any_fail => exact .any_fail
  | cls_ok h => exact .cls_ok h
  | cls_fail h => exact .cls_fail h
  | cls_eof => exact .cls_eof
  | nt_ok hf _ ih => exact .nt_ok (link_find_right hd hf) ih
  | nt_fail hf _ ih => exact .nt_fail (link_find_right hd hf) ih
  | ext h => exact .ext h
  | seq_nil => exact .seq_nil
  | seq_cons _ _ a b => exact .seq_cons a b
  | seq_fail _ a => exact .seq_fail a
  | seq_later _ _ a b => exact .seq_later a b
  | choice_nil => exact .choice_nil
  | choice_first _ a => exact .choice_first a
  | choice_next _ _ a b => exact .choice_next a b
  | choice_fail _ _ a b => exact .choice_fail a b
  | star_stop _ a => exact .star_stop a
  | star_more _ _ a b => exact .star_more a b
  | plus_fail _ a => exact .plus_fail a
  | plus_ok _ _ a b => exact .plus_ok a b
  | opt_some _ a => exact .opt_some a
  | opt_none _ a => exact .opt_none a
  | not_ok _ a => exact .not_ok a
  | not_fail _ a => exact .not_fail a
  | and_ok _ a => exact .and_ok a
  | and_fail _ a => exact .and_fail a
  | act_ok _ a => exact .act_ok a
  | act_fail _ a => exact .act_fail a
  | asc_ok _ a => exact .asc_ok a
  | asc_fail _ a => exact .asc_fail a
  | span_ok _ a => exact .span_ok a
  | span_fail _ a => exact .span_fail a
  | range_ok _ a => exact .range_ok a
  | range_fail _ a => exact .range_fail a

theorem link_right_inv (hd : ∀ r e, G2.find r = some e → G1.find r = none) (hr : G2.resolved = true) {e s o L}
    (h : Peg (G1.link ρ G2) X e s o L) : e.resolved G2 = true → Peg G2 X e s o L := by
  have key : ∀ {r b}, (G2.find r).isSome = true → (G1.link ρ G2).find r = some b → G2.find r = some b := by
    intro r b h1 h2
    obtain ⟨b', hb⟩ := Option.isSome_iff_exists.1 h1
    rw [link_find_right hd hb] at h2; cases h2; exact hb
  induction h with
  | str_ok => intro _; exact .str_ok
  | str_fail h => intro _; exact .str_fail h
  | any_ok => intro _; exact .any_ok
  | any_fail => intro _; exact .any_fail
  | cls_ok h => intro _; exact .cls_ok h
  | cls_fail h => intro _; exact .cls_fail h
  | cls_eof => intro _; exact .cls_eof
  | nt_ok hf _ ih => intro hres; have := key (by simpa [Expr.resolved] using hres) hf; exact .nt_ok this (ih (resolved_find hr this))
  | nt_fail hf _ ih => intro hres; have := key (by simpa [Expr.resolved] using hres) hf; exact .nt_fail this (ih (resolved_find hr this))
  | ext h => intro _; exact .ext h
  | seq_nil => intro _; exact .seq_nil
  | seq_cons _ _ a b =>
    intro h; simp only [Expr.resolved, resolvedAll, Bool.and_eq_true] at h
    exact .seq_cons (a h.1) (b (by simpa [Expr.resolved] using h.2))
  | seq_fail _ a => intro h; simp only [Expr.resolved, resolvedAll, Bool.and_eq_true] at h; exact .seq_fail (a h.1)
  | seq_later _ _ a b =>
    intro h; simp only [Expr.resolved, resolvedAll, Bool.and_eq_true] at h
    exact .seq_later (a h.1) (b (by simpa [Expr.resolved] using h.2))
  | choice_nil => intro _; exact .choice_nil
  | choice_first _ a => intro h; simp only [Expr.resolved, resolvedAll, Bool.and_eq_true] at h; exact .choice_first (a h.1)
  | choice_next _ _ a b =>
    intro h; simp only [Expr.resolved, resolvedAll, Bool.and_eq_true] at h
    exact .choice_next (a h.1) (b (by simpa [Expr.resolved] using h.2))
  | choice_fail _ _ a b =>
    intro h; simp only [Expr.resolved, resolvedAll, Bool.and_eq_true] at h
    exact .choice_fail (a h.1) (b (by simpa [Expr.resolved] using h.2))
  | star_stop _ a => intro h; simp only [Expr.resolved] at h; exact .star_stop (a h)
  | star_more _ _ a b => intro h; exact .star_more (a (by simpa [Expr.resolved] using h)) (b h)
  | plus_fail _ a => intro h; simp only [Expr.resolved] at h; exact .plus_fail (a h)
  | plus_ok _ _ a b => intro h; simp only [Expr.resolved] at h; exact .plus_ok (a h) (b (by simpa [Expr.resolved] using h))
  | opt_some _ a => intro h; simp only [Expr.resolved] at h; exact .opt_some (a h)
  | opt_none _ a => intro h; simp only [Expr.resolved] at h; exact .opt_none (a h)
  | not_ok _ a => intro h; simp only [Expr.resolved] at h; exact .not_ok (a h)
  | not_fail _ a => intro h; simp only [Expr.resolved] at h; exact .not_fail (a h)
  | and_ok _ a => intro h; simp only [Expr.resolved] at h; exact .and_ok (a h)
  | and_fail _ a => intro h; simp only [Expr.resolved] at h; exact .and_fail (a h)
  | act_ok _ a => intro h; simp only [Expr.resolved] at h; exact .act_ok (a h)
  | act_fail _ a => intro h; simp only [Expr.resolved] at h; exact .act_fail (a h)
  | asc_ok _ a => intro h; simp only [Expr.resolved] at h; exact .asc_ok (a h)
  | asc_fail _ a => intro h; simp only [Expr.resolved] at h; exact .asc_fail (a h)
  | span_ok _ a => intro h; simp only [Expr.resolved] at h; exact .span_ok (a h)
  | span_fail _ a => intro h; simp only [Expr.resolved] at h; exact .span_fail (a h)
  | range_ok _ a => intro h; simp only [Expr.resolved] at h; exact .range_ok (a h)
  | range_fail _ a => intro h; simp only [Expr.resolved] at h; exact .range_fail (a h)

theorem Out.stop_some {o : Out} {s : List Char} (h : o.stop = some s) : ∃ t, o = .ok s t := by
  cases o with
  | fail => cases h
  | ok s' t => cases h; exact ⟨t, rfl⟩

theorem Out.stop_none {o : Out} (h : o.stop = none) : o = .fail := by
  cases o with
  | fail => rfl
  | ok s' t => cases h

/-- What the first grammar does with external rules, the linked grammar does with rules. -/
theorem link_left (hd : ∀ r e, G2.find r = some e → G1.find r = none) (hr2 : G2.resolved = true) {e s o L}
    (h : Peg G1 (linkSpec ρ G2 T2 input X) e s o L) : Outcome (G1.link ρ G2) X (linkE ρ e) s o.stop L := by
  induction h with
  | str_ok => exact ⟨_, .str_ok, rfl⟩
  | str_fail h => exact ⟨_, .str_fail h, rfl⟩
  | any_ok => exact ⟨_, .any_ok, rfl⟩
  | any_fail => exact ⟨_, .any_fail, rfl⟩
  | cls_ok h => exact ⟨_, .cls_ok h, rfl⟩
  | cls_fail h => exact ⟨_, .cls_fail h, rfl⟩
  | cls_eof => exact ⟨_, .cls_eof, rfl⟩
  | nt_ok hf _ ih => obtain ⟨o, h, he⟩ := ih; obtain ⟨t, rfl⟩ := Out.stop_some he; exact ⟨_, .nt_ok (link_find_left hf) h, rfl⟩
  | nt_fail hf _ ih => obtain ⟨o, h, he⟩ := ih; obtain rfl := Out.stop_none he; exact ⟨_, .nt_fail (link_find_left hf) h, rfl⟩
  | @ext i p s o L h =>
    unfold linkSpec at h
    simp only [linkE]
    cases hρ : ρ p with
    | none => rw [hρ] at h; exact ⟨_, .ext h, rfl⟩
    | some r =>
      rw [hρ] at h
      obtain ⟨e, o2, he, hp, rfl⟩ := h
      have hp' := link_right (ρ := ρ) hd hr2 hp
      have hf := link_find_right (ρ := ρ) hd he
      cases o2 with
      | fail => exact ⟨_, .nt_fail hf hp', rfl⟩
      | ok s' t => exact ⟨_, .nt_ok hf hp', rfl⟩
  | seq_nil => exact ⟨_, .seq_nil, rfl⟩
  | seq_cons _ _ a b =>
    obtain ⟨o, h, he⟩ := a; obtain ⟨t, rfl⟩ := Out.stop_some he
    obtain ⟨o, h', he⟩ := b; obtain ⟨t, rfl⟩ := Out.stop_some he
    simp only [linkE] at h' ⊢
    obtain ⟨ts, rfl⟩ := seq_ok_seq h'
    exact ⟨_, .seq_cons h h', rfl⟩
  | seq_fail _ a => obtain ⟨o, h, he⟩ := a; obtain rfl := Out.stop_none he; exact ⟨_, .seq_fail h, rfl⟩
  | seq_later _ _ a b =>
    obtain ⟨o, h, he⟩ := a; obtain ⟨t, rfl⟩ := Out.stop_some he
    obtain ⟨o, h', he⟩ := b; obtain rfl := Out.stop_none he
    simp only [linkE] at h' ⊢
    exact ⟨_, .seq_later h h', rfl⟩
  | choice_nil => exact ⟨_, .choice_nil, rfl⟩
  | choice_first _ a => obtain ⟨o, h, he⟩ := a; obtain ⟨t, rfl⟩ := Out.stop_some he; exact ⟨_, .choice_first h, rfl⟩
  | choice_next _ _ a b =>
    obtain ⟨o, h, he⟩ := a; obtain rfl := Out.stop_none he
    obtain ⟨o, h', he⟩ := b; obtain ⟨t, rfl⟩ := Out.stop_some he
    simp only [linkE] at h' ⊢
    obtain ⟨k, u, rfl⟩ := choice_ok_alt h'
    exact ⟨_, .choice_next h h', rfl⟩
  | choice_fail _ _ a b =>
    obtain ⟨o, h, he⟩ := a; obtain rfl := Out.stop_none he
    obtain ⟨o, h', he⟩ := b; obtain rfl := Out.stop_none he
    simp only [linkE] at h' ⊢
    exact ⟨_, .choice_fail h h', rfl⟩
  | star_stop _ a => obtain ⟨o, h, he⟩ := a; obtain rfl := Out.stop_none he; exact ⟨_, .star_stop h, rfl⟩
  | star_more _ _ a b =>
    obtain ⟨o, h, he⟩ := a; obtain ⟨t, rfl⟩ := Out.stop_some he
    obtain ⟨o, h', he⟩ := b; obtain ⟨t, rfl⟩ := Out.stop_some he
    simp only [linkE] at h' ⊢
    obtain ⟨ts, rfl⟩ := star_ok_rep h'
    exact ⟨_, .star_more h h', rfl⟩
  | plus_fail _ a => obtain ⟨o, h, he⟩ := a; obtain rfl := Out.stop_none he; exact ⟨_, .plus_fail h, rfl⟩
  | plus_ok _ _ a b =>
    obtain ⟨o, h, he⟩ := a; obtain ⟨t, rfl⟩ := Out.stop_some he
    obtain ⟨o, h', he⟩ := b; obtain ⟨t, rfl⟩ := Out.stop_some he
    simp only [linkE] at h' ⊢
    obtain ⟨ts, rfl⟩ := star_ok_rep h'
    exact ⟨_, .plus_ok h h', rfl⟩
  | opt_some _ a => obtain ⟨o, h, he⟩ := a; obtain ⟨t, rfl⟩ := Out.stop_some he; exact ⟨_, .opt_some h, rfl⟩
  | opt_none _ a => obtain ⟨o, h, he⟩ := a; obtain rfl := Out.stop_none he; exact ⟨_, .opt_none h, rfl⟩
  | not_ok _ a => obtain ⟨o, h, he⟩ := a; obtain rfl := Out.stop_none he; exact ⟨_, .not_ok h, rfl⟩
  | not_fail _ a => obtain ⟨o, h, he⟩ := a; obtain ⟨t, rfl⟩ := Out.stop_some he; exact ⟨_, .not_fail h, rfl⟩
  | and_ok _ a => obtain ⟨o, h, he⟩ := a; obtain ⟨t, rfl⟩ := Out.stop_some he; exact ⟨_, .and_ok h, rfl⟩
  | and_fail _ a => obtain ⟨o, h, he⟩ := a; obtain rfl := Out.stop_none he; exact ⟨_, .and_fail h, rfl⟩
  | act_ok _ a => obtain ⟨o, h, he⟩ := a; obtain ⟨t, rfl⟩ := Out.stop_some he; exact ⟨_, .act_ok h, rfl⟩
  | act_fail _ a => obtain ⟨o, h, he⟩ := a; obtain rfl := Out.stop_none he; exact ⟨_, .act_fail h, rfl⟩
  | asc_ok _ a => obtain ⟨o, h, he⟩ := a; obtain ⟨t, rfl⟩ := Out.stop_some he; exact ⟨_, .asc_ok h, rfl⟩
  | asc_fail _ a => obtain ⟨o, h, he⟩ := a; obtain rfl := Out.stop_none he; exact ⟨_, .asc_fail h, rfl⟩
  | span_ok _ a => obtain ⟨o, h, he⟩ := a; obtain ⟨t, rfl⟩ := Out.stop_some he; exact ⟨_, .span_ok h, rfl⟩
  | span_fail _ a => obtain ⟨o, h, he⟩ := a; obtain rfl := Out.stop_none he; exact ⟨_, .span_fail h, rfl⟩
  | range_ok _ a => obtain ⟨o, h, he⟩ := a; obtain ⟨t, rfl⟩ := Out.stop_some he; exact ⟨_, .range_ok h, rfl⟩
  | range_fail _ a => obtain ⟨o, h, he⟩ := a; obtain rfl := Out.stop_none he; exact ⟨_, .range_fail h, rfl⟩

theorem linkE_str_inv {e : Expr} {i l} (h : linkE ρ e = .str i l) : e = .str i l := by
  cases e <;> simp only [linkE] at h <;> (try split at h) <;> cases h <;> simp_all

theorem linkE_any_inv {e : Expr} {i} (h : linkE ρ e = .any i) : e = .any i := by
  cases e <;> simp only [linkE] at h <;> (try split at h) <;> cases h <;> simp_all

theorem linkE_cls_inv {e : Expr} {i ivs} (h : linkE ρ e = .cls i ivs) : e = .cls i ivs := by
  cases e <;> simp only [linkE] at h <;> (try split at h) <;> cases h <;> simp_all

theorem linkE_nt_inv {e : Expr} {i r} (h : linkE ρ e = .nt i r) : e = .nt i r ∨ ∃ p, e = .ext i p ∧ ρ p = some r := by
  cases e <;> simp only [linkE] at h <;> (try split at h) <;> cases h <;> simp_all

theorem linkE_ext_inv {e : Expr} {i p} (h : linkE ρ e = .ext i p) : e = .ext i p ∧ ρ p = none := by
  cases e <;> simp only [linkE] at h <;> (try split at h) <;> cases h <;> simp_all

theorem linkE_seq_inv {e : Expr} {i es} (h : linkE ρ e = .seq i es) : ∃ es', e = .seq i es' ∧ es = linkAll ρ es' := by
  cases e <;> simp only [linkE] at h <;> (try split at h) <;> cases h <;> simp_all

theorem linkE_choice_inv {e : Expr} {i es} (h : linkE ρ e = .choice i es) : ∃ es', e = .choice i es' ∧ es = linkAll ρ es' := by
  cases e <;> simp only [linkE] at h <;> (try split at h) <;> cases h <;> simp_all

theorem linkE_star_inv {e : Expr} {i c} (h : linkE ρ e = .star i c) : ∃ c', e = .star i c' ∧ c = linkE ρ c' := by
  cases e <;> simp only [linkE] at h <;> (try split at h) <;> cases h <;> simp_all

theorem linkE_plus_inv {e : Expr} {i c} (h : linkE ρ e = .plus i c) : ∃ c', e = .plus i c' ∧ c = linkE ρ c' := by
  cases e <;> simp only [linkE] at h <;> (try split at h) <;> cases h <;> simp_all

theorem linkE_opt_inv {e : Expr} {i c} (h : linkE ρ e = .opt i c) : ∃ c', e = .opt i c' ∧ c = linkE ρ c' := by
  cases e <;> simp only [linkE] at h <;> (try split at h) <;> cases h <;> simp_all

theorem linkE_not_inv {e : Expr} {i c} (h : linkE ρ e = .not i c) : ∃ c', e = .not i c' ∧ c = linkE ρ c' := by
  cases e <;> simp only [linkE] at h <;> (try split at h) <;> cases h <;> simp_all

theorem linkE_and_inv {e : Expr} {i c} (h : linkE ρ e = .and i c) : ∃ c', e = .and i c' ∧ c = linkE ρ c' := by
  cases e <;> simp only [linkE] at h <;> (try split at h) <;> cases h <;> simp_all

theorem linkE_span_inv {e : Expr} {i c} (h : linkE ρ e = .span i c) : ∃ c', e = .span i c' ∧ c = linkE ρ c' := by
  cases e <;> simp only [linkE] at h <;> (try split at h) <;> cases h <;> simp_all

theorem linkE_range_inv {e : Expr} {i c} (h : linkE ρ e = .range i c) : ∃ c', e = .range i c' ∧ c = linkE ρ c' := by
  cases e <;> simp only [linkE] at h <;> (try split at h) <;> cases h <;> simp_all

theorem linkE_act_inv {e : Expr} {i c b f} (h : linkE ρ e = .act i c b f) : ∃ c', e = .act i c' b f ∧ c = linkE ρ c' := by
  cases e <;> simp only [linkE] at h <;> (try split at h) <;> cases h <;> simp_all

theorem linkE_asc_inv {e : Expr} {i c t} (h : linkE ρ e = .asc i c t) : ∃ c', e = .asc i c' t ∧ c = linkE ρ c' := by
  cases e <;> simp only [linkE] at h <;> (try split at h) <;> cases h <;> simp_all

theorem linkAll_nil_inv {es : List Expr} (h : linkAll ρ es = []) : es = [] := by
  cases es with
  | nil => rfl
  | cons a es => simp [linkAll] at h

theorem linkAll_cons_inv {es l : List Expr} {x : Expr} (h : linkAll ρ es = x :: l) :
    ∃ e es', es = e :: es' ∧ x = linkE ρ e ∧ l = linkAll ρ es' := by
  cases es with
  | nil => simp [linkAll] at h
  | cons a es => simp only [linkAll, List.cons.injEq] at h; exact ⟨a, es, rfl, h.1.symm, h.2.symm⟩

/-- What the linked grammar does, the first grammar does with external rules. -/
theorem link_left_inv (hd : ∀ r e, G2.find r = some e → G1.find r = none) (hr1 : G1.resolved = true) (hr2 : G2.resolved = true)
    (hρ : ∀ path r, ρ path = some r → ∃ e, G2.find r = some e) {e' s o' L}
    (h : Peg (G1.link ρ G2) X e' s o' L) : ∀ e, e' = linkE ρ e → e.resolved G1 = true →
      Outcome G1 (linkSpec ρ G2 T2 input X) e s o'.stop L := by
  have hnt : ∀ {r i b s o' L} {e : Expr}, (G1.link ρ G2).find r = some b → Peg (G1.link ρ G2) X b s o' L →
      (∀ e, b = linkE ρ e → e.resolved G1 = true → Outcome G1 (linkSpec ρ G2 T2 input X) e s o'.stop L) →
      Expr.nt i r = linkE ρ e → e.resolved G1 = true → Outcome G1 (linkSpec ρ G2 T2 input X) e s o'.stop L := by
    intro r i b s o' L e hf hp ih heq hres
    rcases linkE_nt_inv heq.symm with rfl | ⟨p, rfl, hp'⟩
    · obtain ⟨b1, hb1⟩ := Option.isSome_iff_exists.1 (show (G1.find r).isSome = true by simpa [Expr.resolved] using hres)
      rw [link_find_left hb1] at hf
      cases hf
      obtain ⟨o, h, he⟩ := ih b1 rfl (resolved_find hr1 hb1)
      cases o' with
      | fail => obtain rfl := Out.stop_none he; exact ⟨_, .nt_fail hb1 h, rfl⟩
      | ok s' t' => obtain ⟨t, rfl⟩ := Out.stop_some he; exact ⟨_, .nt_ok hb1 h, rfl⟩
    · obtain ⟨e2, he2⟩ := hρ p r hp'
      rw [link_find_right hd he2] at hf
      cases hf
      have := link_right_inv hd hr2 hp (resolved_find hr2 he2)
      cases o' with
      | fail => exact ⟨.fail, .ext (p := p) (by unfold linkSpec; rw [hp']; exact ⟨b, _, he2, this, rfl⟩), rfl⟩
      | ok s' t => exact ⟨.ok s' (.ext (tupleVal (ast G2 T2 (strSpans input) b t))),
          .ext (p := p) (by unfold linkSpec; rw [hp']; exact ⟨b, _, he2, this, rfl⟩), rfl⟩
  induction h with
  | str_ok => intro e heq _; obtain rfl := linkE_str_inv heq.symm; exact ⟨_, .str_ok, rfl⟩
  | str_fail h => intro e heq _; obtain rfl := linkE_str_inv heq.symm; exact ⟨_, .str_fail h, rfl⟩
  | any_ok => intro e heq _; obtain rfl := linkE_any_inv heq.symm; exact ⟨_, .any_ok, rfl⟩
  | any_fail => intro e heq _; obtain rfl := linkE_any_inv heq.symm; exact ⟨_, .any_fail, rfl⟩
  | cls_ok h => intro e heq _; obtain rfl := linkE_cls_inv heq.symm; exact ⟨_, .cls_ok h, rfl⟩
  | cls_fail h => intro e heq _; obtain rfl := linkE_cls_inv heq.symm; exact ⟨_, .cls_fail h, rfl⟩
  | cls_eof => intro e heq _; obtain rfl := linkE_cls_inv heq.symm; exact ⟨_, .cls_eof, rfl⟩
  | nt_ok hf h ih =>
    intro e heq hres
    have := hnt hf h ih heq hres
    exact this
  | nt_fail hf h ih =>
    intro e heq hres
    have := hnt hf h ih heq hres
    exact this
  | @ext i p s o L hx =>
    intro e heq _
    obtain ⟨rfl, hp⟩ := linkE_ext_inv heq.symm
    exact ⟨o, .ext (by unfold linkSpec; rw [hp]; exact hx), rfl⟩
  | seq_nil =>
    intro e heq _
    obtain ⟨es, rfl, h⟩ := linkE_seq_inv heq.symm
    obtain rfl := linkAll_nil_inv h.symm
    exact ⟨_, .seq_nil, rfl⟩
  | choice_nil =>
    intro e heq _
    obtain ⟨es, rfl, h⟩ := linkE_choice_inv heq.symm
    obtain rfl := linkAll_nil_inv h.symm
    exact ⟨_, .choice_nil, rfl⟩
  | seq_cons _ _ a b =>
    intro e heq hres
    obtain ⟨es, rfl, h⟩ := linkE_seq_inv heq.symm
    obtain ⟨x, es', rfl, rfl, rfl⟩ := linkAll_cons_inv h.symm
    simp only [Expr.resolved, resolvedAll, Bool.and_eq_true] at hres
    obtain ⟨o, h, he⟩ := a x rfl hres.1
    obtain ⟨t, rfl⟩ := Out.stop_some he
    obtain ⟨o, h', he⟩ := b (.seq _ es') rfl (by simpa [Expr.resolved] using hres.2)
    obtain ⟨t, rfl⟩ := Out.stop_some he
    obtain ⟨ts, rfl⟩ := seq_ok_seq h'
    exact ⟨_, .seq_cons h h', rfl⟩
  | seq_fail _ a =>
    intro e heq hres
    obtain ⟨es, rfl, h⟩ := linkE_seq_inv heq.symm
    obtain ⟨x, es', rfl, rfl, rfl⟩ := linkAll_cons_inv h.symm
    simp only [Expr.resolved, resolvedAll, Bool.and_eq_true] at hres
    obtain ⟨o, h, he⟩ := a x rfl hres.1
    obtain rfl := Out.stop_none he
    exact ⟨_, .seq_fail h, rfl⟩
  | seq_later _ _ a b =>
    intro e heq hres
    obtain ⟨es, rfl, h⟩ := linkE_seq_inv heq.symm
    obtain ⟨x, es', rfl, rfl, rfl⟩ := linkAll_cons_inv h.symm
    simp only [Expr.resolved, resolvedAll, Bool.and_eq_true] at hres
    obtain ⟨o, h, he⟩ := a x rfl hres.1
    obtain ⟨t, rfl⟩ := Out.stop_some he
    obtain ⟨o, h', he⟩ := b (.seq _ es') rfl (by simpa [Expr.resolved] using hres.2)
    obtain rfl := Out.stop_none he
    exact ⟨_, .seq_later h h', rfl⟩
  | choice_first _ a =>
    intro e heq hres
    obtain ⟨es, rfl, h⟩ := linkE_choice_inv heq.symm
    obtain ⟨x, es', rfl, rfl, rfl⟩ := linkAll_cons_inv h.symm
    simp only [Expr.resolved, resolvedAll, Bool.and_eq_true] at hres
    obtain ⟨o, h, he⟩ := a x rfl hres.1
    obtain ⟨t, rfl⟩ := Out.stop_some he
    exact ⟨_, .choice_first h, rfl⟩
  | choice_next _ _ a b =>
    intro e heq hres
    obtain ⟨es, rfl, h⟩ := linkE_choice_inv heq.symm
    obtain ⟨x, es', rfl, rfl, rfl⟩ := linkAll_cons_inv h.symm
    simp only [Expr.resolved, resolvedAll, Bool.and_eq_true] at hres
    obtain ⟨o, h, he⟩ := a x rfl hres.1
    obtain rfl := Out.stop_none he
    obtain ⟨o, h', he⟩ := b (.choice _ es') rfl (by simpa [Expr.resolved] using hres.2)
    obtain ⟨t, rfl⟩ := Out.stop_some he
    obtain ⟨k, u, rfl⟩ := choice_ok_alt h'
    exact ⟨_, .choice_next h h', rfl⟩
  | choice_fail _ _ a b =>
    intro e heq hres
    obtain ⟨es, rfl, h⟩ := linkE_choice_inv heq.symm
    obtain ⟨x, es', rfl, rfl, rfl⟩ := linkAll_cons_inv h.symm
    simp only [Expr.resolved, resolvedAll, Bool.and_eq_true] at hres
    obtain ⟨o, h, he⟩ := a x rfl hres.1
    obtain rfl := Out.stop_none he
    obtain ⟨o, h', he⟩ := b (.choice _ es') rfl (by simpa [Expr.resolved] using hres.2)
    obtain rfl := Out.stop_none he
    exact ⟨_, .choice_fail h h', rfl⟩
  | star_stop _ a =>
    intro e heq hres
    obtain ⟨c, rfl, rfl⟩ := linkE_star_inv heq.symm
    obtain ⟨o, h, he⟩ := a c rfl (by simpa [Expr.resolved] using hres)
    obtain rfl := Out.stop_none he
    exact ⟨_, .star_stop h, rfl⟩
  | plus_fail _ a =>
    intro e heq hres
    obtain ⟨c, rfl, rfl⟩ := linkE_plus_inv heq.symm
    obtain ⟨o, h, he⟩ := a c rfl (by simpa [Expr.resolved] using hres)
    obtain rfl := Out.stop_none he
    exact ⟨_, .plus_fail h, rfl⟩
  | opt_some _ a =>
    intro e heq hres
    obtain ⟨c, rfl, rfl⟩ := linkE_opt_inv heq.symm
    obtain ⟨o, h, he⟩ := a c rfl (by simpa [Expr.resolved] using hres)
    obtain ⟨t, rfl⟩ := Out.stop_some he
    exact ⟨_, .opt_some h, rfl⟩
  | opt_none _ a =>
    intro e heq hres
    obtain ⟨c, rfl, rfl⟩ := linkE_opt_inv heq.symm
    obtain ⟨o, h, he⟩ := a c rfl (by simpa [Expr.resolved] using hres)
    obtain rfl := Out.stop_none he
    exact ⟨_, .opt_none h, rfl⟩
  | not_ok _ a =>
    intro e heq hres
    obtain ⟨c, rfl, rfl⟩ := linkE_not_inv heq.symm
    obtain ⟨o, h, he⟩ := a c rfl (by simpa [Expr.resolved] using hres)
    obtain rfl := Out.stop_none he
    exact ⟨_, .not_ok h, rfl⟩
  | not_fail _ a =>
    intro e heq hres
    obtain ⟨c, rfl, rfl⟩ := linkE_not_inv heq.symm
    obtain ⟨o, h, he⟩ := a c rfl (by simpa [Expr.resolved] using hres)
    obtain ⟨t, rfl⟩ := Out.stop_some he
    exact ⟨_, .not_fail h, rfl⟩
  | and_ok _ a =>
    intro e heq hres
    obtain ⟨c, rfl, rfl⟩ := linkE_and_inv heq.symm
    obtain ⟨o, h, he⟩ := a c rfl (by simpa [Expr.resolved] using hres)
    obtain ⟨t, rfl⟩ := Out.stop_some he
    exact ⟨_, .and_ok h, rfl⟩
  | and_fail _ a =>
    intro e heq hres
    obtain ⟨c, rfl, rfl⟩ := linkE_and_inv heq.symm
    obtain ⟨o, h, he⟩ := a c rfl (by simpa [Expr.resolved] using hres)
    obtain rfl := Out.stop_none he
    exact ⟨_, .and_fail h, rfl⟩
  | act_ok _ a =>
    intro e heq hres
    obtain ⟨c, rfl, rfl⟩ := linkE_act_inv heq.symm
    obtain ⟨o, h, he⟩ := a c rfl (by simpa [Expr.resolved] using hres)
    obtain ⟨t, rfl⟩ := Out.stop_some he
    exact ⟨_, .act_ok h, rfl⟩
  | act_fail _ a =>
    intro e heq hres
    obtain ⟨c, rfl, rfl⟩ := linkE_act_inv heq.symm
    obtain ⟨o, h, he⟩ := a c rfl (by simpa [Expr.resolved] using hres)
    obtain rfl := Out.stop_none he
    exact ⟨_, .act_fail h, rfl⟩
  | asc_ok _ a =>
    intro e heq hres
    obtain ⟨c, rfl, rfl⟩ := linkE_asc_inv heq.symm
    obtain ⟨o, h, he⟩ := a c rfl (by simpa [Expr.resolved] using hres)
    obtain ⟨t, rfl⟩ := Out.stop_some he
    exact ⟨_, .asc_ok h, rfl⟩
  | asc_fail _ a =>
    intro e heq hres
    obtain ⟨c, rfl, rfl⟩ := linkE_asc_inv heq.symm
    obtain ⟨o, h, he⟩ := a c rfl (by simpa [Expr.resolved] using hres)
    obtain rfl := Out.stop_none he
    exact ⟨_, .asc_fail h, rfl⟩
  | span_ok _ a =>
    intro e heq hres
    obtain ⟨c, rfl, rfl⟩ := linkE_span_inv heq.symm
    obtain ⟨o, h, he⟩ := a c rfl (by simpa [Expr.resolved] using hres)
    obtain ⟨t, rfl⟩ := Out.stop_some he
    exact ⟨_, .span_ok h, rfl⟩
  | span_fail _ a =>
    intro e heq hres
    obtain ⟨c, rfl, rfl⟩ := linkE_span_inv heq.symm
    obtain ⟨o, h, he⟩ := a c rfl (by simpa [Expr.resolved] using hres)
    obtain rfl := Out.stop_none he
    exact ⟨_, .span_fail h, rfl⟩
  | range_ok _ a =>
    intro e heq hres
    obtain ⟨c, rfl, rfl⟩ := linkE_range_inv heq.symm
    obtain ⟨o, h, he⟩ := a c rfl (by simpa [Expr.resolved] using hres)
    obtain ⟨t, rfl⟩ := Out.stop_some he
    exact ⟨_, .range_ok h, rfl⟩
  | range_fail _ a =>
    intro e heq hres
    obtain ⟨c, rfl, rfl⟩ := linkE_range_inv heq.symm
    obtain ⟨o, h, he⟩ := a c rfl (by simpa [Expr.resolved] using hres)
    obtain rfl := Out.stop_none he
    exact ⟨_, .range_fail h, rfl⟩
  | star_more _ _ a b =>
    intro e heq hres
    obtain ⟨c, rfl, rfl⟩ := linkE_star_inv heq.symm
    obtain ⟨o, h, he⟩ := a c rfl (by simpa [Expr.resolved] using hres)
    obtain ⟨t, rfl⟩ := Out.stop_some he
    obtain ⟨o, h', he⟩ := b (.star _ c) rfl (by simpa [Expr.resolved] using hres)
    obtain ⟨t, rfl⟩ := Out.stop_some he
    obtain ⟨ts, rfl⟩ := star_ok_rep h'
    exact ⟨_, .star_more h h', rfl⟩
  | plus_ok _ _ a b =>
    intro e heq hres
    obtain ⟨c, rfl, rfl⟩ := linkE_plus_inv heq.symm
    obtain ⟨o, h, he⟩ := a c rfl (by simpa [Expr.resolved] using hres)
    obtain ⟨t, rfl⟩ := Out.stop_some he
    obtain ⟨o, h', he⟩ := b (.star _ c) rfl (by simpa [Expr.resolved] using hres)
    obtain ⟨t, rfl⟩ := Out.stop_some he
    obtain ⟨ts, rfl⟩ := star_ok_rep h'
    exact ⟨_, .plus_ok h h', rfl⟩

end
end Oak
