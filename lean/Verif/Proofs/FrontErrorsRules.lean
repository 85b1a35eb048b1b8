import Verif.Proofs.FrontErrors
/-! The errors of the front-end: rules and grammars. -/
set_option autoImplicit false
set_option linter.constructorNameAsVariable false

namespace Oak
open Syntax

theorem eparseType_typed (l : Option SrcSpan) {tys ts : List LTok} {ty : IType} {b i j : Bool} {h w h' w' : SrcSpan} (ht : IsType (eraseAll tys) ty b) :
    eparseType l (.leaf (.punct ':' i) h w :: (tys ++ .leaf (.punct '=' j) h' w' :: ts)) = .ok (true, l, .leaf (.punct '=' j) h' w' :: ts) := by
  have key : ∀ t, IsType (eraseAll tys) (.regular (.rust t)) b → (∀ a c us, tys ≠ .paren [] a c :: us) →
      (∀ k a c g d e us, tys ≠ .paren (.leaf (.punct '^' k) a c :: g) d e :: us) → tys ≠ [] →
      eparseType l (.leaf (.punct ':' i) h w :: (tys ++ .leaf (.punct '=' j) h' w' :: ts)) = .ok (true, l, .leaf (.punct '=' j) h' w' :: ts) := by
    intro t ht h1 h2 h3
    have hp := parseRustTy_complete (rest := eraseAll (.leaf (.punct '=' j) h' w' :: ts)) ht (fun _ => by simp [startsParen])
    rw [← eraseAll_append] at hp
    unfold eparseType
    split
    · rename_i he
      injection he with _ he
      cases tys with
      | nil => exact (h3 rfl).elim
      | cons a tys => injection he with he _; subst he; exact (h1 _ _ _ rfl).elim
    · rename_i he
      injection he with _ he
      cases tys with
      | nil => exact (h3 rfl).elim
      | cons a tys => injection he with he _; subst he; exact (h2 _ _ _ _ _ _ _ rfl).elim
    · rename_i he
      injection he with _ he
      subst he
      rw [hp]
      simp only
      rw [eraseAll_length, List.length_append, Nat.add_sub_cancel, List.drop_left]
    · rename_i he
      exact (he _ _ _ _ rfl).elim
  generalize hu : eraseAll tys = us at ht
  cases ht with
  | unit =>
    obtain ⟨gs, a, c, vs, rfl, hg, hv⟩ := eraseAll_paren hu
    rw [eraseAll_eq_nil hg, eraseAll_eq_nil hv]
    rfl
  | invisible =>
    obtain ⟨gs, a, c, vs, rfl, hg, hv⟩ := eraseAll_paren hu
    obtain ⟨a2, c2, gs', rfl, hg2⟩ := eraseAll_leaf (l := .punct '^' _) hg
    rw [eraseAll_eq_nil hg2, eraseAll_eq_nil hv]
    cases l <;> rfl
  | @path p =>
    refine key _ (by rw [hu]; exact .path) ?_ ?_ ?_
    · rintro a c us rfl; simp at hu
    · rintro k a c g d e us rfl; simp at hu
    · rintro rfl; simp at hu
  | @rust t =>
    refine key _ (by rw [hu]; exact .rust) ?_ ?_ ?_
    · rintro a c us rfl; simp at hu
    · rintro k a c g d e us rfl; simp at hu
    · rintro rfl; simp at hu
  | @paren t s ht =>
    refine key _ (by rw [hu]; exact .paren ht) ?_ ?_ ?_
    · rintro a c us rfl; simp at hu
    · rintro k a c g d e us rfl; simp at hu; rw [← hu.1.1] at ht; cases ht
    · rintro rfl; simp at hu
  | @args0 p =>
    refine key _ (by rw [hu]; exact .args0) ?_ ?_ ?_
    · rintro a c us rfl; simp at hu
    · rintro k a c g d e us rfl; simp at hu
    · rintro rfl; simp at hu
  | @args p t s ht =>
    refine key _ (by rw [hu]; exact .args ht) ?_ ?_ ?_
    · rintro a c us rfl; simp at hu
    · rintro k a c g d e us rfl; simp at hu
    · rintro rfl; simp at hu

/-- These tokens are the header of a rule. -/
def HeadOf (name : String) (hd : List Tok) : Prop :=
  ∀ vs, isChoice vs [] → ∃ e, ∀ (as : List Path) us F, Blocks us F → Blocks (as.map .attr ++ (hd ++ (vs ++ us))) ⟨(name, e) :: F.rules, F.items, as ++ F.attrs⟩

/-- What is read of a rule. -/
theorem eparseRule_spec (n : Nat) (l : Option SrcSpan) {ts : List LTok} (h : Header ts) :
    ∃ name hd hd' l1 body, ts = hd ++ body ∧ hd ≠ [] ∧ eparseRule n l ts = eparseChoice name n l1 body ∧ (l.isSome = true → l1 = l) ∧ Trim l1.isSome hd hd' ∧
      HeadOf name hd' ∧ (l = none → ∀ s, l1 = some s → ∃ rest i k, rest ≠ [] ∧ s = peekSpan rest ∧
        Cut false ts rest [] [.path [name], .punct ':' i, .paren [.punct '^' k]]) := by
  cases h with
  | @plain name j h w h' w' ts =>
    refine ⟨name, [_, _], [_, _], l, ts, rfl, by simp, rfl, fun _ => rfl, .leaf (.leaf .nil), ?_, ?_⟩
    · rintro vs ⟨x, hx⟩
      exact ⟨x, fun as us F hF => by simpa using Blocks.rule (as := as) (name := name) (j := j) hx hF⟩
    · intro h1 s h2; rw [h1] at h2; cases h2
  | @typed name i j h w h' w' h'' w'' tys ty b ts ht =>
    refine ⟨name, .leaf (.path [name]) h w :: .leaf (.punct ':' i) h' w' :: (tys ++ [.leaf (.punct '=' j) h'' w'']), _, l, ts, by simp, by simp, ?_, fun _ => rfl,
      trim_refl _ _, ?_, ?_⟩
    · rw [eparseRule, eparseType_typed l ht, fbind_ok]; rfl
    · rintro vs ⟨x, hx⟩
      refine ⟨.asc 0 x ty, fun as us F hF => ?_⟩
      have := Blocks.typed (as := as) (name := name) (i := i) (j := j) ht hx hF
      simpa [eraseAll_append] using this
    · intro h1 s h2; rw [h1] at h2; cases h2
  | @invisible name i k j h w h' w' h'' w'' h3 w3 h4 w4 g ts =>
    refine ⟨name, [_, _, _, _], [.path [name], .punct ':' i, .paren [.punct '^' k], .punct '=' j], closeGroup l g, ts, rfl, by simp, rfl, fun hl => closeGroup_some hl g,
      .leaf (.leaf (Trim.paren (g := [_]) (.leaf .nil) (fun hc => (closeGroup_none hc).1) (.leaf .nil))), ?_, ?_⟩
    · rintro vs ⟨x, hx⟩
      refine ⟨.asc 0 x .invisible, fun as us F hF => ?_⟩
      have := Blocks.typed (as := as) (name := name) (i := i) (j := j) (.invisible (j := k)) hx hF
      simpa using this
    · intro hl s hs
      obtain ⟨h5, rfl⟩ := closeGroup_new hl hs
      refine ⟨g, i, k, h5, rfl, ?_⟩
      have := Cut.paren (h := h3) (w := w3) (post := .leaf (.punct '=' j) h4 w4 :: ts) ((trim_leaf false (.path [name]) h w).append (trim_leaf false (.punct ':' i) h' w'))
        (Cut.here (rest := g) (p := []) (trim_leaf false (.punct '^' k) h'' w''))
      simpa using this

theorem lsplitAttrs_spec (ts : List LTok) : ∃ pre, ts = pre ++ (lsplitAttrs ts).2 ∧ eraseAll pre = (lsplitAttrs ts).1.map .attr ∧
    ∀ p h w us, (lsplitAttrs ts).2 ≠ .leaf (.attr p) h w :: us := by
  induction ts with
  | nil => exact ⟨[], rfl, by simp [lsplitAttrs], by simp [lsplitAttrs]⟩
  | cons t ts ih =>
    unfold lsplitAttrs
    split
    · rename_i p h w us he
      cases he
      obtain ⟨pre, h1, h2, h3⟩ := ih
      exact ⟨_ :: pre, by rw [List.cons_append, ← h1], by simp [h2], h3⟩
    · rename_i hne
      exact ⟨[], rfl, by simp, fun p h w us he => hne _ _ _ _ he⟩

theorem lit_choice (s : String) : Choice [.lit s] (.str 0 s) := .one (.one (.spanned (.seq (.one (.one (.prefixed (.suffixed (.atom .lit))))) rfl)))

/-- Blocks that come before a grammar. -/
def Before (us : List Tok) : Prop := ∀ vs F, Blocks vs F → ∃ F', Blocks (us ++ vs) F' ∧ ∃ rs, F'.rules = rs ++ F.rules

theorem IsGrammar.after {us vs : List Tok} {q : Option String} (h : IsGrammar vs q) (hb : Before us) : IsGrammar (us ++ vs) q := by
  obtain ⟨F, h1, h2⟩ := h
  obtain ⟨F', h3, rs, h4⟩ := hb vs F h1
  refine ⟨F', h3, fun r hr => ?_⟩
  obtain ⟨rs', e, h5⟩ := h2 r hr
  exact ⟨rs ++ rs', e, by rw [h4, h5, List.append_assoc]⟩

theorem About.after {b : Bool} {e : FErr} {pre ts : List LTok} {us : List Tok} (h : e.About b ts) (hp : Trim b pre us) (hb : Before us) : e.About b (pre ++ ts) := by
  obtain ⟨rest, vs, h1, h2, h3, h4⟩ := h
  refine ⟨rest, us ++ vs, h1.after hp, h2, h3, ?_⟩
  rcases h4 with h4 | ⟨h4, h5⟩
  · exact .inl (h4.after hb)
  · exact .inr ⟨h4, by rw [List.append_assoc]; exact h5.after hb⟩

/-- An error in the body of a rule is about the grammar. -/
theorem BadIn.about {b : Bool} {e : FErr} {hd pre ts : List LTok} {hd' : List Tok} {as : List Path} {name : String} (h : BadIn name (isChoice · []) b e ts)
    (hp : eraseAll pre = as.map .attr) (ht : Trim b hd hd') (hh : HeadOf name hd') : e.About b (pre ++ (hd ++ ts)) := by
  obtain ⟨rest, us, h1, h2, h3, h4, h5⟩ := h
  refine ⟨rest, eraseAll pre ++ (hd' ++ us), (h1.after ht).after (trim_refl _ _), h3, h4, .inl ?_⟩
  obtain ⟨x, hx⟩ := hh us h2
  refine ⟨_, by rw [hp]; simpa using hx as [] _ .nil, fun r hr => ⟨[], x, ?_⟩⟩
  rw [h5 r hr]
  rfl

/-- What is known of `parse_blocks`. -/
def BlocksGood (l : Option SrcSpan) (ts : List LTok) : FOut (Option SrcSpan) → Prop
  | .timeout => True
  | .err e l' => e.About l'.isSome ts ∧ (l.isSome = true → l'.isSome = true)
  | .ok l' => (l.isSome = true → l' = l) ∧ (∃ us F, Trim l'.isSome ts us ∧ Blocks us F) ∧ (l = none → ∀ s, l' = some s → FErr.About false ts ⟨.unexpected, s⟩)

theorem FErr.About.mono {b c : Bool} {e : FErr} {ts : List LTok} (h : e.About b ts) (hb : b = true → c = true) : e.About c ts := by
  obtain ⟨rest, us, h1, h2⟩ := h
  exact ⟨rest, us, h1.mono hb, h2⟩

theorem BlocksGood.after {l : Option SrcSpan} {pre ts : List LTok} {us : List Tok} {x : FOut (Option SrcSpan)} (h : BlocksGood l ts x) (hp : Trim l.isSome pre us)
    (hb : Before us) : BlocksGood l (pre ++ ts) x := by
  cases x with
  | timeout => trivial
  | err e l' => exact ⟨About.after h.1 (hp.mono h.2) hb, h.2⟩
  | ok l' =>
    obtain ⟨h1, ⟨vs, F, h2, h3⟩, h4⟩ := h
    obtain ⟨F', h5, _⟩ := hb vs F h3
    refine ⟨h1, ⟨us ++ vs, F', (hp.mono fun h => by rw [h1 h]; exact h).append h2, h5⟩, fun hn s hs => ?_⟩
    rw [hn] at hp
    exact About.after (h4 hn s hs) hp hb

theorem blocks_good : ∀ n l ts, BlocksGood l ts (eparseBlocks n l ts) := by
  intro n
  induction n with
  | zero => intro l ts; trivial
  | succ n ih =>
    intro l ts
    unfold eparseBlocks
    split
    · rename_i he
      cases ts with
      | cons => cases he
      | nil => exact ⟨fun _ => rfl, ⟨[], _, .nil, .nil⟩, fun h s hs => by rw [h] at hs; cases hs⟩
    · obtain ⟨pre, h1, h2, h3⟩ := lsplitAttrs_spec ts
      generalize lsplitAttrs ts = x at h1 h2 h3
      obtain ⟨as, ts1⟩ := x
      simp only at h1 h2 h3 ⊢
      subst h1
      split
      · rename_i hl
        obtain ⟨name, hd, hd', l1, body, rfl, _, h4, h5, h6, h7, h8⟩ := eparseRule_spec n l (header_of_peek hl)
        rw [h4]
        have hg := (read_ok_all n).choice name l1 body
        cases hx : eparseChoice name n l1 body with
        | timeout => trivial
        | err e l' =>
          rw [hx] at hg
          exact ⟨hg.1.about h2 (h6.mono hg.2) h7, fun h => hg.2 (by rw [h5 h]; exact h)⟩
        | ok a =>
          obtain ⟨f, l2, rest⟩ := a
          rw [hx] at hg
          obtain ⟨g1, g2, g3⟩ := hg
          rw [fbind_ok]
          cases f with
          | false => exact (g2 rfl).2.2.elim
          | true =>
            obtain ⟨p, us, _, rfl, g5, g6⟩ := g3 rfl
            obtain ⟨x, hxx⟩ := h7 us g6
            have hb : Before (eraseAll pre ++ (hd' ++ us)) := by
              intro vs F hF
              exact ⟨_, by rw [h2]; simpa using hxx as vs F hF, [(name, x)], rfl⟩
            have ht : Trim l2.isSome (pre ++ (hd ++ p)) (eraseAll pre ++ (hd' ++ us)) :=
              (trim_refl _ _).append ((h6.mono fun h => by rw [g1 h]; exact h).append g5)
            have hi := (ih l2 rest).after ht hb
            have he : pre ++ (hd ++ p) ++ rest = pre ++ (hd ++ (p ++ rest)) := by simp
            rw [he] at hi
            simp only
            have hl : l.isSome = true → l2 = l := fun h => by rw [g1 (by rw [h5 h]; exact h), h5 h]
            -- The tokens left in this rule.
            have hm : l = none → ∀ s, l2 = some s → FErr.About false (pre ++ (hd ++ (p ++ rest))) ⟨.unexpected, s⟩ := by
              intro hn s hs
              cases l1 with
              | some s1 =>
                have h9 := g1 rfl
                rw [hs] at h9
                cases h9
                obtain ⟨r2, i, k, k1, rfl, k2⟩ := h8 hn _ rfl
                refine ⟨r2, eraseAll pre ++ [.path [name], .punct ':' i, .paren [.punct '^' k]], k2.after (trim_refl _ _), k1, rfl, .inr ⟨rfl, ?_⟩⟩
                refine ⟨⟨[(name, .asc 0 (.str 0 "") .invisible)], [], as⟩, ?_, by simp⟩
                have := Blocks.typed (as := as) (name := name) (i := i) (j := false) (.invisible (j := k)) (lit_choice "") .nil
                rw [h2]
                simpa using this
              | none =>
                have h9 := (leaves_all n).choice name (p ++ rest)
                rw [hs] at hx
                have h10 := h9 _ _ _ hx name
                exact h10.about h2 h6 h7
            generalize eparseBlocks n l2 rest = y at hi
            cases y with
            | timeout => trivial
            | err e l' => exact ⟨hi.1, fun h => hi.2 (by rw [hl h]; exact h)⟩
            | ok l' =>
              obtain ⟨i1, i2, i3⟩ := hi
              refine ⟨fun h => by rw [i1 (by rw [hl h]; exact h), hl h], i2, fun hn s hs => ?_⟩
              cases l2 with
              | none => exact i3 rfl s hs
              | some s2 =>
                have := i1 rfl
                rw [hs] at this
                cases this
                exact hm hn _ rfl
      · rename_i hl
        split
        · rename_i it h w ts _
          have hb : Before (eraseAll (pre ++ [.leaf (.item it) h w])) := by
            intro vs F hF
            refine ⟨⟨F.rules, it :: F.items, as ++ F.attrs⟩, ?_, [], rfl⟩
            rw [eraseAll_append, h2]
            simpa using Blocks.item (as := as) (it := it) hF
          have := (ih l ts).after (trim_refl l.isSome _) hb
          simpa using this
        · rename_i hne
          refine ⟨⟨ts1, eraseAll pre ++ _, .here (trim_refl _ _), ⟨fun h => hl (peek_of_header h), fun it h w us he => hne _ _ _ _ he, h3⟩, rfl, .inl ?_⟩, fun h => h⟩
          refine ⟨⟨[("", .str 0 "")], [], as⟩, ?_, by simp [FKind.ruleOf]⟩
          rw [h2]
          have := Blocks.rule (as := as) (name := "") (j := false) (lit_choice "") .nil
          simpa [FKind.patch] using this

end Oak
