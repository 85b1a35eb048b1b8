import Verif.Proofs.FrontErrorsSame
/-! The errors of the front-end: what is left aside before an error. -/
set_option autoImplicit false
set_option linter.constructorNameAsVariable false

namespace Oak
open Syntax

theorem fbind_eq_err {α β : Type} {x : FOut α} {f : α → FOut β} {e : FErr} {l : Option SrcSpan} (h : (x >>= f) = .err e l) :
    x = .err e l ∨ ∃ a, x = .ok a ∧ f a = .err e l := by
  cases x with
  | ok a => exact .inr ⟨a, rfl, h⟩
  | err e' l' => cases h; exact .inl rfl
  | timeout => cases h

theorem eparseType_err {l l' : Option SrcSpan} {ts : List LTok} {e : FErr} (h : eparseType l ts = .err e l') : l' = l := by
  have := eparseType_spec l ts
  rw [h] at this
  exact this.1

theorem eparseAction_err {l l' : Option SrcSpan} {ts : List LTok} {e : FErr} (h : eparseAction l ts = .err e l') : l' = l := by
  unfold eparseAction at h
  split at h <;> cases h <;> rfl

theorem eparseAction_ok {l l' : Option SrcSpan} {ts rest : List LTok} {f : Bool} (h : eparseAction l ts = .ok (f, l', rest)) : l' = l := by
  unfold eparseAction at h
  split at h <;> cases h <;> rfl

theorem eparseClass_err {r : String} {sp : SrcSpan} {l l' : Option SrcSpan} {ts : List LTok} {e : FErr} (h : eparseClass r sp l ts = .err e l') : l' = l := by
  unfold eparseClass at h
  split at h
  · split at h
    · cases h; rfl
    · split at h <;> cases h; rfl
  · cases h; rfl

theorem ReadOk.kept {r : String} {X B : List Tok → List Tok → Prop} {N : List LTok → Prop} {s : SrcSpan} {l' : Option SrcSpan} {ts rest : List LTok} {f : Bool}
    (h : ReadOk r X B N (some s) ts (.ok (f, l', rest))) : l' = some s := h.1 rfl

/-- What is kept aside stays there. -/
def LeftKeeps {α : Type} (s : SrcSpan) (x : FOut α) : Prop := ∀ e l, x = .err e l → l = some s

/-- What is known of each function, for a depth. -/
structure KeepsAt (n : Nat) : Prop where
  choice : ∀ r s ts, LeftKeeps s (eparseChoice r n (some s) ts)
  branches : ∀ r s ts, LeftKeeps s (eparseBranches r n (some s) ts)
  spanned : ∀ r s ts, LeftKeeps s (eparseSpanned r n (some s) ts)
  seq : ∀ r s ts, LeftKeeps s (eparseSeq r n (some s) ts)
  elems : ∀ r s ts, LeftKeeps s (eparseTypeds r n (some s) ts)
  typed : ∀ r s ts, LeftKeeps s (eparseTyped r n (some s) ts)
  prefixed : ∀ r s ts, LeftKeeps s (eparsePrefixed r n (some s) ts)
  suffixed : ∀ r s ts, LeftKeeps s (eparseSuffixed r n (some s) ts)
  atom : ∀ r s ts, LeftKeeps s (eparseAtom r n (some s) ts)

theorem keeps_all : ∀ n, KeepsAt n := by
  intro n
  induction n with
  | zero =>
    constructor <;> intro r s ts e l h
    · rw [eparseChoice] at h; cases h
    · rw [eparseBranches] at h; cases h
    · rw [eparseSpanned] at h; cases h
    · rw [eparseSeq] at h; cases h
    · rw [eparseTypeds] at h; cases h
    · rw [eparseTyped] at h; cases h
    · rw [eparsePrefixed] at h; cases h
    · rw [eparseSuffixed] at h; cases h
    · rw [eparseAtom] at h; cases h
  | succ n ih =>
    have g := read_ok_all n
    constructor <;> intro r s ts e l h
    · rw [eparseChoice] at h; exact ih.branches _ _ _ _ _ h
    · rw [eparseBranches] at h
      replace h := fbind_eq_err h
      rcases h with h | ⟨⟨f1, l1, r1⟩, h1, h⟩
      · exact ih.spanned _ _ _ _ _ h
      · have g1 := g.spanned r (some s) ts
        rw [h1] at g1
        obtain rfl := g1.kept
        replace h := fbind_eq_err h
        rcases h with h | ⟨⟨f2, l2, r2⟩, h2, h⟩
        · exact eparseAction_err h
        · obtain rfl := eparseAction_ok h2
          simp only at h
          split at h
          · exact ih.branches _ _ _ _ _ h
          · cases h
    · unfold eparseSpanned at h
      split at h <;> exact ih.seq _ _ _ _ _ h
    · rw [eparseSeq] at h
      replace h := fbind_eq_err h
      rcases h with h | ⟨⟨f1, l1, r1⟩, h1, h⟩
      · exact ih.elems _ _ _ _ _ h
      · have g1 := g.elems r (some s) ts
        rw [h1] at g1
        obtain rfl := g1.kept
        simp only at h
        split at h <;> cases h
        rfl
    · rw [eparseTypeds] at h
      replace h := fbind_eq_err h
      rcases h with h | ⟨⟨f1, l1, r1⟩, h1, h⟩
      · exact ih.typed _ _ _ _ _ h
      · have g1 := g.typed r (some s) ts
        rw [h1] at g1
        obtain rfl := g1.kept
        simp only at h
        split at h
        · replace h := fbind_eq_err h
          rcases h with h | ⟨⟨f2, l2, r2⟩, h2, h⟩
          · exact ih.elems _ _ _ _ _ h
          · cases h
        · cases h
    · rw [eparseTyped] at h
      replace h := fbind_eq_err h
      rcases h with h | ⟨⟨f1, l1, r1⟩, h1, h⟩
      · exact ih.prefixed _ _ _ _ _ h
      · have g1 := g.prefixed r (some s) ts
        rw [h1] at g1
        obtain rfl := g1.kept
        simp only at h
        replace h := fbind_eq_err h
        rcases h with h | ⟨⟨f2, l2, r2⟩, h2, h⟩
        · exact eparseType_err h
        · have ht := eparseType_spec (some s) r1
          rw [h2] at ht
          obtain rfl := ht.1 rfl
          simp only at h
          split at h
          · split at h <;> cases h
            rfl
          · cases h
    · have key : ∀ (neg : Bool) (hh : SrcSpan) (ts : List LTok), (do
          let (b, l, ts) ← eparseSuffixed r n (some s) ts
          if b then FOut.ok (true, l, ts) else .err ⟨.operand neg r, hh⟩ l) = FOut.err (α := FRead) e l → l = some s := by
        intro neg hh ts h
        replace h := fbind_eq_err h
        rcases h with h | ⟨⟨f1, l1, r1⟩, h1, h⟩
        · exact ih.suffixed _ _ _ _ _ h
        · have g1 := g.suffixed r (some s) ts
          rw [h1] at g1
          obtain rfl := g1.kept
          simp only at h
          split at h <;> cases h
          rfl
      unfold eparsePrefixed at h
      split at h
      · exact key _ _ _ h
      · exact key _ _ _ h
      · exact ih.suffixed _ _ _ _ _ h
    · rw [eparseSuffixed] at h
      replace h := fbind_eq_err h
      rcases h with h | ⟨⟨f1, l1, r1⟩, h1, h⟩
      · exact ih.atom _ _ _ _ _ h
      · simp only at h
        split at h <;> cases h
    · unfold eparseAtom at h
      split at h
      · cases h
      · cases h
      · split at h
        · cases h; rfl
        · replace h := fbind_eq_err h
          rcases h with h | ⟨⟨f1, l1, r1⟩, h1, h⟩
          · exact ih.choice _ _ _ _ _ h
          · cases h
      · split at h <;> cases h
      · replace h := fbind_eq_err h
        rcases h with h | ⟨l1, h1, h⟩
        · exact eparseClass_err h
        · cases h
      · cases h

theorem eparseBlocks_keeps : ∀ n s ts, LeftKeeps s (eparseBlocks n (some s) ts) := by
  intro n
  induction n with
  | zero => intro s ts e l h; cases h
  | succ n ih =>
    intro s ts e l h
    unfold eparseBlocks at h
    split at h
    · cases h
    · generalize lsplitAttrs ts = y at h
      obtain ⟨ps, ts1⟩ := y
      simp only at h
      split at h
      · rename_i hl
        obtain ⟨name, hd, hd', l1, body, h3, h4, h5, h6, _⟩ := eparseRule_spec n (some s) (header_of_peek hl)
        obtain rfl := h6 rfl
        rw [h5] at h
        replace h := fbind_eq_err h
        rcases h with h | ⟨⟨f1, l1, r1⟩, h1, h⟩
        · exact (keeps_all n).choice _ _ _ _ _ h
        · have g1 := (read_ok_all n).choice name (some s) body
          rw [h1] at g1
          obtain rfl := g1.kept
          exact ih _ _ _ _ h
      · split at h
        · exact ih _ _ _ _ h
        · cases h; rfl

/-- If something was left aside before an error, there is an error there, or the error is the first one. -/
def LeftErr (r : String) (B : List Tok → List Tok → Prop) (ts : List LTok) (x : FOut FRead) : Prop :=
  ∀ e s, x = .err e (some s) → BadIn r (B · []) false ⟨.unexpected, s⟩ ts ∨ BadIn r (B · []) false e ts

theorem LeftErr.after {r : String} {B C : List Tok → List Tok → Prop} {pre ts : List LTok} {vs : List Tok} {x : FOut FRead} (h : LeftErr r B ts x)
    (hp : Trim false pre vs) (hB : ∀ us, B us [] → SameStart us (eraseAll ts) → C (vs ++ us) []) : LeftErr r C (pre ++ ts) x :=
  fun e s hx => (h e s hx).imp (·.after hp hB) (·.after hp hB)

theorem LeftErr.weaken {r : String} {B C : List Tok → List Tok → Prop} {ts : List LTok} {x : FOut FRead} (h : LeftErr r B ts x)
    (hB : ∀ us, B us [] → SameStart us (eraseAll ts) → C us []) : LeftErr r C ts x :=
  fun e s hx => (h e s hx).imp (·.weaken (fun h => h) hB) (·.weaken (fun h => h) hB)

/-- What is known of each function, for a depth. -/
structure LeftAt (n : Nat) : Prop where
  choice : ∀ r ts, LeftErr r isChoice ts (eparseChoice r n none ts)
  branches : ∀ r ts, LeftErr r isBranches ts (eparseBranches r n none ts)
  spanned : ∀ r ts, LeftErr r isSpanned ts (eparseSpanned r n none ts)
  seq : ∀ r ts, LeftErr r isSeq ts (eparseSeq r n none ts)
  elems : ∀ r ts, LeftErr r isElems ts (eparseTypeds r n none ts)
  typed : ∀ r ts, LeftErr r isElems ts (eparseTyped r n none ts)
  prefixed : ∀ r ts, LeftErr r isPrefixed ts (eparsePrefixed r n none ts)
  suffixed : ∀ r ts, LeftErr r isSuffixed ts (eparseSuffixed r n none ts)
  atom : ∀ r ts, LeftErr r isAtom ts (eparseAtom r n none ts)

theorem left_atom {n : Nat} (ih : LeftAt n) (r : String) (ts : List LTok) : LeftErr r isAtom ts (eparseAtom r (n + 1) none ts) := by
  intro e s hx
  unfold eparseAtom at hx
  split at hx
  · cases hx
  · cases hx
  · rename_i g h w ts
    split at hx
    · cases hx
    · replace hx := fbind_eq_err hx
      rcases hx with hx | ⟨⟨f1, l1, r1⟩, h1, hx⟩
      · have lift : ∀ e, BadIn r (isChoice · []) false e g → BadIn r (isAtom · []) false e (.paren g h w :: ts) := by
          rintro e ⟨rest, us, k1, ⟨x, k2⟩, k3⟩
          refine ⟨rest, [.paren us], ?_, ⟨x, .paren k2⟩, k3⟩
          simpa using Cut.paren (pre := []) (h := h) (w := w) (post := ts) Trim.nil k1
        exact (ih.choice r g e s hx).imp (lift _) (lift _)
      · cases hx
  · split at hx <;> cases hx
  · replace hx := fbind_eq_err hx
    rcases hx with hx | ⟨l1, h1, hx⟩
    · have := eparseClass_err hx; cases this
    · cases hx
  · cases hx

theorem left_all : ∀ n, LeftAt n := by
  intro n
  induction n with
  | zero =>
    constructor <;> intro r ts e s hx
    · rw [eparseChoice] at hx; cases hx
    · rw [eparseBranches] at hx; cases hx
    · rw [eparseSpanned] at hx; cases hx
    · rw [eparseSeq] at hx; cases hx
    · rw [eparseTypeds] at hx; cases hx
    · rw [eparseTyped] at hx; cases hx
    · rw [eparsePrefixed] at hx; cases hx
    · rw [eparseSuffixed] at hx; cases hx
    · rw [eparseAtom] at hx; cases hx
  | succ n ih =>
    have lv := leaves_all n
    refine ⟨?_, ?_, ?_, ?_, ?_, ?_, ?_, ?_, fun r ts => left_atom ih r ts⟩
    · intro r ts
      rw [eparseChoice]
      exact (ih.branches r ts).weaken fun us h _ => h.choice
    · intro r ts e s hx
      rw [eparseBranches] at hx
      replace hx := fbind_eq_err hx
      rcases hx with hx | ⟨⟨f1, l1, r1⟩, h1, hx⟩
      · exact (ih.spanned r ts).weaken (fun _ h _ => h.branches) e s hx
      · have hg := (read_ok_all n).spanned r none ts
        rw [h1] at hg
        obtain ⟨_, k2, k3⟩ := hg
        cases f1 with
        | false => exact (k2 rfl).2.2.elim
        | true =>
          obtain ⟨pre, us, _, rfl, k5, x, k6⟩ := k3 rfl
          have aside : l1 = some s → BadIn r (isBranches · []) false ⟨.unexpected, s⟩ (pre ++ r1) := by
            rintro rfl
            exact (lv.spanned r _ _ _ _ h1 r).weaken (fun h => h) fun _ h _ => h.branches
          simp only at hx
          rcases eparseAction_spec l1 r1 with ⟨p2, r2, rfl, g1, _⟩ | ⟨p2, r2, rfl, g1, g2⟩
          · rw [g1] at hx; cases hx; exact .inl (aside rfl)
          · rw [g1, fbind_ok] at hx
            obtain ⟨y, hy⟩ := g2 us x k6
            simp only at hx
            split at hx
            · rename_i j h w ts
              cases l1 with
              | some s1 => exact .inl (aside ((keeps_all n).branches _ _ _ _ _ hx).symm)
              | none =>
                have he : pre ++ (p2 ++ .leaf (.punct '/' j) h w :: ts) = (pre ++ p2 ++ [.leaf (.punct '/' j) h w]) ++ ts := by simp
                rw [he]
                refine (ih.branches r ts).after ((k5.append (trim_refl _ p2)).append (trim_leaf false (.punct '/' j) h w)) ?_ e s hx
                rintro vs ⟨xs, hv⟩ _
                exact ⟨_, by simpa using Branches.cons (j := j) hy hv⟩
            · cases hx
    · intro r ts
      unfold eparseSpanned
      split
      · rename_i h1 w1 h2 w2 j h3 w3 ts
        refine (ih.seq r ts).after (trim_refl false [.leaf (.punct '.' true) h1 w1, .leaf (.punct '.' true) h2 w2, .leaf (.punct '.' j) h3 w3]) ?_
        rintro us ⟨x, hx⟩ _
        exact ⟨_, by simpa using Spanned.range hx⟩
      · rename_i h1 w1 j h2 w2 ts hne
        refine (ih.seq r ts).after (trim_refl false [.leaf (.punct '.' true) h1 w1, .leaf (.punct '.' j) h2 w2]) ?_
        rintro us ⟨x, hx⟩ ha
        suffices h : j = true → startsDot us = false from ⟨_, by simpa using Spanned.span hx h⟩
        rintro rfl
        cases hs : startsDot us with
        | false => rfl
        | true =>
          obtain ⟨j', vs, he⟩ := startsDot_iff (ha.2.1 hs)
          obtain ⟨a, b, ws, rfl, _⟩ := eraseAll_leaf (l := .punct '.' j') he
          exact (hne _ _ _ _ rfl rfl).elim
      · rename_i h1 h2
        refine (ih.seq r ts).weaken ?_
        intro us h ha
        refine h.spanned ?_
        cases hs : startsDots us with
        | false => rfl
        | true =>
          obtain ⟨j', vs, he⟩ := startsDots_iff (ha.2.2 hs)
          obtain ⟨a, b, ws, rfl, he⟩ := eraseAll_leaf (l := .punct '.' true) he
          rw [eraseAll_cons] at he
          obtain ⟨a2, b2, ws, rfl, _⟩ := eraseAll_leaf (l := .punct '.' j') (List.cons.inj he).2
          exact (h2 _ _ _ _ _ _ rfl).elim
    · intro r ts e s hx
      rw [eparseSeq] at hx
      replace hx := fbind_eq_err hx
      rcases hx with hx | ⟨⟨f1, l1, r1⟩, h1, hx⟩
      · exact (ih.elems r ts).weaken (fun _ h _ => h.seq) e s hx
      · have hg := (read_ok_all n).elems r none ts
        rw [h1] at hg
        simp only at hx
        cases f1 with
        | true => cases hx
        | false => obtain ⟨rfl, _⟩ := hg.2.1 rfl; cases hx
    · intro r ts e s hx
      rw [eparseTypeds] at hx
      replace hx := fbind_eq_err hx
      rcases hx with hx | ⟨⟨f1, l1, r1⟩, h1, hx⟩
      · exact ih.typed r ts e s hx
      · have hg := (read_ok_all n).typed r none ts
        rw [h1] at hg
        obtain ⟨_, k2, k3⟩ := hg
        cases f1 with
        | false => cases hx
        | true =>
          simp only [if_true] at hx
          replace hx := fbind_eq_err hx
          rcases hx with hx | ⟨⟨f2, l2, r2⟩, h2, hx⟩
          · cases l1 with
            | some s1 =>
              have hs := (keeps_all n).elems _ _ _ _ _ hx
              cases hs
              exact .inl ((lv.typed r _ _ _ _ h1 r).weaken (fun h => h) fun _ h _ => h.elems)
            | none =>
              obtain ⟨pre, us, _, rfl, k5, x, b, k6, k7⟩ := k3 rfl
              refine (ih.elems r r1).after k5 ?_ e s hx
              rintro vs ⟨xs, hv⟩ ha
              refine ⟨_, .cons k6 hv fun hb => ?_⟩
              cases hs : startsParen vs with
              | false => rfl
              | true => have h9 := k7 hb; rw [ha.1 hs] at h9; cases h9
          · cases hx
    · intro r ts e s hx
      rw [eparseTyped] at hx
      replace hx := fbind_eq_err hx
      rcases hx with hx | ⟨⟨f1, l1, r1⟩, h1, hx⟩
      · exact (ih.prefixed r ts).weaken (fun _ h _ => h.typed.elems) e s hx
      · have hg := (read_ok_all n).prefixed r none ts
        rw [h1] at hg
        obtain ⟨_, k2, k3⟩ := hg
        simp only at hx
        replace hx := fbind_eq_err hx
        rcases hx with hx | ⟨⟨t, l2, r2⟩, h2, hx⟩
        · have hs := eparseType_err hx
          subst hs
          exact .inl ((lv.prefixed r _ _ _ _ h1 r).weaken (fun h => h) fun _ h _ => h.typed.elems)
        · have ht := eparseType_spec l1 r1
          rw [h2] at ht
          obtain ⟨_, _, g3⟩ := ht
          cases t with
          | false => cases hx
          | true =>
            cases f1 with
            | true => cases hx
            | false =>
              obtain ⟨rfl, rfl, _⟩ := k2 rfl
              simp only [if_true] at hx
              injection hx with hx _
              subst hx
              obtain ⟨j, h, w, tys, vs, ty, b, he, _, g5, _, g7, _⟩ := g3 rfl
              exact .inr (bad_here (lit_elems "" []) ⟨j, h, w, r2, tys, vs, ty, b, he, g7, g5⟩ rfl (by rintro q ⟨⟩; rfl))
    · have key : ∀ (r : String) (neg j : Bool) (h w : SrcSpan) (ts : List LTok),
          (∀ us, isSuffixed us [] → isPrefixed (.punct (if neg then '!' else '&') j :: us) []) → LeftErr r isPrefixed (.leaf (.punct (if neg then '!' else '&') j) h w :: ts) (do
          let (b, l, ts) ← eparseSuffixed r n none ts
          if b then FOut.ok (true, l, ts) else .err ⟨.operand neg r, h⟩ l) := by
        intro r neg j h w ts hp e s hx
        replace hx := fbind_eq_err hx
        rcases hx with hx | ⟨⟨f1, l1, r1⟩, h1, hx⟩
        · exact (ih.suffixed r ts).after (trim_leaf false (.punct (if neg then '!' else '&') j) h w) (fun us hu _ => hp us hu) e s hx
        · have hg := (read_ok_all n).suffixed r none ts
          rw [h1] at hg
          simp only at hx
          cases f1 with
          | true => cases hx
          | false => obtain ⟨rfl, _⟩ := hg.2.1 rfl; cases hx
      intro r ts
      unfold eparsePrefixed
      split
      · exact key r true _ _ _ _ fun us ⟨x, hx⟩ => ⟨_, .not hx⟩
      · exact key r false _ _ _ _ fun us ⟨x, hx⟩ => ⟨_, .and hx⟩
      · exact (ih.suffixed r ts).weaken fun _ h _ => h.prefixed
    · intro r ts e s hx
      rw [eparseSuffixed] at hx
      replace hx := fbind_eq_err hx
      rcases hx with hx | ⟨⟨f1, l1, r1⟩, h1, hx⟩
      · exact (ih.atom r ts).weaken (fun _ h _ => h.suffixed) e s hx
      · simp only at hx
        split at hx <;> cases hx

theorem blocks_left : ∀ n ts e s, eparseBlocks n none ts = .err e (some s) → FErr.About false ts ⟨.unexpected, s⟩ ∨ e.About false ts := by
  intro n
  induction n with
  | zero => intro ts e s h; cases h
  | succ n ih =>
    intro ts e s h
    unfold eparseBlocks at h
    split at h
    · cases h
    · obtain ⟨pre, h1, h2, h3⟩ := lsplitAttrs_spec ts
      generalize lsplitAttrs ts = x at h h1 h2 h3
      obtain ⟨as, ts1⟩ := x
      simp only at h h1 h2 h3
      subst h1
      split at h
      · rename_i hl
        obtain ⟨name, hd, hd', l1, body, rfl, _, h4, h5, h6, h7, h8⟩ := eparseRule_spec n none (header_of_peek hl)
        rw [h4] at h
        -- The tokens left in the header.
        have head : l1 = some s → FErr.About false (pre ++ (hd ++ body)) ⟨.unexpected, s⟩ := by
          intro hs
          obtain ⟨r2, i, k, k1, rfl, k2⟩ := h8 rfl _ hs
          refine ⟨r2, eraseAll pre ++ [.path [name], .punct ':' i, .paren [.punct '^' k]], k2.after (trim_refl _ _), k1, rfl, .inr ⟨rfl, ?_⟩⟩
          refine ⟨⟨[(name, .asc 0 (.str 0 "") .invisible)], [], as⟩, ?_, by simp⟩
          have := Blocks.typed (as := as) (name := name) (i := i) (j := false) (.invisible (j := k)) (lit_choice "") .nil
          rw [h2]
          simpa using this
        cases l1 with
        | some s1 =>
          refine .inl (head ?_)
          replace h := fbind_eq_err h
          rcases h with h | ⟨⟨f1, l2, rest⟩, hx, h⟩
          · exact ((keeps_all n).choice _ _ _ _ _ h).symm
          · have g1 := (read_ok_all n).choice name (some s1) body
            rw [hx] at g1
            obtain rfl := g1.kept
            exact (eparseBlocks_keeps n _ _ _ _ h).symm
        | none =>
          replace h := fbind_eq_err h
          rcases h with h | ⟨⟨f1, l2, rest⟩, hx, h⟩
          · exact ((left_all n).choice name body e s h).imp (·.about h2 h6 h7) (·.about h2 h6 h7)
          · cases l2 with
            | some s2 =>
              have hs := eparseBlocks_keeps n _ _ _ _ h
              cases hs
              exact .inl (((leaves_all n).choice name body _ _ _ hx name).about h2 h6 h7)
            | none =>
              have hg := (read_ok_all n).choice name none body
              rw [hx] at hg
              obtain ⟨_, g2, g3⟩ := hg
              cases f1 with
              | false => exact (g2 rfl).2.2.elim
              | true =>
                obtain ⟨p, us, _, rfl, g5, g6⟩ := g3 rfl
                obtain ⟨x, hxx⟩ := h7 us g6
                have hb : Before (eraseAll pre ++ (hd' ++ us)) := by
                  intro vs F hF
                  exact ⟨_, by rw [h2]; simpa using hxx as vs F hF, [(name, x)], rfl⟩
                have ht : Trim false (pre ++ (hd ++ p)) (eraseAll pre ++ (hd' ++ us)) := (trim_refl _ _).append (h6.append g5)
                have he : pre ++ (hd ++ (p ++ rest)) = pre ++ (hd ++ p) ++ rest := by simp
                rw [he]
                exact (ih rest e s h).imp (fun h => About.after h ht hb) (fun h => About.after h ht hb)
      · split at h
        · rename_i it a w ts _ _
          have hb : Before (eraseAll (pre ++ [.leaf (.item it) a w])) := by
            intro vs F hF
            refine ⟨⟨F.rules, it :: F.items, as ++ F.attrs⟩, ?_, [], rfl⟩
            rw [eraseAll_append, h2]
            simpa using Blocks.item (as := as) (it := it) hF
          have he : pre ++ .leaf (.item it) a w :: ts = (pre ++ [.leaf (.item it) a w]) ++ ts := by simp
          rw [he]
          exact (ih ts e s h).imp (fun h => About.after h (trim_refl _ _) hb) (fun h => About.after h (trim_refl _ _) hb)
        · cases h

end Oak
