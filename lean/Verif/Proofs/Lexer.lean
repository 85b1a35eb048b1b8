import Verif.Spec.Lexer
import Verif.Proofs.PrecedenceText
import Verif.Spec.Result
/-!
The rules of the tutorial for identifiers and keywords do what a scanner with a table does.
-/
set_option linter.constructorNameAsVariable false
set_option autoImplicit false

namespace Oak.Lexer
open Oak Spec Precedence

variable {G : Grammar} {X : ExtSpec} {T : Nat → Ty} {sp : SpanSpec} {p q b : Char → Bool} {kws : List (String × String)}

theorem call_fails {i r e s} (he : G.find r = some e) : Fails G X (.nt i r) s ↔ Fails G X e s := by
  constructor
  · rintro ⟨L, h⟩
    cases h with
    | nt_fail he' h => rw [he] at he'; cases he'; exact ⟨_, h⟩
  · rintro ⟨L, h⟩
    exact ⟨_, .nt_fail he h⟩

theorem matches_yields {e s r} : Matches G X e s r ↔ ∃ vs, Yields G X T sp e s r vs :=
  ⟨fun ⟨t, L, h⟩ => ⟨_, t, L, h, rfl⟩, fun ⟨_, h⟩ => h.matches⟩

theorem seq_nil_fails {i s} : ¬ Fails G X (.seq i []) s := by
  rintro ⟨L, h⟩; cases h

theorem seq_cons_fails {i e es s} : Fails G X (.seq i (e :: es)) s ↔ Fails G X e s ∨ ∃ s1, Matches G X e s s1 ∧ Fails G X (.seq i es) s1 := by
  rw [seq_fails_iff]
  simp only [seq_fails_iff (i := i) (es := es)]
  constructor
  · rintro ⟨before, x, after, s1, h1, h2, h3⟩
    cases before with
    | nil => cases h1; cases h2; exact .inl h3
    | cons y ys =>
      cases h1
      cases h2 with
      | cons h4 h5 => exact .inr ⟨_, h4, _, _, _, _, rfl, h5, h3⟩
  · rintro (h | ⟨s1, h1, before, x, after, s2, rfl, h3, h4⟩)
    · exact ⟨[], e, es, s, rfl, .nil, h⟩
    · exact ⟨e :: before, x, after, s2, rfl, .cons h1 h3, h4⟩

theorem str_fails {i l s} : Fails G X (.str i l) s ↔ ¬ ∃ m, s = l.toList ++ m := by
  constructor
  · rintro ⟨L, h⟩ ⟨m, hm⟩
    cases h with
    | str_fail h => exact h ⟨m, hm.symm⟩
  · intro h
    exact ⟨_, .str_fail fun ⟨m, hm⟩ => h ⟨m, hm.symm⟩⟩

theorem act_fails {i e b' f s} : Fails G X (.act i e b' f) s ↔ Fails G X e s := by
  constructor
  · rintro ⟨L, h⟩; cases h with | act_fail h => exact ⟨_, h⟩
  · rintro ⟨L, h⟩; exact ⟨_, .act_fail h⟩

theorem asc_fails {i e t s} : Fails G X (.asc i e t) s ↔ Fails G X e s := by
  constructor
  · rintro ⟨L, h⟩; cases h with | asc_fail h => exact ⟨_, h⟩
  · rintro ⟨L, h⟩; exact ⟨_, .asc_fail h⟩

/-! ## Runs of characters -/

theorem ends_iff {s : List Char} : Ends p s ↔ s.takeWhile p = [] := by
  cases s with
  | nil => simp [Ends]
  | cons c s => cases h : p c <;> simp [Ends, h]

theorem run_iff {s w r : List Char} : (∀ c ∈ w, p c = true) ∧ s = w ++ r ∧ Ends p r ↔ w = s.takeWhile p ∧ r = s.dropWhile p := by
  constructor
  · rintro ⟨h1, rfl, h2⟩
    induction w with
    | nil =>
      cases r with
      | nil => simp
      | cons c r =>
        have h2 : p c = false := h2
        simp [h2]
    | cons c w ih =>
      obtain ⟨h3, h4⟩ := ih fun x hx => h1 x (List.mem_cons_of_mem _ hx)
      have hc := h1 c List.mem_cons_self
      simp only [List.cons_append, List.takeWhile_cons, List.dropWhile_cons, hc, if_true]
      exact ⟨congrArg (c :: ·) h3, h4⟩
  · rintro ⟨rfl, rfl⟩
    refine ⟨fun c hc => ?_, (List.takeWhile_append_dropWhile).symm, ?_⟩
    · induction s with
      | nil => cases hc
      | cons x s ih =>
        rw [List.takeWhile_cons] at hc
        split at hc
        · rcases List.mem_cons.1 hc with rfl | hc
          · assumption
          · exact ih hc
        · cases hc
    · induction s with
      | nil => trivial
      | cons x s ih =>
        rw [List.dropWhile_cons]
        split
        · exact ih
        · rename_i h
          show p x = false
          simpa using h

/-- Repeating an expression that reads one character of a class. -/
theorem many_one {e : Expr} {v : Char → List Val} (he : ∀ s r vs, Yields G X T sp e s r vs ↔ ∃ c, s = c :: r ∧ p c = true ∧ vs = v c) {s r ws} :
    YieldsMany G X T sp e s r ws ↔ ∃ w, (∀ c ∈ w, p c = true) ∧ s = w ++ r ∧ ws = w.map fun c => tupleVal (v c) := by
  constructor
  · intro h
    induction h with
    | nil => exact ⟨[], by simp, rfl, rfl⟩
    | cons h1 _ ih =>
      obtain ⟨w, h3, rfl, rfl⟩ := ih
      obtain ⟨c, rfl, hc, rfl⟩ := (he _ _ _).1 h1
      refine ⟨c :: w, fun x hx => ?_, rfl, rfl⟩
      rcases List.mem_cons.1 hx with rfl | hx
      · exact hc
      · exact h3 x hx
  · rintro ⟨w, hw, rfl, rfl⟩
    induction w with
    | nil => exact .nil
    | cons c w ih =>
      refine .cons (vs := v c) (s1 := w ++ r) ((he _ _ _).2 ⟨c, rfl, hw c List.mem_cons_self, rfl⟩) ?_
      exact ih fun x hx => hw x (List.mem_cons_of_mem _ hx)

theorem class_yields {e : Expr} (h : IsClass p e) (s r vs) : Yields G X T sp e s r vs ↔ ∃ c, s = c :: r ∧ p c = true ∧ vs = if T e.id = .unit then [] else [.chr c] := by
  obtain ⟨i, ivs, rfl, hi⟩ := h
  rw [yields_cls]
  simp only [hi]
  exact Iff.rfl

theorem class_fails {e : Expr} (h : IsClass p e) {s} : Fails G X e s ↔ Ends p s := by
  obtain ⟨i, ivs, rfl, hi⟩ := h
  exact cls_fails_iff hi

/-! ## The rules -/

variable (R : Rules G T p q b kws)
include R

theorem spacing_yields {i s r vs} : Yields G X T sp (.nt i "spacing") s r vs ↔ r = s.dropWhile b ∧ vs = [] := by
  obtain ⟨a, c, e, he, hc, ha⟩ := R.spacing
  simp only [yields_nt he, yields_asc, yields_star, many_one (G := G) (X := X) (T := T) (sp := sp) (class_yields hc), class_fails hc, ha, if_true]
  constructor
  · rintro ⟨ws, ⟨_, ⟨_, ⟨⟨w, h1, h2, rfl⟩, h3⟩, rfl⟩, rfl⟩, h⟩
    exact ⟨(run_iff.1 ⟨h1, h2, h3⟩).2, by split at h <;> exact h⟩
  · rintro ⟨rfl, rfl⟩
    obtain ⟨h1, h2, h3⟩ := (run_iff (p := b) (s := s)).2 ⟨rfl, rfl⟩
    exact ⟨[], ⟨_, ⟨_, ⟨⟨_, h1, h2, rfl⟩, h3⟩, rfl⟩, rfl⟩, by split <;> rfl⟩

theorem spacing_never_fails {i s} : ¬ Fails G X (.nt i "spacing") s := by
  obtain ⟨a, c, e, he, _⟩ := R.spacing
  rw [call_fails he, asc_fails]
  exact star_not_fails

theorem char_fails {i s} : Fails G X (.nt i "ident_char") s ↔ Ends p s := by
  obtain ⟨e, he, hc, _⟩ := R.ident_char
  rw [call_fails he, class_fails hc]

theorem digit_fails {i s} : Fails G X (.nt i "digit") s ↔ Ends q s := by
  obtain ⟨e, he, hc⟩ := R.digit
  rw [call_fails he, class_fails hc]

theorem tail_yields {i s r vs} : Yields G X T sp (.nt i "kw_tail") s r vs ↔ Ends p s ∧ r = s.dropWhile b ∧ vs = [] := by
  obtain ⟨a, c, d, e, he⟩ := R.kw_tail
  simp only [yields_nt he, yields_seq, YieldsSeq, yields_not, spacing_yields R, char_fails R]
  constructor
  · rintro ⟨ws, ⟨_, ⟨s1, _, _, ⟨rfl, rfl, h1⟩, ⟨_, _, _, ⟨rfl, rfl⟩, ⟨rfl, rfl⟩, rfl⟩, rfl⟩, h⟩, h'⟩
    refine ⟨h1, rfl, ?_⟩
    simp only [List.append_nil, ite_self] at h
    subst h
    simpa using h'
  · rintro ⟨h1, rfl, rfl⟩
    exact ⟨[], ⟨[], ⟨s, [], [], ⟨rfl, rfl, h1⟩, ⟨_, [], [], ⟨rfl, rfl⟩, ⟨rfl, rfl⟩, rfl⟩, rfl⟩, by simp⟩, by simp⟩

theorem tail_fails {i s} : Fails G X (.nt i "kw_tail") s ↔ ¬ Ends p s := by
  obtain ⟨a, c, d, e, he⟩ := R.kw_tail
  rw [call_fails he, seq_cons_fails, not_fails_iff]
  obtain ⟨e', he', hc, _⟩ := R.ident_char
  constructor
  · rintro (⟨s', h⟩ | ⟨s1, _, h⟩)
    · obtain ⟨vs, h⟩ := (matches_yields (T := T) (sp := strSpans [])).1 h
      obtain ⟨ws, h, _⟩ := (yields_nt he').1 h
      obtain ⟨x, rfl, hx, _⟩ := (class_yields hc _ _ _).1 h
      intro h
      have h : p x = false := h
      rw [hx] at h
      cases h
    · rw [seq_cons_fails] at h
      rcases h with h | ⟨_, _, h⟩
      · exact absurd h (spacing_never_fails R)
      · exact absurd h seq_nil_fails
  · intro h
    cases s with
    | nil => exact absurd trivial h
    | cons x s =>
      refine .inl ⟨s, (matches_yields (T := T) (sp := strSpans [])).2 ⟨_, (yields_nt he').2 ⟨_, (class_yields hc _ _ _).2 ⟨x, rfl, ?_, rfl⟩, rfl⟩⟩⟩
      cases hx : p x with
      | true => rfl
      | false => exact absurd hx h

theorem kw_text {k} (hk : k ∈ kws) {s m : List Char} : s = k.2.toList ++ m ∧ Ends p m ↔ s.takeWhile p = k.2.toList ∧ m = s.dropWhile p := by
  have h := run_iff (p := p) (s := s) (w := k.2.toList) (r := m)
  have hw := (R.words k hk).2
  constructor
  · rintro ⟨h1, h2⟩
    obtain ⟨h3, h4⟩ := h.1 ⟨hw, h1, h2⟩
    exact ⟨h3.symm, h4⟩
  · rintro ⟨h1, h2⟩
    exact (h.2 ⟨h1.symm, h2⟩).2

/-- A rule of a keyword. -/
theorem kw_yields {k} (hk : k ∈ kws) {i s r vs} : Yields G X T sp (.nt i k.1) s r vs ↔ s.takeWhile p = k.2.toList ∧ r = (s.dropWhile p).dropWhile b ∧ vs = [] := by
  obtain ⟨a, c, d, he⟩ := R.each k hk
  simp only [yields_nt he, yields_seq, YieldsSeq, yields_str, tail_yields R]
  constructor
  · rintro ⟨ws, ⟨_, ⟨s1, _, _, ⟨h1, rfl⟩, ⟨_, _, _, ⟨h2, rfl, rfl⟩, ⟨rfl, rfl⟩, rfl⟩, rfl⟩, h⟩, h'⟩
    simp only [List.append_nil, ite_self] at h
    subst h
    obtain ⟨h3, rfl⟩ := (kw_text R hk).1 ⟨h1, h2⟩
    exact ⟨h3, rfl, by simpa using h'⟩
  · rintro ⟨h1, rfl, rfl⟩
    obtain ⟨h2, h3⟩ := (kw_text R hk).2 ⟨h1, rfl⟩
    exact ⟨[], ⟨[], ⟨_, [], [], ⟨h2, rfl⟩, ⟨_, [], [], ⟨h3, rfl, rfl⟩, ⟨rfl, rfl⟩, rfl⟩, rfl⟩, by simp⟩, by simp⟩

theorem kw_fails {k} (hk : k ∈ kws) {i s} : Fails G X (.nt i k.1) s ↔ s.takeWhile p ≠ k.2.toList := by
  obtain ⟨a, c, d, he⟩ := R.each k hk
  rw [call_fails he, seq_cons_fails, str_fails]
  simp only [seq_cons_fails, tail_fails R, seq_nil_fails, and_false, exists_false, or_false]
  constructor
  · rintro (h | ⟨s1, h1, h2⟩) h3
    · exact h ⟨_, ((kw_text R hk).2 ⟨h3, rfl⟩).1⟩
    · obtain ⟨vs, h1⟩ := (matches_yields (T := T) (sp := strSpans [])).1 h1
      obtain ⟨h1, _⟩ := yields_str.1 h1
      obtain ⟨h4, h5⟩ := (kw_text R hk).2 ⟨h3, rfl⟩
      have : s1 = s.dropWhile p := List.append_cancel_left (h1.symm.trans h4)
      rw [this] at h2
      exact h2 h5
  · intro h
    by_cases hm : ∃ m, s = k.2.toList ++ m
    · obtain ⟨m, hm⟩ := hm
      refine .inr ⟨m, (matches_yields (T := T) (sp := strSpans [])).2 ⟨_, yields_str.2 ⟨hm, rfl⟩⟩, fun h2 => ?_⟩
      exact h ((kw_text R hk).1 ⟨hm, h2⟩).1
    · exact .inl hm

theorem keyword_fails {i s} : Fails G X (.nt i "keyword") s ↔ s.takeWhile p ∉ kws.map (·.2.toList) := by
  obtain ⟨a, es, he, h1, h2⟩ := R.keyword
  rw [call_fails he, choice_fails_iff, List.mem_map]
  constructor
  · rintro h ⟨k, hk, hs⟩
    obtain ⟨j, hj⟩ := h2 k hk
    exact (kw_fails R hk).1 (h _ hj) hs.symm
  · intro h e hm
    obtain ⟨j, k, hk, rfl⟩ := h1 e hm
    exact (kw_fails R hk).2 fun hs => h ⟨k, hk, hs.symm⟩

theorem keyword_matches {i s} (h : s.takeWhile p ∈ kws.map (·.2.toList)) : ∃ s', Matches G X (.nt i "keyword") s s' := by
  obtain ⟨a, es, he, h1, h2⟩ := R.keyword
  obtain ⟨k, hk, hs⟩ := List.mem_map.1 h
  obtain ⟨j, hj⟩ := h2 k hk
  have key : ∀ es : List Expr, (∀ e ∈ es, ∃ i k, k ∈ kws ∧ e = .nt i k.1) → .nt j k.1 ∈ es → ∃ r vs, YieldsAlt G X T (strSpans []) es s r vs := by
    intro es
    induction es with
    | nil => intro _ h; cases h
    | cons e es ih =>
      intro h1 hj
      obtain ⟨j', k', hk', rfl⟩ := h1 _ List.mem_cons_self
      by_cases hs' : s.takeWhile p = k'.2.toList
      · exact ⟨_, _, .inl ((kw_yields R hk').2 ⟨hs', rfl, rfl⟩)⟩
      · rcases List.mem_cons.1 hj with hj | hj
        · exfalso
          injection hj with _ hj
          obtain ⟨a1, b1, c1, f1⟩ := R.each k hk
          obtain ⟨a2, b2, c2, f2⟩ := R.each k' hk'
          rw [← hj, f1] at f2
          injection f2 with f2
          injection f2 with _ f2
          injection f2 with f2 _
          injection f2 with _ f2
          exact hs' (by rw [← hs, f2])
        · obtain ⟨r, vs, h⟩ := ih (fun e he => h1 e (List.mem_cons_of_mem _ he)) hj
          exact ⟨r, vs, .inr ⟨(kw_fails R hk').2 hs', h⟩⟩
  obtain ⟨r, vs, h⟩ := key es h1 hj
  exact ⟨r, (matches_yields (T := T) (sp := strSpans [])).2 ⟨_, (yields_nt he).2 ⟨_, yields_choice.2 ⟨vs, h, rfl⟩, rfl⟩⟩⟩

omit R in
theorem scan_keyword {s w r} : scan p q b (kws.map (·.2.toList)) s = some (.keyword w, r) ↔ w = s.takeWhile p ∧ w ∈ kws.map (·.2.toList) ∧ r = (s.dropWhile p).dropWhile b := by
  simp only [scan]
  constructor
  · intro h
    split at h
    · rename_i h1
      cases h
      exact ⟨rfl, h1, rfl⟩
    · split at h
      · cases h
      · split at h <;> cases h
  · rintro ⟨rfl, h, rfl⟩
    rw [if_pos h]

omit R in
theorem scan_name {s w r} : scan p q b (kws.map (·.2.toList)) s = some (.name w, r) ↔
    w = s.takeWhile p ∧ w ∉ kws.map (·.2.toList) ∧ w ≠ [] ∧ Ends q s ∧ r = (s.dropWhile p).dropWhile b := by
  simp only [scan]
  cases s with
  | nil =>
    simp only [List.takeWhile_nil, List.dropWhile_nil]
    constructor
    · intro h
      by_cases hm : [] ∈ kws.map (·.2.toList)
      · simp [hm] at h
      · simp [hm] at h
    · rintro ⟨rfl, _, h, _⟩
      exact absurd rfl h
  | cons c s =>
    cases hc : p c with
    | false =>
      simp only [List.takeWhile_cons, hc, Bool.false_eq_true, if_false]
      constructor
      · intro h
        by_cases hm : [] ∈ kws.map (·.2.toList)
        · rw [if_pos hm] at h; cases h
        · rw [if_neg hm] at h; cases h
      · rintro ⟨rfl, _, h, _⟩
        exact absurd rfl h
    | true =>
      simp only [List.takeWhile_cons, List.dropWhile_cons, hc, if_true]
      constructor
      · intro h
        split at h
        · cases h
        · rename_i h1
          split at h
          · cases h
          · rename_i h2
            cases h
            exact ⟨rfl, h1, List.cons_ne_nil _ _, by simpa [Ends] using h2, rfl⟩
      · rintro ⟨rfl, h1, _, h2, rfl⟩
        rw [if_neg h1]
        have h2 : q c = false := h2
        simp [h2]

theorem identifier_yields {i s r vs} (hi : T i ≠ .unit) : Yields G X T sp (.nt i "identifier") s r vs ↔
    ∃ w, scan p q b (kws.map (·.2.toList)) s = some (.name w, r) ∧ vs = [.app ["to_string"] [.list (w.map .chr)]] := by
  obtain ⟨a, b', c, d, e, f, g, h, i', he, hT⟩ := R.identifier
  have ha := hT a (by simp); have hb := hT b' (by simp); have hg := hT g (by simp); have hh := hT h (by simp)
  obtain ⟨ce, hce, hcc, hcT⟩ := R.ident_char
  have hone : ∀ s r vs, Yields G X T sp (.nt h "ident_char") s r vs ↔ ∃ c, s = c :: r ∧ p c = true ∧ vs = [Val.chr c] := by
    intro s r vs
    simp only [yields_nt hce, class_yields hcc, if_neg hcT, if_neg hh]
    constructor
    · rintro ⟨_, ⟨x, rfl, hx, rfl⟩, rfl⟩; exact ⟨x, rfl, hx, rfl⟩
    · rintro ⟨x, rfl, hx, rfl⟩; exact ⟨_, ⟨x, rfl, hx, rfl⟩, rfl⟩
  simp only [yields_nt he, yields_act (show isVariant ["to_string"] = false by decide), yields_seq, YieldsSeq, yields_not, yields_plus, many_one hone, spacing_yields R,
    char_fails R, digit_fails R, keyword_fails R, scan_name, if_neg ha, if_neg hb, if_neg hg, if_neg hi, tupleVal]
  constructor
  · rintro ⟨_, ⟨_, ⟨_, ⟨s1, _, _, ⟨rfl, rfl, h1⟩, ⟨s2, _, _, ⟨rfl, rfl, h2⟩, ⟨s3, _, _, ⟨_, ⟨⟨w, h3, h4, rfl⟩, h5, h6⟩, rfl⟩, ⟨_, _, _, ⟨rfl, rfl⟩, ⟨rfl, rfl⟩, rfl⟩, rfl⟩, rfl⟩, rfl⟩, rfl⟩, rfl⟩, rfl⟩
    obtain ⟨h7, h8⟩ := run_iff.1 ⟨h3, h4, h6⟩
    subst h8
    refine ⟨w, ⟨h7, h7 ▸ h2, fun h => h5 (by rw [h]; rfl), h1, rfl⟩, ?_⟩
    simp
  · rintro ⟨w, ⟨h7, h2, h5, h1, rfl⟩, rfl⟩
    obtain ⟨h3, h4, h6⟩ := run_iff.2 ⟨h7, (rfl : s.dropWhile p = _)⟩
    exact ⟨_, ⟨_, ⟨_, ⟨s, [], _, ⟨rfl, rfl, h1⟩, ⟨s, [], _, ⟨rfl, rfl, h7 ▸ h2⟩, ⟨_, _, _, ⟨_, ⟨⟨w, h3, h4, rfl⟩, fun h => h5 (List.map_eq_nil_iff.1 h), h6⟩, rfl⟩,
      ⟨_, [], [], ⟨rfl, rfl⟩, ⟨rfl, rfl⟩, rfl⟩, rfl⟩, rfl⟩, rfl⟩, rfl⟩, rfl⟩, by simp⟩

theorem identifier_fails {i s} : Fails G X (.nt i "identifier") s ↔ ∀ w r, scan p q b (kws.map (·.2.toList)) s ≠ some (.name w, r) := by
  obtain ⟨a, b', c, d, e, f, g, h, i', he, hT⟩ := R.identifier
  have key : Fails G X (.nt i "identifier") s ↔ ¬ Ends q s ∨ s.takeWhile p ∈ kws.map (·.2.toList) ∨ Ends p s := by
    rw [call_fails he, act_fails]
    simp only [seq_cons_fails, seq_nil_fails, and_false, exists_false, or_false, spacing_never_fails R, not_matches_iff, not_fails_iff, plus_fails_iff, char_fails R]
    constructor
    · rintro (⟨s', h1⟩ | ⟨_, ⟨rfl, h1⟩, ⟨s', h2⟩ | ⟨_, ⟨rfl, h2⟩, h3⟩⟩)
      · refine .inl fun h2 => ?_
        obtain ⟨de, hde, hdc⟩ := R.digit
        obtain ⟨vs, h1⟩ := (matches_yields (T := T) (sp := strSpans [])).1 h1
        obtain ⟨ws, h1, _⟩ := (yields_nt hde).1 h1
        obtain ⟨x, rfl, hx, _⟩ := (class_yields hdc _ _ _).1 h1
        have h2 : q x = false := h2
        rw [hx] at h2
        cases h2
      · refine .inr (.inl ?_)
        obtain ⟨ka, es, hk, hk1, hk2⟩ := R.keyword
        obtain ⟨vs, h2⟩ := (matches_yields (T := T) (sp := strSpans [])).1 h2
        obtain ⟨us, h2', _⟩ := (yields_nt hk).1 h2
        obtain ⟨ws, h2, _⟩ := yields_choice.1 h2'
        clear hk2 hk h2'
        induction es with
        | nil => exact h2.elim
        | cons x es ih =>
          rcases h2 with h2 | ⟨_, h2⟩
          · obtain ⟨j, k, hkk, rfl⟩ := hk1 _ List.mem_cons_self
            exact List.mem_map.2 ⟨k, hkk, ((kw_yields R hkk).1 h2).1.symm⟩
          · exact ih (fun e he => hk1 e (List.mem_cons_of_mem _ he)) h2
      · exact .inr (.inr h3)
    · intro hor
      by_cases h1 : Ends q s
      · refine .inr ⟨s, ⟨rfl, (digit_fails R).2 h1⟩, ?_⟩
        by_cases h2 : s.takeWhile p ∈ kws.map (·.2.toList)
        · exact .inl (keyword_matches R h2)
        · refine .inr ⟨s, ⟨rfl, (keyword_fails R).2 h2⟩, ?_⟩
          rcases hor with h | h | h
          · exact absurd h1 h
          · exact absurd h h2
          · exact h
      · refine .inl ?_
        obtain ⟨de, hde, hdc⟩ := R.digit
        cases s with
        | nil => exact absurd trivial h1
        | cons x s =>
          refine ⟨s, (matches_yields (T := T) (sp := strSpans [])).2 ⟨_, (yields_nt hde).2 ⟨_, (class_yields hdc _ _ _).2 ⟨x, rfl, ?_, rfl⟩, rfl⟩⟩⟩
          cases hx : q x with
          | true => rfl
          | false => exact absurd hx h1
  rw [key]
  simp only [ne_eq, scan_name]
  constructor
  · rintro h w r ⟨rfl, h2, h3, h4, _⟩
    rcases h with h | h | h
    · exact h h4
    · exact h2 h
    · exact h3 (ends_iff.1 h)
  · intro h
    by_cases h1 : Ends q s
    · by_cases h2 : s.takeWhile p ∈ kws.map (·.2.toList)
      · exact .inr (.inl h2)
      · refine .inr (.inr (ends_iff.2 ?_))
        cases hw : s.takeWhile p with
        | nil => rfl
        | cons c w => exact absurd ⟨hw ▸ rfl, by rwa [hw] at h2, List.cons_ne_nil _ _, h1, rfl⟩ (h (c :: w) _)
    · exact .inl h1

end Oak.Lexer
