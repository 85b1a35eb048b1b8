import Verif.Properties.Checked
import Verif.Properties.Corpus
import Verif.Proofs.Combinators
/-!
Rules of combinators.rs, of the test-suite, on every text: C76.
-/
set_option linter.constructorNameAsVariable false
set_option autoImplicit false

namespace Oak
open Spec

/-- The functions that the macro generates for tests/grammars/combinators.rs. -/
def CombinatorsCode (fs : List (FnRef × Fn)) : Prop := ∃ ms us A T, oak 100 Corpus.combinatorsGrammar = .ok (.code ms us A T fs)

theorem combinators_deployed {fs} (h : CombinatorsCode fs) :
    ∃ T, (∀ i, i < 99 → (T i = .unit ↔ i ∈ Numerals.combinatorsUnits)) ∧ ∀ ptr s, Deployed Numerals.combinatorsG T fs noFns noExt ptr s := by
  obtain ⟨ms, us, A, T, ho⟩ := h
  obtain ⟨ms', us', A', T', fs', ho', h1, _⟩ := verdict_code Corpus.combinators_verdict
  rw [ho] at ho'; cases ho'
  simp only [Bool.and_eq_true] at h1
  obtain ⟨hG, hT⟩ := Corpus.shape_read Corpus.combinators_shape ho
  exact ⟨T, hT, fun ptr s => hG ▸ (C47_checked_generated ho h1.1.1 h1.1.2 h1.2).deployed ptr s⟩

/-- C76: the grammar combinators.rs is accepted. -/
theorem C76_accepted : ∃ fs, CombinatorsCode fs := by
  obtain ⟨ms, us, A, T, fs, ho, _⟩ := verdict_code Corpus.combinators_verdict
  exact ⟨fs, ms, us, A, T, ho⟩

/-- C76: `predicate` fully matches exactly the texts that start with `a` and have no `b`, or start with `b` and have no `a`; the data is the list of their characters. -/
theorem C76_predicate {fs} (h : CombinatorsCode fs) (p : Bool) (ptr : Nat) (s : List Char) (v : Val) :
    Returns noFns fs p "predicate" ptr s (.success v) ↔
      ((s.head? = some 'a' ∧ 'b' ∉ s) ∨ (s.head? = some 'b' ∧ 'a' ∉ s)) ∧ v = if p then .list (s.map .chr) else .tup [] := by
  obtain ⟨T, H, d⟩ := combinators_deployed h
  rw [(d ptr s).returns_iff (show Numerals.combinatorsG.find "predicate" = some Numerals.predicateBody from rfl)]
  have hdet : ExtSpec.Det noExt := fun _ _ _ _ _ _ h => h.elim
  have hdrop : ∀ (y : Char) (l : List Char), l.dropWhile (fun c => decide (c ≠ y)) = [] ↔ y ∉ l := by
    intro y l
    induction l with
    | nil => simp
    | cons c l ih =>
      by_cases hc : c = y
      · subst hc; rw [List.dropWhile_cons_of_neg (by simp)]; simp
      · rw [List.dropWhile_cons_of_pos (by simpa using hc), ih]; simp [Ne.symm hc]
  have htake : ∀ (y : Char) (l : List Char), y ∉ l → l.takeWhile (fun c => decide (c ≠ y)) = l := by
    intro y l hl
    have h1 := List.takeWhile_append_dropWhile (p := fun c => decide (c ≠ y)) (l := l)
    rw [(hdrop y l).2 hl, List.append_nil] at h1
    exact h1
  rcases Numerals.predicate_peg H (sp := strSpans s) s with ⟨x, y, hxy, hx, t, L, hp, ha⟩ | ⟨h1, h2, L, hp⟩
  · have hcond : ((s.head? = some 'a' ∧ 'b' ∉ s) ∨ (s.head? = some 'b' ∧ 'a' ∉ s)) ↔ y ∉ s := by
      rcases hxy with ⟨rfl, rfl⟩ | ⟨rfl, rfl⟩ <;> simp [hx]
    rw [hcond]
    constructor
    · rintro ⟨o, L', hp', hres⟩
      obtain ⟨rfl, rfl⟩ := hp.det hdet hp'
      simp only [expectedResult] at hres
      split at hres
      · rename_i hs
        have hy := (hdrop y s).1 hs
        refine ⟨hy, ?_⟩
        cases hres
        cases p
        · rfl
        · simp only [if_true, ha, tupleVal, htake y s hy]
      · cases hres
    · rintro ⟨hy, rfl⟩
      refine ⟨_, L, hp, ?_⟩
      rw [(hdrop y s).2 hy] at *
      cases p
      · rfl
      · simp only [expectedResult, if_true, ha, tupleVal, htake y s hy]
  · constructor
    · rintro ⟨o, L', hp', hres⟩
      obtain ⟨rfl, rfl⟩ := hp.det hdet hp'
      cases hres
    · rintro ⟨⟨h, _⟩ | ⟨h, _⟩, _⟩
      · exact absurd h h1
      · exact absurd h h2

/-- C76: `predicate` fails exactly on the texts that start neither with `a` nor with `b`. -/
theorem C76_predicate_fails {fs} (h : CombinatorsCode fs) (p : Bool) (ptr : Nat) (s : List Char) :
    (∃ far exp, Returns noFns fs p "predicate" ptr s (.failure far exp)) ↔ s.head? ≠ some 'a' ∧ s.head? ≠ some 'b' := by
  obtain ⟨T, H, d⟩ := combinators_deployed h
  simp only [(d ptr s).returns_iff (show Numerals.combinatorsG.find "predicate" = some Numerals.predicateBody from rfl)]
  have hdet : ExtSpec.Det noExt := fun _ _ _ _ _ _ h => h.elim
  rcases Numerals.predicate_peg H (sp := strSpans s) s with ⟨x, y, hxy, hx, t, L, hp, ha⟩ | ⟨h1, h2, L, hp⟩
  · constructor
    · rintro ⟨far, exp, o, L', hp', hres⟩
      obtain ⟨rfl, rfl⟩ := hp.det hdet hp'
      simp only [expectedResult] at hres
      split at hres <;> cases hres
    · rintro ⟨h1, h2⟩
      rcases hxy with ⟨rfl, rfl⟩ | ⟨rfl, rfl⟩
      · exact absurd hx h1
      · exact absurd hx h2
  · exact ⟨fun _ => ⟨h1, h2⟩, fun _ => ⟨_, _, _, L, hp, rfl⟩⟩

/-- C76: `predicate` matches in part exactly the texts that start with `a` and have a `b` (the data is the list of the characters before it), and those with `a` and `b` exchanged. -/
theorem C76_predicate_rest {fs} (h : CombinatorsCode fs) (p : Bool) (ptr : Nat) (s : List Char) (v : Val) :
    (∃ far exp, Returns noFns fs p "predicate" ptr s (.part v far exp)) ↔
      ∃ x y w r, ((x = 'a' ∧ y = 'b') ∨ (x = 'b' ∧ y = 'a')) ∧ s = x :: w ++ y :: r ∧ y ∉ w ∧ v = if p then .list ((x :: w).map .chr) else .tup [] := by
  obtain ⟨T, H, d⟩ := combinators_deployed h
  simp only [(d ptr s).returns_iff (show Numerals.combinatorsG.find "predicate" = some Numerals.predicateBody from rfl)]
  have hdet : ExtSpec.Det noExt := fun _ _ _ _ _ _ h => h.elim
  have hcut : ∀ (y : Char) (w r : List Char), y ∉ w → (w ++ y :: r).takeWhile (fun c => decide (c ≠ y)) = w ∧ (w ++ y :: r).dropWhile (fun c => decide (c ≠ y)) = y :: r := by
    intro y w r
    induction w with
    | nil => intro _; exact ⟨List.takeWhile_cons_of_neg (by simp), List.dropWhile_cons_of_neg (by simp)⟩
    | cons c w ih =>
      intro hy
      simp only [List.mem_cons, not_or] at hy
      obtain ⟨h1, h2⟩ := ih hy.2
      rw [List.cons_append, List.takeWhile_cons_of_pos (by simpa using Ne.symm hy.1), List.dropWhile_cons_of_pos (by simpa using Ne.symm hy.1), h1, h2]
      exact ⟨rfl, rfl⟩
  have hcut' : ∀ (y : Char) (l : List Char), l.dropWhile (fun c => decide (c ≠ y)) ≠ [] →
      ∃ w r, l = w ++ y :: r ∧ y ∉ w ∧ l.takeWhile (fun c => decide (c ≠ y)) = w := by
    intro y l
    induction l with
    | nil => intro h; exact absurd rfl h
    | cons c l ih =>
      intro h
      by_cases hc : c = y
      · subst hc; exact ⟨[], l, rfl, by simp, List.takeWhile_cons_of_neg (by simp)⟩
      · rw [List.dropWhile_cons_of_pos (by simpa using hc)] at h
        obtain ⟨w, r, h1, h2, h3⟩ := ih h
        refine ⟨c :: w, r, by rw [h1]; rfl, ?_, ?_⟩
        · simpa only [List.mem_cons, not_or] using ⟨Ne.symm hc, h2⟩
        · rw [List.takeWhile_cons_of_pos (by simpa using hc), h3]
  rcases Numerals.predicate_peg H (sp := strSpans s) s with ⟨x, y, hxy, hx, t, L, hp, ha⟩ | ⟨h1, h2, L, hp⟩
  · constructor
    · rintro ⟨far, exp, o, L', hp', hres⟩
      obtain ⟨rfl, rfl⟩ := hp.det hdet hp'
      simp only [expectedResult] at hres
      split at hres
      · cases hres
      · rename_i hs
        obtain ⟨w, r, hw, hy, htw⟩ := hcut' y s hs
        cases w with
        | nil =>
          rw [hw] at hx
          cases hx
          rcases hxy with ⟨h, h'⟩ | ⟨h, h'⟩
          · exact absurd (h.symm.trans h') (by decide)
          · exact absurd (h.symm.trans h') (by decide)
        | cons c w =>
          rw [hw] at hx; cases hx
          refine ⟨x, y, w, r, hxy, hw, fun h => hy (List.mem_cons_of_mem _ h), ?_⟩
          cases hres
          cases p
          · rfl
          · simp only [if_true, ha, tupleVal, htw]
    · rintro ⟨x', y', w, r, hxy', rfl, hy, rfl⟩
      cases hx
      have hyy : y' = y := by
        rcases hxy with ⟨h, h'⟩ | ⟨h, h'⟩ <;> rcases hxy' with ⟨k, k'⟩ | ⟨k, k'⟩ <;> subst h <;> first | exact k'.trans h'.symm | exact absurd k (by decide)
      subst hyy
      have hyx : y' ∉ x :: w := by
        simp only [List.mem_cons, not_or]
        refine ⟨?_, hy⟩
        rcases hxy with ⟨rfl, rfl⟩ | ⟨rfl, rfl⟩ <;> decide
      obtain ⟨k1, k2⟩ := hcut y' (x :: w) r hyx
      have hres : ∃ far exp, PResult.part (if p then Val.list ((x :: w).map .chr) else .tup []) far exp =
          expectedResult Numerals.combinatorsG T Numerals.predicateBody p ptr (x :: w ++ y' :: r) L (.ok ((x :: w ++ y' :: r).dropWhile (fun c => decide (c ≠ y'))) t) := by
        have hdata : tupleVal (if p then ast Numerals.combinatorsG T (strSpans (x :: w ++ y' :: r)) Numerals.predicateBody t else []) =
            if p then Val.list ((x :: w).map .chr) else .tup [] := by
          cases p
          · rfl
          · simp only [if_true, ha, tupleVal, k1]
        rw [k2]
        simp only [expectedResult, if_neg (List.cons_ne_nil y' r), hdata]
        exact ⟨_, _, rfl⟩
      obtain ⟨far, exp, hres⟩ := hres
      exact ⟨far, exp, _, L, hp, hres⟩
  · constructor
    · rintro ⟨far, exp, o, L', hp', hres⟩
      obtain ⟨rfl, rfl⟩ := hp.det hdet hp'
      cases hres
    · rintro ⟨x, y, w, r, ⟨rfl, rfl⟩ | ⟨rfl, rfl⟩, rfl, _⟩
      · exact absurd rfl h1
      · exact absurd rfl h2

/-- C76: `char_class` fully matches exactly the texts made of letters (those of the class), an optional tab or space, and a dash; the data says which. -/
theorem C76_char_class {fs} (h : CombinatorsCode fs) (ptr : Nat) (s : List Char) (v : Val) :
    Returns noFns fs true "char_class" ptr s (.success v) ↔ ∃ w b, w ≠ [] ∧ (∀ c ∈ w, Numerals.isLetter c = true) ∧ (b = none ∨ b = some '\t' ∨ b = some ' ') ∧
      s = w ++ b.toList ++ ['-'] ∧ v = .tup [.list (w.map .chr), (match b with | none => .none | some c => .some (.chr c)), .chr '-'] := by
  obtain ⟨T, H, d⟩ := combinators_deployed h
  rw [(d ptr s).returns_iff (show Numerals.combinatorsG.find "char_class" = some Numerals.classBody from rfl)]
  have hdet : ExtSpec.Det noExt := fun _ _ _ _ _ _ h => h.elim
  obtain ⟨f1, f2⟩ := Numerals.class_full H (sp := strSpans s) (s := s)
  constructor
  · rintro ⟨o, L, hp, hres⟩
    cases o with
    | fail => cases hres
    | ok s' t =>
      simp only [expectedResult] at hres
      split at hres
      · rename_i hs; subst hs
        obtain ⟨w, b, hw0, hw, hb, hs⟩ := f1 t L hp
        refine ⟨w, b, hw0, hw, hb, hs, ?_⟩
        obtain ⟨t', L', hp', ha⟩ := f2 w b hw0 hw hb hs
        obtain ⟨ho, _⟩ := hp.det hdet hp'
        cases ho
        rw [if_pos trivial, ha] at hres
        cases hres; rfl
      · cases hres
  · rintro ⟨w, b, hw0, hw, hb, hs, rfl⟩
    obtain ⟨t, L, hp, ha⟩ := f2 w b hw0 hw hb hs
    refine ⟨_, L, hp, ?_⟩
    simp only [expectedResult, if_true, ha, tupleVal]
    cases b <;> rfl

/-- C76: `non_terminal` fully matches exactly the texts made of an `a`, a `b` or a `c`, any character, one or more characters other than `d`, and a `d`; the data shows that
its repetition runs once. -/
theorem C76_non_terminal {fs} (h : CombinatorsCode fs) (ptr : Nat) (s : List Char) (v : Val) :
    Returns noFns fs true "non_terminal" ptr s (.success v) ↔ ∃ k x w, (k = 'b' ∨ k = 'c') ∧ w ≠ [] ∧ 'd' ∉ w ∧ s = 'a' :: k :: x :: w ++ ['d'] ∧
      v = .tup [.list [.tup [.chr x, .list (w.map .chr)]], .chr 'd'] := by
  obtain ⟨T, H, d⟩ := combinators_deployed h
  rw [(d ptr s).returns_iff (show Numerals.combinatorsG.find "non_terminal" = some Numerals.ntBody from rfl)]
  have hdet : ExtSpec.Det noExt := fun _ _ _ _ _ _ h => h.elim
  obtain ⟨f1, f2⟩ := Numerals.nt_full H (sp := strSpans s) (s := s)
  constructor
  · rintro ⟨o, L, hp, hres⟩
    cases o with
    | fail => cases hres
    | ok s' t =>
      simp only [expectedResult] at hres
      split at hres
      · rename_i hs; subst hs
        obtain ⟨k, x, w, hk, hw0, hw, hs⟩ := f1 t L hp
        refine ⟨k, x, w, hk, hw0, hw, hs, ?_⟩
        obtain ⟨t', L', hp', ha⟩ := f2 k x w hk hw0 hw hs
        obtain ⟨ho, _⟩ := hp.det hdet hp'
        cases ho
        rw [if_pos trivial, ha] at hres
        cases hres; rfl
      · cases hres
  · rintro ⟨k, x, w, hk, hw0, hw, hs, rfl⟩
    obtain ⟨t, L, hp, ha⟩ := f2 k x w hk hw0 hw hs
    refine ⟨_, L, hp, ?_⟩
    simp only [expectedResult, if_true, ha, tupleVal]

/-- C76: `optional` fully matches exactly `bz`, `abz`, and these with a `c` or a `d` and any character before the `z`; the data says if there is one, and which. -/
theorem C76_optional {fs} (h : CombinatorsCode fs) (ptr : Nat) (s : List Char) (v : Val) :
    Returns noFns fs true "optional" ptr s (.success v) ↔ ∃ o, (o = [] ∨ o = ['a']) ∧
      ((s = o ++ ['b', 'z'] ∧ v = .none) ∨ ∃ k x, (k = 'c' ∨ k = 'd') ∧ s = o ++ ['b', k, x, 'z'] ∧ v = .some (.chr x)) := by
  obtain ⟨T, H, d⟩ := combinators_deployed h
  rw [(d ptr s).returns_iff (show Numerals.combinatorsG.find "optional" = some Numerals.optionalBody from rfl)]
  have hdet : ExtSpec.Det noExt := fun _ _ _ _ _ _ h => h.elim
  obtain ⟨f1, f2⟩ := Numerals.optional_full H (sp := strSpans s) (s := s)
  constructor
  · rintro ⟨o, L, hp, hres⟩
    cases o with
    | fail => cases hres
    | ok s' t =>
      simp only [expectedResult] at hres
      split at hres
      · rename_i hs; subst hs
        obtain ⟨o, ho, hs⟩ := f1 t L hp
        refine ⟨o, ho, ?_⟩
        obtain ⟨g1, g2⟩ := f2 o ho
        rcases hs with hs | ⟨k, x, hk, hs⟩
        · refine .inl ⟨hs, ?_⟩
          obtain ⟨t', L', hp', ha⟩ := g1 hs
          obtain ⟨ho, _⟩ := hp.det hdet hp'
          cases ho
          rw [if_pos trivial, ha] at hres
          cases hres; rfl
        · refine .inr ⟨k, x, hk, hs, ?_⟩
          obtain ⟨t', L', hp', ha⟩ := g2 k x hk hs
          obtain ⟨ho, _⟩ := hp.det hdet hp'
          cases ho
          rw [if_pos trivial, ha] at hres
          cases hres; rfl
      · cases hres
  · rintro ⟨o, ho, ⟨hs, rfl⟩ | ⟨k, x, hk, hs, rfl⟩⟩
    · obtain ⟨t, L, hp, ha⟩ := (f2 o ho).1 hs
      refine ⟨_, L, hp, ?_⟩
      simp only [expectedResult, if_true, ha, tupleVal]
    · obtain ⟨t, L, hp, ha⟩ := (f2 o ho).2 k x hk hs
      refine ⟨_, L, hp, ?_⟩
      simp only [expectedResult, if_true, ha, tupleVal]

/-! ## Examples -/

/-- `bcz` is no text of `optional`: the `z` is the character after `c`. -/
example {fs} (h : CombinatorsCode fs) : Returns noFns fs true "optional" 0 ['a', 'b', 'z'] (.success .none) ∧
    Returns noFns fs true "optional" 0 ['b', 'd', 'z', 'z'] (.success (.some (.chr 'z'))) ∧ ∀ v, ¬ Returns noFns fs true "optional" 0 ['b', 'c', 'z'] (.success v) := by
  refine ⟨(C76_optional h 0 _ _).2 ⟨['a'], .inr rfl, .inl ⟨rfl, rfl⟩⟩, (C76_optional h 0 _ _).2 ⟨[], .inl rfl, .inr ⟨'d', 'z', .inr rfl, rfl, rfl⟩⟩, fun v hv => ?_⟩
  obtain ⟨o, rfl | rfl, ⟨hs, _⟩ | ⟨k, x, _, hs, _⟩⟩ := (C76_optional h 0 _ _).1 hv <;> simp at hs


/-- The `d` after the `c` is any character; a second `cxy` is not a second turn of the repetition. -/
example {fs} (h : CombinatorsCode fs) :
    Returns noFns fs true "non_terminal" 0 ['a', 'c', 'd', 'z', 'c', 'x', 'y', 'd']
      (.success (.tup [.list [.tup [.chr 'd', .list [.chr 'z', .chr 'c', .chr 'x', .chr 'y']]], .chr 'd'])) :=
  (C76_non_terminal h 0 _ _).2 ⟨'c', 'd', ['z', 'c', 'x', 'y'], .inr rfl, by simp, by decide, rfl, rfl⟩


/-- A text of each branch of `predicate`, one that is matched in part, and a text of `char_class`. -/
example {fs} (h : CombinatorsCode fs) : Returns noFns fs true "predicate" 0 ['a', 'c', 'a'] (.success (.list [.chr 'a', .chr 'c', .chr 'a'])) ∧
    Returns noFns fs true "predicate" 0 ['b', 'c'] (.success (.list [.chr 'b', .chr 'c'])) ∧ (∀ v, ¬ Returns noFns fs true "predicate" 0 ['a', 'b'] (.success v)) ∧
    Returns noFns fs true "char_class" 0 ['a', 'Z', ' ', '-'] (.success (.tup [.list [.chr 'a', .chr 'Z'], .some (.chr ' '), .chr '-'])) := by
  refine ⟨(C76_predicate h true 0 _ _).2 ⟨by simp, rfl⟩, (C76_predicate h true 0 _ _).2 ⟨by simp, rfl⟩, fun v hv => ?_, (C76_char_class h 0 _ _).2
    ⟨['a', 'Z'], some ' ', by simp, by simp [Numerals.isLetter], .inr (.inr rfl), rfl, rfl⟩⟩
  have := ((C76_predicate h true 0 _ _).1 hv).1
  simp at this

/-- `bcab` is matched up to its `a`. -/
example {fs} (h : CombinatorsCode fs) : ∃ far exp, Returns noFns fs true "predicate" 0 ['b', 'c', 'a', 'b'] (.part (.list [.chr 'b', .chr 'c']) far exp) :=
  (C76_predicate_rest h true 0 _ _).2 ⟨'b', 'a', ['c'], ['b'], .inr ⟨rfl, rfl⟩, rfl, by decide, rfl⟩

/-- The empty text and `c` fail, `ab` does not. -/
example {fs} (h : CombinatorsCode fs) : (∃ far exp, Returns noFns fs true "predicate" 0 [] (.failure far exp)) ∧ (∃ far exp, Returns noFns fs false "predicate" 0 ['c', 'a'] (.failure far exp)) ∧
    ¬ ∃ far exp, Returns noFns fs true "predicate" 0 ['a', 'b'] (.failure far exp) := by
  simp [C76_predicate_fails h]

end Oak
