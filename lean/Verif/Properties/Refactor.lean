import Verif.Proofs.Refactor
import Verif.Properties.WellFormed
import Verif.Properties.Parsing
/-!
Refactoring of grammars.
-/
set_option linter.constructorNameAsVariable false
set_option autoImplicit false

namespace Oak
open Spec

variable {G G' : Grammar} {T T' : Nat → Ty} {fs fs' : List (FnRef × Fn)} {ext ext' : Nat → FnRef → PState StrStream Val → Res (PState StrStream Val)}
  {X : ExtSpec} {ptr : Nat} {input : List Char} {r : String} {e e' a b : Expr} {E : Expr → Expr → Prop}

/-! ### C61 -/

/-- C61: the laws of `ReportLaw` change neither the texts matched nor the errors reported, in every grammar. -/
theorem C61_report_laws (h : ReportLaw G a b) : SameReports G X a b := reportLaw_sound h

/-- C61: the laws of `MatchLaw` do not change the texts matched, in every grammar. -/
theorem C61_match_laws (hX : X.Det) (h : MatchLaw a b) : SameMatches G X a b := matchLaw_sound hX h

/-- C61: refactoring can lose termination, but not correctness. Whatever laws of the grammar are used (each valid in `G` as to what is
matched), if a rule of the new grammar matches, or fails, then the rule of the old grammar does the same. -/
theorem C61_sound (hE : ∀ a b, E a b → SameMatches G X a b) (hG : Refactored E G G') (he : G.find r = some e) (he' : G'.find r = some e')
    (s : List Char) : (∀ s', Matches G' X e' s s' → Matches G X e s s') ∧ (Fails G' X e' s → Fails G X e s) := by
  have key : ∀ o L, Peg G' X e' s o L → Stops G X e s o.stop := by
    intro o L h
    obtain ⟨c, hc, hr⟩ := hG r e' he'
    rw [he] at hc; cases hc
    obtain ⟨L', h1, _⟩ := refactor_sound (K := fun _ _ => True) (fun _ => trivial) (fun _ _ => trivial)
      (fun a b hab s x L h => (((sameMatches_iff.1 (hE a b hab) s x).2 ⟨L, h⟩)).imp fun _ h => ⟨h, trivial⟩) (fun _ _ => trivial) hG h hr
    exact ⟨L', h1⟩
  constructor
  · rintro s' ⟨t, L, h⟩; exact matches_iff_outcome.2 (key _ _ h)
  · rintro ⟨L, h⟩; exact fails_iff_outcome.2 (key _ _ h)

/-- C61: the same with the errors: what the new grammar reports, the old one reports. -/
theorem C61_sound_reports (hE : ∀ a b, E a b → SameReports G X a b) (hG : Refactored E G G') (he : G.find r = some e) (he' : G'.find r = some e')
    {s : List Char} {x : Option (List Char)} {L : Log} (h : Outcome G' X e' s x L) : Outcome G X e s x L := by
  obtain ⟨o, h, rfl⟩ := h
  obtain ⟨c, hc, hr⟩ := hG r e' he'
  rw [he] at hc; cases hc
  obtain ⟨L', h1, rfl⟩ := refactor_sound (K := Eq) (fun _ => rfl) (fun h1 h2 => by rw [h1, h2])
    (fun a b hab s x L h => ⟨L, (hE a b hab s x L).2 h, rfl⟩) (fun h1 h2 => h1.trans h2) hG h hr
  exact h1

/-- What a recognizer returns depends on the place where the match stops and on the terminals tried in vain. -/
theorem Deployed.returns_outcome (d : Deployed G T fs ext X ptr input) (he : G.find r = some e) (res : PResult StrStream Val) :
    Returns ext fs false r ptr input res ↔ ∃ x L, Outcome G X e input x L ∧ res =
      match x with
      | none => .failure (streamAt ptr input (farthest input L)) (expectedAt (farthest input L) L)
      | some [] => .success (.tup [])
      | some (_ :: _) => .part (.tup []) (streamAt ptr input (farthest input L)) (expectedAt (farthest input L) L) := by
  rw [d.returns_iff he]
  constructor
  · rintro ⟨o, L, h, rfl⟩
    refine ⟨o.stop, L, ⟨o, h, rfl⟩, ?_⟩
    cases o with
    | fail => rfl
    | ok s t => cases s <;> simp [expectedResult, Out.stop, tupleVal]
  · rintro ⟨x, L, ⟨o, h, rfl⟩, rfl⟩
    refine ⟨o, L, h, ?_⟩
    cases o with
    | fail => rfl
    | ok s t => cases s <;> simp [expectedResult, Out.stop, tupleVal]

/-- C61: with laws that keep the errors, when the new grammar is accepted, the recognizers of the new grammar return exactly the results
of those of the old grammar. -/
theorem C61_recognizers (d : Deployed G T fs ext X ptr input) (d' : Deployed G' T' fs' ext' X ptr input)
    (hE : ∀ a b, E a b → SameReports G X a b) (hG : Refactored E G G') (hacc : Accepted G') (hc : ExtSpec.Consuming X) (ht : ExtSpec.TotalOn X G')
    (he : G.find r = some e) (he' : G'.find r = some e') (res : PResult StrStream Val) :
    Returns ext' fs' false r ptr input res ↔ Returns ext fs false r ptr input res := by
  rw [d.returns_outcome he, d'.returns_outcome he']
  constructor
  · rintro ⟨x, L, h, rfl⟩
    exact ⟨x, L, C61_sound_reports hE hG he he' h, rfl⟩
  · rintro ⟨x, L, h, rfl⟩
    obtain ⟨o, M, h'⟩ := accepted_decided d'.gen.resolved hacc d'.fwd hc ht he' input
    have h1 : Outcome G' X e' input o.stop M := ⟨o, h', rfl⟩
    obtain ⟨rfl, rfl⟩ := h.det d.ext.det (C61_sound_reports hE hG he he' h1)
    exact ⟨_, _, h1, rfl⟩

/-- C61: with laws that keep the texts matched, when the new grammar is accepted, the recognizers of the new grammar succeed, match a prefix
or fail exactly when those of the old grammar do. -/
theorem C61_recognizers_kind (d : Deployed G T fs ext X ptr input) (d' : Deployed G' T' fs' ext' X ptr input)
    (hE : ∀ a b, E a b → SameMatches G X a b) (hG : Refactored E G G') (hacc : Accepted G') (hc : ExtSpec.Consuming X) (ht : ExtSpec.TotalOn X G')
    (he : G.find r = some e) (he' : G'.find r = some e') :
    ((∃ v, Returns ext' fs' false r ptr input (.success v)) ↔ ∃ v, Returns ext fs false r ptr input (.success v)) ∧
    ((∃ v far exp, Returns ext' fs' false r ptr input (.part v far exp)) ↔ ∃ v far exp, Returns ext fs false r ptr input (.part v far exp)) ∧
    ((∃ far exp, Returns ext' fs' false r ptr input (.failure far exp)) ↔ ∃ far exp, Returns ext fs false r ptr input (.failure far exp)) := by
  obtain ⟨o, M, h'⟩ := accepted_decided d'.gen.resolved hacc d'.fwd hc ht he' input
  obtain ⟨hm, hf⟩ := C61_sound hE hG he he' input
  have both : (∀ s', Matches G' X e' input s' ↔ Matches G X e input s') ∧ (Fails G' X e' input ↔ Fails G X e input) := by
    cases o with
    | fail =>
      have h1 := hf ⟨M, h'⟩
      exact ⟨fun s' => ⟨hm s', fun h => absurd h1 (h.not_fails d.ext.det)⟩, hf, fun _ => ⟨M, h'⟩⟩
    | ok s t =>
      have h1 : Matches G' X e' input s := ⟨t, M, h'⟩
      have h2 := hm s h1
      exact ⟨fun s' => ⟨hm s', fun h => (h.unique d.ext.det h2) ▸ h1⟩, hf, fun h => absurd h (h2.not_fails d.ext.det)⟩
  have conv : ∀ {G X e}, (∃ s' t L, s' ≠ [] ∧ Peg G X e input (.ok s' t) L) ↔ ∃ s', s' ≠ [] ∧ Matches G X e input s' := by
    intro G X e
    constructor
    · rintro ⟨s', t, L, h1, h2⟩; exact ⟨s', h1, t, L, h2⟩
    · rintro ⟨s', h1, t, L, h2⟩; exact ⟨s', t, L, h1, h2⟩
  refine ⟨?_, ?_, ?_⟩
  · rw [C08_success_iff d he, C08_success_iff d' he']; exact both.1 []
  · rw [C08_partial_iff d he, C08_partial_iff d' he', conv, conv]; simp only [both.1]
  · rw [C08_failure_iff d he, C08_failure_iff d' he']; exact both.2

/-- The laws in both directions. -/
def EitherWay (E : Expr → Expr → Prop) (a b : Expr) : Prop := E a b ∨ E b a

/-- C61: all the laws above can be used in both directions. -/
theorem C61_either_way (hX : X.Det) : (∀ a b, EitherWay (ReportLaw G) a b → SameReports G X a b) ∧
    ∀ a b, EitherWay (fun a b => ReportLaw G a b ∨ MatchLaw a b) a b → SameMatches G X a b := by
  have sym : ∀ {a b}, SameMatches G X a b → SameMatches G X b a := fun h s => ⟨fun s' => ((h s).1 s').symm, (h s).2.symm⟩
  constructor
  · rintro a b (h | h)
    · exact reportLaw_sound h
    · intro s x L; exact (reportLaw_sound h s x L).symm
  · rintro a b ((h | h) | (h | h))
    · exact (reportLaw_sound h).matches
    · exact matchLaw_sound hX h
    · exact sym (reportLaw_sound h).matches
    · exact sym (matchLaw_sound hX h)

namespace Sample

/-- `r = "a" ("b" "c")+`, `s = ("b" "c")*`. -/
def before : Grammar := ⟨[("r", .seq 6 [.str 0 "a", .plus 5 (.nt 4 "bc")]), ("bc", .seq 3 [.str 1 "b", .str 2 "c"])]⟩

/-- After refactoring: `r = "a" "b" "c" bc*`. -/
def after : Grammar := ⟨[("r", .seq 6 [.str 0 "a", .str 1 "b", .str 2 "c", .star 5 (.nt 4 "bc")]), ("bc", .seq 9 [.str 7 "b", .str 8 "c"])]⟩

/-- Their generated programs. -/
def beforeFs : List (FnRef × Fn) := match compileGrammar opsT before.rules with | .ok f => f | .error _ => []
def afterFs : List (FnRef × Fn) := match compileGrammar opsT after.rules with | .ok f => f | .error _ => []

theorem before_generated : Generated before opsT beforeFs where
  compiled := by rfl
  scopes := by decide +kernel
  coherent := by decide +kernel
  resolved := by decide +kernel

theorem after_generated : Generated after opsT afterFs where
  compiled := by rfl
  scopes := by decide +kernel
  coherent := by decide +kernel
  resolved := by decide +kernel

theorem after_accepted : Accepted after := ⟨5, 9, _, rfl, by decide +kernel⟩

theorem before_after : Refactored (ReportLaw before) before after := by
  intro r e' h
  have hm := grammar_find_mem h
  simp only [after, List.mem_cons, Prod.mk.injEq, List.not_mem_nil, or_false] at hm
  rcases hm with ⟨rfl, rfl⟩ | ⟨rfl, rfl⟩
  · refine ⟨_, rfl, .trans (.seq_cons (i := 6) (j := 6) (.str (j := 0)) (.seq_cons (.trans (.law (.plus (j := 7) (k := 5)))
      (.seq_cons (i := 7) (j := 7) (.law (.inline rfl)) .refl)) .seq_nil)) ?_⟩
    refine .trans (.law (.seq_flat (i := 6) (j := 7) (as := [.str 0 "a"]) (cs := []))) ?_
    exact .law (.seq_flat (i := 6) (j := 3) (as := [.str 0 "a"]) (bs := [.str 1 "b", .str 2 "c"]) (cs := [.star 5 (.nt 4 "bc")]))
  · exact ⟨_, rfl, .seq_cons .str (.seq_cons .str .seq_nil)⟩

/-- Both recognizers on `abcbc`, `abd` and `axc`: the same results, the same errors. -/
example (res : PResult StrStream Val) (text : List Char) :
    Returns noFns afterFs false "r" 0 text res ↔ Returns noFns beforeFs false "r" 0 text res :=
  C61_recognizers (before_generated.deployed 0 text) (after_generated.deployed 0 text) (fun _ _ h => C61_report_laws h) before_after
    after_accepted (fun _ _ _ _ _ h => h.elim)
    (fun i p h => by
      obtain ⟨r, e, he, hs⟩ := h
      have hm := grammar_find_mem he
      simp only [after, List.mem_cons, Prod.mk.injEq, List.not_mem_nil, or_false] at hm
      rcases hm with ⟨rfl, rfl⟩ | ⟨rfl, rfl⟩
      · cases hs with
        | seq hm hs =>
          simp only [List.mem_cons, List.not_mem_nil, or_false] at hm
          rcases hm with rfl | rfl | rfl | rfl
          · cases hs
          · cases hs
          · cases hs
          · cases hs with | star hs => cases hs
      · cases hs with
        | seq hm hs =>
          simp only [List.mem_cons, List.not_mem_nil, or_false] at hm
          rcases hm with rfl | rfl <;> cases hs)
    rfl rfl res

example : Returns noFns afterFs false "r" 0 "abd".toList (.failure ⟨0, "abd".toList, 2⟩ ["c"]) ∧
    Returns noFns beforeFs false "r" 0 "abd".toList (.failure ⟨0, "abd".toList, 2⟩ ["c"]) := ⟨⟨20, rfl⟩, ⟨20, rfl⟩⟩

/-- `keyword = "let" spaces / "loop" spaces`, `spaces = " "*`. -/
def words : Grammar := ⟨[("keyword", .choice 8 [.seq 3 [.str 0 "let", .nt 2 "spaces"], .seq 7 [.str 4 "loop", .nt 6 "spaces"]]),
  ("spaces", .star 10 (.str 9 " "))]⟩

/-- `keyword = "l" ("et" spaces / "oop" spaces)`. -/
def factored : Grammar := ⟨[("keyword", .seq 20 [.str 0 "l", .choice 21 [.seq 3 [.str 1 "et", .nt 2 "spaces"], .seq 7 [.str 4 "oop", .nt 6 "spaces"]]]),
  ("spaces", .star 10 (.str 9 " "))]⟩

/-- Factoring a common prefix is a refactoring. -/
theorem words_factored : Refactored (EitherWay fun a b => ReportLaw words a b ∨ MatchLaw a b) words factored := by
  intro r e' h
  have hm := grammar_find_mem h
  simp only [factored, List.mem_cons, Prod.mk.injEq, List.not_mem_nil, or_false] at hm
  rcases hm with ⟨rfl, rfl⟩ | ⟨rfl, rfl⟩
  · refine ⟨_, rfl, ?_⟩
    have split : ∀ i j k l (u v w : String) (e : Expr), w = u ++ v → Refactor (EitherWay fun a b => ReportLaw words a b ∨ MatchLaw a b)
        (.seq i [.str j w, e]) (.seq i [.str k u, .str l v, e]) := by
      rintro i j k l u v w e rfl
      refine .trans (.seq_cons (i := i) (j := i) (.law (.inl (.inr (.literal (j := i) (k := k) (l := l))))) .refl) ?_
      exact .law (.inl (.inl (.seq_flat (as := []) (bs := [.str k u, .str l v]) (cs := [e]))))
    refine .trans (.choice_cons (i := 8) (j := 8) (split 3 0 0 1 "l" "et" "let" _ rfl)
      (.choice_cons (i := 8) (j := 8) (split 7 4 0 4 "l" "oop" "loop" _ rfl) .refl)) ?_
    refine .trans (.law (.inl (.inr (.factor (l := 20) (m := 21) (n := 3))))) ?_
    exact .seq_cons .refl (.seq_cons (.choice_cons .refl (.choice_cons (.seq_cons .refl (.seq_cons .refl .seq_nil)) .choice_nil)) .seq_nil)
  · exact ⟨_, rfl, .refl⟩

/-- `r = "x"`, and `r = r`. -/
def direct : Grammar := ⟨[("r", .str 0 "x")]⟩
def looping : Grammar := ⟨[("r", .nt 0 "r")]⟩

theorem looping_stuck {s : List Char} {o : Out} {L : Log} (h : Peg looping noExt (.nt 0 "r") s o L) : False := by
  generalize he : Expr.nt 0 "r" = e at h
  induction h <;> cases he
  · rename_i _ ih hf
    have hr : looping.find "r" = some (.nt 0 "r") := rfl
    rw [hr] at hf
    exact ih (Option.some.inj hf)
  · rename_i _ ih hf
    have hr : looping.find "r" = some (.nt 0 "r") := rfl
    rw [hr] at hf
    exact ih (Option.some.inj hf)

end Sample

open Sample in
/-- C61: that the new grammar is accepted is needed: replacing `"x"` by the call of the rule `r = "x"` is a law of the grammar, but done in
the rule `r` itself it gives `r = r`, which matches nothing and does not fail. -/
theorem C61_acceptance_needed :
    Refactored (EitherWay (ReportLaw direct)) direct looping ∧ Accepted direct ∧ ¬ Accepted looping ∧
      Matches direct noExt (.str 0 "x") ['x'] [] ∧ ∀ s, (¬ ∃ s', Matches looping noExt (.nt 0 "r") s s') ∧ ¬ Fails looping noExt (.nt 0 "r") s := by
  refine ⟨?_, ⟨5, 9, _, rfl, by decide +kernel⟩, ?_, ⟨_, _, .str_ok (lit := "x") (r := [])⟩, fun s => ⟨?_, ?_⟩⟩
  · intro r e' h
    have hm := grammar_find_mem h
    simp only [looping, List.mem_cons, Prod.mk.injEq, List.not_mem_nil, or_false] at hm
    obtain ⟨rfl, rfl⟩ := hm
    exact ⟨_, rfl, .law (.inr (.inline rfl))⟩
  · intro ha
    obtain ⟨o, L, h⟩ := accepted_decided (X := noExt) (r := "r") (by decide +kernel) ha (fun _ _ _ _ h => h.elim) (fun _ _ _ _ _ h => h.elim)
      (fun i p h => by
        obtain ⟨r, e, he, hs⟩ := h
        have hm := grammar_find_mem he
        simp only [looping, List.mem_cons, Prod.mk.injEq, List.not_mem_nil, or_false] at hm
        obtain ⟨rfl, rfl⟩ := hm
        cases hs) rfl []
    exact looping_stuck h
  · rintro ⟨s', t, L, h⟩; exact looping_stuck h
  · rintro ⟨L, h⟩; exact looping_stuck h

open Sample in
/-- C61: laws that keep the matches only can change the errors: `keyword` on `lot` is blocked at the beginning for the old grammar, and
after `l` for the new one. -/
theorem C61_errors_differ :
    Outcome words noExt (words.rules[0].2) "lot".toList none [("lot".toList, "let"), ("lot".toList, "loop")] ∧
    Outcome factored noExt (factored.rules[0].2) "lot".toList none [("ot".toList, "et"), ("ot".toList, "oop")] := by
  have no : ∀ {u : String} {s : List Char}, u.toList.isPrefixOf s = false → ¬ u.toList <+: s := by
    intro u s h hp
    rw [List.isPrefixOf_iff_prefix.2 hp] at h
    cases h
  constructor
  · exact ⟨_, .choice_fail (.seq_fail (.str_fail (no (by decide)))) (.choice_fail (L2 := []) (.seq_fail (.str_fail (no (by decide)))) .choice_nil), rfl⟩
  · exact ⟨_, .seq_later (L1 := []) (.str_ok (lit := "l")) (.seq_fail (.choice_fail (.seq_fail (.str_fail (no (by decide))))
      (.choice_fail (L2 := []) (.seq_fail (.str_fail (no (by decide)))) .choice_nil))), rfl⟩

end Oak
