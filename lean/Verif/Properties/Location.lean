import Verif.Proofs.Location
import Verif.Properties.ContextFree
/-!
C67: where errors are reported.
-/
set_option linter.constructorNameAsVariable false
set_option autoImplicit false

namespace Oak
open Spec

variable {G : Grammar} {T : Nat → Ty} {fs : List (FnRef × Fn)} {ext : Nat → FnRef → PState StrStream Val → Res (PState StrStream Val)}
  {ptr : Nat} {r : String} {e : Expr} {p : Bool} {before after : List Char} {far : StrStream} {exp : List String}

theorem streamAt_rest {input r : List Char} (h : r <:+ input) : (streamAt ptr input r).rest = r := by
  obtain ⟨p, rfl⟩ := h
  have hb : blen (p ++ r) = blen p + blen r := blen_append _ _
  simp [streamAt, StrStream.rest, hb, dropBytes_append]

/-- C67: what comes after the location of a failure does not matter. For a grammar without predicates whose literals have at most `m` characters, if the parse of `before ++ after` fails
at `after`, so does that of any text that starts with `before` and goes on with the same `m` characters, at the same place and with the same expectations. -/
theorem C67_after (d : ∀ input, Deployed G T fs ext noExt ptr input) (hsh : G.shaped = true) (hn : NoPredicates G) {m : Nat} (h1 : 1 ≤ m) (hlit : ∀ i l, Occurs G (.str i l) → l.toList.length ≤ m)
    (he : G.find r = some e) (h : Returns ext fs p r ptr (before ++ after) (.failure far exp)) (hfar : far.rest = after) {after' : List Char} (hm : after'.take m = after.take m) :
    ∃ far', Returns ext fs p r ptr (before ++ after') (.failure far' exp) ∧ far'.rest = after' := by
  obtain ⟨o, L, hp, hr⟩ := ((d _).returns_iff he p _).1 h
  have hsuf := (hp.forward noExt_fwd).2
  have hfs : ∀ input L, (∀ x ∈ L, x.1 <:+ input) → farthest input L <:+ input := by
    intro input L hL
    rcases farthest_mem (s := input) (L := L) with h | ⟨x, hx, h⟩
    · rw [h]; exact List.suffix_rfl
    · rw [← h]; exact hL x hx
  cases o with
  | ok s' t =>
    rw [expectedResult] at hr
    split at hr <;> cases hr
  | fail =>
    rw [expectedResult] at hr
    cases hr
    rw [streamAt_rest (hfs _ _ hsuf)] at hfar
    obtain ⟨o', L', hp', ho, hl⟩ := swap_peg hn (no_empty_choice hsh) h1 hlit hm hp (.here ⟨_, _, he, .refl⟩) before rfl (fun x hx => by
      have := hsuf x hx
      have hle := (farthest_le (s := before ++ after) (L := L)).2 x hx
      rw [hfar] at hle
      obtain ⟨v, hv⟩ := List.suffix_of_suffix_length_le (List.suffix_append before after) this hle
      exact ⟨v, hv.symm⟩) nofun
    cases ho
    have hf' := hl.farthest hfar
    refine ⟨streamAt ptr (before ++ after') after', ((d _).returns_iff he p _).2 ⟨_, L', hp', ?_⟩, streamAt_rest (List.suffix_append _ _)⟩
    rw [expectedResult, hf', hl.expected, hfar]

/-- C67: what comes before the location begins a text of the grammar. When nothing is read by predicates and every expression has a text, the text before the location
of a failure or of the expectations of a partial match can be completed to a text of the context-free reading. -/
theorem C67_before (d : Deployed G T fs ext noExt ptr (before ++ after)) (hn : NoPredicates G) (hpr : Productive G noExt) (he : G.find r = some e)
    (h : Returns ext fs p r ptr (before ++ after) (.failure far exp) ∨ ∃ v, Returns ext fs p r ptr (before ++ after) (.part v far exp)) (hfar : far.rest = after) :
    ∃ after' t, Derives G noExt e (before ++ after') [] t := by
  have key : ∃ o L, Peg G noExt e (before ++ after) o L ∧ far = streamAt ptr (before ++ after) (farthest (before ++ after) L) := by
    rcases h with h | ⟨v, h⟩
    all_goals
      obtain ⟨o, L, hp, hr⟩ := (d.returns_iff he p _).1 h
      refine ⟨o, L, hp, ?_⟩
      cases o with
      | fail => rw [expectedResult] at hr; cases hr <;> rfl
      | ok s' t => rw [expectedResult] at hr; split at hr <;> cases hr <;> rfl
  obtain ⟨o, L, hp, rfl⟩ := key
  have hsuf := (hp.forward noExt_fwd).2
  have hocc : Occurs G e := ⟨_, _, he, .refl⟩
  have hlog := viable_log hn hpr (fun y => ∃ a t, Derives G noExt e (y ++ a) [] t) (fun a b ⟨c, t, h⟩ => ⟨b ++ c, t, by rw [← List.append_assoc]; exact h⟩) hp (.here hocc) []
    (fun y hy => by obtain ⟨t, ht⟩ := hy []; exact ⟨[], t, by simpa using ht⟩)
  rcases farthest_mem (s := before ++ after) (L := L) with h0 | ⟨x, hx, h0⟩
  · rw [h0, streamAt_rest List.suffix_rfl] at hfar
    have : before = [] := by
      have := congrArg List.length hfar
      simp only [List.length_append] at this
      exact List.length_eq_zero_iff.1 (by omega)
    subst this
    obtain ⟨y, hy⟩ := textOf_productive hpr hocc
    obtain ⟨t, ht⟩ := hy []
    exact ⟨y, t, by simpa using ht⟩
  · rw [← h0, streamAt_rest (hsuf x hx)] at hfar
    subst hfar
    obtain ⟨v, hv, a, t, ht⟩ := hlog x hx
    have := List.append_cancel_right hv
    subst this
    exact ⟨a, t, by simpa using ht⟩

/-- C67: when moreover one character of lookahead is enough to choose, it begins a text that the parser accepts. -/
theorem C67_before_accepted (d : ∀ input, Deployed G T fs ext noExt ptr input) (hsh : G.shaped = true) (ha : Accepted G) (ht : ExtSpec.TotalOn noExt G) (hn : NoPredicates G) (hl : LL1 G noExt r)
    (hpr : Productive G noExt) (he : G.find r = some e)
    (h : Returns ext fs p r ptr (before ++ after) (.failure far exp) ∨ ∃ v, Returns ext fs p r ptr (before ++ after) (.part v far exp)) (hfar : far.rest = after) :
    ∃ after' v, Returns ext fs p r ptr (before ++ after') (.success v) := by
  obtain ⟨after', t, hd⟩ := C67_before (d _) hn hpr he h hfar
  exact ⟨after', _, (C64_exact (d _) hsh ha (fun _ _ _ _ _ h => h.elim) ht hn hl he p _).2 ⟨t, hd, rfl⟩⟩

/-- C67: and if the literals have one character, the location of a failure is exactly where the text goes wrong: what comes before begins a text that the parser accepts, and what comes
before together with the next character begins none. -/
theorem C67_exact (d : ∀ input, Deployed G T fs ext noExt ptr input) (hsh : G.shaped = true) (ha : Accepted G) (ht : ExtSpec.TotalOn noExt G) (hn : NoPredicates G) (hl : LL1 G noExt r)
    (hpr : Productive G noExt) (hlit : ∀ i l, Occurs G (.str i l) → l.toList.length ≤ 1) (he : G.find r = some e)
    (h : Returns ext fs p r ptr (before ++ after) (.failure far exp)) (hfar : far.rest = after) :
    (∃ after' v, Returns ext fs p r ptr (before ++ after') (.success v)) ∧
      ∀ c a, after = c :: a → ∀ y v, Returns ext fs p r ptr y (.success v) → ¬ before ++ [c] <+: y := by
  refine ⟨C67_before_accepted d hsh ha ht hn hl hpr he (.inl h) hfar, ?_⟩
  rintro c a rfl y v hy ⟨b, rfl⟩
  rw [List.append_assoc] at hy
  obtain ⟨far', h', _⟩ := C67_after d hsh hn (Nat.le_refl 1) hlit he h hfar (after' := [c] ++ b) (by simp)
  have := C09_result_unique (d _) he p hy h'
  cases this

/-! ### Cases that meet the hypotheses -/

/-- The literals of a checked grammar have at most `m` characters. -/
def litsWithin (tab : LLTable) (m : Nat) (G : Grammar) : Bool :=
  G.rules.all fun q => (visits tab (tab.row q.1).follow q.2).all fun v => match v.1 with | .str _ l => decide (l.toList.length ≤ m) | _ => true

theorem litsWithin_sound {tab : LLTable} {m : Nat} (hl : ll1 tab G = true) (h : litsWithin tab m G = true) : ∀ i l, Occurs G (.str i l) → l.toList.length ≤ m := by
  intro i l ho
  obtain ⟨F, r, b, hb, hv⟩ := occurs_visited hl ho
  have := List.all_eq_true.1 (List.all_eq_true.1 h _ (grammar_find_mem hb)) _ hv
  simpa using this

/-- C67: grammars that pass the checks meet the conditions. -/
theorem C67_checked (d : ∀ input, Deployed G T fs ext noExt ptr input) (hsh : G.shaped = true) (ha : Accepted G) {tab : LLTable} {order : List String} (hl : ll1 tab G = true)
    (ho : callsOk tab order G = true) (hm : litsWithin tab 1 G = true) (he : G.find r = some e) (h : Returns ext fs p r ptr (before ++ after) (.failure far exp)) (hfar : far.rest = after) :
    (∃ after' v, Returns ext fs p r ptr (before ++ after') (.success v)) ∧
      ∀ c a, after = c :: a → ∀ y v, Returns ext fs p r ptr y (.success v) → ¬ before ++ [c] <+: y := by
  obtain ⟨h1, h2, h3⟩ := ll1_sound (r0 := r) hl
  exact C67_exact d hsh ha (fun i p h => (h3 i p h).elim) h2 h1 (callsOk_sound hl ho).1 (litsWithin_sound hl hm) he h hfar

/-- In `(a,b)`, the recognizer of nested lists fails at `b`: `(a,` begins a list, `(a,b` does not. -/
theorem lists_location : (∃ after' v, Returns noFns Sample.listsFs false "value" 0 ("(a,".toList ++ after') (.success v)) ∧
    ∀ y v, Returns noFns Sample.listsFs false "value" 0 y (.success v) → ¬ "(a,b".toList <+: y := by
  have h : Returns noFns Sample.listsFs false "value" 0 ("(a,".toList ++ "b)".toList) (.failure (streamAt 0 "(a,b)".toList "b)".toList) ["(", "a"]) := ⟨40, rfl⟩
  obtain ⟨h1, h2⟩ := C67_checked (Sample.lists_generated.deployed 0) (by decide +kernel) Sample.lists_accepted (tab := Sample.listsTable) (order := ["value"]) (by decide +kernel)
    (by decide +kernel) (by decide +kernel) rfl h (by decide +kernel)
  exact ⟨h1, h2 'b' [')'] rfl⟩

namespace Sample

/-- `r = !("a" "b") "a"` -/
def lookahead : Grammar := ⟨[("r", .seq 5 [.not 3 (.seq 2 [.str 0 "a", .str 1 "b"]), .str 4 "a"])]⟩

/-- Its generated program. -/
def lookaheadFs : List (FnRef × Fn) := match compileGrammar opsT lookahead.rules with | .ok f => f | .error _ => []

theorem lookahead_generated : Generated lookahead opsT lookaheadFs where
  compiled := by rfl
  scopes := by decide +kernel
  coherent := by decide +kernel
  resolved := by decide +kernel

end Sample

/-- C67: predicates look further than the location. `r = !("a" "b") "a"` fails on `ab` and on `ac` does not, although the failure on `ab` is reported at the start with literals of one character. -/
theorem C67_predicates_needed :
    (∃ far exp, Returns noFns Sample.lookaheadFs false "r" 0 "ab".toList (.failure far exp) ∧ far.rest = "ab".toList) ∧
      ∃ v far exp, Returns noFns Sample.lookaheadFs false "r" 0 "ac".toList (.part v far exp) :=
  ⟨⟨_, _, ⟨20, rfl⟩, by decide +kernel⟩, _, _, _, ⟨20, rfl⟩⟩

end Oak
