import Verif.Properties.WellFormed
import Verif.Properties.Typing
import Verif.Proofs.RenamingTypes
import Verif.Proofs.Chaining
/-!
Properties of the presentation of a grammar: the order of the rules, their names, the numbering of the expressions and unused rules do not matter.
-/
set_option linter.constructorNameAsVariable false
set_option autoImplicit false

namespace Oak
open Spec Typing

variable {ρ : String → String → Prop} {G G' : Grammar} {T T' : Nat → Ty} {fs fs' : List (FnRef × Fn)}
  {ext ext' : Nat → FnRef → PState StrStream Val → Res (PState StrStream Val)} {X : ExtSpec} {ptr : Nat} {input : List Char} {r r' : String}

/-! ### Grammars that correspond -/

/-- The calls of a resolved grammar are calls of declared rules. -/
theorem resolved_calls (hres : G.resolved = true) {b : Expr} (hb : G.find r = some b) {i : Nat} {q : String} (hs : Sub (.nt i q) b) :
    (G.find q).isSome = true := by
  simp only [Grammar.resolved, List.all_eq_true] at hres
  exact resolved_sub (hres _ (grammar_find_mem hb)) hs

/-- C57: a grammar corresponds to the same grammar with the rules in another order and the expressions numbered in another way. -/
theorem C57_reordered (hres : G.resolved = true) (hn : (G.rules.map (·.1)).Nodup) (h : G.text.Perm G'.text) :
    Corresponds (fun a b => b = a ∧ (G.find a).isSome = true) G G' ∧ Covers (fun a b => b = a ∧ (G.find a).isSome = true) G ∧
    Covers (fun a b => a = b ∧ (G.find b).isSome = true) G' := by
  have hn1 : (G.text.map (·.1)).Nodup := by simpa [Grammar.text, Function.comp_def] using hn
  have hn2 : (G'.text.map (·.1)).Nodup := (h.map _).nodup_iff.1 hn1
  have hn' : (G'.rules.map (·.1)).Nodup := by simpa [Grammar.text, Function.comp_def] using hn2
  have hfind : ∀ {G : Grammar}, (G.rules.map (·.1)).Nodup → ∀ {r b}, (r, b) ∈ G.rules → G.find r = some b := by
    intro G hn r b hm
    exact find_of_mem_nodup hn hm
  have hpass : ∀ {G G' : Grammar}, G.text.Perm G'.text → (G'.rules.map (·.1)).Nodup → ∀ {r b}, G.find r = some b → ∃ b', G'.find r = some b' ∧ b.bare = b'.bare := by
    intro G G' h hn' r b hb
    have h1 : (r, b.bare) ∈ G.text := List.mem_map.2 ⟨(r, b), grammar_find_mem hb, rfl⟩
    obtain ⟨⟨q, b'⟩, h2, h3⟩ := List.mem_map.1 (h.mem_iff.1 h1)
    simp only [Prod.mk.injEq] at h3
    obtain ⟨rfl, h3⟩ := h3
    exact ⟨b', hfind hn' h2, h3.symm⟩
  refine ⟨?_, fun r b hb => ⟨r, rfl, by rw [hb]; rfl⟩, fun r b hb => ?_⟩
  · rintro r _ ⟨rfl, hr⟩
    obtain ⟨b, hb⟩ := Option.isSome_iff_exists.1 hr
    obtain ⟨b', h1, h2⟩ := hpass h hn' hb
    exact ⟨b, b', hb, h1, alike_of_bare (fun i q hs => ⟨rfl, resolved_calls hres hb hs⟩) h2⟩
  · obtain ⟨b', h1, _⟩ := hpass h.symm hn hb
    exact ⟨r, rfl, by rw [h1]; rfl⟩

/-- C57: a grammar corresponds to the same grammar with other names for the rules, if different rules keep different names. -/
theorem C57_renamed {φ : String → String} (hres : G.resolved = true) (hφ : ∀ a b, (G.find a).isSome = true → (G.find b).isSome = true → φ a = φ b → a = b) :
    Corresponds (fun a b => b = φ a ∧ (G.find a).isSome = true) G (G.rename φ) ∧ Covers (fun a b => b = φ a ∧ (G.find a).isSome = true) G ∧
    Covers (fun b a => b = φ a ∧ (G.find a).isSome = true) (G.rename φ) := by
  have hfind : ∀ {r b}, G.find r = some b → (G.rename φ).find (φ r) = some (b.rename φ) := by
    intro r b hb
    exact find_rename hφ hb
  refine ⟨?_, fun r b hb => ⟨φ r, rfl, by rw [hb]; rfl⟩, fun r b hb => ?_⟩
  · rintro r _ ⟨rfl, hr⟩
    obtain ⟨b, hb⟩ := Option.isSome_iff_exists.1 hr
    exact ⟨b, _, hb, hfind hb, alike_rename fun i q hs => ⟨rfl, resolved_calls hres hb hs⟩⟩
  · obtain ⟨⟨q, c⟩, h1, h2⟩ := List.mem_map.1 (grammar_find_mem hb)
    simp only [Prod.mk.injEq] at h2
    refine ⟨q, h2.1.symm, ?_⟩
    exact find_isSome_of_mem h1

/-- C57: a grammar corresponds to the same grammar with more rules. -/
theorem C57_extended (hres : G.resolved = true) (h : ∀ r b, G.find r = some b → ∃ b', G'.find r = some b' ∧ b.bare = b'.bare) :
    Corresponds (fun a b => b = a ∧ (G.find a).isSome = true) G G' ∧ Covers (fun a b => b = a ∧ (G.find a).isSome = true) G := by
  refine ⟨?_, fun r b hb => ⟨r, rfl, by rw [hb]; rfl⟩⟩
  rintro a _ ⟨rfl, hr⟩
  obtain ⟨b, hb⟩ := Option.isSome_iff_exists.1 hr
  obtain ⟨b', h1, h2⟩ := h _ b hb
  exact ⟨b, b', hb, h1, alike_of_bare (fun i q hs => ⟨rfl, resolved_calls hres hb hs⟩) h2⟩

/-! ### What they have in common -/

/-- C57: corresponding rules match the same texts, with the same parse trees and the same failed terminals. -/
theorem C57_language (hc : Corresponds ρ G G') (hr : ρ r r') {b b' : Expr} (hb : G.find r = some b) (hb' : G'.find r' = some b')
    (s : List Char) (o : Out) (L : Log) : Peg G X b s o L ↔ Peg G' X b' s o L := by
  obtain ⟨c, h1, h2⟩ := hc.body hr hb
  rw [hb'] at h1; cases h1
  exact peg_alike hc h2

/-- C57: the recognizers of corresponding rules return the same results: success, rest of the text, position and expectations of the error. -/
theorem C57_recognizers (d : Deployed G T fs ext X ptr input) (d' : Deployed G' T' fs' ext' X ptr input) (hc : Corresponds ρ G G') (hr : ρ r r')
    (res : PResult StrStream Val) : Returns ext fs false r ptr input res ↔ Returns ext' fs' false r' ptr input res := by
  obtain ⟨b, b', hb, hb', ha⟩ := hc r r' hr
  rw [d.returns_iff hb, d'.returns_iff hb']
  have : ∀ L o, expectedResult G T b false ptr input L o = expectedResult G' T' b' false ptr input L o := by intro L o; cases o <;> simp [expectedResult]
  constructor
  · rintro ⟨o, L, h1, rfl⟩; exact ⟨o, L, (peg_alike hc ha).1 h1, this L o⟩
  · rintro ⟨o, L, h1, rfl⟩; exact ⟨o, L, (peg_alike hc ha).2 h1, (this L o).symm⟩

/-- C57: the parsers of corresponding rules return the same results, with the same values, if the types agree on what has no value. -/
theorem C57_parsers (d : Deployed G T fs ext X ptr input) (d' : Deployed G' T' fs' ext' X ptr input) (hc : Corresponds ρ G G') (ht : TypesAgree ρ G G' T T')
    (hr : ρ r r') (res : PResult StrStream Val) : Returns ext fs true r ptr input res ↔ Returns ext' fs' true r' ptr input res := by
  obtain ⟨b, b', hb, hb', ha⟩ := hc r r' hr
  rw [d.returns_iff hb, d'.returns_iff hb']
  have : ∀ L o, expectedResult G T b true ptr input L o = expectedResult G' T' b' true ptr input L o := by
    intro L o
    cases o with
    | fail => simp [expectedResult]
    | ok s t =>
      have := (ast_alike hc ht (strSpans input) (sizeOf t)).1 t (Nat.le_refl _) b b' ha (.body hr hb hb')
      simp [expectedResult, this]
  constructor
  · rintro ⟨o, L, h1, rfl⟩; exact ⟨o, L, (peg_alike hc ha).1 h1, this L o⟩
  · rintro ⟨o, L, h1, rfl⟩; exact ⟨o, L, (peg_alike hc ha).2 h1, (this L o).symm⟩

/-- C57: the verdict of the well-formedness analysis does not depend on the presentation: if the grammar to which the rules of `G` correspond is accepted then
`G` is accepted. -/
theorem C57_accepted (hres : G.resolved = true) (hsh : G.shaped = true) (hsh' : G'.shaped = true) (hc : Corresponds ρ G G') (hv : Covers ρ G)
    (hf : ∀ a b c, ρ a b → ρ a c → b = c) (h : Accepted G') : Accepted G :=
  (C21_exact hres hsh).1.2 (WellFormed.alike hc hv hf (accepted_wellFormed hsh' h))

/-- C57: the same, both ways, when all the rules correspond. -/
theorem C57_verdict (hres : G.resolved = true) (hres' : G'.resolved = true) (hsh : G.shaped = true) (hsh' : G'.shaped = true) (hc : Corresponds ρ G G')
    (hv : Covers ρ G) (hv' : Covers (fun a b => ρ b a) G') (hf : ∀ a b c, ρ a b → ρ a c → b = c) (hi : ∀ a b c, ρ a c → ρ b c → a = b) :
    (Accepted G ↔ Accepted G') ∧ (Rejected G ↔ Rejected G') := by
  have h1 : Accepted G ↔ Accepted G' :=
    ⟨C57_accepted hres' hsh' hsh hc.swap hv' fun a b c h1 h2 => hi b c a h1 h2, C57_accepted hres hsh hsh' hc hv hf⟩
  refine ⟨h1, ?_⟩
  have key : ∀ {G : Grammar}, G.resolved = true → G.shaped = true → (Rejected G ↔ ¬ Accepted G) := fun hr hs =>
    ⟨fun h h' => not_both ⟨h', h⟩, fun h => (accepted_or_rejected hr hs).resolve_left h⟩
  rw [key hres hsh, key hres' hsh', h1]

section
variable {A A' : AGrammar} {k k' m m' n n' : Nat} {ms ms' : List TMsg}

/-- C57: when no recursion is seen by the type inference, the types of corresponding grammars, which declare the same functions, agree. -/
theorem C57_types (H : A.Ready k) (H' : A'.Ready k') (hr : A.grammar.NoSeenRec) (hr' : A'.grammar.NoSeenRec) (hm : k + 2 ≤ m) (hm' : k' + 2 ≤ m')
    (hn : A.grammar.rules.length < n) (hn' : A'.grammar.rules.length < n') (hc : Corresponds ρ A.grammar A'.grammar) (hf : A'.functions = A.functions)
    (h : typeInference A k m n = .ok (.value T, ms)) (h' : typeInference A' k' m' n' = .ok (.value T', ms')) :
    TypesAgree ρ A.grammar A'.grammar T T' := by
  obtain ⟨rank, hr⟩ := hr
  obtain ⟨rank', hr'⟩ := hr'
  have h1 := typeInference_post H hm hn rank
  have h1' := typeInference_post H' hm' hn' rank'
  rw [h] at h1
  rw [h'] at h1'
  obtain ⟨U, h2, h3, _⟩ := h1.1 T rfl
  obtain ⟨U', h2', h3', _⟩ := h1'.1 T' rfl
  exact final_agree hc hf H H' h2 h3 hr h2' h3' hr'

/-- C57: and the parsers of corresponding rules return values of the same Rust type. -/
theorem C57_signatures (H : A.Ready k) (H' : A'.Ready k') (hr : A.grammar.NoSeenRec) (hr' : A'.grammar.NoSeenRec) (hm : k + 2 ≤ m) (hm' : k' + 2 ≤ m')
    (hn : A.grammar.rules.length < n) (hn' : A'.grammar.rules.length < n') (hc : Corresponds ρ A.grammar A'.grammar) (hf : A'.functions = A.functions)
    (h : typeInference A k m n = .ok (.value T, ms)) (h' : typeInference A' k' m' n' = .ok (.value T', ms')) (hrr : ρ r r') {b b' : Expr}
    (hb : A.grammar.find r = some b) (hb' : A'.grammar.find r' = some b') :
    ∃ t, (∀ j, k + 2 ≤ j → compileType T j b.id = .ok t) ∧ ∀ j, k' + 2 ≤ j → compileType T' j b'.id = .ok t := by
  obtain ⟨t, h1, h2⟩ := C31_documented H hr hm hn h hb .body
  obtain ⟨t', h1', h2'⟩ := C31_documented H' hr' hm' hn' h' hb' .body
  obtain ⟨c, h3, h4⟩ := hc.body hrr hb
  rw [hb'] at h3; cases h3
  have := (HasType.alike hc hf h1 h4).det h1'
  subst this
  exact ⟨_, h2, h2'⟩

end

/-! ## Examples -/

namespace Sample

/-- `sum` with the rules in the other order. -/
def sumSwapped : Grammar := ⟨[
  ("num", .act 2 (.plus 1 (.cls 0 [⟨'0', '9'⟩])) false ["to_num"]),
  ("sum", .act 9 (.seq 8 [.nt 3 "num", .star 7 (.seq 6 [.str 4 "+", .nt 5 "num"])]) false ["add"])]⟩

theorem sum_swapped : sum.text.Perm sumSwapped.text := List.Perm.swap _ _ _

example : Accepted sumSwapped :=
  have h := C57_reordered (G := sum) (G' := sumSwapped) (by decide +kernel) (by decide +kernel) sum_swapped
  (C57_verdict (by decide +kernel) (by decide +kernel) sum_shaped (by decide +kernel) h.1 h.2.1 (fun r b hb => by
      obtain ⟨q, rfl, h1⟩ := h.2.2 r b hb
      exact ⟨_, rfl, h1⟩)
    (fun a b c h1 h2 => h1.1.trans h2.1.symm) (fun a b c h1 h2 => h1.1.symm.trans h2.1)).1.1 sum_accepted

/-- The types of its expressions. -/
def sumSwappedT : Nat → Ty
  | 0 => .atom
  | 1 => .list 0
  | 2 => .rust "u32"
  | 3 | 5 | 9 => .rust "u32"
  | 4 => .unit
  | 6 => .tuple [5]
  | 7 => .list 6
  | 8 => .tuple [3, 7]
  | _ => .unit

/-- Its generated program. -/
def sumSwappedFs : List (FnRef × Fn) := match compileGrammar sumSwappedT sumSwapped.rules with | .ok f => f | .error _ => []

theorem sumSwapped_generated : Generated sumSwapped sumSwappedT sumSwappedFs where
  compiled := by rfl
  scopes := by decide +kernel
  coherent := by decide +kernel
  resolved := by decide +kernel

/-- The two recognizers of `sum` give the same results. -/
example (input : List Char) (res : PResult StrStream Val) :
    Returns noFns sumFs false "sum" 0 input res ↔ Returns noFns sumSwappedFs false "sum" 0 input res :=
  C57_recognizers (sum_generated.deployed 0 input) (sumSwapped_generated.deployed 0 input)
    (C57_reordered (G := sum) (G' := sumSwapped) (by decide +kernel) (by decide +kernel) sum_swapped).1 ⟨rfl, rfl⟩ res

/-- `sum` with other names. -/
def french (r : String) : String := if r = "sum" then "somme" else if r = "num" then "nombre" else r

example : (sum.rename french).rules.map (·.1) = ["somme", "nombre"] := by decide +kernel

theorem sum_french : Corresponds (fun a b => b = french a ∧ (sum.find a).isSome = true) sum (sum.rename french) := by
  refine (C57_renamed (by decide +kernel) fun a b ha hb h => ?_).1
  have key : ∀ r, (sum.find r).isSome = true → r = "sum" ∨ r = "num" := by
    intro r hr
    obtain ⟨b, hb⟩ := Option.isSome_iff_exists.1 hr
    have := grammar_find_mem hb
    simp only [sum, List.mem_cons, Prod.mk.injEq, List.not_mem_nil, or_false] at this
    exact this.imp And.left And.left
  rcases key a ha with rfl | rfl <;> rcases key b hb with rfl | rfl <;> revert h <;> decide

/-- `nombre` matches the same texts as `num`. -/
example (s : List Char) (o : Out) (L : Log) :
    Peg sum noExt (.act 9 (.plus 8 (.cls 7 [⟨'0', '9'⟩])) false ["to_num"]) s o L ↔
    Peg (sum.rename french) noExt (.act 9 (.plus 8 (.cls 7 [⟨'0', '9'⟩])) false ["to_num"]) s o L :=
  C57_language sum_french (r := "num") (r' := "nombre") ⟨rfl, rfl⟩ rfl rfl s o L

/-- `typed` with the rules in another order. -/
def typedSwapped : AGrammar := ⟨⟨[
    ("pair", .span 5 (.seq 4 [.nt 0 "word", .opt 2 (.str 1 "?"), .nt 3 "num"])),
    ("word", .asc 10 (.choice 9 [.ext 6 ["ident"], .act 8 (.any 7) false ["other"]]) (.regular (.rust "String"))),
    ("sum", .act 17 (.seq 16 [.nt 11 "num", .star 15 (.seq 14 [.str 12 "+", .nt 13 "num"])]) false ["add"]),
    ("num", .act 20 (.plus 19 (.cls 18 [⟨'0', '9'⟩])) false ["to_num"])]⟩,
  [("add", ⟨"add", .ty "u32"⟩), ("to_num", ⟨"to_num", .ty "u32"⟩)], [], "StrStream", .debug⟩

theorem typed_swapped : typed.grammar.text.Perm typedSwapped.grammar.text := by
  have h : ∀ {α : Type} (a b c d : α), [a, b, c, d].Perm [d, c, a, b] := fun a b c d => by
    have h1 : [a, b, c, d].Perm [c, d, a, b] := List.perm_append_comm (l₁ := [a, b]) (l₂ := [c, d])
    exact h1.trans (List.Perm.swap _ _ _)
  exact h _ _ _ _

/-- The types agree. -/
example : ∃ T', typeInference typedSwapped 21 23 5 = .ok (.value T', []) ∧
    TypesAgree (fun a b => b = a ∧ (typed.grammar.find a).isSome = true) typed.grammar typedSwapped.grammar typedT T' :=
  ⟨_, rfl, C57_types (k' := 21) (m' := 23) (n' := 5) typed_ready (ready_of (by decide +kernel)) typed_noSeenRec
    (noSeenRec_of (fun r => if r = "pair" then 2 else if r = "sum" then 1 else 0) (by decide +kernel)) (by decide) (by decide) (by decide) (by decide)
    (C57_reordered (by decide +kernel) (by decide +kernel) typed_swapped).1 rfl typed_accepted rfl⟩

/-- `ab = ["ab"] cd?`, `cd = ["cd"] ab?`, `x = . cd`. -/
def cycleFirst : AGrammar := ⟨⟨[
    ("ab", .seq 3 [.cls 0 [⟨'a', 'a'⟩, ⟨'b', 'b'⟩], .opt 2 (.nt 1 "cd")]),
    ("cd", .seq 7 [.cls 4 [⟨'c', 'c'⟩, ⟨'d', 'd'⟩], .opt 6 (.nt 5 "ab")]),
    ("x", .seq 10 [.any 8, .nt 9 "cd"])]⟩, [], [], "StrStream", .debug⟩

/-- The same with `cd` before `ab`. -/
def cycleSecond : AGrammar := ⟨⟨[
    ("cd", .seq 3 [.cls 0 [⟨'c', 'c'⟩, ⟨'d', 'd'⟩], .opt 2 (.nt 1 "ab")]),
    ("ab", .seq 7 [.cls 4 [⟨'a', 'a'⟩, ⟨'b', 'b'⟩], .opt 6 (.nt 5 "cd")]),
    ("x", .seq 10 [.any 8, .nt 9 "cd"])]⟩, [], [], "StrStream", .debug⟩

end Sample

/-- C57: the condition on recursion is needed: the order of two rules that call each other changes the type of a third one, from `()` to `char`. -/
theorem C57_order_matters : ∃ (A A' : AGrammar) (k m n : Nat) (T T' : Nat → Ty) (x : Expr), A.Ready k ∧ A'.Ready k ∧ A.grammar.text.Perm A'.grammar.text ∧
    A'.functions = A.functions ∧ A.grammar.find "x" = some x ∧ A'.grammar.find "x" = some x ∧ (∃ ms, typeInference A k m n = .ok (.value T, ms)) ∧
    (∃ ms, typeInference A' k m n = .ok (.value T', ms)) ∧ T x.id = .unit ∧ T' x.id = .atom :=
  ⟨Sample.cycleFirst, Sample.cycleSecond, 11, 13, 4, _, _, _, ready_of (by decide +kernel), ready_of (by decide +kernel), List.Perm.swap _ _ _, rfl, rfl, rfl, ⟨_, rfl⟩,
    ⟨_, rfl⟩, rfl, rfl⟩

end Oak
