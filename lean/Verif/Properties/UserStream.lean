import Verif.Proofs.UserStream
import Verif.Proofs.FileMap
import Verif.Properties.WellFormed
/-!
Parsing over the streams of the user.
-/
set_option linter.constructorNameAsVariable false
set_option autoImplicit false

namespace Oak
open Spec

section
variable {S S' : Type} {G : Grammar} {T : Nat → Ty} {fs : List (FnRef × Fn)} {ops : StreamOps S} {V : S → Prop} {rest : S → List Char}
  {input : List Char} {sp : SpanSpec} {ext : Nat → FnRef → PState S Val → Res (PState S Val)} {X : ExtSpec} {s0 : S}
  {ops' : StreamOps S'} {V' : S' → Prop} {rest' : S' → List Char} {sp' : SpanSpec}
  {ext' : Nat → FnRef → PState S' Val → Res (PState S' Val)} {s0' : S'} {r : String} {e : Expr}

/-! ### C60 -/

/-- C60: over any stream type that meets the contracts of the traits, the recognizer and the parser of a rule return exactly the
results of the matches of the rule: same kind, same data, same farthest position and same expected items. -/
theorem C60_results (d : Streamed G T fs ops V rest input sp ext X s0) (he : G.find r = some e) (p : Bool) (x : PResult (List Char) Val) :
    (∃ res, ReturnsOn ops ext fs p r s0 res ∧ res.mapStream rest = x) ↔
      ∃ o L, Peg G X e input o L ∧ x = expectedView G T sp e p input L o := by
  constructor
  · rintro ⟨res, ⟨n, hn⟩, rfl⟩
    rcases d.sound n p he with h | ⟨o, L, res', hp, h1, h2, _⟩
    · rw [h] at hn; cases hn
    · rw [h1] at hn; cases hn; exact ⟨o, L, hp, h2⟩
  · rintro ⟨o, L, hp, rfl⟩
    obtain ⟨n, h⟩ := d.complete p he hp
    obtain ⟨res, h1, h2, _⟩ := h n (Nat.le_refl _)
    exact ⟨res, ⟨n, h1⟩, h2⟩

/-- C60: the stream given in a result is again a stream over the text, so that it can be read, compared or parsed. -/
theorem C60_valid (d : Streamed G T fs ops V rest input sp ext X s0) (he : G.find r = some e) (p : Bool) {res : PResult S Val} {s : S}
    (h : ReturnsOn ops ext fs p r s0 res) (hs : res.stream = some s) : V s := by
  obtain ⟨n, hn⟩ := h
  rcases d.sound n p he with h | ⟨o, L, res', hp, h1, h2, h3⟩
  · rw [h] at hn; cases hn
  · rw [h1] at hn; cases hn; exact h3 s hs

/-- C60: no panic comes from the runtime, whatever the stream type. -/
theorem C60_no_panic (d : Streamed G T fs ops V rest input sp ext X s0) (he : G.find r = some e) (p : Bool) (n : Nat) :
    Program.parse ops ext ⟨fs⟩ n ⟨p, [r]⟩ s0 ≠ .panic := by
  rcases d.sound n p he with h | ⟨o, L, res', hp, h1, h2, _⟩
  · rw [h]; simp
  · rw [h1]; simp

/-- C60: the choice of the stream type does not matter: over the same text, two stream types that give the same locations to the same
positions lead to the same results. -/
theorem C60_same (d : Streamed G T fs ops V rest input sp ext X s0) (d' : Streamed G T fs ops' V' rest' input sp ext' X s0')
    (he : G.find r = some e) (p : Bool) (x : PResult (List Char) Val) :
    (∃ res, ReturnsOn ops ext fs p r s0 res ∧ res.mapStream rest = x) ↔
      (∃ res, ReturnsOn ops' ext' fs p r s0' res ∧ res.mapStream rest' = x) := by
  rw [C60_results d he, C60_results d' he]

/-- C60: recognizers do not depend on the locations: over the same text they return the same results with every stream type. -/
theorem C60_same_recognizer (d : Streamed G T fs ops V rest input sp ext X s0) (d' : Streamed G T fs ops' V' rest' input sp' ext' X s0')
    (he : G.find r = some e) (x : PResult (List Char) Val) :
    (∃ res, ReturnsOn ops ext fs false r s0 res ∧ res.mapStream rest = x) ↔
      (∃ res, ReturnsOn ops' ext' fs false r s0' res ∧ res.mapStream rest' = x) := by
  rw [C60_results d he, C60_results d' he]
  have : ∀ o L, expectedView G T sp e false input L o = expectedView G T sp' e false input L o := by
    intro o L; cases o <;> simp [expectedView]
  simp only [this]

/-- C60: over one stream, all the results of a call say the same. -/
theorem C60_unique (d : Streamed G T fs ops V rest input sp ext X s0) (he : G.find r = some e) (p : Bool) {a b : PResult S Val}
    (ha : ReturnsOn ops ext fs p r s0 a) (hb : ReturnsOn ops ext fs p r s0 b) : a.mapStream rest = b.mapStream rest := by
  obtain ⟨o, L, hp, h⟩ := (C60_results d he p _).1 ⟨a, ha, rfl⟩
  obtain ⟨o', L', hp', h'⟩ := (C60_results d he p _).1 ⟨b, hb, rfl⟩
  obtain ⟨rfl, rfl⟩ := hp.det d.ext.det hp'
  rw [h, h']

/-- C60: accepted grammars terminate over every stream type that meets the contracts. -/
theorem C60_terminates (d : Streamed G T fs ops V rest input sp ext X s0) (ha : Accepted G) (hc : ExtSpec.Consuming X) (ht : ExtSpec.TotalOn X G)
    (he : G.find r = some e) (p : Bool) :
    ∃ n0, ∀ n, n0 ≤ n → ∃ res, Program.parse ops ext ⟨fs⟩ n ⟨p, [r]⟩ s0 = .ok res := by
  obtain ⟨o, L, h⟩ := accepted_decided d.gen.resolved ha d.fwd hc ht he input
  obtain ⟨n0, hn⟩ := d.complete p he h
  exact ⟨n0, fun n hle => (hn n hle).imp fun _ h => h.1⟩

/-- C60: streams over strings meet the contracts. -/
theorem C60_str (ptr : Nat) (text : List Char) : LawfulStream StrStream.ops (StrStream.At ptr text) StrStream.rest text :=
  StrStream.lawful ptr text

/-- C60: streams over registered files meet the contracts. -/
theorem C60_file (start ptr : Nat) (text : List Char) :
    LawfulStream FileMapStream.ops (FileMapStream.At start ptr text) FileMapStream.rest text :=
  FileMapStream.lawful start ptr text

end

namespace Sample

/-- A stream type that the user could write: it owns the characters that remain, and counts the characters read and the calls of
`next` at the end of the text. -/
structure Chars where
  left : List Char
  read : Nat
  polls : Nat

/-- The implementation of the traits for `Chars`. The laws below are broken when `eager` (a prefix that does not match is partly
read), `backwards` (comparison in the other direction) or `closed` (`has_next` answers `false`) is set. -/
def charsOps (eager backwards closed : Bool) : StreamOps Chars where
  next s := match s.left with
    | [] => .ok (none, { s with polls := s.polls + 1 })
    | c :: cs => .ok (some c, ⟨cs, s.read + 1, s.polls⟩)
  consumePrefix p s :=
    if p.toList.isPrefixOf s.left then .ok (true, ⟨s.left.drop p.toList.length, s.read + p.toList.length, s.polls⟩)
    else if eager then .ok (false, ⟨s.left.drop 1, s.read + 1, s.polls⟩)
    else .ok (false, s)
  hasNext s := !closed && !s.left.isEmpty
  cmp a b := .ok (if backwards then compare b.read a.read else compare a.read b.read)
  pos s := s.read
  span a b := (a.read, b.read)

/-- The streams over `text`. -/
def CharsAt (text : List Char) (s : Chars) : Prop := ∃ p, text = p ++ s.left ∧ s.read = p.length

/-- Locations count characters. -/
def charSpans (text : List Char) : SpanSpec where
  pos r := text.length - r.length
  span a b := (text.length - a.length, text.length - b.length)

theorem chars_lawful (text : List Char) : LawfulStream (charsOps false false false) (CharsAt text) Chars.left text where
  next_cons := by
    rintro ⟨l, n, k⟩ c cs ⟨p, h1, h2⟩ rfl
    refine ⟨⟨cs, n + 1, k⟩, rfl, ⟨p ++ [c], ?_, ?_⟩, rfl⟩
    · simpa using h1
    · simp at h2 ⊢; exact h2
  next_nil := by
    rintro ⟨l, n, k⟩ ⟨p, h1, h2⟩ rfl
    exact ⟨⟨[], n, k + 1⟩, rfl, ⟨p, h1, h2⟩, rfl⟩
  prefix_true := by
    rintro ⟨l, n, k⟩ q r' ⟨p, h1, h2⟩ rfl
    refine ⟨⟨r', n + q.toList.length, k⟩, ?_, ⟨p ++ q.toList, ?_, ?_⟩, rfl⟩
    · simp [charsOps]
    · simpa using h1
    · simp at h2 ⊢; exact h2
  prefix_false := by
    rintro ⟨l, n, k⟩ q _ h
    have : q.toList.isPrefixOf l = false := by
      rw [Bool.eq_false_iff, Ne, List.isPrefixOf_iff_prefix]; exact h
    simp only [charsOps, this, Bool.false_eq_true, if_false]
  hasNext_eq := by rintro ⟨l, n, k⟩ _; simp [charsOps]
  cmp_eq := by
    rintro ⟨l, n, k⟩ ⟨l', n', k'⟩ ⟨p, h1, h2⟩ ⟨p', h3, h4⟩
    simp only at h1 h2 h3 h4
    have e1 : text.length = p.length + l.length := by rw [h1]; simp
    have e2 : text.length = p'.length + l'.length := by rw [h3]; simp
    simp only [charsOps, Bool.false_eq_true, if_false]
    congr 1
    rcases Nat.lt_trichotomy n n' with h | h | h
    · rw [Nat.compare_eq_lt.2 h, Nat.compare_eq_lt.2 (by omega)]
    · rw [Nat.compare_eq_eq.2 h, Nat.compare_eq_eq.2 (by omega)]
    · rw [Nat.compare_eq_gt.2 h, Nat.compare_eq_gt.2 (by omega)]
  suffix := by
    rintro ⟨l, n, k⟩ ⟨p, h1, _⟩
    exact ⟨p, h1.symm⟩

/-- No external rule. -/
def noChars : Nat → FnRef → PState Chars Val → Res (PState Chars Val) := fun _ _ _ => .timeout

theorem chars_pos {text : List Char} (a : Chars) (h : CharsAt text a) : (charSpans text).pos a.left = a.read := by
  obtain ⟨p, h1, h2⟩ := h
  have : text.length = p.length + a.left.length := by rw [h1]; simp
  simp only [charSpans]; omega

/-- Every program generated from a grammar runs over `Chars`. -/
theorem chars_streamed {G : Grammar} {T : Nat → Ty} {fs : List (FnRef × Fn)} (g : Generated G T fs) (text : List Char) (k : Nat) :
    Streamed G T fs (charsOps false false false) (CharsAt text) Chars.left text (charSpans text) noChars noExt ⟨text, 0, k⟩ where
  gen := g
  lawful := chars_lawful text
  pos := chars_pos
  span a b ha hb := by
    have h1 := chars_pos a ha
    have h2 := chars_pos b hb
    simp only [charSpans] at h1 h2 ⊢
    simp only [h1, h2, charsOps]
  ext := ⟨fun _ _ _ _ _ _ => .inl rfl, fun _ _ _ _ _ _ h => h.elim, fun _ _ _ _ _ _ h => h.elim⟩
  fwd := fun _ _ _ _ h => h.elim
  fresh := ⟨[], rfl, rfl⟩
  whole := rfl

/-- The parser of `sum` on `1+` over this stream: a partial match, blocked after `+`. -/
example : ReturnsOn (charsOps false false false) noChars sumFs true "sum" ⟨"1+".toList, 0, 0⟩
    (.part (.app ["add"] [.app ["to_num"] [.list [.chr '1']], .list []]) ⟨[], 2, 0⟩ ["[\"0-9\"]"]) := ⟨20, rfl⟩

/-- The theorem applies to it. -/
example : ∃ o L, Peg sum noExt (sum.rules[0].2) "1+".toList o L ∧
    PResult.part (.app ["add"] [.app ["to_num"] [.list [.chr '1']], .list []]) [] ["[\"0-9\"]"] =
      expectedView sum sumT (charSpans "1+".toList) (sum.rules[0].2) true "1+".toList L o :=
  (C60_results (chars_streamed sum_generated _ 0) (r := "sum") rfl true _).1 ⟨_, ⟨20, rfl⟩, rfl⟩

/-- Recognizers of a grammar over `Chars` and over strings. -/
example (text : List Char) (x : PResult (List Char) Val) :
    (∃ res, ReturnsOn (charsOps false false false) noChars sumFs false "sum" ⟨text, 0, 0⟩ res ∧ res.mapStream Chars.left = x) ↔
      (∃ res, ReturnsOn StrStream.ops noFns sumFs false "sum" (StrStream.new 0 text) res ∧ res.mapStream StrStream.rest = x) :=
  C60_same_recognizer (chars_streamed sum_generated text 0)
    ⟨sum_generated, StrStream.lawful 0 text, strSpans_pos, strSpans_span, (sum_generated.deployed 0 text).ext,
      fun _ _ _ _ h => h.elim, .new 0 text, StrStream.rest_new 0 text⟩ (r := "sum") rfl x

/-- `r = "a" "bc"`. -/
def aThenBc : Grammar := ⟨[("r", .seq 2 [.str 0 "a", .str 1 "bc"])]⟩

/-- Its generated program. -/
def aThenBcFs : List (FnRef × Fn) := match compileGrammar opsT aThenBc.rules with | .ok f => f | .error _ => []

theorem aThenBc_generated : Generated aThenBc opsT aThenBcFs where
  compiled := by rfl
  scopes := by decide +kernel
  coherent := by decide +kernel
  resolved := by decide +kernel

/-- `abd` over the lawful stream: blocked after `a`. -/
example : ReturnsOn (charsOps false false false) noChars aThenBcFs false "r" ⟨"abd".toList, 0, 0⟩
    (.failure ⟨"bd".toList, 1, 0⟩ ["bc"]) := ⟨20, rfl⟩

end Sample

open Sample in
/-- C60: the law of `ConsumePrefix` is needed. Over a stream altered by a prefix that does not match, the error is reported at a wrong
position: `"a" "bc"` is blocked at `bd` on the text `abd`, not at `d`. -/
theorem C60_prefix_needed :
    ∃ res, ReturnsOn (charsOps true false false) noChars aThenBcFs false "r" ⟨"abd".toList, 0, 0⟩ res ∧
      res.mapStream Chars.left = .failure "d".toList ["bc"] ∧
      ¬ ∃ o L, Peg aThenBc noExt (aThenBc.rules[0].2) "abd".toList o L ∧
        res.mapStream Chars.left = expectedView aThenBc opsT (charSpans "abd".toList) (aThenBc.rules[0].2) false "abd".toList L o := by
  refine ⟨.failure ⟨"d".toList, 2, 0⟩ ["bc"], ⟨20, rfl⟩, rfl, ?_⟩
  intro h
  obtain ⟨res, hr, hv⟩ := (C60_results (chars_streamed aThenBc_generated _ 0) (r := "r") rfl false _).2 h
  have := C60_unique (chars_streamed aThenBc_generated _ 0) (r := "r") rfl false hr (b := .failure ⟨"bd".toList, 1, 0⟩ ["bc"]) ⟨20, rfl⟩
  rw [hv] at this
  revert this; simp [PResult.mapStream]

open Sample in
/-- C60: the law of comparisons is needed. Over a stream compared in the other direction the error is reported at the beginning of the
text. -/
theorem C60_order_needed :
    ∃ res, ReturnsOn (charsOps false true false) noChars aThenBcFs false "r" ⟨"abd".toList, 0, 0⟩ res ∧
      res.mapStream Chars.left = .failure "abd".toList [] ∧
      ¬ ∃ o L, Peg aThenBc noExt (aThenBc.rules[0].2) "abd".toList o L ∧
        res.mapStream Chars.left = expectedView aThenBc opsT (charSpans "abd".toList) (aThenBc.rules[0].2) false "abd".toList L o := by
  refine ⟨.failure ⟨"abd".toList, 0, 0⟩ [], ⟨20, rfl⟩, rfl, ?_⟩
  intro h
  obtain ⟨res, hr, hv⟩ := (C60_results (chars_streamed aThenBc_generated _ 0) (r := "r") rfl false _).2 h
  have := C60_unique (chars_streamed aThenBc_generated _ 0) (r := "r") rfl false hr (b := .failure ⟨"bd".toList, 1, 0⟩ ["bc"]) ⟨20, rfl⟩
  rw [hv] at this
  revert this; simp [PResult.mapStream]

open Sample in
/-- C60: the law of `HasNext` is needed. Over a stream that always claims to be at the end, a partial match is reported as a success. -/
theorem C60_has_next_needed :
    ∃ v, ReturnsOn (charsOps false false true) noChars aThenBcFs false "r" ⟨"abcd".toList, 0, 0⟩ (.success v) ∧
      ¬ ∃ t L, Peg aThenBc noExt (aThenBc.rules[0].2) "abcd".toList (.ok [] t) L := by
  refine ⟨_, ⟨20, rfl⟩, ?_⟩
  rintro ⟨t, L, h⟩
  obtain ⟨res, hr, hv⟩ := (C60_results (chars_streamed aThenBc_generated _ 0) (r := "r") rfl false _).2 ⟨_, _, h, rfl⟩
  have := C60_unique (chars_streamed aThenBc_generated _ 0) (r := "r") rfl false hr ⟨20, rfl⟩
  rw [hv] at this
  simp only [expectedView] at this
  revert this; simp [PResult.mapStream]

end Oak
