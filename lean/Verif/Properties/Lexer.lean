import Verif.Properties.CalcCalls
import Verif.Proofs.Lexer
/-!
Identifiers and keywords, as the tutorial writes them: C66.
-/
set_option linter.constructorNameAsVariable false
set_option autoImplicit false

namespace Oak
open Spec Lexer

variable {G : Grammar} {T : Nat → Ty} {fs : List (FnRef × Fn)} {ext : Nat → FnRef → PState StrStream Val → Res (PState StrStream Val)} {X : ExtSpec} {ptr : Nat}
  {input : List Char} {word digit blank : Char → Bool} {kws : List (String × String)}

theorem returns_success (d : Deployed G T fs ext X ptr input) {r : String} {e : Expr} (he : G.find r = some e) (p : Bool) (v : Val) :
    Returns ext fs p r ptr input (.success v) ↔ ∃ vs, Yields G X T (strSpans input) e input [] vs ∧ v = tupleVal (if p then vs else []) := by
  rw [d.returns_iff he]
  constructor
  · rintro ⟨o, L, hp, h⟩
    cases o with
    | fail => cases h
    | ok s' t =>
      simp only [expectedResult] at h
      split at h
      · rename_i hs'; subst hs'
        cases h
        exact ⟨_, ⟨t, L, hp, rfl⟩, rfl⟩
      · cases h
  · rintro ⟨_, ⟨t, L, hp, rfl⟩, rfl⟩
    exact ⟨_, L, hp, by simp only [expectedResult, if_true]⟩

theorem returns_part (d : Deployed G T fs ext X ptr input) {r : String} {e : Expr} (he : G.find r = some e) (p : Bool) (v : Val) :
    (∃ far exp, Returns ext fs p r ptr input (.part v far exp)) ↔ ∃ rest vs, Yields G X T (strSpans input) e input rest vs ∧ rest ≠ [] ∧ v = tupleVal (if p then vs else []) := by
  constructor
  · rintro ⟨far, exp, h⟩
    obtain ⟨o, L, hp, h⟩ := (d.returns_iff he _ _).1 h
    cases o with
    | fail => cases h
    | ok s' t =>
      simp only [expectedResult] at h
      split at h
      · cases h
      · rename_i hs'
        cases h
        exact ⟨_, _, ⟨t, L, hp, rfl⟩, hs', rfl⟩
  · rintro ⟨rest, _, ⟨t, L, hp, rfl⟩, hr, rfl⟩
    exact ⟨_, _, (d.returns_iff he _ _).2 ⟨_, L, hp, by simp only [expectedResult, if_neg hr]; rfl⟩⟩

theorem returns_failure (d : Deployed G T fs ext X ptr input) {r : String} {e : Expr} (he : G.find r = some e) (p : Bool) :
    (∃ far exp, Returns ext fs p r ptr input (.failure far exp)) ↔ Fails G X e input := by
  constructor
  · rintro ⟨far, exp, h⟩
    obtain ⟨o, L, hp, h⟩ := (d.returns_iff he _ _).1 h
    cases o with
    | fail => exact ⟨L, hp⟩
    | ok s' t =>
      simp only [expectedResult] at h
      split at h <;> cases h
  · rintro ⟨L, hp⟩
    exact ⟨_, _, (d.returns_iff he _ _).2 ⟨_, L, hp, rfl⟩⟩

/-- C66: the parser of identifiers does what the scanner does when it finds a name: full match if nothing remains after the name and the spaces, partial match if something
remains, failure otherwise; the function of the user is called with the characters of the name. -/
theorem C66_identifier (d : Deployed G T fs ext X ptr input) (R : Rules G T word digit blank kws) :
    (∀ v, Returns ext fs true "identifier" ptr input (.success v) ↔
      ∃ w, scan word digit blank (kws.map (·.2.toList)) input = some (.name w, []) ∧ v = .app ["to_string"] [.list (w.map .chr)]) ∧
    (∀ v, (∃ far exp, Returns ext fs true "identifier" ptr input (.part v far exp)) ↔
      ∃ w rest, scan word digit blank (kws.map (·.2.toList)) input = some (.name w, rest) ∧ rest ≠ [] ∧ v = .app ["to_string"] [.list (w.map .chr)]) ∧
    ((∃ far exp, Returns ext fs true "identifier" ptr input (.failure far exp)) ↔
      ∀ w rest, scan word digit blank (kws.map (·.2.toList)) input ≠ some (.name w, rest)) := by
  obtain ⟨a, b', c, d', e, f, g, h, i', he, hT⟩ := R.identifier
  have ha : T a ≠ .unit := hT a (by simp)
  generalize Expr.act a _ _ _ = B at he
  have hy : ∀ r vs, Yields G X T (strSpans input) B input r vs ↔
      ∃ w, scan word digit blank (kws.map (·.2.toList)) input = some (.name w, r) ∧ vs = [.app ["to_string"] [.list (w.map .chr)]] := by
    intro r vs
    rw [← identifier_yields R ha (X := X) (sp := strSpans input), yields_nt he]
    exact ⟨fun h => ⟨_, h, by rw [if_neg ha]⟩, fun ⟨_, h, h'⟩ => by rw [if_neg ha] at h'; rw [h']; exact h⟩
  refine ⟨fun v => ?_, fun v => ?_, ?_⟩
  · rw [returns_success d he]
    simp only [hy, if_true]
    constructor
    · rintro ⟨_, ⟨w, h1, rfl⟩, rfl⟩; exact ⟨w, h1, rfl⟩
    · rintro ⟨w, h1, rfl⟩; exact ⟨_, ⟨w, h1, rfl⟩, rfl⟩
  · rw [returns_part d he]
    simp only [hy, if_true]
    constructor
    · rintro ⟨r, _, ⟨w, h1, rfl⟩, h2, rfl⟩; exact ⟨w, r, h1, h2, rfl⟩
    · rintro ⟨w, r, h1, h2, rfl⟩; exact ⟨r, _, ⟨w, h1, rfl⟩, h2, rfl⟩
  · rw [returns_failure d he, ← identifier_fails R (X := X) (i := a), call_fails he]

/-- C66: the recognizer and the parser of a keyword do what the scanner does when it finds this keyword. -/
theorem C66_keyword (d : Deployed G T fs ext X ptr input) (R : Rules G T word digit blank kws) {k : String × String} (hk : k ∈ kws) (p : Bool) :
    (∀ v, Returns ext fs p k.1 ptr input (.success v) ↔ scan word digit blank (kws.map (·.2.toList)) input = some (.keyword k.2.toList, []) ∧ v = .tup []) ∧
    (∀ v, (∃ far exp, Returns ext fs p k.1 ptr input (.part v far exp)) ↔
      ∃ rest, scan word digit blank (kws.map (·.2.toList)) input = some (.keyword k.2.toList, rest) ∧ rest ≠ [] ∧ v = .tup []) ∧
    ((∃ far exp, Returns ext fs p k.1 ptr input (.failure far exp)) ↔
      ∀ rest, scan word digit blank (kws.map (·.2.toList)) input ≠ some (.keyword k.2.toList, rest)) := by
  obtain ⟨a, b, c, he⟩ := R.each k hk
  have hm : k.2.toList ∈ kws.map (·.2.toList) := List.mem_map.2 ⟨k, hk, rfl⟩
  have hy : ∀ r, (∃ vs, Yields G X T (strSpans input) (.seq a [.str b k.2, .nt c "kw_tail"]) input r vs) ↔
      scan word digit blank (kws.map (·.2.toList)) input = some (.keyword k.2.toList, r) := by
    intro r
    rw [scan_keyword]
    constructor
    · rintro ⟨vs, h⟩
      obtain ⟨h1, h2, _⟩ := (kw_yields R hk).1 ((yields_nt (i := a) he).2 ⟨vs, h, rfl⟩)
      exact ⟨h1.symm, hm, h2⟩
    · rintro ⟨h1, _, h2⟩
      obtain ⟨vs, h, _⟩ := (yields_nt he).1 ((kw_yields R hk (X := X) (sp := strSpans input) (i := a) (vs := [])).2 ⟨h1.symm, h2, rfl⟩)
      exact ⟨vs, h⟩
  have hn : ∀ r vs, Yields G X T (strSpans input) (.seq a [.str b k.2, .nt c "kw_tail"]) input r vs → vs = [] := by
    intro r vs h
    simp only [yields_seq, YieldsSeq, yields_str, tail_yields R] at h
    obtain ⟨_, ⟨_, _, _, ⟨_, rfl⟩, ⟨_, _, _, ⟨_, _, rfl⟩, ⟨_, rfl⟩, rfl⟩, rfl⟩, h⟩ := h
    simpa using h
  have hu : ∀ vs : List Val, vs = [] → tupleVal (if p then vs else []) = .tup [] := by
    rintro _ rfl
    cases p <;> rfl
  refine ⟨fun v => ?_, fun v => ?_, ?_⟩
  · rw [returns_success d he, ← hy]
    constructor
    · rintro ⟨vs, h, rfl⟩; exact ⟨⟨vs, h⟩, hu _ (hn _ _ h)⟩
    · rintro ⟨⟨vs, h⟩, rfl⟩; exact ⟨vs, h, (hu _ (hn _ _ h)).symm⟩
  · rw [returns_part d he]
    constructor
    · rintro ⟨r, vs, h, h1, rfl⟩; exact ⟨r, (hy r).1 ⟨vs, h⟩, h1, hu _ (hn _ _ h)⟩
    · rintro ⟨r, h, h1, rfl⟩
      obtain ⟨vs, h⟩ := (hy r).2 h
      exact ⟨r, vs, h, h1, (hu _ (hn _ _ h)).symm⟩
  · rw [returns_failure d he, ← call_fails (i := a) he, kw_fails R hk]
    simp only [ne_eq, scan_keyword]
    constructor
    · rintro h r ⟨h1, _⟩; exact h h1.symm
    · intro h h1
      exact h _ ⟨h1.symm, hm, rfl⟩

/-- C66: anywhere in a text (called from other rules, for example), the rules of identifiers and keywords read what the scanner reads. -/
theorem C66_position (d : Deployed G T fs ext X ptr input) (R : Rules G T word digit blank kws) (p : Bool) {st : PState StrStream Val} (hst : OkSt (StrStream.At ptr input) st) :
    (∀ rest, StepsTo ext fs p "identifier" ptr input st rest ↔ ∃ w, scan word digit blank (kws.map (·.2.toList)) st.cur.rest = some (.name w, rest)) ∧
    ∀ k ∈ kws, ∀ rest, StepsTo ext fs p k.1 ptr input st rest ↔ scan word digit blank (kws.map (·.2.toList)) st.cur.rest = some (.keyword k.2.toList, rest) := by
  constructor
  · intro rest
    obtain ⟨a, b', c, d', e, f, g, h, i', he, hT⟩ := R.identifier
    have ha : T a ≠ .unit := hT a (by simp)
    rw [C08_position d he p st hst, matches_yields (T := T) (sp := strSpans input)]
    constructor
    · rintro ⟨vs, h⟩
      obtain ⟨w, h, _⟩ := (identifier_yields R ha).1 ((yields_nt he).2 ⟨vs, h, rfl⟩)
      exact ⟨w, h⟩
    · rintro ⟨w, h⟩
      obtain ⟨vs, h, _⟩ := (yields_nt he).1 ((identifier_yields R ha (X := X) (sp := strSpans input)).2 ⟨w, h, rfl⟩)
      exact ⟨vs, h⟩
  · intro k hk rest
    obtain ⟨a, b, c, he⟩ := R.each k hk
    have hm : k.2.toList ∈ kws.map (·.2.toList) := List.mem_map.2 ⟨k, hk, rfl⟩
    rw [C08_position d he p st hst, matches_yields (T := T) (sp := strSpans input), scan_keyword]
    constructor
    · rintro ⟨vs, h⟩
      obtain ⟨h1, h2, _⟩ := (kw_yields R hk).1 ((yields_nt (i := a) he).2 ⟨vs, h, rfl⟩)
      exact ⟨h1.symm, hm, h2⟩
    · rintro ⟨h1, _, h2⟩
      obtain ⟨vs, h, _⟩ := (yields_nt he).1 ((kw_yields R hk (X := X) (sp := strSpans input) (i := a) (vs := [])).2 ⟨h1.symm, h2, rfl⟩)
      exact ⟨vs, h⟩

/-- C66: an identifier is never read where a keyword is read, nor a keyword where another one is read. -/
theorem C66_exclusive (d : Deployed G T fs ext X ptr input) (R : Rules G T word digit blank kws) (p p' : Bool) {st : PState StrStream Val} (hst : OkSt (StrStream.At ptr input) st)
    {k : String × String} (hk : k ∈ kws) {rest : List Char} (h : StepsTo ext fs p k.1 ptr input st rest) :
    (∀ rest', ¬ StepsTo ext fs p' "identifier" ptr input st rest') ∧ ∀ k' ∈ kws, ∀ rest', StepsTo ext fs p' k'.1 ptr input st rest' → k'.2 = k.2 ∧ rest' = rest := by
  have h1 := ((C66_position d R p hst).2 k hk rest).1 h
  constructor
  · intro rest' h'
    obtain ⟨w, h2⟩ := ((C66_position d R p' hst).1 rest').1 h'
    rw [h1] at h2
    cases h2
  · intro k' hk' rest' h'
    have h2 := ((C66_position d R p' hst).2 k' hk' rest').1 h'
    rw [h1] at h2
    injection h2 with h2
    injection h2 with h2 h3
    injection h2 with h2
    exact ⟨String.toList_injective h2.symm, h3.symm⟩

/-! ## Examples -/

/-- The rules of the calculator are of this form. -/
theorem Calculator.calc_lexer {T : Nat → Ty} (H : CalcTypes T) : Rules calcG T isWord isDigit isSpace [("let_kw", "let"), ("in_kw", "in")] where
  identifier := ⟨64, 63, 57, 56, 59, 58, 61, 60, 62, rfl, by simp [H.t64, H.t63, H.t61, H.t60]⟩
  ident_char := ⟨_, rfl, ⟨_, _, rfl, fun _ => class_word⟩, H.t65⟩
  digit := ⟨_, rfl, ⟨_, _, rfl, fun _ => class_digit⟩⟩
  spacing := ⟨74, 73, _, rfl, ⟨_, _, rfl, fun _ => class_space⟩, H.t74⟩
  kw_tail := ⟨78, 76, 75, 77, rfl⟩
  keyword := ⟨81, _, rfl, by simp, by simp⟩
  each := by
    intro k hk
    simp only [List.mem_cons, List.not_mem_nil, or_false] at hk
    rcases hk with rfl | rfl
    · exact ⟨84, 82, 83, rfl⟩
    · exact ⟨87, 85, 86, rfl⟩
  words := by
    intro k hk
    simp only [List.mem_cons, List.not_mem_nil, or_false] at hk
    rcases hk with rfl | rfl <;> exact ⟨by decide, by decide⟩

/-- `letter` is an identifier, `let` and `let x` are not. -/
example : scan Calculator.isWord Calculator.isDigit Calculator.isSpace ["let".toList, "in".toList] "letter  in".toList = some (.name "letter".toList, "in".toList) ∧
    scan Calculator.isWord Calculator.isDigit Calculator.isSpace ["let".toList, "in".toList] "let x".toList = some (.keyword "let".toList, "x".toList) := by decide +kernel

/-- `parse_identifier` of the calculator on `letter `. -/
example {fs : List (FnRef × Fn)} (h : CalcCode fs) :
    Returns noFns fs true "identifier" 0 "letter ".toList (.success (.app ["to_string"] [.list ("letter".toList.map .chr)])) := by
  obtain ⟨T, H, d⟩ := calc_deployed h 0 "letter ".toList
  exact ((C66_identifier d (Calculator.calc_lexer H)).1 _).2 ⟨"letter".toList, by decide +kernel, rfl⟩

namespace Sample

/-- The rules of the tutorial without `kw_tail`: `identifier = !digit !keyword ident_char+ spacing > to_string ; ident_char = ["a-z"] ; digit = ["0-9"] ;
spacing = [" "]*:(^) ; keyword = let_kw / in_kw ; let_kw = "let" ; in_kw = "in"` -/
def tailless : Grammar := ⟨[
  ("identifier", .act 8 (.seq 7 [.not 1 (.nt 0 "digit"), .not 3 (.nt 2 "keyword"), .plus 5 (.nt 4 "ident_char"), .nt 6 "spacing"]) false ["to_string"]),
  ("ident_char", .cls 9 [⟨'a', 'z'⟩]),
  ("digit", .cls 10 [⟨'0', '9'⟩]),
  ("spacing", .asc 13 (.star 12 (.cls 11 [⟨' ', ' '⟩])) .invisible),
  ("keyword", .choice 16 [.nt 14 "let_kw", .nt 15 "in_kw"]),
  ("let_kw", .str 17 "let"),
  ("in_kw", .str 18 "in")]⟩

/-- Types of its nodes. -/
def taillessT : Nat → Ty
  | 0 | 4 | 9 | 10 | 11 => .atom
  | 5 => .list 4
  | 7 => .tuple [5]
  | 8 => .rust "String"
  | 12 => .list 11
  | _ => .unit

/-- Its generated program. -/
def taillessFs : List (FnRef × Fn) := match compileGrammar taillessT tailless.rules with | .ok f => f | .error _ => []

theorem tailless_generated : Generated tailless taillessT taillessFs where
  compiled := by rfl
  scopes := by decide +kernel
  coherent := by decide +kernel
  resolved := by decide +kernel

/-- The parser of identifiers fails on `letter`. -/
theorem tailless_fails : (match Program.parse StrStream.ops noFns ⟨taillessFs⟩ 20 ⟨true, ["identifier"]⟩ (StrStream.new 0 "letter".toList) with
    | .ok (.failure _ _) => true
    | _ => false) = true := by decide +kernel

end Sample

/-- C66: the rule `kw_tail` is needed: without it, `letter` is not read as an identifier, since it begins with `let`. -/
theorem C66_tail_needed : (∃ far exp, Returns noFns Sample.taillessFs true "identifier" 0 "letter".toList (.failure far exp)) ∧
    scan Calculator.isWord Calculator.isDigit Calculator.isSpace ["let".toList, "in".toList] "letter".toList = some (.name "letter".toList, []) := by
  refine ⟨?_, by decide +kernel⟩
  have hs := Sample.tailless_fails
  split at hs
  · rename_i hp
    exact ⟨_, _, 20, hp⟩
  · cases hs

end Oak
