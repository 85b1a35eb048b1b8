import Verif.Proofs.TypingReady
import Verif.Proofs.TypingMsgs
/-!
# Type inference

Statements on `typeInference` (`Model/Typing.lean`) for the grammars given to the typing phase (`Ready`, `Spec/Typing.lean`). `m` and `n` are the bounds of the
model on the nesting of types and of calls; they only have to be large enough: any larger bounds give the same result.
-/
set_option autoImplicit false

namespace Oak

open Typing

section
variable {A : AGrammar} {k : Nat}

/-- C32: the inference stops on every grammar, and its result does not depend on the bounds. -/
theorem C32_terminates (H : A.Ready k) :
    (∃ x, ∀ m n, k + 2 ≤ m → A.grammar.rules.length < n → typeInference A k m n = .ok x) ∨
    (∀ m n, k + 2 ≤ m → A.grammar.rules.length < n → typeInference A k m n = .panic) := by
  have h := typeInference_post H (Nat.le_refl _) (Nat.lt_succ_self _) fun _ => 0
  have hmono : ∀ m n, k + 2 ≤ m → A.grammar.rules.length < n →
      RLe (typeInference A k (k + 2) (A.grammar.rules.length + 1)) (typeInference A k m n) := fun m n hm hn => typeInference_mono hm hn
  cases hx : typeInference A k (k + 2) (A.grammar.rules.length + 1) with
  | ok x =>
    refine .inl ⟨x, fun m n hm hn => ?_⟩
    rcases hmono m n hm hn with h1 | h1 <;> rw [hx] at h1
    · cases h1
    · exact h1.symm
  | panic =>
    refine .inr fun m n hm hn => ?_
    rcases hmono m n hm hn with h1 | h1 <;> rw [hx] at h1
    · cases h1
    · exact h1.symm
  | stuck => rw [hx] at h; exact h.elim
  | timeout => rw [hx] at h; exact h.elim

/-- C32: the inference does not panic when rules do not call each other recursively, unless the recursion goes through a semantic action, a type ascription or
a predicate; rules can call themselves. -/
theorem C32_no_panic (H : A.Ready k) (hr : A.grammar.DirectRec) :
    ∃ x, ∀ m n, k + 2 ≤ m → A.grammar.rules.length < n → typeInference A k m n = .ok x := by
  rcases C32_terminates H with h | h
  · exact h
  · obtain ⟨rank, hr⟩ := hr
    have h1 := typeInference_post H (Nat.le_refl _) (Nat.lt_succ_self _) rank
    rw [h _ _ (Nat.le_refl _) (Nat.lt_succ_self _)] at h1
    exact absurd hr h1

variable {m n : Nat} {T : Nat → Ty} {ms : List TMsg}

/-- C33: in an accepted grammar every expression has a finite Rust type. -/
theorem C33_finite (H : A.Ready k) (hm : k + 2 ≤ m) (hn : A.grammar.rules.length < n) (h : typeInference A k m n = .ok (.value T, ms)) {e : Expr}
    (he : Occurs A.grammar e) : ∃ t, ∀ j, k + 2 ≤ j → compileType T j e.id = .ok t := by
  have h1 := typeInference_post H hm hn fun _ => 0
  rw [h] at h1
  obtain ⟨U, h2, h3, _⟩ := h1.1 T rfl
  exact h2.finite h3 (Nat.le_of_lt (H.lt he _ (id_mem_indices e)))

/-- C31: in an accepted grammar where no recursion is seen, the Rust type of every expression whose value is built is the documented one. -/
theorem C31_documented (H : A.Ready k) (hr : A.grammar.NoSeenRec) (hm : k + 2 ≤ m) (hn : A.grammar.rules.length < n)
    (h : typeInference A k m n = .ok (.value T, ms)) {r : String} {b e : Expr} (hb : A.grammar.find r = some b) (he : Built T b e) :
    ∃ t, HasType A e t ∧ ∀ j, k + 2 ≤ j → compileType T j e.id = .ok t.toRust := by
  obtain ⟨rank, hr⟩ := hr
  have h1 := typeInference_post H hm hn rank
  rw [h] at h1
  obtain ⟨U, h2, h3, _⟩ := h1.1 T rfl
  exact built_type H h2 h3 hr hb he

/-- C31: an expression has at most one documented type. -/
theorem C31_unique {e : Expr} {t u : DType} (h : HasType A e t) (h' : HasType A e u) : t = u := h.det h'

/-- C31: in an accepted grammar where no recursion is seen, the type of every rule is known. -/
theorem C31_known (H : A.Ready k) (hr : A.grammar.NoSeenRec) (hm : k + 2 ≤ m) (hn : A.grammar.rules.length < n)
    (h : typeInference A k m n = .ok (.value T, ms)) {r : String} {b : Expr} (hb : A.grammar.find r = some b) : ∃ t, HasType A b t ∧ t.known = true := by
  obtain ⟨rank, hr⟩ := hr
  have h1 := typeInference_post H hm hn rank
  rw [h] at h1
  obtain ⟨U, h2, h3, h4⟩ := h1.1 T rfl
  obtain ⟨⟨v, v1, _, v3⟩, _⟩ := h2.rules hr r b hb b .root
  exact ⟨v, v1, known_of_contains v _ m v3 (h4 r b hb)⟩

/-- C31: in an accepted grammar where no recursion is seen, what is ascribed a Rust type has an unknown type or a Rust type. -/
theorem C31_ascription (H : A.Ready k) (hr : A.grammar.NoSeenRec) (hm : k + 2 ≤ m) (hn : A.grammar.rules.length < n)
    (h : typeInference A k m n = .ok (.value T, ms)) {r : String} {b : Expr} {i : Nat} {e : Expr} {s : String} (hb : A.grammar.find r = some b)
    (he : Built T b (.asc i e (.regular (.rust s)))) : ∃ t, HasType A e t ∧ (t = .external ∨ ∃ s', t = .rust s') := by
  obtain ⟨rank, hr⟩ := hr
  have h1 := typeInference_post H hm hn rank
  rw [h] at h1
  obtain ⟨U, h2, h3, _⟩ := h1.1 T rfl
  obtain ⟨_, d1, d2⟩ := built_doc H h2 h3 hr hb he
  cases d1 with
  | unit h0 =>
    obtain ⟨⟨v, v1, _, v3⟩, _⟩ := d2 _ .root
    cases v1 with
    | asc h5 =>
      cases h5
      unfold Unf at v3
      rw [v3] at h0; cases h0
  | node _ h0 => exact absurd rfl (h0 _ _ _)
  | asc _ _ h5 _ => exact h5

end

/-- C48: the inference gives types or nothing, and it gives types exactly when no error was reported, but that of a semantic action of type `()`. -/
theorem C48_reported {A : AGrammar} {k m n : Nat} {p : Partial (Nat → Ty)} {ms : List TMsg} (h : typeInference A k m n = .ok (p, ms)) :
    ((∃ T, p = .value T) ∨ p = .nothing) ∧ ((∃ T, p = .value T) ↔ ∀ msg ∈ ms, msg.blocking = false) := typeInference_honest h

/-- C48: the error of a semantic action of type `()` does not stop the inference. -/
theorem C48_unit_action : ∃ (A : AGrammar) (T : Nat → Ty), A.Ready 2 ∧ typeInference A 2 4 2 = .ok (.value T, [.unitAction 1]) ∧ (TMsg.unitAction 1).isError = true :=
  ⟨⟨⟨[("r", .act 1 (.any 0) false ["f"])]⟩, [("f", ⟨"f", .default⟩)], [], "StrStream", .debug⟩, _, ready_of (by decide +kernel), rfl, rfl⟩

/-- C48: the messages that stop the typing phase are the errors, but those about semantic actions of type `()`; in particular warnings never stop it. -/
theorem C48_levels (msg : TMsg) : msg.blocking = true ↔ msg.isError = true ∧ ∀ i, msg ≠ .unitAction i := by
  cases msg <;> simp [TMsg.blocking, TMsg.isError]

/-! ## Examples -/

namespace Sample

/-- `sum = num ("+" num)* > add`, `num = ["0-9"]+ > to_num`, `word = (ident / . > other):String`, `pair = .. word "?"? num`. -/
def typed : AGrammar := ⟨⟨[
    ("sum", .act 6 (.seq 5 [.nt 0 "num", .star 4 (.seq 3 [.str 1 "+", .nt 2 "num"])]) false ["add"]),
    ("num", .act 9 (.plus 8 (.cls 7 [⟨'0', '9'⟩])) false ["to_num"]),
    ("word", .asc 14 (.choice 13 [.ext 10 ["ident"], .act 12 (.any 11) false ["other"]]) (.regular (.rust "String"))),
    ("pair", .span 20 (.seq 19 [.nt 15 "word", .opt 17 (.str 16 "?"), .nt 18 "num"]))]⟩,
  [("add", ⟨"add", .ty "u32"⟩), ("to_num", ⟨"to_num", .ty "u32"⟩)], [], "StrStream", .debug⟩

/-- The inferred types. -/
def typedT : Nat → Ty := fun i =>
  ([.rust "u32", .unit, .rust "u32", .rust "u32", .list 3, .tuple [0, 4], .rust "u32", .atom, .list 7, .rust "u32", .rust "String", .atom, .rust "String",
    .rust "String", .rust "String", .rust "String", .unit, .unit, .rust "u32", .tuple [15, 18], .tuple [21, 15, 18],
    .rust "<Range<Stream> as StreamSpan>::Output"] : List Ty)[i]?.getD .unit

theorem typed_ready : typed.Ready 21 := ready_of (by decide +kernel)

theorem typed_noSeenRec : typed.grammar.NoSeenRec := noSeenRec_of (fun r => if r = "pair" then 2 else if r = "sum" then 1 else 0) (by decide +kernel)

theorem typed_accepted : typeInference typed 21 23 5 = .ok (.value typedT, []) := rfl

example : ∃ x, ∀ m n, 23 ≤ m → 4 < n → typeInference typed 21 m n = .ok x :=
  C32_no_panic typed_ready (directRec_of (fun r => if r = "pair" then 2 else if r = "sum" then 1 else 0) (by decide +kernel))

example : ∃ t, ∀ j, 23 ≤ j → compileType typedT j 20 = .ok t :=
  C33_finite typed_ready (by decide) (by decide) typed_accepted (e := .span 20 (.seq 19 [.nt 15 "word", .opt 17 (.str 16 "?"), .nt 18 "num"]))
    ⟨"pair", _, rfl, .refl⟩

/-- The operands of `sum`, under the semantic action. -/
example : ∃ t, HasType typed (.seq 5 [.nt 0 "num", .star 4 (.seq 3 [.str 1 "+", .nt 2 "num"])]) t ∧ ∀ j, 23 ≤ j → compileType typedT j 5 = .ok t.toRust :=
  C31_documented typed_ready typed_noSeenRec (by decide) (by decide) typed_accepted (r := "sum") rfl (.act .body (by decide))

/-- Their type is `(u32, Vec<u32>)`. -/
example : ∃ t, HasType typed (.seq 5 [.nt 0 "num", .star 4 (.seq 3 [.str 1 "+", .nt 2 "num"])]) t ∧
    t.toRust = .tuple [.rust "u32", .vec (.rust "u32")] := by
  obtain ⟨t, h1, h2⟩ := C31_documented typed_ready typed_noSeenRec (by decide) (by decide) typed_accepted (r := "sum") rfl (.act .body (by decide))
  exact ⟨t, h1, (Res.ok.inj (h2 23 (by decide))).symm⟩

example : ∃ t, HasType typed (.span 20 (.seq 19 [.nt 15 "word", .opt 17 (.str 16 "?"), .nt 18 "num"])) t ∧ t.known = true :=
  C31_known typed_ready typed_noSeenRec (by decide) (by decide) typed_accepted (r := "pair") rfl

example : ∃ t, HasType typed (.choice 13 [.ext 10 ["ident"], .act 12 (.any 11) false ["other"]]) t ∧ (t = .external ∨ ∃ s', t = .rust s') :=
  C31_ascription typed_ready typed_noSeenRec (by decide) (by decide) typed_accepted (r := "word") rfl .body

/-- `r = "x" / .` is refused, with an error. -/
example : (∃ ms, typeInference ⟨⟨[("r", .choice 2 [.str 0 "x", .any 1])]⟩, [], [], "StrStream", .debug⟩ 3 5 2 = .ok (.nothing, ms)) ∧
    ∀ ms, typeInference ⟨⟨[("r", .choice 2 [.str 0 "x", .any 1])]⟩, [], [], "StrStream", .debug⟩ 3 5 2 = .ok (.nothing, ms) → ∃ msg ∈ ms, msg.blocking = true := by
  refine ⟨⟨[.mismatch 2], rfl⟩, fun ms h => Classical.byContradiction fun hc => ?_⟩
  obtain ⟨T, hT⟩ := (C48_reported h).2.2 fun msg hm => by
    cases hb : msg.blocking with
    | false => rfl
    | true => exact absurd ⟨msg, hm, hb⟩ hc
  cases hT

/-- A rule that calls itself: `list = "x" list / "."`. -/
def selfCall : AGrammar := ⟨⟨[("list", .choice 4 [.seq 2 [.str 0 "x", .nt 1 "list"], .str 3 "."])]⟩, [], [], "StrStream", .debug⟩

example : ∃ x, ∀ m n, 7 ≤ m → 1 < n → typeInference selfCall 5 m n = .ok x :=
  C32_no_panic (A := selfCall) (k := 5) (ready_of (by decide +kernel)) (directRec_of (fun _ => 0) (by decide +kernel))

/-- `z = "w" a / "q"`, `a = "x" a / "y" z`: rules that call each other. -/
def mutualCalls : AGrammar := ⟨⟨[
    ("z", .choice 4 [.seq 2 [.str 0 "w", .nt 1 "a"], .str 3 "q"]),
    ("a", .choice 11 [.seq 7 [.str 5 "x", .nt 6 "a"], .seq 10 [.str 8 "y", .nt 9 "z"]])]⟩, [], [], "StrStream", .debug⟩

/-- `r = ("x" r / .)*`. -/
def seenRec : AGrammar := ⟨⟨[("r", .star 5 (.choice 4 [.seq 2 [.str 0 "x", .nt 1 "r"], .any 3]))]⟩, [], [], "StrStream", .debug⟩

/-- The inferred types. -/
def seenRecT : Nat → Ty := fun i =>
  ([.unit, .list 4, .list 4, .atom, .atom, .list 4, .rust "<Range<Stream> as StreamSpan>::Output"] : List Ty)[i]?.getD .unit

end Sample

/-- C32: the condition is needed: the inference panics on a grammar of two rules that call each other. -/
theorem C32_direct_needed : ∃ (A : AGrammar) (k : Nat), A.Ready k ∧ ∀ m n, k + 2 ≤ m → A.grammar.rules.length < n → typeInference A k m n = .panic := by
  refine ⟨Sample.mutualCalls, 12, ready_of (by decide +kernel), ?_⟩
  rcases C32_terminates (A := Sample.mutualCalls) (k := 12) (ready_of (by decide +kernel)) with ⟨x, h⟩ | h
  · have h1 := h 14 3 (by decide) (by decide)
    have h2 : typeInference Sample.mutualCalls 12 14 3 = .panic := rfl
    rw [h2] at h1; cases h1
  · exact h

/-- C31: the condition is needed: a grammar where a rule calls itself is accepted, and the branches of a choice have different Rust types. -/
theorem C31_recursion_needed : ∃ (A : AGrammar) (k m n : Nat) (T : Nat → Ty) (r : String) (b : Expr) (i : Nat) (e₁ e₂ : Expr) (t₁ t₂ : RTy),
    A.Ready k ∧ A.grammar.DirectRec ∧ k + 2 ≤ m ∧ A.grammar.rules.length < n ∧ typeInference A k m n = .ok (.value T, []) ∧
    A.grammar.find r = some b ∧ Built T b (.choice i [e₁, e₂]) ∧ T i ≠ .unit ∧
    compileType T (k + 2) e₁.id = .ok t₁ ∧ compileType T (k + 2) e₂.id = .ok t₂ ∧ t₁ ≠ t₂ :=
  ⟨Sample.seenRec, 6, 8, 2, Sample.seenRecT, "r", _, 4, .seq 2 [.str 0 "x", .nt 1 "r"], .any 3, .vec .char, .char,
    ready_of (by decide +kernel), directRec_of (fun _ => 0) (by decide +kernel), by decide, by decide, rfl, rfl, .star .body (by decide), by decide, rfl, rfl,
    by simp⟩

end Oak
