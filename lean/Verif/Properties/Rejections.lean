import Verif.Proofs.TypingAccept
import Verif.Properties.Macro
/-!
# The errors of the type inference

What the grammar has when the type inference refuses it (`Spec/Rejections.lean`), and grammars that it accepts.
-/
set_option linter.constructorNameAsVariable false
set_option autoImplicit false

namespace Oak
open Typing Syntax

section
variable {A : AGrammar} {k m n : Nat}

/-- The result of the inference, with the state where its messages are justified. -/
theorem inference_told (H : A.Ready k) (hr : A.grammar.NoSeenRec) {x : Partial (Nat → Ty) × List TMsg} (h : typeInference A k m n = .ok x) : Told A x := by
  obtain ⟨rank, hr⟩ := hr
  have h1 : typeInference A k (max m (k + 2)) (max n (A.grammar.rules.length + 1)) = .ok x := by
    rcases typeInference_mono (A := A) (k := k) (Nat.le_max_left m (k + 2)) (Nat.le_max_left n (A.grammar.rules.length + 1)) with h2 | h2 <;> rw [h] at h2
    · cases h2
    · exact h2.symm
  have h2 := typeInference_post H (Nat.le_max_right m (k + 2)) (Nat.le_max_right n (A.grammar.rules.length + 1)) rank
  rw [h1] at h2
  exact h2.2 hr

/-- C50: when the inference refuses a grammar, the first error that it reports, but those of semantic actions of type `()`, is right: the types of the branches of
the choice do not agree, the expression is ascribed a Rust type and has another one, the ascription is inside one of another kind, or the type of the rule is
not known. -/
theorem C50_first_error (H : A.Ready k) (hr : A.grammar.NoSeenRec) {ms : List TMsg} (h : typeInference A k m n = .ok (.nothing, ms)) :
    ∃ msg, ms.find? TMsg.blocking = some msg ∧ msg.Justified A := by
  obtain ⟨s, h1, h2, h3⟩ := inference_told H hr h
  dsimp only at h2 h3
  rw [← h2]
  obtain ⟨d, h4, _, h5⟩ := h1.some (h3.2 rfl)
  exact ⟨_, h4, h5.justified⟩

/-- C50: the other messages are right: semantic actions that are reported are declared with the type `()`, and no warning on recursive types is given. -/
theorem C50_other_messages (H : A.Ready k) (hr : A.grammar.NoSeenRec) {p : Partial (Nat → Ty)} {ms : List TMsg} (h : typeInference A k m n = .ok (p, ms)) :
    ∀ msg ∈ ms, msg.blocking = false → ∃ i e boxed f d fn, msg = .unitAction i ∧ Occurs A.grammar (.act i e boxed [f]) ∧
      A.functions.find? (·.1 == f) = some (d, fn) ∧ (fn.ret = .default ∨ fn.ret = .ty "()") := by
  obtain ⟨s, h1, h2, h3⟩ := inference_told H hr h
  intro msg hm hb
  have hj := h1.rest msg (by rw [h2]; exact hm) hb
  cases msg with
  | unitAction i => obtain ⟨e, boxed, f, d, fn, h4⟩ := hj; exact ⟨i, e, boxed, f, d, fn, rfl, h4⟩
  | recursive r => exact absurd hr hj
  | mismatch | ascription | untyped => cases hb

/-- C50: a grammar whose choices and rules have documented types, and where Rust types are ascribed to what has a Rust type or an unknown type, is accepted, if
no ascription is inside an ascription of another kind, and spans are not ascribed a Rust type. -/
theorem C50_accepts (H : A.Ready k) (hr : A.grammar.NoSeenRec) (hc : A.TypeCorrect) (hu : A.Untangled) :
    ∃ T ms, ∀ m n, k + 2 ≤ m → A.grammar.rules.length < n → typeInference A k m n = .ok (.value T, ms) := by
  obtain ⟨⟨p, ms⟩, hx⟩ := C32_no_panic H (by obtain ⟨rank, hk⟩ := hr; exact ⟨rank, fun r b s hb hs => .inr (hk r b s hb hs)⟩)
  have h0 := hx _ _ (Nat.le_refl _) (Nat.lt_succ_self _)
  rcases (C48_reported h0).1 with ⟨T, rfl⟩ | rfl
  · exact ⟨T, ms, hx⟩
  · obtain ⟨msg, h1, h2⟩ := C50_first_error H hr h0
    exact absurd h2 (no_error hc hu (by simpa using List.find?_some h1))

end

/-- The steps of an expansion that ends with an error of type. -/
theorem oak_typingError {n : Nat} {ts : List Tok} {ms : List Msg} {us : List TMsg} (h : oak n ts = .ok (.typingError ms us)) :
    ∃ A k p, Analysed ts A k ∧ typeInference A k n n = .ok (p, us) ∧ ∀ T, p ≠ .value T := by
  unfold oak at h
  split at h
  · rename_i F k hp
    unfold checkAndCompile at h
    obtain ⟨⟨p, ms'⟩, h1, h2⟩ := Res.bind_eq_ok h
    dsimp only at h2
    split at h2
    · rename_i B
      unfold typeAndCompile at h2
      obtain ⟨⟨q, us'⟩, h3, h4⟩ := Res.bind_eq_ok h2
      dsimp only at h4
      split at h4
      · split at h4 <;> cases h4
      · rename_i hne
        cases h4
        exact ⟨extractStream B, k, q, ⟨n, F, B, ms, hp, h1, rfl⟩, h3, fun T hT => hne T hT⟩
    · cases h2
  · cases h
  · cases h
  · cases h

/-- C50: the same for the macro: when it stops with errors of type, the first one is right. -/
theorem C50_macro_rejects {n : Nat} {ts : List Tok} {ms : List Msg} {us : List TMsg} (h : oak n ts = .ok (.typingError ms us))
    (hr : ∀ A k, Analysed ts A k → A.grammar.NoSeenRec) : ∃ A k msg, Analysed ts A k ∧ us.find? TMsg.blocking = some msg ∧ msg.Justified A := by
  obtain ⟨A, k, p, h1, h2, h3⟩ := oak_typingError h
  have H := h1.prepared.ready
  rcases (C48_reported h2).1 with ⟨T, rfl⟩ | rfl
  · exact absurd rfl (h3 T)
  · obtain ⟨msg, h4, h5⟩ := C50_first_error H (hr A k h1) h2
    exact ⟨A, k, msg, h1, h4, h5⟩

/-- C50: the macro generates code for such a grammar. -/
theorem C50_macro_accepts {ts : List Tok} {A : AGrammar} {k : Nat} (h : Analysed ts A k) (hr : A.Regular) (hc : A.TypeCorrect) (hu : A.Untangled) :
    ∃ ms us T fs, Expands ts (.ok (.code ms us A T fs)) := by
  have hp := h.prepared
  obtain ⟨T, us, h3⟩ := C50_accepts hp.ready hr.rec_ hc hu
  obtain ⟨n, F, B, ms, h1, h2, rfl⟩ := h
  obtain ⟨fs, hfs⟩ := C34_no_panic hp.shaped (typed_sized hp hr (h3 _ _ (Nat.le_refl _) (Nat.lt_succ_self _))).1
  refine ⟨ms, us, T, fs, max n (k + 2 + (extractStream B).grammar.rules.length), fun n' hn' => ?_⟩
  unfold oak
  rw [parseBlocks_mono (show n ≤ n' by omega) (by rw [h1]; simp), h1]
  dsimp only
  unfold checkAndCompile
  have h2' : analysisPhase n' n' F = .ok (.value B, ms) := by
    rcases analysisPhase_mono (show n ≤ n' by omega) (show n ≤ n' by omega) F with h4 | h4 <;> rw [h2] at h4
    · cases h4
    · exact h4.symm
  rw [h2', Res.bind_ok]
  dsimp only
  unfold typeAndCompile
  rw [h3 n' n' (by omega) (by omega), Res.bind_ok]
  dsimp only
  rw [hfs]

/-! ## Examples -/

namespace Sample

theorem arith_typeCorrect : arith.TypeCorrect := by
  have hnum : HasType arith (.nt 7 "num") (.rust "u32") := .nt rfl .act
  have hch : HasType arith (.choice 13 [.nt 7 "num", .act 12 (.seq 11 [.str 8 "(", .nt 9 "sum", .str 10 ")"]) false ["id"]]) (.rust "u32") :=
    .choice (.cons hnum (.cons .act .nil)) (.known (pre := []) (post := [.external]) rfl (by simp) (by simp) (by simp) (by simp [actionType, arith]))
  refine ⟨fun i es h => ?_, fun i c x h => ?_, fun r b h => ?_⟩
  · have := occurs_mem h
    simp [arith, subs, subsAll] at this
    obtain ⟨rfl, rfl⟩ := this
    exact ⟨_, hch⟩
  · have := occurs_mem h
    simp [arith, subs, subsAll] at this
    obtain ⟨rfl, rfl, rfl⟩ := this
    exact .inr ⟨_, hch⟩
  · have := grammar_find_mem h
    simp [arith] at this
    rcases this with ⟨rfl, rfl⟩ | ⟨rfl, rfl⟩ | ⟨rfl, rfl⟩
    · exact ⟨_, .act, rfl⟩
    · exact ⟨_, .asc .rust, rfl⟩
    · exact ⟨_, .act, rfl⟩

theorem arith_untangled : arith.Untangled := by
  refine ⟨fun i c ty h j d ty' hd => ?_, fun i c x h j d => ⟨fun hd => ?_, fun hd => ?_⟩⟩ <;>
  · have := occurs_mem h
    simp [arith, subs, subsAll] at this
    obtain ⟨rfl, rfl, rfl⟩ := this
    have := under_mem hd
    simp [unders, undersAll] at this

theorem arith_analysed : Analysed arithTokens arith 18 := ⟨100, _, _, [], rfl, rfl, rfl⟩

example : ∃ ms us T fs, Expands arithTokens (.ok (.code ms us arith T fs)) := C50_macro_accepts arith_analysed arith_regular arith_typeCorrect arith_untangled

/-- The tokens of `r = "x" / .`. -/
def unlikeTokens : List Tok := [.path ["r"], .punct '=' false, .lit "x", .punct '/' false, .punct '.' false]

/-- The grammar given to the typing phase. -/
def unlike : AGrammar := ⟨⟨[("r", .choice 2 [.str 0 "x", .any 1])]⟩, [], [.alias "Stream" "StrStream"], "StrStream", .debug⟩

/-- It is refused, and the branches of the choice have no common type. -/
example : ∃ es ts, Occurs unlike.grammar (.choice 2 es) ∧ HasTypes unlike es ts ∧ ∀ t, ¬ ChoiceType ts t := by
  obtain ⟨msg, h1, h2⟩ := C50_first_error (A := unlike) (k := 3) (m := 5) (n := 2) (ready_of (by decide +kernel)) (noSeenRec_of (fun _ => 0) (by decide +kernel))
    (ms := [.mismatch 2]) rfl
  cases h1
  exact h2

example : ∃ us, oak 100 unlikeTokens = .ok (.typingError [] us) := ⟨_, rfl⟩

end Sample

/-- `r = ("x" ("y"):(^)):()`: an ascription inside an ascription of another kind. -/
def Sample.nested : AGrammar :=
  ⟨⟨[("r", .asc 4 (.seq 3 [.str 0 "x", .asc 2 (.str 1 "y") .invisible]) (.regular .unit))]⟩, [], [], "StrStream", .debug⟩

/-- `r = (.. "x"):T`: a span that is ascribed a Rust type. -/
def Sample.spanned : AGrammar :=
  ⟨⟨[("r", .asc 2 (.span 1 (.str 0 "x")) (.regular (.rust "T")))]⟩, [], [], "StrStream", .debug⟩

/-- C50: the condition on ascriptions is needed: this grammar has no error of type, and is refused. -/
theorem C50_untangled_needed : ∃ (A : AGrammar) (k : Nat), A.Ready k ∧ A.grammar.NoSeenRec ∧ A.TypeCorrect ∧
    (∀ i c x, Occurs A.grammar (.asc i c (.regular (.rust x))) → ∀ j d, ¬ Under c (.span j d) ∧ ¬ Under c (.range j d)) ∧
    ∃ m n ms, typeInference A k m n = .ok (.nothing, ms) := by
  refine ⟨Sample.nested, 5, ready_of (by decide +kernel), noSeenRec_of (fun _ => 0) (by decide +kernel), ⟨fun i es h => ?_, fun i c x h => ?_, fun r b h => ?_⟩,
    fun i c x h => ?_, 7, 3, _, rfl⟩
  · have := occurs_mem h; simp [Sample.nested, subs, subsAll] at this
  · have := occurs_mem h; simp [Sample.nested, subs, subsAll] at this
  · have := grammar_find_mem h
    simp [Sample.nested] at this
    obtain ⟨rfl, rfl⟩ := this
    exact ⟨_, .asc .unit, rfl⟩
  · have := occurs_mem h; simp [Sample.nested, subs, subsAll] at this

/-- C50: the condition on spans is needed: the span has a Rust type, and is refused. -/
theorem C50_spans_needed : ∃ (A : AGrammar) (k : Nat), A.Ready k ∧ A.grammar.NoSeenRec ∧ A.TypeCorrect ∧
    (∀ i c ty, Occurs A.grammar (.asc i c ty) → ∀ j d ty', Under c (.asc j d ty') → Alike ty ty') ∧
    ∃ m n ms, typeInference A k m n = .ok (.nothing, ms) := by
  refine ⟨Sample.spanned, 3, ready_of (by decide +kernel), noSeenRec_of (fun _ => 0) (by decide +kernel), ⟨fun i es h => ?_, fun i c x h => ?_, fun r b h => ?_⟩,
    fun i c ty h j d ty' hd => ?_, 5, 3, _, rfl⟩
  · have := occurs_mem h; simp [Sample.spanned, subs] at this
  · have := occurs_mem h
    simp [Sample.spanned, subs] at this
    obtain ⟨rfl, rfl, rfl⟩ := this
    exact .inr ⟨_, .span .str⟩
  · have := grammar_find_mem h
    simp [Sample.spanned] at this
    obtain ⟨rfl, rfl⟩ := this
    exact ⟨_, .asc .rust, rfl⟩
  · have := occurs_mem h
    simp [Sample.spanned, subs] at this
    obtain ⟨rfl, rfl, rfl⟩ := this
    have := under_mem hd
    simp [unders] at this

end Oak
