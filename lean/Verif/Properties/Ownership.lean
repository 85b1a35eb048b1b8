import Verif.Proofs.OwnedFn
import Verif.Properties.RustTyping
/-!
The generated functions are accepted by the move checker of Rust: C51.
-/
set_option linter.constructorNameAsVariable false
set_option autoImplicit false

namespace Oak
open Spec Syntax Typing

/-! ### C51 -/

/-- C51: whichever types are `Copy` and however the variables of a function are typed, no function generated for a grammar whose types agree with the
number of values uses a moved variable, provided, for parsers, that no choice follows in a sequence an expression whose values are not `Copy`. -/
theorem C51_moves {A : AGrammar} {T : Nat → Ty} (hsz : A.grammar.sized T = true) {fs : List (FnRef × Fn)} (hc : compileGrammar T A.grammar.rules = .ok fs) (cp : String → Bool) :
    ∀ f ∈ fs, (f.1.parser = true → A.Apart T cp) → f.2.Owned (A.sigs T) cp := sized_owned hsz cp hc

/-- C51: with the conditions of C49, every function has a typing, and with this typing it uses no moved variable. -/
theorem C51_accepted {A : AGrammar} {k m n : Nat} {T : Nat → Ty} {ms : List TMsg} (H : A.Ready k) (hr : A.grammar.NoSeenRec) (hmix : A.Unmixed) (hran : A.PlainRanges)
    (hag : A.Agrees) (h : typeInference A k m n = .ok (.value T, ms)) {fs : List (FnRef × Fn)} (hc : compileGrammar T A.grammar.rules = .ok fs)
    (hsc : A.grammar.scopable T = true) (href : A.grammar.refable T = true) {cp : String → Bool} (hap : A.Apart T cp) :
    ∀ f ∈ fs, ∃ (ty : Name → VTy) (t : RTy), FnTyped (A.sigs T) (fun x u => ty x = u) f.2 t ∧ f.2.owns (fun x => (ty x).copy cp) = true := by
  intro f hf
  obtain ⟨rank, hrank⟩ := hr
  obtain ⟨m, _, h1⟩ := typeInference_value H h rank
  have ho := C51_moves (accepted_sized H h1 hrank hmix hran).1 hc cp f hf fun _ => hap
  obtain ⟨ty, ht⟩ := accepted_fnTyped H h1 hrank hmix hran hag hc hsc (refable_refOk hc href) f hf
  split at ht
  · obtain ⟨t, _, ht⟩ := ht
    exact ⟨ty, t, ht, ho ty t ht⟩
  · exact ⟨ty, .unit, ht, ho ty .unit ht⟩

/-- C51: the same for the macro, from the tokens. -/
theorem C51_macro {n : Nat} {ts : List Tok} {ms : List Msg} {us : List TMsg} {A : AGrammar} {T : Nat → Ty} {fs : List (FnRef × Fn)}
    (h : oak n ts = .ok (.code ms us A T fs)) (hr : A.Regular) (cp : String → Bool) : ∀ f ∈ fs, (f.1.parser = true → A.Apart T cp) → f.2.Owned (A.sigs T) cp := by
  obtain ⟨F, k, B, h1, h2, rfl, h3, h4⟩ := oak_code h
  have H : Prepared (extractStream B) k := prepared_stream (prepared h1 h2).1
  exact C51_moves (typed_sized H hr h3).1 h4 cp

/-! ### Cases that meet the hypotheses, and one that does not -/

namespace Sample

/-- `r = num ("+" > op / "-" > op) num` and `num = ["0-9"] > digit`, with `fn op() -> N` and `fn digit(c: char) -> N`. -/
def binary : AGrammar := ⟨⟨[
    ("r", .seq 7 [.nt 0 "num", .choice 5 [.act 2 (.str 1 "+") false ["op"], .act 4 (.str 3 "-") false ["op"]], .nt 6 "num"]),
    ("num", .act 9 (.cls 8 [⟨'0', '9'⟩]) false ["digit"])]⟩,
  [("op", ⟨"op", .ty "N"⟩), ("digit", ⟨"digit", .ty "N"⟩)], [], "StrStream", .debug⟩

/-- The inferred types. -/
def binaryT : Nat → Ty := fun i =>
  ([.rust "N", .unit, .rust "N", .unit, .rust "N", .rust "N", .rust "N", .tuple [0, 5, 6], .atom, .rust "N", .rust "<Range<Stream> as StreamSpan>::Output"] : List Ty)[i]?.getD .unit

theorem binary_accepted : typeInference binary 10 12 3 = .ok (.value binaryT, []) := rfl
theorem binary_ready : binary.Ready 10 := ready_of (by decide +kernel)
theorem binary_rec : binary.grammar.NoSeenRec := noSeenRec_of (fun r => if r = "r" then 1 else 0) (by decide +kernel)
theorem binary_mixed : binary.Unmixed := unmixed_of (by decide +kernel)
theorem binary_plain : binary.PlainRanges := by
  intro i e ho
  have := occurs_subs ho
  simp [binary, subsAll, subs] at this

theorem binary_agrees : binary.Agrees := by
  have hact : ∀ {i e b f t}, HasType binary (.act i e b f) t → t = actionType binary b f := fun h => by cases h; rfl
  refine ⟨?_, ?_, ?_, ?_, ?_⟩
  · intro i es ho d hd e he t u ht hu _
    have := occurs_subs ho
    simp [binary, subsAll, subs] at this
    obtain ⟨_, rfl⟩ := this
    have key : ∀ {d t}, d ∈ [Expr.act 2 (.str 1 "+") false ["op"], .act 4 (.str 3 "-") false ["op"]] → HasType binary d t → t = .rust "N" := by
      intro d t hd ht
      simp only [List.mem_cons, List.not_mem_nil, or_false] at hd
      rcases hd with rfl | rfl <;> exact hact ht
    rw [key hd ht, key he hu]
  · intro i e s ho
    have := occurs_subs ho
    simp [binary, subsAll, subs] at this
  · intro i e f ho
    have := occurs_subs ho
    simp [binary, subsAll, subs] at this
  · intro i e b f ho
    have := occurs_subs ho
    simp [binary, subsAll, subs] at this
    rcases this with ⟨_, _, rfl, rfl⟩ | ⟨_, _, rfl, rfl⟩ | ⟨_, _, rfl, rfl⟩ <;> intro h <;> exact DType.noConfusion h
  · intro i e b f ho
    have := occurs_subs ho
    simp [binary, subsAll, subs] at this
    rcases this with ⟨_, _, rfl, rfl⟩ | ⟨_, _, rfl, rfl⟩ | ⟨_, _, rfl, rfl⟩ <;> intro h <;> exact absurd h (by decide +kernel)

theorem binary_num : HasType binary (.act 9 (.cls 8 [⟨'0', '9'⟩]) false ["digit"]) (.rust "N") := .act

/-- If `N` is `Copy`, there is nothing to move. -/
theorem binary_apart {cp : String → Bool} (h : cp "N" = true) : binary.Apart binaryT cp := by
  have hn : ∀ i, CopyValue binary binaryT cp (.nt i "num") := fun i => .nt (n := 1) rfl rfl h
  intro r hr
  have hr' : r = ("r", .seq 7 [.nt 0 "num", .choice 5 [.act 2 (.str 1 "+") false ["op"], .act 4 (.str 3 "-") false ["op"]], .nt 6 "num"]) ∨
    r = ("num", .act 9 (.cls 8 [⟨'0', '9'⟩]) false ["digit"]) := by simpa [binary] using hr
  rcases hr' with rfl | rfl
  · right; simp [Oak.Apart, ApartSeq, ApartAlts, hn]
  · right; simp [Oak.Apart]

example : ∃ fs, compileGrammar binaryT binary.grammar.rules = .ok fs ∧ fs.length = 4 ∧ (∃ f ∈ fs, f.2.closures ≠ []) ∧
    ∀ f ∈ fs, ∃ (ty : Name → VTy) (t : RTy), FnTyped (binary.sigs binaryT) (fun x u => ty x = u) f.2 t ∧ f.2.owns (fun x => (ty x).copy fun s => s == "N") = true := by
  refine ⟨_, rfl, rfl, by decide +kernel, ?_⟩
  exact C51_accepted binary_ready binary_rec binary_mixed binary_plain binary_agrees binary_accepted rfl (by decide +kernel) (by decide +kernel) (binary_apart (by decide))

end Sample

namespace Sample

/-- The code of the branch of `r` for the given operator. -/
def binaryAlt (op : String) (k : Ex) : Ex :=
  .ifPrefix op (.stmt (.letVal (.var 1 1) (.call ["op"] [])) k) (.stmt (.error op) .failure)

/-- The call of the continuation of the choice. -/
def binaryK : Ex := .call 1 [] [.var 1 0, .var 1 1] []

/-- What follows the first `num`. -/
def binaryTail : Ex :=
  .stmt (.letMark (.mark 1)) (.stmt (.letTrue (.branchFailed 1)) (.bind (binaryAlt "+" (.stmt (.setFalse (.branchFailed 1)) binaryK))
    (.ite (.var (.branchFailed 1)) (.stmt (.restoreFailed true (.mark 1)) (.bind (binaryAlt "-" binaryK) .st)) .st)))

/-- The parser of `r`. -/
def binaryFn : Fn := ⟨[⟨1, [], [.var 1 0, .var 1 1], [],
    .stmt (.call ⟨true, ["num"]⟩) (.ite .isSuccessful (.stmt (.extract [.var 1 2]) (.success (.tup [.var 1 0, .var 1 1, .var 1 2]))) (.stmt .fail .failure))⟩],
  .stmt (.call ⟨true, ["num"]⟩) (.ite .isSuccessful (.stmt (.extract [.var 1 0]) binaryTail) (.stmt .fail .failure))⟩

theorem binary_compiled : ∃ fs, compileGrammar binaryT binary.grammar.rules = .ok fs ∧ (⟨true, ["r"]⟩, binaryFn) ∈ fs ∧ binary.grammar.scopable binaryT = true ∧
    binary.grammar.refable binaryT = true := by
  have h : (match compileGrammar binaryT binary.grammar.rules with
    | .ok fs => decide ((⟨true, ["r"]⟩, binaryFn) ∈ fs)
    | .error _ => false) = true := by decide +kernel
  split at h
  · rename_i fs hfs
    have h := of_decide_eq_true h
    exact ⟨fs, hfs, h, by decide +kernel, by decide +kernel⟩
  · cases h

theorem binary_moved {κ : Name → Bool} (h : κ (.var 1 0) = false) : binaryFn.owns κ = false := by
  -- the call of the continuation moves the variable
  have h1 : ∀ M, .var 1 0 ∈ M → binaryK.owns κ M = none := fun M hM => by simp [binaryK, Ex.owns, useAll, useVar, hM]
  have h2 : ∀ M M', binaryK.owns κ M = some M' → Name.var 1 0 ∈ M' := by
    intro M M' hM
    by_cases h0 : .var 1 0 ∈ M
    · rw [h1 M h0] at hM; cases hM
    · have e1 : useVar κ (.var 1 0) M = some (.var 1 0 :: M) := by simp [useVar, h0, h]
      have hr : ∀ N, readAll [] N = some N := fun N => by simp [readAll]
      by_cases h1' : .var 1 1 ∈ Name.var 1 0 :: M
      · have e2 : useVar κ (.var 1 1) (.var 1 0 :: M) = none := by rw [useVar, if_pos h1']
        simp [binaryK, Ex.owns, useAll, e1, e2] at hM
      · have e2 : useVar κ (.var 1 1) (.var 1 0 :: M) = some (if κ (.var 1 1) then .var 1 0 :: M else .var 1 1 :: .var 1 0 :: M) := by rw [useVar, if_neg h1']
        simp only [binaryK, Ex.owns, useAll, e1, e2, Option.bind_some, List.append_nil, hr] at hM
        rw [if_pos (by simp)] at hM
        cases hM
        split <;> simp
  -- and so does each branch
  have h3 : ∀ op k M, (∀ M, .var 1 0 ∈ M → k.owns κ M = none) → .var 1 0 ∈ M → (binaryAlt op k).owns κ M = none := fun op k M hk hM => by
    have := hk (assigned [.var 1 1] M) (by simp [mem_assigned, hM])
    simp [binaryAlt, Ex.owns, Stmt.owns, VEx.owns, useAll, this]
  have h4 : ∀ op k M M', (∀ M M', k.owns κ M = some M' → Name.var 1 0 ∈ M') → (binaryAlt op k).owns κ M = some M' → Name.var 1 0 ∈ M' := fun op k M M' hk hM => by
    cases hk' : k.owns κ (assigned [.var 1 1] M) with
    | none => simp [binaryAlt, Ex.owns, Stmt.owns, VEx.owns, useAll, hk'] at hM
    | some N =>
      simp [binaryAlt, Ex.owns, Stmt.owns, VEx.owns, useAll, hk', Stmt.binds] at hM
      subst hM
      simp [mem_leave, hk _ _ hk']
  have h5 : ∀ M M', (Ex.stmt (.setFalse (.branchFailed 1)) binaryK).owns κ M = some M' → Name.var 1 0 ∈ M' := fun M M' hM => by
    cases hk' : binaryK.owns κ (assigned [.branchFailed 1] M) with
    | none => simp [Ex.owns, Stmt.owns, hk'] at hM
    | some N =>
      simp [Ex.owns, Stmt.owns, hk', Stmt.binds] at hM
      subst hM
      simp [mem_leave, h2 _ _ hk']
  have h6 : ∀ M, binaryTail.owns κ M = none := fun M => by
    cases ha : (binaryAlt "+" (.stmt (.setFalse (.branchFailed 1)) binaryK)).owns κ (assigned [.branchFailed 1] (assigned [.mark 1] M)) with
    | none => simp [binaryTail, Ex.owns, Stmt.owns, ha]
    | some N =>
      have hN := h4 _ _ _ _ h5 ha
      have hn := h3 "-" _ N h1 hN
      by_cases hb : .branchFailed 1 ∈ N
      · simp [binaryTail, Ex.owns, Stmt.owns, ha, Cond.owns, readVar, hb]
      · by_cases hm : .mark 1 ∈ N <;> simp [binaryTail, Ex.owns, Stmt.owns, ha, Cond.owns, readVar, hb, hm, hn]
  simp [binaryFn, Fn.owns, Ex.owns, Stmt.owns, Cond.owns, h6]

end Sample

/-- C51: the condition is needed.  If `N` is not `Copy`, the functions generated for `r = num ("+" > op / "-" > op) num`, which is accepted and whose functions are well
typed, do not compile: the value of the first `num` is moved in each branch of the choice. -/
theorem C51_apart_needed {cp : String → Bool} (hcp : cp "N" = false) : Sample.binary.Ready 10 ∧ Sample.binary.Regular ∧ Sample.binary.PlainRanges ∧ Sample.binary.Agrees ∧
    ∃ T fs f, typeInference Sample.binary 10 12 3 = .ok (.value T, []) ∧ compileGrammar T Sample.binary.grammar.rules = .ok fs ∧ Sample.binary.WellTyped T fs ∧
      (⟨true, ["r"]⟩, f) ∈ fs ∧ ¬ f.Owned (Sample.binary.sigs T) cp := by
  obtain ⟨fs, c1, c2, c3, c4⟩ := Sample.binary_compiled
  refine ⟨Sample.binary_ready, ⟨Sample.binary_rec, Sample.binary_mixed⟩, Sample.binary_plain, Sample.binary_agrees, Sample.binaryT, fs, Sample.binaryFn, Sample.binary_accepted, c1, ?_,
    c2, ?_⟩
  · exact C49_well_typed_partial Sample.binary_ready Sample.binary_rec Sample.binary_mixed Sample.binary_plain Sample.binary_agrees Sample.binary_accepted c1 c3 c4
  · intro ho
    obtain ⟨rank, hrank⟩ := Sample.binary_rec
    obtain ⟨m, _, h1⟩ := typeInference_value Sample.binary_ready Sample.binary_accepted rank
    obtain ⟨ty, ht⟩ := accepted_fnTyped Sample.binary_ready h1 hrank Sample.binary_mixed Sample.binary_plain Sample.binary_agrees c1 c3 (refable_refOk c1 c4) _ c2
    obtain ⟨t, _, ht⟩ := ht
    have h2 := ho ty t ht
    obtain ⟨K, _, hb⟩ := ht
    obtain ⟨_, us, u1, u2, u3⟩ := CodeTyped.extract ⟨K, _, _, t, .empty, hb⟩
    have hu := accepted_sig Sample.binary_ready h1 hrank "num" _ _ _ rfl Sample.binary_num u1
    have hv : (ty (.var 1 0)).copy cp = false := by
      match us, u2 with
      | [u], _ =>
        cases hu
        have : ty (.var 1 0) = .val (.rust "N") := u3 (.var 1 0, .val (.rust "N")) (by simp)
        rw [this]
        exact hcp
    rw [Sample.binary_moved (κ := fun x => (ty x).copy cp) hv] at h2
    cases h2

end Oak
