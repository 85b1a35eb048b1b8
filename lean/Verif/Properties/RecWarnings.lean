import Verif.Proofs.RecWarnings
import Verif.Proofs.RecData
import Verif.Properties.Typing
/-!
# The warnings about recursive types

`Spec/RecWarnings.lean` says what a cycle of types is.
-/
set_option linter.constructorNameAsVariable false
set_option autoImplicit false

namespace Oak
open Typing

section
variable {A : AGrammar} {k m n : Nat}

/-- C56: the rules that a warning about a recursive type lists are different and their types depend on each other in a cycle, in the reverse order: the type of
the first rule depends on that of the last one. -/
theorem C56_cycle (H : A.Ready k) {p : Partial (Nat → Ty)} {ms : List TMsg} (h : typeInference A k m n = .ok (p, ms)) {q : List String} (hq : Warns ms q) :
    A.grammar.TypeCycle q.reverse := warnings_cycle H h hq

/-- C56: a rule to which a type is ascribed is in no warning. -/
theorem C56_annotated (H : A.Ready k) {p : Partial (Nat → Ty)} {ms : List TMsg} (h : typeInference A k m n = .ok (p, ms)) {r : String} {i : Nat} {e : Expr}
    {t : IType} (hr : A.grammar.find r = some (.asc i e t)) {q : List String} (hq : Warns ms q) : r ∉ q := by
  intro hm
  have hc := C56_cycle H h hq
  have hm : r ∈ q.reverse := by simpa using hm
  generalize q.reverse = q at *
  have hno : ∀ b, ¬ A.grammar.Sees r b := by
    rintro b ⟨body, h1, h2⟩
    rw [hr] at h1
    cases h1
    simp [Expr.seenCalls] at h2
  obtain ⟨j, hj, rfl⟩ := List.getElem_of_mem hm
  by_cases hl : j + 1 < q.length
  · exact hno _ (hc.next j hl)
  · have := hc.last
    rw [List.getLast_eq_getElem] at this
    have e : q.length - 1 = j := by omega
    simp only [e] at this
    exact hno _ this

/-- C56: no warning is given when a rule does not call itself through other ones, unless the recursion goes through a semantic action, a type ascription or a
predicate. -/
theorem C56_silent (H : A.Ready k) (hr : A.grammar.DirectRec) {p : Partial (Nat → Ty)} {ms : List TMsg} (h : typeInference A k m n = .ok (p, ms))
    (q : List String) : ¬ Warns ms q := warnings_none H hr h q

/-- C56: a choice with a branch in which the rule calls itself next to data is not given the type `(^)`: the error tells that the branches do not have the same
type, and the grammar is refused. -/
theorem C56_refused (H : A.Ready k) {p : Partial (Nat → Ty)} {ms : List TMsg} (h : typeInference A k m n = .ok (p, ms)) {r : String} {i : Nat} {es : List Expr}
    (hr : A.grammar.find r = some (.choice i es)) {j : Nat} {fs : List Expr} (hes : .seq j fs ∈ es) {a : Nat} (ha : .nt a r ∈ fs) {d : Expr} (hd : d ∈ fs)
    (hD : d.HasData) : p = .nothing ∧ .mismatch i ∈ ms := refused H hr hes ha hd hD h

end

/-! ## Examples -/

namespace Sample

/-- The grammar of the documentation: `ab = ["ab"] cd?`, `cd = ["cd"] ab?`. -/
def abcd : AGrammar := ⟨⟨[
    ("ab", .seq 3 [.cls 0 [⟨'a', 'a'⟩, ⟨'b', 'b'⟩], .opt 2 (.nt 1 "cd")]),
    ("cd", .seq 7 [.cls 4 [⟨'c', 'c'⟩, ⟨'d', 'd'⟩], .opt 6 (.nt 5 "ab")])]⟩, [], [], "StrStream", .debug⟩

/-- All the types are replaced, with a warning. -/
theorem abcd_warned : typeInference abcd 8 10 3 = .ok (.value fun i => if i = 8 then .rust spanTy else .unit, [.recursive ["ab", "cd"]]) := by
  have h : ∃ T, typeInference abcd 8 10 3 = .ok (.value T, [.recursive ["ab", "cd"]]) ∧ T = fun i => if i = 8 then .rust spanTy else .unit := by
    refine ⟨_, rfl, funext fun i => ?_⟩
    match i with
    | 0 | 1 | 2 | 3 | 4 | 5 | 6 | 7 | 8 => rfl
    | i + 9 => simp
  obtain ⟨T, h1, rfl⟩ := h
  exact h1

example : abcd.grammar.TypeCycle ["cd", "ab"] := C56_cycle (ready_of (by decide +kernel)) abcd_warned (q := ["ab", "cd"]) (by simp [Warns])

/-- `ab = (["ab"] cd?):(^)`. -/
def abcdHidden : AGrammar := ⟨⟨[
    ("ab", .asc 4 (.seq 3 [.cls 0 [⟨'a', 'a'⟩, ⟨'b', 'b'⟩], .opt 2 (.nt 1 "cd")]) .invisible),
    ("cd", .seq 8 [.cls 5 [⟨'c', 'c'⟩, ⟨'d', 'd'⟩], .opt 7 (.nt 6 "ab")])]⟩, [], [], "StrStream", .debug⟩

/-- The warning is not given any more; `cd` has a character. -/
theorem abcdHidden_typed : ∃ T, typeInference abcdHidden 9 11 3 = .ok (.value T, []) ∧ T 4 = .unit ∧ T 8 = .atom := ⟨_, rfl, rfl, rfl⟩

example {q : List String} {p : Partial (Nat → Ty)} {ms : List TMsg} (h : typeInference abcdHidden 9 11 3 = .ok (p, ms)) (hq : Warns ms q) : "ab" ∉ q :=
  C56_annotated (ready_of (by decide +kernel)) h (i := 4) rfl hq

/-- `ab = ["ab"] ab?`: the type is recursive as well. -/
def selfType : AGrammar := ⟨⟨[("ab", .seq 3 [.cls 0 [⟨'a', 'a'⟩, ⟨'b', 'b'⟩], .opt 2 (.nt 1 "ab")])]⟩, [], [], "StrStream", .debug⟩

example (q : List String) (p : Partial (Nat → Ty)) (ms : List TMsg) (h : typeInference selfType 4 6 2 = .ok (p, ms)) : ¬ Warns ms q :=
  C56_silent (ready_of (by decide +kernel)) (directRec_of (fun _ => 0) (by decide +kernel)) h q

/-- `list = ["ab"] "," list / ["ab"]`. -/
def listType : AGrammar := ⟨⟨[("list", .choice 5 [.seq 3 [.cls 0 [⟨'a', 'b'⟩], .str 1 ",", .nt 2 "list"], .cls 4 [⟨'a', 'b'⟩]])]⟩, [], [], "StrStream", .debug⟩

theorem listType_told : typeInference listType 6 8 2 = .ok (.nothing, [.mismatch 5]) := rfl

example : TMsg.mismatch 5 ∈ [TMsg.mismatch 5] :=
  (C56_refused (ready_of (by decide +kernel)) listType_told (r := "list") rfl (j := 3) (fs := [.cls 0 [⟨'a', 'b'⟩], .str 1 ",", .nt 2 "list"]) (by simp) (a := 2) (by simp) (d := .cls 0 [⟨'a', 'b'⟩]) (by simp) trivial).2

/-- `a = . b?`, `b = . c?`, `c = . a?`. -/
def abc : AGrammar := ⟨⟨[
    ("a", .seq 3 [.any 0, .opt 2 (.nt 1 "b")]),
    ("b", .seq 7 [.any 4, .opt 6 (.nt 5 "c")]),
    ("c", .seq 11 [.any 8, .opt 10 (.nt 9 "a")])]⟩, [], [], "StrStream", .debug⟩

/-- The grammar of the documentation, and a rule `x = . r` that is not in a cycle. -/
def abcdCaller (r : String) : AGrammar := ⟨⟨abcd.grammar.rules ++ [("x", .seq 10 [.any 8, .nt 9 r])]⟩, [], [], "StrStream", .debug⟩

end Sample

/-- C56: the documentation tells that a warning is given when the types of rules are replaced by `(^)`; a rule whose type is recursive by itself is replaced
without a warning. -/
theorem C56_lost_silently : ∃ (A : AGrammar) (k m n : Nat) (T : Nat → Ty) (body : Expr), A.Ready k ∧ A.grammar.rules = [("ab", body)] ∧ A.grammar.TypeCycle ["ab"] ∧
    body = .seq 3 [.cls 0 [⟨'a', 'a'⟩, ⟨'b', 'b'⟩], .opt 2 (.nt 1 "ab")] ∧ typeInference A k m n = .ok (.value T, []) ∧ T body.id = .unit := by
  refine ⟨Sample.selfType, 4, 6, 2, _, _, ready_of (by decide +kernel), rfl, ⟨by simp, by simp, ?_, ⟨_, rfl, by simp [Expr.seenCalls, seenCallsAll]⟩⟩, rfl, rfl, rfl⟩
  intro i h
  simp at h

/-- C56: a warning does not list the rules in the order in which they call each other. -/
theorem C56_reversed : ∃ (A : AGrammar) (k m n : Nat) (T : Nat → Ty) (q : List String), A.Ready k ∧ typeInference A k m n = .ok (.value T, [.recursive q]) ∧
    ¬ A.grammar.TypeCycle q := by
  refine ⟨Sample.abc, 12, 14, 4, _, ["a", "c", "b"], ready_of (by decide +kernel), rfl, fun h => ?_⟩
  obtain ⟨body, h1, h2⟩ := h.next 0 (by simp)
  cases h1
  simp [Expr.seenCalls, seenCallsAll] at h2

/-- C56: a rule that is in no cycle loses its type, or not, according to the rule of the cycle that it calls; the warning does not list it. -/
theorem C56_outside : ∃ (A A' : AGrammar) (k m n : Nat) (T T' : Nat → Ty) (q : List String), A.Ready k ∧ A'.Ready k ∧
    A.grammar.find "x" = some (.seq 10 [.any 8, .nt 9 "cd"]) ∧ A'.grammar.find "x" = some (.seq 10 [.any 8, .nt 9 "ab"]) ∧
    typeInference A k m n = .ok (.value T, [.recursive q]) ∧ typeInference A' k m n = .ok (.value T', [.recursive q]) ∧ "x" ∉ q ∧
    T 3 = .unit ∧ T 7 = .unit ∧ T' 3 = .unit ∧ T' 7 = .unit ∧ T 10 = .unit ∧ T' 10 = .atom :=
  ⟨Sample.abcdCaller "cd", Sample.abcdCaller "ab", 11, 13, 4, _, _, ["ab", "cd"], ready_of (by decide +kernel), ready_of (by decide +kernel), rfl, rfl, rfl, rfl,
    by decide, rfl, rfl, rfl, rfl, rfl, rfl⟩

end Oak
