import Verif.Properties.Parsing
import Verif.Proofs.Compose
/-!
Properties of grammars that call the rules of other grammars.
-/
set_option linter.constructorNameAsVariable false
set_option autoImplicit false

namespace Oak
open Spec

variable {G1 G2 : Grammar} {T1 T2 : Nat → Ty} {fs1 fs2 : List (FnRef × Fn)}
  {ext : Nat → FnRef → PState StrStream Val → Res (PState StrStream Val)}
  {X : ExtSpec} {ptr : Nat} {input : List Char} {r : String} {e : Expr} {ρ : Path → Option String}

/-- Two programs deployed together: `ρ` tells which paths of the first grammar denote rules of the second one. The names of the
rules of the two grammars are different (in Rust they live in different modules). -/
structure Linked (G1 G2 : Grammar) (T1 T2 : Nat → Ty) (fs1 fs2 : List (FnRef × Fn))
    (ext : Nat → FnRef → PState StrStream Val → Res (PState StrStream Val)) (X : ExtSpec) (ρ : Path → Option String)
    (ptr : Nat) (input : List Char) : Prop where
  gen : Generated G1 T1 fs1
  other : Deployed G2 T2 fs2 ext X ptr input
  rest : ExtOk (StrStream.At ptr input) StrStream.rest ext G1 X
  total : ∀ path r, ρ path = some r → ∃ e, G2.find r = some e
  distinct : ∀ r e, G2.find r = some e → G1.find r = none

/-! ### C38 -/

/-- C38: the functions generated for the second grammar meet what is required of external functions: every theorem on generated
programs applies to the first program linked with them. -/
theorem C38_deployed (l : Linked G1 G2 T1 T2 fs1 fs2 ext X ρ ptr input) :
    Deployed G1 T1 fs1 (linkFns ρ fs2 ext) (linkSpec ρ G2 T2 input X) ptr input :=
  ⟨l.gen, linkFns_ok l.other l.rest l.total, linkSpec_forward l.other.fwd⟩

/-- C38: the functions of the first program succeed and stop where the rule of the combined grammar does. -/
theorem C38_position (l : Linked G1 G2 T1 T2 fs1 fs2 ext X ρ ptr input) (he : G1.find r = some e) (p : Bool)
    (st : PState StrStream Val) (hst : OkSt (StrStream.At ptr input) st) (s' : List Char) :
    StepsTo (linkFns ρ fs2 ext) fs1 p r ptr input st s' ↔ Matches (G1.link ρ G2) X (linkE ρ e) st.cur.rest s' := by
  rw [C08_position (C38_deployed l) he p st hst s']
  constructor
  · rintro ⟨t, L, h⟩
    obtain ⟨o, h, ho⟩ := link_left l.distinct l.other.gen.resolved h
    obtain ⟨t, rfl⟩ := Out.stop_some ho
    exact ⟨t, L, h⟩
  · rintro ⟨t, L, h⟩
    obtain ⟨o, h, ho⟩ := link_left_inv l.distinct l.gen.resolved l.other.gen.resolved l.total h e rfl
      (resolved_find l.gen.resolved he)
    obtain ⟨t, rfl⟩ := Out.stop_some ho
    exact ⟨t, L, h⟩

/-- C38: they fail when it does. -/
theorem C38_failure (l : Linked G1 G2 T1 T2 fs1 fs2 ext X ρ ptr input) (he : G1.find r = some e) (p : Bool)
    (st : PState StrStream Val) (hst : OkSt (StrStream.At ptr input) st) :
    StepsFail (linkFns ρ fs2 ext) fs1 p r st ↔ Fails (G1.link ρ G2) X (linkE ρ e) st.cur.rest := by
  rw [C08_failure (C38_deployed l) he p st hst]
  constructor
  · rintro ⟨L, h⟩
    obtain ⟨o, h, ho⟩ := link_left l.distinct l.other.gen.resolved h
    obtain rfl := Out.stop_none ho
    exact ⟨L, h⟩
  · rintro ⟨L, h⟩
    obtain ⟨o, h, ho⟩ := link_left_inv l.distinct l.gen.resolved l.other.gen.resolved l.total h e rfl
      (resolved_find l.gen.resolved he)
    obtain rfl := Out.stop_none ho
    exact ⟨L, h⟩

/-- C38: error reports cross the boundary of the two grammars: on failure, the position and the expected terminals are those of the
combined grammar. -/
theorem C38_report (l : Linked G1 G2 T1 T2 fs1 fs2 ext X ρ ptr input) (he : G1.find r = some e) (p : Bool)
    (far : StrStream) (exp : List String) :
    Returns (linkFns ρ fs2 ext) fs1 p r ptr input (.failure far exp) ↔
      ∃ L, Peg (G1.link ρ G2) X (linkE ρ e) input .fail L ∧
        far = streamAt ptr input (farthest input L) ∧ exp = expectedAt (farthest input L) L := by
  rw [(C38_deployed l).returns_iff he]
  constructor
  · rintro ⟨o, L, h, hr⟩
    cases o with
    | ok s' t => simp only [expectedResult] at hr; split at hr <;> cases hr
    | fail =>
      obtain ⟨o, h, ho⟩ := link_left l.distinct l.other.gen.resolved h
      obtain rfl := Out.stop_none ho
      cases hr
      exact ⟨L, h, rfl, rfl⟩
  · rintro ⟨L, h, rfl, rfl⟩
    obtain ⟨o, h, ho⟩ := link_left_inv l.distinct l.gen.resolved l.other.gen.resolved l.total h e rfl
      (resolved_find l.gen.resolved he)
    obtain rfl := Out.stop_none ho
    exact ⟨.fail, L, h, rfl⟩

/-- C38: on success, the value of the call of a rule of the other grammar is the value its parser builds. -/
theorem C38_data (l : Linked G1 G2 T1 T2 fs1 fs2 ext X ρ ptr input) (i : Nat) (path : Path) (hp : ρ path = some r)
    (he : G2.find r = some e) (st st' : PState StrStream Val) (hst : OkSt (StrStream.At ptr input) st)
    (hs : Steps ext fs2 true r st st') (hf : st'.failed = false) :
    ∃ v L, st'.data = some v ∧ Peg G1 (linkSpec ρ G2 T2 input X) (.ext i path) st.cur.rest (.ok st'.cur.rest (.ext v)) L := by
  obtain ⟨o, L, h, hr⟩ := l.other.steps_iff he true hst hs
  cases o with
  | fail => rw [hr.1] at hf; cases hf
  | ok s' t =>
    obtain ⟨_, hc, ⟨d, hd, hq⟩, _⟩ := hr
    refine ⟨d, L, hd, .ext ?_⟩
    unfold linkSpec
    rw [hp]
    refine ⟨e, _, he, h, ?_⟩
    subst hc
    have := hq
    simp only [RuleVal] at this
    simp [this]

namespace Sample

/-- `main = "(" other::digits ")"` -/
def caller : Grammar := ⟨[("main", .seq 3 [.str 0 "(", .ext 1 ["other", "digits"], .str 2 ")"])]⟩

/-- Types of the nodes of `caller`. -/
def callerT : Nat → Ty
  | 1 => .rust "D"
  | 3 => .tuple [1]
  | _ => .unit

/-- Its generated program. -/
def callerFs : List (FnRef × Fn) := match compileGrammar callerT caller.rules with | .ok f => f | .error _ => []

theorem caller_generated : Generated caller callerT callerFs where
  compiled := by rfl
  scopes := by decide +kernel
  coherent := by decide +kernel
  resolved := by decide +kernel

/-- `other::digits` is the rule `digits` of the other grammar. -/
def callerPaths : Path → Option String := fun p => if p = ["other", "digits"] then some "digits" else none

theorem caller_linked (ptr : Nat) (input : List Char) :
    Linked caller digits callerT digitsT callerFs digitsFs noFns noExt callerPaths ptr input where
  gen := caller_generated
  other := digits_generated.deployed ptr input
  rest := noExt_ok ptr input
  total := by
    intro path r h
    unfold callerPaths at h
    split at h
    · cases h; exact ⟨_, rfl⟩
    · cases h
  distinct := by
    intro r e h
    have hr : r = "digits" := by
      have := find_mem h
      simp only [digits, List.mem_singleton, Prod.mk.injEq] at this
      exact this.1
    subst hr
    rfl

end Sample

example : StepsTo (linkFns Sample.callerPaths Sample.digitsFs noFns) Sample.callerFs true "main" 0 "(12)".toList (start 0 "(12)".toList) [] :=
  ⟨_, ⟨40, rfl⟩, rfl, ⟨rfl, rfl, ⟨"(12)".toList, [], rfl, rfl⟩⟩, rfl⟩

end Oak
