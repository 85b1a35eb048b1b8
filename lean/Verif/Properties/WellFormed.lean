import Verif.Properties.Parsing
import Verif.Proofs.WFTotal
import Verif.Proofs.WFExact
/-!
Properties of the well-formedness analysis: termination of accepted grammars, rejection of left recursion and empty loops, truth of the
diagnostics, termination of the analysis.
-/
set_option linter.constructorNameAsVariable false
set_option autoImplicit false

namespace Oak
open Spec

variable {G : Grammar} {T : Nat → Ty} {fs : List (FnRef × Fn)} {ext : Nat → FnRef → PState StrStream Val → Res (PState StrStream Val)}
  {X : ExtSpec} {ptr : Nat} {input : List Char} {r : String} {e : Expr}

/-! ### Tools -/

theorem accepted_or_rejected (hres : G.resolved = true) (hsh : G.shaped = true) : Accepted G ∨ Rejected G := by
  obtain ⟨st, h⟩ := wellFormedness_total hres hsh (Nat.lt_succ_self G.rules.length) (Nat.le_refl (3 * G.rules.length + 2))
  cases hw : st.wellFormed with
  | true => exact .inl ⟨_, _, st, h, hw⟩
  | false => exact .inr ⟨_, _, st, h, hw⟩

theorem not_both : ¬ (Accepted G ∧ Rejected G) := by
  rintro ⟨⟨n, m, st, h, hw⟩, ⟨n', m', st', h', hw'⟩⟩
  have := wellFormedness_det h h'
  subst this
  rw [hw] at hw'; cases hw'

theorem accepted_decided (hres : G.resolved = true) (ha : Accepted G) (hf : X.Forward) (hc : ExtSpec.Consuming X) (ht : ExtSpec.TotalOn X G)
    (he : G.find r = some e) (s : List Char) : ∃ o L, Peg G X e s o L := by
  obtain ⟨h1, h2⟩ := accepted_ok ha
  have hbody : ∀ r e, G.find r = some e → TermOk G X e := by
    intro r e he
    refine ⟨?_, h1 r e he, fun i p hp => ht i p ⟨r, e, he, hp⟩⟩
    simp only [Grammar.resolved, List.all_eq_true] at hres
    exact hres _ (grammar_find_mem he)
  exact decided hf hc h2 hbody s.length s rfl e (hbody r e he)

/-! ### C13 -/

/-- C13: the recognizer and the parser of every rule of an accepted grammar return on every text, provided that external rules have an
outcome everywhere and read something when they succeed. -/
theorem C13_terminates (d : Deployed G T fs ext X ptr input) (ha : Accepted G) (hc : ExtSpec.Consuming X) (ht : ExtSpec.TotalOn X G)
    (he : G.find r = some e) (p : Bool) :
    ∃ res n0, ∀ n, n0 ≤ n → Program.parse StrStream.ops ext ⟨fs⟩ n ⟨p, [r]⟩ (StrStream.new ptr input) = .ok res := by
  obtain ⟨o, L, h⟩ := accepted_decided d.gen.resolved ha d.fwd hc ht he input
  exact ⟨_, d.parse_complete p r e he o L h⟩

/-- C13: they also return from every position of the text. -/
theorem C13_terminates_at (d : Deployed G T fs ext X ptr input) (ha : Accepted G) (hc : ExtSpec.Consuming X) (ht : ExtSpec.TotalOn X G)
    (he : G.find r = some e) (p : Bool) (st : PState StrStream Val) (hst : OkSt (StrStream.At ptr input) st) : ∃ st', Steps ext fs p r st st' := by
  obtain ⟨o, L, h⟩ := accepted_decided d.gen.resolved ha d.fwd hc ht he st.cur.rest
  obtain ⟨st', h1, _⟩ := d.steps_of he p hst h
  exact ⟨st', h1⟩

/-- C13: no condition is needed for grammars that call no external rule. -/
theorem C13_terminates_closed (d : Deployed G T fs ext noExt ptr input) (ha : Accepted G) (hx : ∀ i p, ¬ Occurs G (.ext i p))
    (he : G.find r = some e) (p : Bool) :
    ∃ res n0, ∀ n, n0 ≤ n → Program.parse StrStream.ops ext ⟨fs⟩ n ⟨p, [r]⟩ (StrStream.new ptr input) = .ok res :=
  C13_terminates d ha (fun _ _ _ _ _ h => h.elim) (fun i p h => (hx i p h).elim) he p

/-! ### C20 -/

/-- C20: grammars with a rule that calls itself in leftmost position are rejected. -/
theorem C20_left_recursion_rejected (hres : G.resolved = true) (hsh : G.shaped = true) (h : LeftRecursive G r) : Rejected G ∧ ¬ Accepted G := by
  have hna : ¬ Accepted G := fun ha => no_cycle (accepted_ok ha).2 r h
  exact ⟨(accepted_or_rejected hres hsh).resolve_left hna, hna⟩

/-- C20: grammars that repeat a nullable expression are rejected. -/
theorem C20_empty_loop_rejected (hres : G.resolved = true) (hsh : G.shaped = true) {i : Nat} {c : Expr}
    (ho : Occurs G (.star i c) ∨ Occurs G (.plus i c)) (hn : Nullable G c) : Rejected G ∧ ¬ Accepted G := by
  have hna : ¬ Accepted G := by
    intro ha
    rcases ho with ⟨r, e, he, hs⟩ | ⟨r, e, he, hs⟩
    · exact (accepted_ok ha).1 r e he i c (.inl hs) hn
    · exact (accepted_ok ha).1 r e he i c (.inr hs) hn
  exact ⟨(accepted_or_rejected hres hsh).resolve_left hna, hna⟩

/-- C20: in an accepted grammar no rule is called again at the position where it is being matched. -/
theorem C20_never_called_again (ha : Accepted G) (hf : X.Forward) (hc : ExtSpec.Consuming X) (he : G.find r = some e) (s : List Char) :
    ¬ Calls G X r s e s := by
  intro h
  refine no_cycle (accepted_ok ha).2 r ?_
  rcases h.left hf hc rfl with h | ⟨q, h, h'⟩
  · exact .single ⟨e, he, h⟩
  · exact .trans h' (.single ⟨e, he, h⟩)

/-- C20: in an accepted grammar a repeated expression always reads something. -/
theorem C20_repeats_consume (ha : Accepted G) (hf : X.Forward) (hc : ExtSpec.Consuming X) {i : Nat} {c : Expr}
    (ho : Occurs G (.star i c) ∨ Occurs G (.plus i c)) : AlwaysConsumes G X c := by
  intro s s' t L hP hs
  subst hs
  have hn := hP.nullable hf hc _ rfl
  rcases ho with ⟨r, e, he, hs⟩ | ⟨r, e, he, hs⟩
  · exact (accepted_ok ha).1 r e he i c (.inl hs) hn
  · exact (accepted_ok ha).1 r e he i c (.inr hs) hn

/-! ### C21 -/

/-- C21: every diagnostic of the analysis is true, whatever the external rules do. -/
theorem C21_diagnostics_true {n m : Nat} {st : WState} (h : wellFormedness G n m = .ok st) (X : ExtSpec) : ∀ d ∈ st.diags, d.True G X :=
  (wellFormedness_sound h X).diags

/-- C21: what the analysis computes about a rule holds, whatever the external rules do. -/
theorem C21_attributes_true {n m : Nat} {st : WState} (h : wellFormedness G n m = .ok st) (X : ExtSpec) {w : WFA}
    (hw : st.wfa r = some w) (he : G.find r = some e) :
    (w.canFail = false → NeverFails G X e) ∧ (w.canSucceed = false → NeverSucceeds G X e) ∧ (w.neverConsume = true → NeverConsumes G X e) := by
  obtain ⟨e', he', hs⟩ := (wellFormedness_sound h X).wfa r w hw
  rw [he] at he'; cases he'
  exact ⟨hs.fails, hs.succeeds, hs.never⟩

/-- C21: in an accepted grammar, a rule marked as always consuming reads something when it succeeds. -/
theorem C21_always_consume {n m : Nat} {st : WState} (h : wellFormedness G n m = .ok st) (ha : st.wellFormed = true) (hf : X.Forward)
    (hc : ExtSpec.Consuming X) {w : WFA} (hw : st.wfa r = some w) (hac : w.alwaysConsume = true) (he : G.find r = some e) : AlwaysConsumes G X e := by
  intro s s' t L hP hs
  subst hs
  have hn := hP.nullable hf hc _ rfl
  have := accepted_fix h ha
  have hW : st.W r = w := by simp [WState.W, hw]
  have h1 := this r e he (by rw [hW]; exact hac)
  rw [hn.attr this] at h1
  cases h1

/-- C21: a grammar is rejected exactly when there is a diagnostic. -/
theorem C21_rejected_iff {n m : Nat} {st : WState} (h : wellFormedness G n m = .ok st) : st.wellFormed = false ↔ st.diags ≠ [] :=
  wellFormedness_diags h

/-- C21: the verdict is exact. A grammar is accepted when it is well formed (no left recursion, no repetition of a nullable expression, no
expression bound to fail, none bound to succeed without reading, no branch after one bound to succeed), and rejected otherwise. -/
theorem C21_exact (hres : G.resolved = true) (hsh : G.shaped = true) : (Accepted G ↔ WellFormed G) ∧ (Rejected G ↔ ¬ WellFormed G) := by
  have h1 : Accepted G → WellFormed G := accepted_wellFormed hsh
  have h2 : Rejected G → ¬ WellFormed G := rejected_ill
  rcases accepted_or_rejected hres hsh with h | h
  · exact ⟨⟨h1, fun _ => h⟩, h2, fun hn => (hn (h1 h)).elim⟩
  · exact ⟨⟨h1, fun hw => (h2 h hw).elim⟩, h2, fun _ => h⟩

/-- C21: every diagnostic points to an expression of the grammar that has the form it complains about. -/
theorem C21_found {n m : Nat} {st : WState} (h : wellFormedness G n m = .ok st) : ∀ d ∈ st.diags, d.Found G := wellFormedness_found h

/-- C21: the forms used by `WellFormed` have the meaning their names suggest, whatever the external rules do. -/
theorem C21_forms (X : ExtSpec) (e : Expr) :
    (SureOk G e → NeverFails G X e) ∧ (SureFail G e → NeverSucceeds G X e) ∧ (Idle G e → NeverConsumes G X e) :=
  ⟨SureOk.never, SureFail.never, Idle.never⟩

/-- C21: a grammar that violates any of the five conditions is rejected. -/
theorem C21_each_condition (hres : G.resolved = true) (hsh : G.shaped = true) :
    (∀ r, LeftRecursive G r → Rejected G) ∧
    (∀ i c, Occurs G (.star i c) ∨ Occurs G (.plus i c) → Nullable G c → Rejected G) ∧
    (∀ e, Occurs G e → SureFail G e → Rejected G) ∧
    (∀ e, Occurs G e → SureOk G e → Idle G e → Rejected G) ∧
    (∀ i before b after, Occurs G (.choice i (before ++ b :: after)) → after ≠ [] → SureOk G b → Rejected G) := by
  have h := (C21_exact hres hsh).2
  exact ⟨fun r hr => h.2 fun w => w.left r hr, fun i c ho hn => h.2 fun w => w.repeats i c ho hn, fun e ho hf => h.2 fun w => w.fails e ho hf,
    fun e ho hk hi => h.2 fun w => w.idle e ho hk hi, fun i bs b as ho ha hk => h.2 fun w => w.branches i bs b as ho ha hk⟩

/-! ### C22 -/

/-- C22: on resolved grammars the analysis returns the same result whatever the (sufficient) bounds on calls and passes: it terminates
after at most `3 * |rules| + 1` passes and its assertions hold. -/
theorem C22_terminates (hres : G.resolved = true) (hsh : G.shaped = true) :
    ∃ st, ∀ n m, G.rules.length < n → 3 * G.rules.length + 2 ≤ m → wellFormedness G n m = .ok st := by
  obtain ⟨st, h⟩ := wellFormedness_total hres hsh (Nat.lt_succ_self G.rules.length) (Nat.le_refl (3 * G.rules.length + 2))
  refine ⟨st, fun n m hn hm => ?_⟩
  obtain ⟨st', h'⟩ := wellFormedness_total hres hsh hn hm
  rw [h', wellFormedness_det h h']

/-- C22: a verdict is reached, and only one. -/
theorem C22_verdict (hres : G.resolved = true) (hsh : G.shaped = true) : (Accepted G ∨ Rejected G) ∧ ¬ (Accepted G ∧ Rejected G) :=
  ⟨accepted_or_rejected hres hsh, not_both⟩

/-- C22: the assertion that expressions do not both always and never consume fails on a choice without branches, which the front-end never
builds: the hypothesis is needed. -/
theorem C22_shape_needed : wellFormedness ⟨[("r", .choice 0 [])]⟩ 5 5 = .panic := by rfl

/-! ### C40 -/

/-- C40: an accepted grammar terminates with all external rules that have an outcome everywhere and read something when they succeed. -/
theorem C40_consuming_externals (d : Deployed G T fs ext X ptr input) (ha : Accepted G) (hc : ExtSpec.Consuming X) (ht : ExtSpec.TotalOn X G)
    (he : G.find r = some e) (p : Bool) : ∃ res, Returns ext fs p r ptr input res := by
  obtain ⟨res, n0, h⟩ := C13_terminates d ha hc ht he p
  exact ⟨res, n0, h n0 (Nat.le_refl _)⟩

namespace Sample

/-- `r = skip*` where `skip` is an external rule. -/
def loop : Grammar := ⟨[("r", .star 1 (.ext 0 ["skip"]))]⟩

/-- Its generated program. -/
def loopFs : List (FnRef × Fn) := match compileGrammar opsT loop.rules with | .ok f => f | .error _ => []

theorem loop_generated : Generated loop opsT loopFs where
  compiled := by rfl
  scopes := by decide +kernel
  coherent := by decide +kernel
  resolved := by decide +kernel

/-- An external rule that succeeds without reading. -/
def skip : ExtSpec := fun _ s o L => o = .ok s (.ext (.tup [])) ∧ L = []

/-- Its implementation: `state.success(())`. -/
def skipFns : Nat → FnRef → PState StrStream Val → Res (PState StrStream Val) := fun _ _ st => .ok { st with data := some (.tup []) }

theorem skip_ok (ptr : Nat) (input : List Char) : ExtOk (StrStream.At ptr input) StrStream.rest skipFns loop skip where
  sound := by
    intro n p path st _ hst
    exact .inr ⟨_, _, _, rfl, ⟨rfl, rfl⟩, hst.failed, rfl, ⟨_, rfl, fun _ => rfl⟩, ⟨hst.far, hst.cur, rfl⟩⟩
  complete := by
    intro p path s o L _ _
    exact ⟨0, fun n _ st _ _ => by simp [skipFns]⟩
  det := by
    rintro p s o L o' L' ⟨rfl, rfl⟩ ⟨rfl, rfl⟩
    exact ⟨rfl, rfl⟩

theorem loop_deployed (ptr : Nat) (input : List Char) : Deployed loop opsT loopFs skipFns skip ptr input where
  gen := loop_generated
  ext := skip_ok ptr input
  fwd := by
    rintro p s o L ⟨rfl, rfl⟩
    refine ⟨fun s' t h => ?_, by simp⟩
    injection h with h _
    rw [← h]; exact List.suffix_refl _

theorem loop_accepted : Accepted loop := ⟨5, 5, _, rfl, by decide +kernel⟩

theorem loop_undecided (s : List Char) (o : Out) (L : Log) : ¬ Peg loop skip (.star 1 (.ext 0 ["skip"])) s o L := by
  intro h
  generalize hE : Expr.star 1 (.ext 0 ["skip"]) = E at h
  induction h with
  | star_stop h =>
    cases hE
    cases h with
    | ext h => cases h.1
  | star_more _ _ _ ih => exact ih hE
  | _ => cases hE

end Sample

/-- C40: the condition is needed. There are an accepted grammar and an external rule that always returns, such that the generated
recognizer and parser return on no text. -/
theorem C40_condition_needed : ∃ G T fs ext X r e, Accepted G ∧ G.find r = some e ∧ ExtSpec.TotalOn X G ∧
    (∀ n f st, ∃ st', ext n f st = .ok st') ∧ (∀ ptr input, Deployed G T fs ext X ptr input) ∧
    ∀ ptr input p n, Program.parse StrStream.ops ext ⟨fs⟩ n ⟨p, [r]⟩ (StrStream.new ptr input) = .timeout := by
  refine ⟨Sample.loop, Sample.opsT, Sample.loopFs, Sample.skipFns, Sample.skip, "r", _, Sample.loop_accepted, rfl, ?_, ?_, Sample.loop_deployed, ?_⟩
  · intro i p _ s; exact ⟨_, _, rfl, rfl⟩
  · intro n f st; exact ⟨_, rfl⟩
  · intro ptr input p n
    rcases (Sample.loop_deployed ptr input).parse_sound n p "r" _ rfl with h | ⟨o, L, hP, _⟩
    · exact h
    · exact absurd hP (Sample.loop_undecided _ _ _)

/-! ### Cases that meet the hypotheses -/

namespace Sample

theorem sum_accepted : Accepted sum := ⟨5, 9, _, rfl, by decide +kernel⟩

theorem sum_shaped : sum.shaped = true := by decide +kernel

/-- The recognizer of `sum` returns on all texts. -/
example (input : List Char) (p : Bool) : ∃ res n0, ∀ n, n0 ≤ n →
    Program.parse StrStream.ops noFns ⟨sumFs⟩ n ⟨p, ["sum"]⟩ (StrStream.new 0 input) = .ok res := by
  refine C13_terminates_closed (e := _) (sum_generated.deployed 0 input) sum_accepted ?_ rfl p
  rintro i p ⟨r, e, he, hs⟩
  have : (r, e) ∈ sum.rules := grammar_find_mem he
  simp only [sum, List.mem_cons, Prod.mk.injEq, List.not_mem_nil, or_false] at this
  rcases this with ⟨rfl, rfl⟩ | ⟨rfl, rfl⟩
  · cases hs with
    | act hs => cases hs with
      | seq hm hs =>
        simp only [List.mem_cons, List.not_mem_nil, or_false] at hm
        rcases hm with rfl | rfl
        · cases hs
        · cases hs with
          | star hs => cases hs with
            | seq hm hs =>
              simp only [List.mem_cons, List.not_mem_nil, or_false] at hm
              rcases hm with rfl | rfl <;> cases hs
  · cases hs with
    | act hs => cases hs with
      | plus hs => cases hs

/-- `e = "x"? e "+" e / "n"`: left-recursive through a nullable prefix. -/
def leftRec : Grammar := ⟨[("e", .choice 7 [.seq 5 [.opt 1 (.str 0 "x"), .nt 2 "e", .str 3 "+", .nt 4 "e"], .str 6 "n"])]⟩

example : Rejected leftRec ∧ ¬ Accepted leftRec :=
  C20_left_recursion_rejected (r := "e") (by decide +kernel) (by decide +kernel)
    (.single ⟨_, rfl, .choice List.mem_cons_self (.seq_tail .opt (.seq_head .nt))⟩)

/-- `a = "x" b ; b = ("y"? / c)* ; c = "z"`. -/
def emptyLoop : Grammar := ⟨[("a", .seq 2 [.str 0 "x", .nt 1 "b"]), ("b", .star 7 (.choice 6 [.opt 4 (.str 3 "y"), .nt 5 "c"])), ("c", .str 8 "z")]⟩

example : Rejected emptyLoop ∧ ¬ Accepted emptyLoop :=
  C20_empty_loop_rejected (by decide +kernel) (by decide +kernel) (.inl ⟨"b", _, rfl, .refl⟩) (.choice List.mem_cons_self .opt)

/-- In `sum` a digit is consumed by each iteration. -/
example : AlwaysConsumes sum noExt (.cls 7 [⟨'0', '9'⟩]) :=
  C20_repeats_consume sum_accepted (fun _ _ _ _ h => h.elim) (fun _ _ _ _ _ h => h.elim)
    (.inr ⟨"num", _, rfl, .act .refl⟩)

/-- `never = !("a"?) ; twice = "a"* / "b"`: both rules are reported. -/
def useless : Grammar := ⟨[("twice", .choice 3 [.star 1 (.str 0 "a"), .str 2 "b"]), ("never", .not 6 (.opt 5 (.str 4 "a")))]⟩

example : ∃ st, wellFormedness useless 5 5 = .ok st ∧ st.diags = [.unreachable (.choice 3 [.star 1 (.str 0 "a"), .str 2 "b"]) (.star 1 (.str 0 "a"))] :=
  ⟨_, rfl, rfl⟩

/-- `sum` is well formed. -/
example : WellFormed sum := (C21_exact (by decide +kernel) sum_shaped).1.1 sum_accepted

/-- `useless` is rejected, because of its first choice. -/
example : Rejected useless :=
  (C21_each_condition (by decide +kernel) (by decide +kernel)).2.2.2.2 3 [] (.star 1 (.str 0 "a")) [.str 2 "b"]
    ⟨"twice", _, rfl, .refl⟩ (by simp) .star

/-- It would also be because of its second rule. -/
example : Rejected useless :=
  (C21_each_condition (by decide +kernel) (by decide +kernel)).2.2.1 (.not 6 (.opt 5 (.str 4 "a")))
    ⟨"never", _, rfl, .refl⟩ (.not .opt)

/-- A rule that does nothing but test what follows, and may not fail, is reported. -/
def testing : Grammar := ⟨[("t", .seq 4 [.str 0 "a", .opt 3 (.not 2 (.str 1 "b"))])]⟩

example : Rejected testing :=
  (C21_each_condition (by decide +kernel) (by decide +kernel)).2.2.2.1 (.opt 3 (.not 2 (.str 1 "b")))
    ⟨"t", _, rfl, .seq (by simp) .refl⟩ .opt (.opt .not)

/-- The empty literal is not reported by itself. -/
def epsilon : Grammar := ⟨[("t", .choice 2 [.str 0 "a", .str 1 ""])]⟩

example : WellFormed epsilon := (C21_exact (by decide +kernel) (by decide +kernel)).1.1 ⟨5, 9, _, rfl, by decide +kernel⟩

end Sample

end Oak
