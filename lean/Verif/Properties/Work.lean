import Verif.Properties.Depth
import Verif.Properties.ContextFree
import Verif.Proofs.WorkLL1
import Verif.Proofs.Count
/-!
C73: how long parsing takes.
-/
set_option linter.constructorNameAsVariable false
set_option autoImplicit false

namespace Oak
open Spec

variable {G : Grammar} {T : Nat → Ty} {fs : List (FnRef × Fn)} {ext : Nat → FnRef → PState StrStream Val → Res (PState StrStream Val)}
  {X : ExtSpec} {ptr : Nat} {input : List Char} {r : String} {e : Expr}

/-- C73: the visits are those of the match: they exist when the match does, there is only one way to make them, they end where the match ends, and each terminal
recorded as tried in vain is one of them. -/
theorem C73_visits (hX : X.Det) (hx : ∀ p s o L, X p s o L → L.length ≤ 1) {s : List Char} {o : Out} {L : Log} (h : Peg G X e s o L) :
    ∃ v, (∀ o' v', Work G X e s o' v' ↔ o' = o.rest ∧ v' = v) ∧ L.length ≤ v.steps := by
  obtain ⟨v, hv⟩ := peg_work h
  refine ⟨v, fun o' v' => ⟨fun h' => ⟨work_end hX h' hv, work_det hX h' hv⟩, ?_⟩, log_steps hX hx h hv⟩
  rintro ⟨rfl, rfl⟩
  exact hv

/-- C73: visits are those of a match. -/
theorem C73_match {s : List Char} {o : Option (List Char)} {v : Visits} (h : Work G X e s o v) : ∃ o' L, Peg G X e s o' L ∧ o'.rest = o := by
  obtain ⟨o', L, h1, h2, _⟩ := work_peg h
  exact ⟨o', L, h1, h2⟩

theorem calls_steps (hX : X.Det) {sp : SpanSpec} {s : List Char} {cs : List Val} (h : UserCalls G X T sp e s cs) :
    ∀ {o v}, Work G X e s o v → cs.length ≤ v.steps := by
  have hd : ∀ {e s o L o' v}, Peg G X e s o L → Work G X e s o' v → o' = o.rest := by
    intro e s o L o' v h hw
    obtain ⟨v', hv'⟩ := peg_work h
    exact work_end hX hw hv'
  induction h with
  | unit | str | any | cls | ext | not | and | seq_nil | choice_nil => intro o v _; simp
  | nt _ hf _ ih => intro o v hw; cases hw with | nt hf' k => rw [hf] at hf'; cases hf'; exact Nat.le_succ_of_le (ih k)
  | seq_fail _ hp _ ih =>
    intro o v hw
    cases hw with
    | seq_cons k _ => have := hd hp k; cases this
    | seq_fail k => exact Nat.le_succ_of_le (ih k)
  | seq_cons _ hp _ _ ih1 ih2 =>
    intro o v hw
    cases hw with
    | seq_cons k1 k2 =>
      have := hd hp k1; cases this
      have a := ih1 k1
      have b := ih2 k2
      simp only [List.length_append, Visits.steps]; omega
    | seq_fail k => have := hd hp k; cases this
  | choice_first _ hp _ ih =>
    intro o v hw
    cases hw with
    | choice_first k => exact Nat.le_succ_of_le (ih k)
    | choice_next k _ => have := hd hp k; cases this
  | choice_next _ hp _ _ ih1 ih2 =>
    intro o v hw
    cases hw with
    | choice_first k => have := hd hp k; cases this
    | choice_next k1 k2 =>
      have a := ih1 k1
      have b := ih2 k2
      simp only [List.length_append, Visits.steps]; omega
  | star_stop _ hp _ ih =>
    intro o v hw
    cases hw with
    | star_stop k => exact Nat.le_succ_of_le (ih k)
    | star_more k _ => have := hd hp k; cases this
  | star_more _ hp _ _ ih1 ih2 =>
    intro o v hw
    cases hw with
    | star_stop k => have := hd hp k; cases this
    | star_more k1 k2 =>
      have := hd hp k1; cases this
      have a := ih1 k1
      have b := ih2 k2
      simp only [List.length_append, Visits.steps]; omega
  | plus _ _ ih =>
    intro o v hw
    cases hw with
    | plus_fail k => exact ih (.star_stop k)
    | plus_ok k1 k2 => exact ih (.star_more k1 k2)
  | opt _ _ ih => intro o v hw; cases hw <;> exact Nat.le_succ_of_le (ih ‹_›)
  | @act_ok i e b f s s1 t L cs _ _ _ ih =>
    intro o v hw
    cases hw with
    | act k =>
      have := ih k
      have h1 : (actionCalls G T sp f e t).length ≤ 1 := by unfold actionCalls; split <;> simp
      simp only [List.length_append, Visits.steps]; omega
  | act_fail _ _ _ ih => intro o v hw; cases hw with | act k => exact Nat.le_succ_of_le (ih k)
  | asc _ _ ih => intro o v hw; cases hw with | asc k => exact Nat.le_succ_of_le (ih k)
  | span _ _ ih => intro o v hw; cases hw with | span k => exact Nat.le_succ_of_le (ih k)
  | range _ _ ih => intro o v hw; cases hw with | range k => exact Nat.le_succ_of_le (ih k)

/-- C73: a parser makes at most as many calls of user functions as there are visits. -/
theorem C73_calls (d : Deployed G T fs ext X ptr input) (hq : QuietExt ext) (he : G.find r = some e) {st' : PState StrStream Val} (h : Steps ext fs true r (start ptr input) st')
    {o : Option (List Char)} {v : Visits} (hw : Work G X e input o v) : st'.calls.length ≤ v.steps := by
  obtain ⟨cs, h1, h2⟩ := C17_calls d hq he (okSt_new ptr input) h
  have hrest : (PState.new (StrStream.new ptr input) : PState StrStream Val).cur.rest = input := by simp [PState.new]
  have hu := (h2 cs).2 rfl
  rw [hrest] at hu
  have : st'.calls = cs := by rw [h1]; simp [start, PState.new]
  rw [this]
  exact calls_steps d.ext.det hu hw

/-- C73: for an accepted grammar, the number of visits is bounded by a constant for each character read (or read again), whatever the text and the rule. -/
theorem C73_reads (ha : Accepted G) (hf : X.Forward) (hc : ExtSpec.Consuming X) :
    ∃ c, ∀ r e s o v, G.find r = some e → Work G X e s o v → v.steps ≤ c * (v.reads + 1) := by
  obtain ⟨N, L, hr, hL⟩ := bounds hf hc ha
  refine ⟨L + 2 * ((1 + L) * L), fun r e s o v he hw => ?_⟩
  obtain ⟨h1, h2⟩ := steps_reads hf hr hL v e s o (hr r e he) hw
  have hn : near 0 v ≤ L := by simpa using hL e (hr r e he) 0 s o v hw
  by_cases hz : v.reads = 0
  · rw [h1 hz, hz]; omega
  · have h3 := h2 hz
    have h4 : (1 + L) * near 0 v ≤ (1 + L) * L := Nat.mul_le_mul_left _ hn
    rw [Nat.mul_add, Nat.add_mul, Nat.mul_one]
    omega

/-- C73: for an accepted grammar, the number of visits is at most exponential in the length of the text. -/
theorem C73_exponential (ha : Accepted G) (hf : X.Forward) (hc : ExtSpec.Consuming X) :
    ∃ c, ∀ r e s o v, G.find r = some e → Work G X e s o v → v.steps ≤ c ^ (s.length + 1) := by
  obtain ⟨N, L, hr, hL⟩ := bounds hf hc ha
  refine ⟨2 * (L + 1), fun r e s o v he hw => ?_⟩
  exact Nat.le_trans (steps_reach hf hr (fun e he => (hL e he).mono (Nat.le_succ L)) (by omega) s.length e s o v rfl (hr r e he) hw) (reach_pow (by omega) _)

/-- C73: the calls of user functions made by a parser are at most exponential in the length of the text. -/
theorem C73_calls_exponential (ha : Accepted G) (hf : X.Forward) (hX : X.Det) (hc : ExtSpec.Consuming X) (hres : G.resolved = true) (ht : ExtSpec.TotalOn X G) (hq : QuietExt ext) :
    ∃ c, ∀ ptr input r e st', Deployed G T fs ext X ptr input → G.find r = some e → Steps ext fs true r (start ptr input) st' → st'.calls.length ≤ c ^ (input.length + 1) := by
  obtain ⟨c, h⟩ := C73_exponential (X := X) ha hf hc
  refine ⟨c, fun ptr input r e st' d he hst => ?_⟩
  obtain ⟨o, L, hp⟩ := accepted_total hres ha hf hc ht (e := e) ⟨r, e, he, .refl⟩ input
  obtain ⟨v, hv⟩ := peg_work hp
  exact Nat.le_trans (C73_calls d hq he hst hv) (h r e _ _ _ he hv)

/-- C73: when one character of lookahead is enough to choose, no character is read twice, even when the text is not one of the language. -/
theorem C73_once (hp : Productive G noExt) (hn : NoPredicates G) (hl : LL1 G noExt r) (he : G.find r = some e) {s : List Char} {o : Option (List Char)} {v : Visits}
    (h : Work G noExt e s o v) : v.reads ≤ s.length :=
  (reads_once hl hp hn h _ (.here ⟨r, e, he, .refl⟩)).le

/-- C73: then parsing takes a number of visits which is linear in the length of the text. -/
theorem C73_linear (ha : Accepted G) (hp : Productive G noExt) (hn : NoPredicates G) :
    ∃ c, ∀ r e s o v, LL1 G noExt r → G.find r = some e → Work G noExt e s o v → v.steps ≤ c * (s.length + 1) := by
  obtain ⟨c, h⟩ := C73_reads (X := noExt) ha noExt_fwd (fun _ _ _ _ _ h => h.elim)
  refine ⟨c, fun r e s o v hl he hw => Nat.le_trans (h r e s o v he hw) (Nat.mul_le_mul_left _ ?_)⟩
  have := C73_once hp hn hl he hw
  omega

/-- C73: and it calls user functions a number of times which is linear in the length of the text. -/
theorem C73_calls_linear (ha : Accepted G) (hp : Productive G noExt) (hn : NoPredicates G) (hres : G.resolved = true) (ht : ExtSpec.TotalOn noExt G) (hq : QuietExt ext) :
    ∃ c, ∀ ptr input r e st', Deployed G T fs ext noExt ptr input → LL1 G noExt r → G.find r = some e → Steps ext fs true r (start ptr input) st' →
      st'.calls.length ≤ c * (input.length + 1) := by
  obtain ⟨c, h⟩ := C73_linear ha hp hn
  refine ⟨c, fun ptr input r e st' d hl he hst => ?_⟩
  obtain ⟨o, L, hpeg⟩ := accepted_total hres ha noExt_fwd (fun _ _ _ _ _ h => h.elim) ht (e := e) ⟨r, e, he, .refl⟩ input
  obtain ⟨v, hv⟩ := peg_work hpeg
  exact Nat.le_trans (C73_calls d hq he hst hv) (h r e _ _ _ hl he hv)

/-- C73: grammars that pass the checks of Proofs/LL1Check.lean and Proofs/CallsLL1.lean take a linear time. -/
theorem C73_checked (ha : Accepted G) {tab : LLTable} {order : List String} (hl : ll1 tab G = true) (ho : callsOk tab order G = true) :
    ∃ c, ∀ r e s o v, G.find r = some e → Work G noExt e s o v → v.reads ≤ s.length ∧ v.steps ≤ c * (s.length + 1) := by
  obtain ⟨h4, _⟩ := callsOk_sound hl ho
  obtain ⟨c, h⟩ := C73_linear ha h4 (ll1_sound (r0 := "") hl).2.1
  refine ⟨c, fun r e s o v he hw => ?_⟩
  obtain ⟨h1, h2, _⟩ := ll1_sound (r0 := r) hl
  exact ⟨C73_once h4 h2 h1 he hw, h r e s o v h1 he hw⟩

/-- C73: the exponential bound is reached: there is an accepted grammar and texts of length `n + 1` for which there are at least `2 ^ n` visits. -/
theorem C73_exponential_reached (n : Nat) : Accepted Sample.retry ∧ (Sample.retryText n).length = n + 1 ∧
    ∀ e o v, Sample.retry.find "retry" = some e → Work Sample.retry noExt e (Sample.retryText n) o v → 2 ^ n ≤ v.steps := by
  refine ⟨Sample.retry_accepted, by simp [Sample.retryText], fun e o v he hw => ?_⟩
  obtain ⟨st', h1, h2⟩ := C58_exponential_calls n
  rw [← h2]
  exact C73_calls (Sample.retry_generated.deployed 0 (Sample.retryText n)) noFns_quiet he h1 hw

/-- C73: counting the calls of functions does not change what the program does: it returns the same state, but for the ghost record, and no call of a user function
is forgotten. -/
theorem C73_counted (d : Deployed G T fs ext X ptr input) (hb : BlindExt ext) (n : Nat) (f : FnRef) (st : PState StrStream Val) :
    (∀ st', Program.run StrStream.ops ext ⟨fs⟩ n f st = .ok st' → ∃ cs, st'.calls.length ≤ cs.length ∧ Program.count StrStream.ops ext ⟨fs⟩ n f st = .ok { st' with calls := cs }) ∧
    (∀ st', Program.count StrStream.ops ext ⟨fs⟩ n f st = .ok st' → ∃ cs, Program.run StrStream.ops ext ⟨fs⟩ n f st = .ok { st' with calls := cs }) := by
  have h := countProg_like StrStream.ops hb G T n f st st (.refl st)
  rw [← program_correct _ ext G T fs d.gen.compiled d.gen.scopes d.gen.coherent, ← count_correct _ ext G T fs d.gen.compiled d.gen.scopes d.gen.coherent] at h
  generalize Program.run StrStream.ops ext ⟨fs⟩ n f st = x at h
  generalize Program.count StrStream.ops ext ⟨fs⟩ n f st = y at h
  refine ⟨?_, ?_⟩
  · rintro st' rfl
    cases h with
    | ok h => obtain ⟨cs, hl, rfl⟩ := h; exact ⟨cs, hl, rfl⟩
  · rintro st' rfl
    cases h with
    | ok h => obtain ⟨cs, _, rfl⟩ := h; exact ⟨_, rfl⟩

/-- C73: the visits bound the calls of all functions made by the generated code: recognizers and parsers, external functions and user functions. -/
theorem C73_functions (d : Deployed G T fs ext X ptr input) (hb : BlindExt ext) (he : G.find r = some e) {p : Bool} {o : Option (List Char)} {v : Visits} {k : Nat}
    (hw : Work G X e input o v) (hk : CallsOf ext fs p r ptr input k) : k ≤ 2 * v.steps + 2 := by
  obtain ⟨n, st, h, rfl⟩ := hk
  rw [count_correct _ ext G T fs d.gen.compiled d.gen.scopes d.gen.coherent] at h
  obtain ⟨o', v', hw', h1⟩ := (countProg_cost (d.gen.strSys ptr input) d.ext d.ext.det hb n).rule p r e _ _ he (okSt_new ptr input) h
  have hrest : (PState.new (StrStream.new ptr input) : PState StrStream Val).cur.rest = input := by simp [PState.new]
  rw [hrest] at hw'
  have := work_det d.ext.det hw hw'
  subst this
  have h0 : (PState.new (StrStream.new ptr input) : PState StrStream Val).calls.length = 0 := rfl
  rw [h0] at h1
  split at h1 <;> omega

/-- A call that ends can be counted. -/
theorem calls_counted (d : Deployed G T fs ext X ptr input) (hb : BlindExt ext) (he : G.find r = some e) (p : Bool) {o : Out} {L : Log} (hp : Peg G X e input o L) :
    ∃ k, CallsOf ext fs p r ptr input k := by
  have hrest : (start ptr input).cur.rest = input := by simp [start, PState.new]
  obtain ⟨st', ⟨n, h1⟩, _⟩ := d.steps_of he p (okSt_new ptr input) (o := o) (L := L) (by rw [show (PState.new (StrStream.new ptr input) : PState StrStream Val).cur.rest = input from hrest]; exact hp)
  obtain ⟨cs, _, h2⟩ := (C73_counted d hb n _ _).1 _ h1
  exact ⟨_, n, _, h2, rfl⟩

/-- C73: for an accepted grammar, every call of a recognizer or of a parser ends after a number of calls of functions that is at most exponential in the length of the text. -/
theorem C73_functions_exponential (ha : Accepted G) (hf : X.Forward) (hc : ExtSpec.Consuming X) (hres : G.resolved = true) (ht : ExtSpec.TotalOn X G) (hb : BlindExt ext) :
    ∃ c, ∀ ptr input p r e, Deployed G T fs ext X ptr input → G.find r = some e →
      (∃ k, CallsOf ext fs p r ptr input k) ∧ ∀ k, CallsOf ext fs p r ptr input k → k ≤ c ^ (input.length + 1) := by
  obtain ⟨c, h⟩ := C73_exponential (X := X) ha hf hc
  refine ⟨2 * (c + 1), fun ptr input p r e d he => ?_⟩
  obtain ⟨o, L, hp⟩ := accepted_total hres ha hf hc ht (e := e) ⟨r, e, he, .refl⟩ input
  refine ⟨calls_counted d hb he p hp, fun k hk => ?_⟩
  obtain ⟨v, hv⟩ := peg_work hp
  have h1 := C73_functions d hb he hv hk
  have h2 := h r e _ _ _ he hv
  have h3 : c ^ (input.length + 1) < (c + 1) ^ (input.length + 1) := Nat.pow_lt_pow_left (Nat.lt_succ_self c) (by omega)
  have h4 : 2 ≤ 2 ^ (input.length + 1) := by
    have := Nat.pow_le_pow_right (n := 2) (by omega) (show 1 ≤ input.length + 1 by omega)
    simpa using this
  rw [Nat.mul_pow]
  have h5 : 2 * (c + 1) ^ (input.length + 1) ≤ 2 ^ (input.length + 1) * (c + 1) ^ (input.length + 1) := Nat.mul_le_mul_right _ h4
  omega

/-- C73: when one character of lookahead is enough to choose, every call ends after a number of calls of functions that is linear in the length of the text. -/
theorem C73_functions_linear (ha : Accepted G) (hp : Productive G noExt) (hn : NoPredicates G) (hres : G.resolved = true) (ht : ExtSpec.TotalOn noExt G) (hb : BlindExt ext) :
    ∃ c, ∀ ptr input p r e, Deployed G T fs ext noExt ptr input → LL1 G noExt r → G.find r = some e →
      (∃ k, CallsOf ext fs p r ptr input k) ∧ ∀ k, CallsOf ext fs p r ptr input k → k ≤ c * (input.length + 1) := by
  obtain ⟨c, h⟩ := C73_linear ha hp hn
  refine ⟨2 * c + 2, fun ptr input p r e d hl he => ?_⟩
  obtain ⟨o, L, hpeg⟩ := accepted_total hres ha noExt_fwd (fun _ _ _ _ _ h => h.elim) ht (e := e) ⟨r, e, he, .refl⟩ input
  refine ⟨calls_counted d hb he p hpeg, fun k hk => ?_⟩
  obtain ⟨v, hv⟩ := peg_work hpeg
  have h1 := C73_functions d hb he hv hk
  have h2 := h r e _ _ _ hl he hv
  have h3 : (2 * c + 2) * (input.length + 1) = 2 * (c * (input.length + 1)) + 2 * (input.length + 1) := by
    rw [Nat.add_mul, Nat.mul_assoc]
  omega

theorem noFns_blind : BlindExt (S := StrStream) noFns := fun _ _ _ _ => rfl

/-- C73: the exponential bound on the calls of functions is reached too. -/
theorem C73_functions_reached (n : Nat) : Accepted Sample.retry ∧ (Sample.retryText n).length = n + 1 ∧ ∃ k, CallsOf noFns Sample.retryFs true "retry" 0 (Sample.retryText n) k ∧ 2 ^ n ≤ k := by
  refine ⟨Sample.retry_accepted, by simp [Sample.retryText], ?_⟩
  obtain ⟨st', ⟨m, h1⟩, h2⟩ := C58_exponential_calls n
  obtain ⟨cs, hl, h3⟩ := (C73_counted (Sample.retry_generated.deployed 0 (Sample.retryText n)) noFns_blind m _ _).1 _ h1
  exact ⟨_, ⟨m, _, h3, rfl⟩, h2 ▸ hl⟩

/-! ### Cases that meet the hypotheses -/

/-- The parser of sums takes a time which is linear, whatever the text. -/
example : ∃ c, ∀ r e s o v, Sample.sum.find r = some e → Work Sample.sum noExt e s o v → v.reads ≤ s.length ∧ v.steps ≤ c * (s.length + 1) :=
  C73_checked Sample.sum_accepted (tab := Sample.sumTable) (order := ["num", "sum"]) (by decide +kernel) (by decide +kernel)

/-- In `"ab" / "a"`, on `a`, the literals are visited one after the other. -/
example : Work ⟨[]⟩ noExt (.choice 2 [.str 0 "ab", .str 1 "a"]) ['a'] (some []) (.two false (.leaf 0) (.one (.leaf 1))) :=
  .choice_next (.str_fail (by simp)) (.choice_first (.str_ok (r := [])))

/-- In `("a" "b") / ("a" "c")`, on `ac`, the character `a` is read twice: three characters are read. -/
example : ∃ v, Work ⟨[]⟩ noExt (.choice 6 [.seq 2 [.str 0 "a", .str 1 "b"], .seq 5 [.str 3 "a", .str 4 "c"]]) ['a', 'c'] (some []) v ∧ v.reads = 3 ∧ v.steps = 11 :=
  ⟨_, .choice_next (.seq_cons (.str_ok (r := ['c'])) (.seq_fail (.str_fail (by simp))))
    (.choice_first (.seq_cons (.str_ok (r := ['c'])) (.seq_cons (.str_ok (r := [])) .seq_nil))), rfl, rfl⟩


/-- The generated parser of sums calls a number of functions that is linear, whatever the text. -/
example : ∃ c, ∀ ptr input, (∃ k, CallsOf noFns Sample.sumFs true "sum" ptr input k) ∧ ∀ k, CallsOf noFns Sample.sumFs true "sum" ptr input k → k ≤ c * (input.length + 1) := by
  obtain ⟨h4, _⟩ := callsOk_sound (tab := Sample.sumTable) (order := ["num", "sum"]) (G := Sample.sum) (by decide +kernel) (by decide +kernel)
  obtain ⟨h1, h2, h3⟩ := ll1_sound (tab := Sample.sumTable) (G := Sample.sum) (r0 := "sum") (by decide +kernel)
  obtain ⟨c, h⟩ := C73_functions_linear (T := Sample.sumT) (fs := Sample.sumFs) Sample.sum_accepted h4 h2 rfl (fun i p h => (h3 i p h).elim) noFns_blind
  exact ⟨c, fun ptr input => h ptr input true "sum" _ (Sample.sum_generated.deployed ptr input) h1 rfl⟩

/-- On `1+2`, `parse_sum` calls `parse_num` twice, each time with a user function, then a user function: six calls with its own. -/
example : CallsOf noFns Sample.sumFs true "sum" 0 ['1', '+', '2'] 6 := ⟨20, _, rfl, rfl⟩

end Oak
