import Verif.Proofs.Depth
import Verif.Properties.WellFormed
import Verif.Properties.Calls
/-!
C58: how deep the calls of a parser nest, and how many there can be.
-/
set_option linter.constructorNameAsVariable false
set_option autoImplicit false

namespace Oak
open Spec

variable {G : Grammar} {T : Nat → Ty} {fs : List (FnRef × Fn)} {ext : Nat → FnRef → PState StrStream Val → Res (PState StrStream Val)}
  {X : ExtSpec} {ptr : Nat} {input : List Char} {r : String} {e : Expr}

/-- C58: in an accepted grammar, rules being matched one inside the other are different rules or are matched at different positions; there are at
most as many of them as rules times positions. -/
theorem C58_nesting (ha : Accepted G) (hf : X.Forward) (hc : ExtSpec.Consuming X) {s : List Char} {l : List (String × List Char)}
    (h : Nested G X e s l) : l.Nodup ∧ (∀ x ∈ l, x.2 <:+ s) ∧ l.length ≤ G.rules.length * (s.length + 1) :=
  have hcyc : ∀ q b s, G.find q = some b → ¬ Calls G X q s b s := fun _ _ s hb => C20_never_called_again ha hf hc hb s
  ⟨h.nodup hcyc, fun x hx => (h.mem x hx).1.forward hf, h.length_le hf hcyc⟩

theorem accepted_within (ha : Accepted G) (hf : X.Forward) (hc : ExtSpec.Consuming X) (e : Expr) (s : List Char) :
    Within G X e s (G.rules.length * (s.length + 1)) := fun _ h => (C58_nesting ha hf hc h).2.2

/-- C58: the recognizers and the parsers of an accepted grammar return, from every position, within a depth of calls and a number of iterations of each loop
that are linear in what remains of the text: at most two calls for each rule and position. -/
theorem C58_bound_at (d : Deployed G T fs ext X ptr input) (ha : Accepted G) (hc : ExtSpec.Consuming X) (ht : ExtSpec.TotalOn X G)
    {N : Nat} (hN : ExtWithin (StrStream.At ptr input) ext G N) (he : G.find r = some e) (p : Bool) {st : PState StrStream Val}
    (hst : OkSt (StrStream.At ptr input) st) {n : Nat} (hn : 2 * (G.rules.length * (st.cur.rest.length + 1)) + st.cur.rest.length + 2 + N ≤ n) :
    ∃ st', Program.run StrStream.ops ext ⟨fs⟩ n ⟨p, [r]⟩ st = .ok st' := by
  obtain ⟨o, L, h⟩ := accepted_decided d.gen.resolved ha d.fwd hc ht he st.cur.rest
  have sys := d.gen.strSys (ext := ext) (X := X) ptr input
  have hbody : ∀ r b, G.find r = some b → TermIn (StrStream.At ptr input) ext G N b := fun r b hb =>
    ⟨sys.resolved hb, sys.shapedRule hb, (accepted_ok ha).1 r b hb, fun i path hs => hN i path ⟨r, b, hb, hs⟩⟩
  have key := (run_complete_in sys d.ext d.fwd hc hbody h).1 (hbody r e he)
  have hw := accepted_within ha d.fwd hc (.nt 0 r) st.cur.rest
  have hnt : runProg StrStream.ops ext G T n ⟨p, [r]⟩ st ≠ .timeout := by
    obtain ⟨j, hj, hwj⟩ := hw.nt he
    have base : ∀ n, 2 * j + st.cur.rest.length + 2 + N + 1 ≤ n → runProg StrStream.ops ext G T n ⟨false, [r]⟩ st ≠ .timeout := by
      intro n hn
      obtain ⟨m, rfl⟩ : ∃ m, n = m + 1 := ⟨n - 1, by omega⟩
      simp only [runProg, he, Bool.false_and, Bool.false_eq_true, if_false]
      exact Res.bind_ne_timeout (key j hwj m (by omega) _ st (coherent_false _ _ _) hst rfl) fun _ _ => finish_ne_timeout _
    cases p with
    | false => exact base n (by omega)
    | true =>
      obtain ⟨m, rfl⟩ : ∃ m, n = m + 1 := ⟨n - 1, by omega⟩
      simp only [runProg, he]
      split
      · exact base m (by omega)
      · exact Res.bind_ne_timeout (key j hwj m (by omega) _ st (Grammar.coherent_find sys.coh he) hst rfl) fun _ _ => finish_ne_timeout _
  rw [← program_correct StrStream.ops ext G T fs d.gen.compiled d.gen.scopes d.gen.coherent] at hnt
  rcases d.run_sound n p r e he st hst with h | ⟨o', L', st', h, -, -⟩
  · exact absurd h hnt
  · exact ⟨st', h⟩

/-- C58: the same for a whole text. -/
theorem C58_bound (d : Deployed G T fs ext X ptr input) (ha : Accepted G) (hc : ExtSpec.Consuming X) (ht : ExtSpec.TotalOn X G)
    {N : Nat} (hN : ExtWithin (StrStream.At ptr input) ext G N) (he : G.find r = some e) (p : Bool) {n : Nat}
    (hn : 2 * (G.rules.length * (input.length + 1)) + input.length + 2 + N ≤ n) :
    ∃ res, Program.parse StrStream.ops ext ⟨fs⟩ n ⟨p, [r]⟩ (StrStream.new ptr input) = .ok res := by
  have hr : (PState.new (StrStream.new ptr input) : PState StrStream Val).cur.rest = input := by simp [PState.new]
  obtain ⟨st', h⟩ := C58_bound_at d ha hc ht hN he p (okSt_new ptr input) (n := n) (by rw [hr]; exact hn)
  rcases d.run_sound n p r e he _ (okSt_new ptr input) with h' | ⟨o, L, st'', h', hp, hres⟩
  · rw [h] at h'; cases h'
  · refine ⟨expectedResult G T e p ptr input L o, ?_⟩
    unfold Program.parse
    rw [h']
    exact intoResult_of_fnRes d.fwd (by rwa [hr] at hp) hres

/-- C58: without external rules there is no further condition. -/
theorem C58_bound_closed (d : Deployed G T fs ext noExt ptr input) (ha : Accepted G) (hx : ∀ i p, ¬ Occurs G (.ext i p))
    (he : G.find r = some e) (p : Bool) :
    ∃ res, Program.parse StrStream.ops ext ⟨fs⟩ (2 * (G.rules.length * (input.length + 1)) + input.length + 2) ⟨p, [r]⟩ (StrStream.new ptr input) = .ok res :=
  C58_bound d ha (fun _ _ _ _ _ h => h.elim) (fun i p h => (hx i p h).elim) (N := 0) (fun i p h => (hx i p h).elim) he p (Nat.le_refl _)

/-! ### Cases that meet the hypotheses, and the need of the bound -/

namespace Sample

/-- `nest = "(" nest ")" / "."` -/
def nest : Grammar := ⟨[("nest", .choice 5 [.seq 3 [.str 0 "(", .nt 1 "nest", .str 2 ")"], .str 4 "."])]⟩

/-- Its generated program. -/
def nestFs : List (FnRef × Fn) := match compileGrammar opsT nest.rules with | .ok f => f | .error _ => []

theorem nest_generated : Generated nest opsT nestFs where
  compiled := by rfl
  scopes := by decide +kernel
  coherent := by decide +kernel
  resolved := by decide +kernel

theorem nest_accepted : Accepted nest := ⟨5, 9, _, rfl, by decide +kernel⟩

theorem nest_closed (i : Nat) (p : Path) : ¬ Occurs nest (.ext i p) := by
  rintro ⟨r, e, he, hs⟩
  have : (r, e) ∈ nest.rules := grammar_find_mem he
  simp only [nest, List.mem_cons, Prod.mk.injEq, List.not_mem_nil, or_false] at this
  obtain ⟨rfl, rfl⟩ := this
  cases hs with
  | choice hm hs =>
    simp only [List.mem_cons, List.not_mem_nil, or_false] at hm
    rcases hm with rfl | rfl
    · cases hs with
      | seq hm hs =>
        simp only [List.mem_cons, List.not_mem_nil, or_false] at hm
        rcases hm with rfl | rfl | rfl <;> cases hs
    · cases hs

/-- The parser of `nest` returns on every text within the depth told. -/
example (input : List Char) (p : Bool) :
    ∃ res, Program.parse StrStream.ops noFns ⟨nestFs⟩ (3 * input.length + 4) ⟨p, ["nest"]⟩ (StrStream.new 0 input) = .ok res := by
  have h := C58_bound_closed (nest_generated.deployed 0 input) nest_accepted nest_closed (r := "nest") rfl p
  have : 2 * (nest.rules.length * (input.length + 1)) + input.length + 2 = 3 * input.length + 4 := by
    have : nest.rules.length = 1 := rfl
    rw [this]; omega
  rwa [this] at h

end Sample

theorem nest_timeout (ptr : Nat) (input : List Char) (n : Nat) (k : Nat) (hk : n ≤ k) (st : PState StrStream Val) (hst : OkSt (StrStream.At ptr input) st)
    (hs : st.cur.rest = List.replicate k '(') (p : Bool) : runProg StrStream.ops noFns Sample.nest Sample.opsT n ⟨p, ["nest"]⟩ st = .timeout := by
  induction n generalizing k st p with
  | zero => rfl
  | succ n ih =>
    obtain ⟨k, rfl⟩ : ∃ m, k = m + 1 := ⟨k - 1, by omega⟩
    have hl := StrStream.lawful ptr input
    have hfind : Sample.nest.find "nest" = some (.choice 5 [.seq 3 [.str 0 "(", .nt 1 "nest", .str 2 ")"], .str 4 "."]) := rfl
    cases p with
    | true =>
      have h := ih (k + 1) (by omega) st hst hs false
      simp only [runProg, hfind]
      exact h
    | false =>
      obtain ⟨s', h1, h2, h3⟩ := hl.prefix_true (p := "(") (r := List.replicate k '(') hst.cur (by rw [hs]; rfl)
      have h := ih k (by omega) { st with cur := s' } ⟨hst.far, h2, hst.failed, hst.data⟩ h3 false
      simp only [runProg, hfind, Bool.false_and, Bool.false_eq_true, if_false, run, mark_spec hst.failed, Res.bind_ok, runBranches, runSeq,
        PState.consumePrefix, h1, if_true, runCall, h]
      rfl

/-- C58: a depth that grows with the text is needed: on `n` opening parentheses the recognizer of `nest = "(" nest ")" / "."` needs a depth of calls
greater than `n`. -/
theorem C58_linear_needed (n : Nat) (p : Bool) :
    Program.parse StrStream.ops noFns ⟨Sample.nestFs⟩ n ⟨p, ["nest"]⟩ (StrStream.new 0 (List.replicate n '(')) = .timeout := by
  have g := Sample.nest_generated
  unfold Program.parse
  rw [program_correct StrStream.ops noFns Sample.nest Sample.opsT Sample.nestFs g.compiled g.scopes g.coherent,
    nest_timeout 0 (List.replicate n '(') n n (Nat.le_refl _) _ (okSt_new 0 _) (by simp [PState.new]) p]
  rfl

namespace Sample

/-- `retry = "(" retry "x" / "(" retry "y" / "." > leaf` -/
def retry : Grammar := ⟨[("retry", .choice 10 [.seq 3 [.str 0 "(", .nt 1 "retry", .str 2 "x"], .seq 7 [.str 4 "(", .nt 5 "retry", .str 6 "y"],
  .act 9 (.str 8 ".") false ["leaf"]])]⟩

/-- Types of the nodes of `retry`. -/
def retryT : Nat → Ty
  | 1 | 5 | 9 | 10 => .rust "L"
  | 3 => .tuple [1]
  | 7 => .tuple [5]
  | _ => .unit

/-- Its generated program. -/
def retryFs : List (FnRef × Fn) := match compileGrammar retryT retry.rules with | .ok f => f | .error _ => []

theorem retry_generated : Generated retry retryT retryFs where
  compiled := by rfl
  scopes := by decide +kernel
  coherent := by decide +kernel
  resolved := by decide +kernel

theorem retry_accepted : Accepted retry := ⟨5, 15, _, rfl, by decide +kernel⟩

theorem retry_closed (i : Nat) (p : Path) : ¬ Occurs retry (.ext i p) := by
  rintro ⟨r, e, he, hs⟩
  have : (r, e) ∈ retry.rules := grammar_find_mem he
  simp only [retry, List.mem_cons, Prod.mk.injEq, List.not_mem_nil, or_false] at this
  obtain ⟨rfl, rfl⟩ := this
  cases hs with
  | choice hm hs =>
    simp only [List.mem_cons, List.not_mem_nil, or_false] at hm
    rcases hm with rfl | rfl | rfl
    · cases hs with
      | seq hm hs =>
        simp only [List.mem_cons, List.not_mem_nil, or_false] at hm
        rcases hm with rfl | rfl | rfl <;> cases hs
    · cases hs with
      | seq hm hs =>
        simp only [List.mem_cons, List.not_mem_nil, or_false] at hm
        rcases hm with rfl | rfl | rfl <;> cases hs
    · cases hs with
      | act hs => cases hs

/-- Opening parentheses followed by a dot. -/
def retryText (n : Nat) : List Char := List.replicate n '(' ++ ['.']

end Sample

theorem retry_calls (sp : SpanSpec) (n : Nat) : ∃ cs, UserCalls Sample.retry noExt Sample.retryT sp Sample.retry.rules[0].2 (Sample.retryText n) cs ∧
    cs.length = 2 ^ n ∧ (∃ o L, Peg Sample.retry noExt Sample.retry.rules[0].2 (Sample.retryText n) o L ∧
      ∀ s t, o = .ok s t → s = []) := by
  have hfind : Sample.retry.find "retry" = some Sample.retry.rules[0].2 := rfl
  induction n with
  | zero =>
    have f1 : ∀ i, Peg Sample.retry noExt (.str i "(") ['.'] .fail [(['.'], "(")] := fun i => .str_fail (by decide)
    have ok : Peg Sample.retry noExt (.str 8 ".") ['.'] (.ok [] _) _ := .str_ok (r := [])
    refine ⟨_, .choice_next (by decide) (.seq_fail (f1 0)) (.seq_fail (by decide) (f1 0) .str)
      (.choice_next (by decide) (.seq_fail (f1 4)) (.seq_fail (by decide) (f1 4) .str)
        (.choice_first (by decide) (.act_ok ok) (.act_ok (by decide) ok .str))), ?_,
      _, _, .choice_next (.seq_fail (f1 0)) (.choice_next (.seq_fail (f1 4)) (.choice_first (.act_ok ok))), ?_⟩
    · have hv : isVariant ["leaf"] = false := by decide +kernel
      simp [actionCalls, hv]
    · rintro s t ⟨⟩; rfl
  | succ n ih =>
    obtain ⟨cs, hu, hcs, o, L, hp, ho⟩ := ih
    have hs : Sample.retryText (n + 1) = "(".toList ++ Sample.retryText n := by
      simp [Sample.retryText, List.replicate_succ]
    have branch : ∀ i j k l c, Sample.retryT i ≠ .unit → Sample.retryT k ≠ .unit → ¬ String.toList c <+: [] →
        (∃ L, Peg Sample.retry noExt (.seq i [.str j "(", .nt k "retry", .str l c]) (Sample.retryText (n + 1)) .fail L) ∧
        UserCalls Sample.retry noExt Sample.retryT sp (.seq i [.str j "(", .nt k "retry", .str l c]) (Sample.retryText (n + 1)) cs := by
      intro i j k l c hi hk hc
      rw [hs]
      cases o with
      | fail =>
        refine ⟨⟨_, .seq_later .str_ok (.seq_fail (.nt_fail hfind hp))⟩, ?_⟩
        exact .seq_cons (c1 := []) hi .str_ok .str (.seq_fail hi (.nt_fail hfind hp) (.nt hk hfind hu))
      | ok s t =>
        have := ho s t rfl
        subst this
        refine ⟨⟨_, .seq_later .str_ok (.seq_later (.nt_ok hfind hp) (.seq_fail (.str_fail hc)))⟩, ?_⟩
        have h := UserCalls.seq_cons (c1 := cs) (c2 := []) hi (.nt_ok hfind hp) (.nt hk hfind hu) (.seq_fail (es := []) hi (.str_fail hc) (.str (i := l)))
        rw [List.append_nil] at h
        exact .seq_cons (c1 := []) hi .str_ok .str h
    obtain ⟨⟨L1, f1⟩, u1⟩ := branch 3 0 1 2 "x" (by decide) (by decide) (by decide)
    obtain ⟨⟨L2, f2⟩, u2⟩ := branch 7 4 5 6 "y" (by decide) (by decide) (by decide)
    have f3 : Peg Sample.retry noExt (.str 8 ".") (Sample.retryText (n + 1)) .fail _ := .str_fail (by
      rw [hs]; rintro ⟨r, hr⟩; simp at hr)
    refine ⟨_, .choice_next (by decide) f1 u1 (.choice_next (by decide) f2 u2
      (.choice_next (c1 := []) (c2 := []) (by decide) (.act_fail f3) (.act_fail (by decide) f3 .str) .choice_nil)), ?_,
      _, _, .choice_fail f1 (.choice_fail f2 (.choice_fail (.act_fail f3) .choice_nil)), nofun⟩
    simp only [List.length_append, List.length_nil, hcs]
    omega

/-- C58: what is read is not remembered: on the text made of `n` opening parentheses and a dot, the parser of
`retry = "(" retry "x" / "(" retry "y" / "." > leaf` (an accepted grammar) calls the function `leaf` exactly `2 ^ n` times. -/
theorem C58_exponential_calls (n : Nat) : ∃ st', Steps noFns Sample.retryFs true "retry" (start 0 (Sample.retryText n)) st' ∧
    st'.calls.length = 2 ^ n := by
  have d := Sample.retry_generated.deployed 0 (Sample.retryText n)
  obtain ⟨st', h⟩ := C13_terminates_at d Sample.retry_accepted (fun _ _ _ _ _ h => h.elim) (fun i p h => (Sample.retry_closed i p h).elim)
    (r := "retry") rfl true (start 0 (Sample.retryText n)) (okSt_new 0 _)
  refine ⟨st', h, ?_⟩
  obtain ⟨cs, h1, h2⟩ := C17_calls d noFns_quiet (r := "retry") rfl (okSt_new 0 _) h
  obtain ⟨cs', hu, hlen, -⟩ := retry_calls (strSpans (Sample.retryText n)) n
  have hr : (PState.new (StrStream.new 0 (Sample.retryText n)) : PState StrStream Val).cur.rest = Sample.retryText n := by simp [PState.new]
  have := (h2 cs').1 (by rw [hr]; exact hu)
  rw [h1, ← this]
  simpa [start, PState.new] using hlen

end Oak
