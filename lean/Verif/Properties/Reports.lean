import Verif.Properties.Parsing
import Verif.Proofs.PegSpans
import Verif.Proofs.ShownSpans
import Verif.Proofs.FailCause
import Verif.Proofs.Actions
/-!
Actions, error reports, spans, independence from the history.
-/
set_option linter.constructorNameAsVariable false
set_option autoImplicit false

namespace Oak
open Spec

variable {G : Grammar} {T : Nat → Ty} {fs : List (FnRef × Fn)} {ext : Nat → FnRef → PState StrStream Val → Res (PState StrStream Val)}
  {X : ExtSpec} {ptr : Nat} {input : List Char} {r : String} {e e1 e2 : Expr} {i j k : Nat} {p : Bool}
  {st st' : PState StrStream Val} {s' : List Char}

/-! ### C17: actions -/

/-- C17: the code of a recognizer calls no action. -/
theorem C17_recognizer (h : compileGrammar T G.rules = .ok fs) {f : Fn} (hf : (⟨false, [r]⟩, f) ∈ fs) : f.actions = [] := by
  simpa using compileGrammar_actions h _ hf

/-- C17: the code of a parser calls only the actions whose data is wanted, hence none of those below a predicate or an expression of
unit type. -/
theorem C17_parser (h : compileGrammar T G.rules = .ok fs) {f : Fn} (hf : (⟨true, [r]⟩, f) ∈ fs) :
    ∃ e, (r, e) ∈ G.rules ∧ ∀ g ∈ f.actions, g ∈ liveActions T true e := by
  have := compileGrammar_actions h _ hf
  simp only [if_true] at this
  obtain ⟨⟨r', e⟩, hm, hr, h⟩ := this
  cases hr
  exact ⟨e, hm, h⟩

/-- C17: no action is wanted below a predicate or in an expression of unit type. -/
theorem C17_not_live (T : Nat → Ty) (p : Bool) (e : Expr) :
    liveActions T p (.not i e) = [] ∧ liveActions T p (.and i e) = [] ∧ liveActions T false e = [] ∧ (T e.id = .unit → liveActions T p e = []) := by
  refine ⟨by simp [liveActions], by simp [liveActions], live_false T e, ?_⟩
  have all : ∀ es, liveActionsAll T false es = [] := by
    intro es
    induction es with
    | nil => rfl
    | cons e es ih => simp [liveActionsAll, live_false, ih]
  intro h
  cases e <;> simp only [Expr.id] at h <;> simp [liveActions, h, live_false, all]

/-- The parser of `look` calls `wrap` but not `unused`, which is below a predicate. -/
example : ∃ f, (⟨true, ["look"]⟩, f) ∈ Sample.spansFs ∧ f.actions = [["wrap"]] ∧
    liveActions Sample.spansT true (Sample.spans.rules[3].2) = [["wrap"]] :=
  ⟨(Sample.spansFs[7]'(by decide)).2, by decide, by decide, by decide⟩

/-! ### C18: positions and expectations of the reports -/

/-- C18: the farthest position reported is the farthest one where a terminal was tried in vain (the start if there is none), and
the items reported are the terminals that failed there, in the order of the attempts. -/
theorem C18_exact (d : Deployed G T fs ext X ptr input) (he : G.find r = some e) {res : PResult StrStream Val}
    (h : Returns ext fs p r ptr input res) {far : StrStream} {exp : List String}
    (hr : res = .failure far exp ∨ ∃ v, res = .part v far exp) :
    ∃ o L q, Peg G X e input o L ∧ q <:+ input ∧ far = streamAt ptr input q ∧ (∀ x ∈ L, q.length ≤ x.1.length) ∧
      (L = [] ∧ q = input ∨ ∃ x ∈ L, x.1 = q) ∧ exp = (L.filter (fun x => x.1 = q)).map (·.2) := by
  obtain ⟨o, L, hp, rfl⟩ := (d.returns_iff he _ _).1 h
  have hL := (hp.forward d.fwd).2
  have hsuf : farthest input L <:+ input := by
    rcases farthest_mem (s := input) (L := L) with h | ⟨x, hx, h⟩
    · rw [h]; exact List.suffix_rfl
    · rw [← h]; exact hL x hx
  have hmem : L = [] ∧ farthest input L = input ∨ ∃ x ∈ L, x.1 = farthest input L := by
    rcases Classical.em (L = []) with h | h
    · subst h; exact .inl ⟨rfl, rfl⟩
    · right
      have := expectedAt_farthest_ne_nil hL h
      simp only [expectedAt, ne_eq, List.map_eq_nil_iff, List.filter_eq_nil_iff, decide_eq_true_eq] at this
      simpa using this
  refine ⟨o, L, farthest input L, hp, hsuf, ?_⟩
  have : far = streamAt ptr input (farthest input L) ∧ exp = expectedAt (farthest input L) L := by
    cases o with
    | fail =>
      rcases hr with hr | ⟨v, hr⟩
      · simp only [expectedResult] at hr; cases hr; exact ⟨rfl, rfl⟩
      · simp only [expectedResult] at hr; cases hr
    | ok s t =>
      simp only [expectedResult] at hr
      split at hr
      · rcases hr with hr | ⟨v, hr⟩ <;> cases hr
      · rcases hr with hr | ⟨v, hr⟩
        · cases hr
        · cases hr; exact ⟨rfl, rfl⟩
  exact ⟨this.1, farthest_le.2, hmem, this.2⟩

/-- C18: a call from any state that has not failed updates the report likewise. -/
theorem C18_state (d : Deployed G T fs ext X ptr input) (he : G.find r = some e) (hst : OkSt (StrStream.At ptr input) st)
    (h : Steps ext fs p r st st') :
    ∃ o L, Peg G X e st.cur.rest o L ∧ StrStream.At ptr input st'.far ∧ st'.far.rest = farthest st.far.rest L ∧
      st'.exp = if farthest st.far.rest L = st.far.rest then st.exp ++ expectedAt st.far.rest L
        else expectedAt (farthest st.far.rest L) L := by
  obtain ⟨o, L, hp, hr⟩ := d.steps_iff he p hst h
  have ha : After (StrStream.At ptr input) StrStream.rest st st' L := by
    cases o with
    | fail => exact hr.2.2
    | ok s t => exact hr.2.2.2
  have hin : ∀ x ∈ L, x.1 <:+ input := fun x hx =>
    ((hp.forward d.fwd).2 x hx).trans ((StrStream.lawful ptr input).suffix hst.cur)
  have ht := (track_eq st.far.rest st.exp L input ((StrStream.lawful ptr input).suffix hst.far) hin).1
  have := ha.track
  rw [ht] at this
  simp only [Prod.mk.injEq] at this
  exact ⟨o, L, hp, ha.far, this.1, this.2⟩

example : Returns noFns Sample.sumFs true "sum" 0 "1+x".toList (.part (.app ["add"] [.app ["to_num"] [.list [.chr '1']], .list []])
    ⟨0, "1+x".toList, 2⟩ ["[\"0-9\"]"]) := ⟨20, rfl⟩

/-! ### C41: reports without expectation -/

/-- C41 is false: `!"a"` fails on `a` and reports nothing expected. -/
theorem C41_counterexample : Returns noFns Sample.opsFs false "not" 0 "a".toList (.failure ⟨0, "a".toList, 0⟩ []) :=
  ⟨20, rfl⟩

/-- C41 (partial: grammars without `!` and external rules): a failure reports at least one expected item. -/
theorem C41_partial (d : Deployed G T fs ext X ptr input) (he : G.find r = some e) (hG : ∀ ru ∈ G.rules, ru.2.positive = true)
    {far : StrStream} {exp : List String} (h : Returns ext fs p r ptr input (.failure far exp)) : exp ≠ [] := by
  obtain ⟨o, L, hp, hr⟩ := (d.returns_iff he _ _).1 h
  have hsh := compileGrammar_shaped d.gen.compiled
  have hGf : ∀ r e, G.find r = some e → e.positive = true ∧ e.shaped = true := by
    intro r e h
    have hm := find_mem h
    exact ⟨hG _ hm, hsh _ hm⟩
  cases o with
  | fail =>
    simp only [expectedResult] at hr
    cases hr
    exact expectedAt_farthest_ne_nil (hp.forward d.fwd).2 (hp.fail_log hGf (hGf _ _ he).1 (hGf _ _ he).2 rfl)
  | ok s t =>
    simp only [expectedResult] at hr
    split at hr <;> cases hr

example : (∀ ru ∈ Sample.sum.rules, ru.2.positive = true) ∧
    Returns noFns Sample.sumFs true "sum" 0 "x".toList (.failure ⟨0, "x".toList, 0⟩ ["[\"0-9\"]"]) :=
  ⟨by decide, 20, rfl⟩

/-- C41, exactly: a failure reports nothing expected iff no terminal was tried in vain. -/
theorem C41_exact (d : Deployed G T fs ext X ptr input) (he : G.find r = some e) {far : StrStream} :
    Returns ext fs p r ptr input (.failure far []) ↔ far = StrStream.new ptr input ∧ Peg G X e input .fail [] := by
  rw [d.returns_iff he]
  constructor
  · rintro ⟨o, L, hp, hr⟩
    cases o with
    | ok s t =>
      simp only [expectedResult] at hr
      split at hr <;> cases hr
    | fail =>
      have hL : L = [] := Classical.byContradiction fun h => by
        simp only [expectedResult, PResult.failure.injEq] at hr
        exact expectedAt_farthest_ne_nil (hp.forward d.fwd).2 h hr.2.symm
      subst hL
      simp only [expectedResult, PResult.failure.injEq] at hr
      exact ⟨by rw [hr.1]; simp [farthest, streamAt, StrStream.new], hp⟩
  · rintro ⟨rfl, hp⟩
    exact ⟨.fail, [], hp, by simp [expectedResult, farthest, streamAt, StrStream.new, expectedAt]⟩

/-- C41: a failure reports nothing expected only because of a `!e` whose operand matches at some place of the text, or of an external rule that fails without
reporting anything. -/
theorem C41_cause (d : Deployed G T fs ext X ptr input) (he : G.find r = some e) {far : StrStream} (h : Returns ext fs p r ptr input (.failure far [])) :
    ∃ s, s <:+ input ∧ ((∃ i c s' t, Occurs G (.not i c) ∧ Peg G X c s (.ok s' t) []) ∨ ∃ i q, Occurs G (.ext i q) ∧ X q s .fail []) := by
  have hsh := compileGrammar_shaped d.gen.compiled
  exact fail_cause d.fwd (fun r e h => hsh _ (find_mem h)) ((C41_exact d he).1 h).2 (.body he) (hsh _ (find_mem he)) rfl rfl

example : Peg Sample.ops noExt (.not 1 (.str 0 "a")) "a".toList .fail [] :=
  ((C41_exact (Sample.ops_generated.deployed 0 "a".toList) (r := "not") rfl).1 C41_counterexample).2

example : ∃ s, s <:+ "a".toList ∧ ((∃ i c s' t, Occurs Sample.ops (.not i c) ∧ Peg Sample.ops noExt c s (.ok s' t) []) ∨
    ∃ i q, Occurs Sample.ops (.ext i q) ∧ noExt q s .fail []) :=
  C41_cause (Sample.ops_generated.deployed 0 "a".toList) (r := "not") rfl C41_counterexample

/-! ### C19: spans -/

/-- C19: `...e` gives the byte offsets before and after the match of `e`. -/
theorem C19_range (d : Deployed G T fs ext X ptr input) (he : G.find r = some (.range i e)) (hT : T i ≠ .unit)
    (hst : OkSt (StrStream.At ptr input) st) (h : Steps ext fs true r st st') (hf : st'.failed = false) :
    ∃ vs, st'.data = some (tupleVal (.range st.cur.off st'.cur.off :: vs)) ∧ st.cur.off ≤ st'.cur.off := by
  obtain ⟨o, L, hp, hr⟩ := d.steps_iff he true hst h
  cases o with
  | fail => rw [hr.1] at hf; cases hf
  | ok s t =>
    obtain ⟨_, h2, ⟨v, hv, hq, _⟩, ha⟩ := hr
    cases hp with
    | range_ok hp =>
      have h1 := strSpans_pos _ hst.cur
      have h3 := strSpans_pos _ ha.cur
      rw [h2] at h3
      simp only [ast, Expr.id, hT, if_false, if_true, h1, h3] at hq
      refine ⟨_, by rw [hv, hq], ?_⟩
      have := blen_suffix_le ((hp.forward d.fwd).1 _ _ rfl)
      simp only [strSpans] at h1 h3
      omega

/-- C19: `..e` gives the same offsets, truncated to 32 bits. -/
theorem C19_span (d : Deployed G T fs ext X ptr input) (he : G.find r = some (.span i e)) (hT : T i ≠ .unit)
    (hst : OkSt (StrStream.At ptr input) st) (h : Steps ext fs true r st st') (hf : st'.failed = false) :
    ∃ vs, st'.data = some (tupleVal (.span (st.cur.off % 2 ^ 32) (st'.cur.off % 2 ^ 32) :: vs)) ∧ st.cur.off ≤ st'.cur.off := by
  obtain ⟨o, L, hp, hr⟩ := d.steps_iff he true hst h
  cases o with
  | fail => rw [hr.1] at hf; cases hf
  | ok s t =>
    obtain ⟨_, h2, ⟨v, hv, hq, _⟩, ha⟩ := hr
    cases hp with
    | span_ok hp =>
      have h1 := strSpans_pos _ hst.cur
      have h3 := strSpans_pos _ ha.cur
      rw [h2] at h3
      simp only [strSpans] at h1 h3
      simp only [ast, Expr.id, hT, if_false, if_true, strSpans, h1, h3] at hq
      refine ⟨_, by rw [hv, hq], ?_⟩
      have := blen_suffix_le ((hp.forward d.fwd).1 _ _ rfl)
      omega

/-- C19: below 4 GiB the spans are exact. -/
theorem C19_span_exact (d : Deployed G T fs ext X ptr input) (he : G.find r = some (.span i e)) (hT : T i ≠ .unit)
    (hst : OkSt (StrStream.At ptr input) st) (h : Steps ext fs true r st st') (hf : st'.failed = false) (hlen : blen input < 2 ^ 32) :
    ∃ vs, st'.data = some (tupleVal (.span st.cur.off st'.cur.off :: vs)) ∧ st.cur.off ≤ st'.cur.off := by
  obtain ⟨vs, h1, h2⟩ := C19_span d he hT hst h hf
  obtain ⟨o, L, hp, hr⟩ := d.steps_iff he true hst h
  have hb : ∀ s : StrStream, StrStream.At ptr input s → s.off < 2 ^ 32 := by
    intro s hs
    have := StrStream.off_add hs
    omega
  have hc : StrStream.At ptr input st'.cur := by
    cases o with
    | fail => rw [hr.1] at hf; cases hf
    | ok s t => exact hr.2.2.2.cur
  rw [Nat.mod_eq_of_lt (hb _ hst.cur), Nat.mod_eq_of_lt (hb _ hc)] at h1
  exact ⟨vs, h1, h2⟩

/-- C19: the spans of consecutive elements of a sequence are adjacent. -/
theorem C19_adjacent (d : Deployed G T fs ext X ptr input) (he : G.find r = some (.seq k [.range i e1, .range j e2]))
    (hk : T k ≠ .unit) (hi : T i ≠ .unit) (hj : T j ≠ .unit)
    (hst : OkSt (StrStream.At ptr input) st) (h : Steps ext fs true r st st') (hf : st'.failed = false) :
    ∃ m vs ws, st'.data = some (tupleVal (.range st.cur.off m :: vs ++ .range m st'.cur.off :: ws)) ∧ st.cur.off ≤ m ∧ m ≤ st'.cur.off := by
  obtain ⟨o, L, hp, hr⟩ := d.steps_iff he true hst h
  cases o with
  | fail => rw [hr.1] at hf; cases hf
  | ok s t =>
    obtain ⟨_, h2, ⟨v, hv, hq, _⟩, ha⟩ := hr
    have h1 := strSpans_pos _ hst.cur
    have h3 := strSpans_pos _ ha.cur
    rw [h2] at h3
    cases hp with
    | seq_cons pa pb =>
      cases pb with
      | seq_cons pb pc =>
        cases pc
        cases pa with
        | range_ok pa =>
          cases pb with
          | range_ok pb =>
            have l1 := blen_suffix_le ((pa.forward d.fwd).1 _ _ rfl)
            have l2 := blen_suffix_le ((pb.forward d.fwd).1 _ _ rfl)
            have l3 := blen_suffix_le ((StrStream.lawful ptr input).suffix hst.cur)
            simp only [ast, astSeq, Expr.id, hk, hi, hj, if_false, if_true, List.append_nil, h1, h3] at hq
            refine ⟨_, _, _, by rw [hv, hq], ?_, ?_⟩ <;> simp only [strSpans] at * <;> omega

/-- C19: wherever they occur, the spans of a match lie between the start and the end of the match. -/
theorem C19_within (d : Deployed G T fs ext X ptr input) (hO : X.Opaque) (he : G.find r = some e)
    (hst : OkSt (StrStream.At ptr input) st) (h : Steps ext fs true r st st') (hf : st'.failed = false) :
    ∃ t L, Peg G X e st.cur.rest (.ok st'.cur.rest t) L ∧ st'.data = some (tupleVal (ast G T (strSpans input) e t)) ∧
      ∀ x ∈ t.spans, st.cur.off ≤ (strSpans input).pos x.1 ∧ (strSpans input).pos x.1 ≤ (strSpans input).pos x.2 ∧
        (strSpans input).pos x.2 ≤ st'.cur.off := by
  rcases C11_data d he st st' hst h with ⟨h1, _⟩ | ⟨_, t, L, hp, hd⟩
  · rw [hf] at h1; cases h1
  · refine ⟨t, L, hp, hd, fun x hx => ?_⟩
    obtain ⟨a, b, c⟩ := hp.spans_within d.fwd hO rfl x hx
    obtain ⟨o, L, _, hr⟩ := d.steps_iff he true hst h
    have hc : StrStream.At ptr input st'.cur := by
      cases o with
      | fail => rw [hr.1] at hf; cases hf
      | ok s t => exact hr.2.2.2.cur
    have h1 := strSpans_pos _ hst.cur
    have h3 := strSpans_pos _ hc
    have l1 := blen_suffix_le a
    have l2 := blen_suffix_le b
    have l3 := blen_suffix_le c
    have l4 := blen_suffix_le ((StrStream.lawful ptr input).suffix hst.cur)
    simp only [strSpans] at *
    omega

/-- C19: every span or range that the data shows, however deep in tuples, lists, options and arguments of user functions (but not in a value that an external rule gave), is that of a
match of an expression `c` that the grammar spans: `read` was read before the match and `mid` by the match, the offsets are the numbers of bytes of `read` and of `read ++ mid`,
and they lie between the positions before and after the call. -/
theorem C19_shown (d : Deployed G T fs ext X ptr input) (he : G.find r = some e) (hst : OkSt (StrStream.At ptr input) st) (h : Steps ext fs true r st st')
    {v : Val} (hv : st'.data = some v) {w : Val} (hw : w.isSpan = true) (hs : Shown w v) :
    (∃ t L, Peg G X e st.cur.rest (.ok st'.cur.rest t) L ∧ ∃ y ∈ t.exts, Shown w y) ∨
    ∃ read mid rest c t L, input = read ++ mid ++ rest ∧ Peg G X c (mid ++ rest) (.ok rest t) L ∧
      st.cur.off ≤ blen read ∧ blen (read ++ mid) ≤ st'.cur.off ∧
      ((∃ i, Occurs G (.range i c) ∧ w = .range (blen read) (blen (read ++ mid))) ∨
       (∃ i, Occurs G (.span i c) ∧ w = .span (blen read % 2 ^ 32) (blen (read ++ mid) % 2 ^ 32))) := by
  obtain ⟨o, L, hp, hr⟩ := d.steps_iff he true hst h
  cases o with
  | fail => rw [hr.2.1] at hv; cases hv
  | ok s t =>
    obtain ⟨_, h2, ⟨u, hu, hq, _⟩, ha⟩ := hr
    rw [hu] at hv; cases hv
    rw [if_pos rfl] at hq
    subst hq
    rw [h2]
    obtain ⟨y, hy, hs⟩ := span_tuple hw hs
    rcases hp.shown_spans d.fwd hw rfl y hy hs with h3 | ⟨x, c, s1, s2, t', L', ho, hp', a1, a2, hx⟩
    · exact .inl ⟨t, L, hp, h3⟩
    · right
      have ho : Occurs G x := ho.elim (fun h => ⟨r, e, he, h⟩) id
      have h1 := StrStream.off_add hst.cur
      have h3 := StrStream.off_add ha.cur
      rw [h2] at h3
      obtain ⟨pre, h4⟩ := (StrStream.lawful ptr input).suffix hst.cur
      obtain ⟨m1, h5⟩ := a1
      obtain ⟨mid, h6⟩ := (hp'.forward d.fwd).1 _ _ rfl
      obtain ⟨m2, h7⟩ := a2
      have e1 : blen input = blen (pre ++ m1) + blen mid + blen s2 := by
        rw [← h4, ← h5, ← h6]; simp only [blen_append]; omega
      have e2 : blen st.cur.rest = blen m1 + blen mid + blen s2 := by
        rw [← h5, ← h6]; simp only [blen_append]; omega
      have e3 : blen s2 = blen m2 + blen s := by rw [← h7, blen_append]
      have e4 : blen s1 = blen mid + blen s2 := by rw [← h6, blen_append]
      have e5 : blen (pre ++ m1) = blen pre + blen m1 := blen_append _ _
      refine ⟨pre ++ m1, mid, s2, c, t', L', ?_, by rw [h6]; exact hp', ?_, ?_, ?_⟩
      · rw [← h4, ← h5, ← h6]; simp
      · omega
      · rw [blen_append]; omega
      · have p1 : blen input - blen s1 = blen (pre ++ m1) := by omega
        have p2 : blen input - blen s2 = blen (pre ++ m1 ++ mid) := by rw [blen_append]; omega
        rcases hx with ⟨i, rfl, rfl⟩ | ⟨i, rfl, rfl⟩
        · exact .inr ⟨i, ho, by simp only [strSpans, p1, p2]⟩
        · exact .inl ⟨i, ho, by simp only [strSpans, p1, p2]⟩

example : ∃ st', Steps noFns Sample.spansFs true "list" (start 0 "xy".toList) st' ∧
    st'.data = some (.tup [.range 0 1, .app ["name"] [.chr 'x'], .range 1 2, .app ["name"] [.chr 'y']]) := ⟨_, ⟨20, rfl⟩, rfl⟩

/-- C19 is false beyond 4 GiB: on a text of 2^32 one-byte characters, `..(.*)` gives the empty span (0, 0). -/
theorem C19_counterexample :
    ∃ vs, Returns noFns Sample.spansFs true "all" 0 (List.replicate (2 ^ 32) 'a') (.success (tupleVal (.span 0 0 :: vs))) := by
  have hlen : ∀ n, blen (List.replicate n 'a') = n := by
    intro n
    induction n with
    | zero => rfl
    | succ n ih => simp only [List.replicate_succ, blen, ih]; rw [show ('a').utf8Size = 1 from rfl]; omega
  have hstar : ∀ n, ∃ ts L, Peg Sample.spans noExt (.star 8 (.any 7)) (List.replicate n 'a') (.ok [] (.rep ts)) L := by
    intro n
    induction n with
    | zero => exact ⟨_, _, .star_stop .any_fail⟩
    | succ n ih =>
      obtain ⟨ts, L, h⟩ := ih
      rw [List.replicate_succ]
      exact ⟨_, _, .star_more .any_ok h⟩
  obtain ⟨ts, L, h⟩ := hstar (2 ^ 32)
  refine ⟨ast Sample.spans Sample.spansT (strSpans (List.replicate (2 ^ 32) 'a')) (.star 8 (.any 7)) (.rep ts), (C11_success_data (Sample.spans_generated.deployed 0 _) (r := "all") rfl _).2 ⟨_, _, .span_ok h, ?_⟩⟩
  simp only [ast, Expr.id, strSpans, hlen, Nat.sub_self]
  rw [if_neg (by decide)]
  rfl

/-! ### C42: results depend only on what remains to be read -/

/-- C42: two calls, on texts, positions and histories that may differ, return alike when the characters that remain are the same:
both fail, or both succeed on the same characters with the same parse tree. -/
theorem C42_history {ext' : Nat → FnRef → PState StrStream Val → Res (PState StrStream Val)} {ptr' : Nat} {input' : List Char} (d : Deployed G T fs ext X ptr input) (d' : Deployed G T fs ext' X ptr' input') (he : G.find r = some e)
    {st2 st2' : PState StrStream Val} (hst : OkSt (StrStream.At ptr input) st) (hst2 : OkSt (StrStream.At ptr' input') st2)
    (hrest : st.cur.rest = st2.cur.rest) :
    ((∃ a, Steps ext fs p r st a) ↔ (∃ b, Steps ext' fs p r st2 b)) ∧
    (Steps ext fs p r st st' → Steps ext' fs p r st2 st2' →
      st'.failed = st2'.failed ∧ (st'.failed = false → st'.cur.rest = st2'.cur.rest ∧
        ∃ t, st'.data = some (tupleVal (if p then ast G T (strSpans input) e t else [])) ∧
          st2'.data = some (tupleVal (if p then ast G T (strSpans input') e t else [])))) := by
  constructor
  · constructor
    · rintro ⟨a, ha⟩
      obtain ⟨o, L, hp, _⟩ := d.steps_iff he p hst ha
      rw [hrest] at hp
      obtain ⟨b, hb, _⟩ := d'.steps_of he p hst2 hp
      exact ⟨b, hb⟩
    · rintro ⟨a, ha⟩
      obtain ⟨o, L, hp, _⟩ := d'.steps_iff he p hst2 ha
      rw [← hrest] at hp
      obtain ⟨b, hb, _⟩ := d.steps_of he p hst hp
      exact ⟨b, hb⟩
  · intro h1 h2
    obtain ⟨o, L, hp, hr⟩ := d.steps_iff he p hst h1
    obtain ⟨o', L', hp', hr'⟩ := d'.steps_iff he p hst2 h2
    rw [← hrest] at hp'
    obtain ⟨rfl, rfl⟩ := hp.det d.ext.det hp'
    cases o with
    | fail => exact ⟨by rw [hr.1, hr'.1], fun h => by rw [hr.1] at h; cases h⟩
    | ok s t =>
      obtain ⟨k1, k2, ⟨v, hv, hq, _⟩, _⟩ := hr
      obtain ⟨l1, l2, ⟨w, hw, hq', _⟩, _⟩ := hr'
      exact ⟨by rw [k1, l1], fun _ => ⟨by rw [k2, l2], t, by rw [hv, hq], by rw [hw, hq']⟩⟩

/-- C42: without spans in the grammar, the data is the same. -/
theorem C42_data {ext' : Nat → FnRef → PState StrStream Val → Res (PState StrStream Val)} {ptr' : Nat} {input' : List Char} (d : Deployed G T fs ext X ptr input) (d' : Deployed G T fs ext' X ptr' input') (he : G.find r = some e)
    (hG : ∀ ru ∈ G.rules, ru.2.noSpan = true)
    {st2 st2' : PState StrStream Val} (hst : OkSt (StrStream.At ptr input) st) (hst2 : OkSt (StrStream.At ptr' input') st2)
    (hrest : st.cur.rest = st2.cur.rest) (h1 : Steps ext fs p r st st') (h2 : Steps ext' fs p r st2 st2') : st'.data = st2'.data := by
  have hGf : ∀ r e, G.find r = some e → e.noSpan = true := by
    intro r e h
    have hm := find_mem h
    exact hG _ hm
  obtain ⟨hf, hok⟩ := (C42_history d d' he hst hst2 hrest).2 h1 h2
  cases hb : st'.failed with
  | false =>
    obtain ⟨_, t, e1, e2⟩ := hok hb
    rw [e1, e2, ast_noSpan hGf t e (hGf r e he)]
  | true =>
    obtain ⟨o, L, hp, hr⟩ := d.steps_iff he p hst h1
    obtain ⟨o', L', hp', hr'⟩ := d'.steps_iff he p hst2 h2
    cases o with
    | ok s t => rw [hr.1] at hb; cases hb
    | fail =>
      cases o' with
      | ok s t => rw [hf, hr'.1] at hb; cases hb
      | fail => rw [hr.2.1, hr'.2.1]

/-- `12` alone, and `12` after three characters and an error. -/
example : ∃ a b, Steps noFns Sample.sumFs true "sum" (start 0 "12".toList) a ∧
    Steps noFns Sample.sumFs true "sum" ⟨⟨7, "été12".toList, 5⟩, ["x"], false, ⟨7, "été12".toList, 5⟩, none, []⟩ b ∧ a.data = b.data :=
  ⟨_, _, ⟨20, rfl⟩, ⟨20, rfl⟩, rfl⟩

end Oak
