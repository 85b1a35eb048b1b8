import Verif.Spec.Runtime
import Verif.Proofs.Report
import Verif.Properties.Parsing
/-!
Properties of the runtime: streams, states, reports.
-/
set_option linter.constructorNameAsVariable false
set_option autoImplicit false

namespace Oak
open Spec

/-! ### C01 -/

theorem readMany_at {ptr : Nat} {raw : List Char} (n : Nat) {s : StrStream} (h : StrStream.At ptr raw s) :
    ∃ s', readMany n s = .ok ((List.range n).map (fun i => s.rest[i]?), s') ∧ StrStream.At ptr raw s' ∧ s'.rest = s.rest.drop n := by
  induction n generalizing s with
  | zero => exact ⟨s, by simp [readMany], h, by simp⟩
  | succ n ih =>
    cases hr : s.rest with
    | nil =>
      obtain ⟨s', h1, h2, h3⟩ := ih h
      refine ⟨s', ?_, h2, ?_⟩
      · simp only [readMany, StrStream.next_nil h hr, Res.bind_ok, h1, hr]
        rw [List.range_succ_eq_map]
        simp
      · rw [h3, hr]; simp
    | cons c cs =>
      obtain ⟨s1, h1, h2, h3, _⟩ := StrStream.next_cons h hr
      obtain ⟨s', h4, h5, h6⟩ := ih h2
      refine ⟨s', ?_, h5, ?_⟩
      · simp only [readMany, h1, Res.bind_ok, h4, h3]
        rw [List.range_succ_eq_map]
        simp
      · rw [h6, h3]; simp

/-- C01: `n` calls of `next()` on the stream of a text return its first `n` characters, then `None`; the offset is the number of bytes
read; `has_next()` tells whether characters remain. No call panics. -/
theorem C01_read (ptr : Nat) (text : List Char) (n : Nat) :
    ∃ s, readMany n (StrStream.new ptr text) = .ok ((List.range n).map (fun i => text[i]?), s) ∧
      s.off = (utf8 (text.take n)).length ∧ (s.hasNext = true ↔ n < text.length) := by
  obtain ⟨s, h1, h2, h3⟩ := readMany_at n (StrStream.At.new ptr text)
  rw [StrStream.rest_new] at h1 h3
  refine ⟨s, h1, ?_, ?_⟩
  · have ho := StrStream.off_add h2
    rw [h3] at ho
    have : blen text = blen (text.take n) + blen (text.drop n) := by rw [← blen_append, List.take_append_drop]
    rw [length_utf8]; omega
  · rw [StrStream.hasNext_eq h2, h3]
    simp

/-- C01: clones of a stream compare as the numbers of characters read. -/
theorem C01_compare (ptr : Nat) (text : List Char) (m n : Nat) (a b : StrStream) (la lb : List (Option Char))
    (ha : readMany m (StrStream.new ptr text) = .ok (la, a)) (hb : readMany n (StrStream.new ptr text) = .ok (lb, b)) :
    StrStream.cmp a b = .ok (compare (min m text.length) (min n text.length)) := by
  obtain ⟨a', h1, h2, h3⟩ := readMany_at m (StrStream.At.new ptr text)
  obtain ⟨b', h4, h5, h6⟩ := readMany_at n (StrStream.At.new ptr text)
  rw [ha] at h1; rw [hb] at h4
  cases h1; cases h4
  rw [StrStream.rest_new] at h3 h6
  rw [StrStream.cmp_eq h2 h5]
  congr 1
  have oa := StrStream.off_add h2
  have ob := StrStream.off_add h5
  rw [h3] at oa; rw [h6] at ob
  have key : ∀ i j, i < j → j ≤ text.length → blen (text.drop j) < blen (text.drop i) := by
    intro i j hij hj
    rw [List.drop_eq_getElem_cons (show i < text.length by omega)]
    have hs : text.drop j <:+ text.drop (i + 1) := by
      rw [show j = (i + 1) + (j - (i + 1)) by omega, ← List.drop_drop]
      exact List.drop_suffix _ _
    obtain ⟨q, hq⟩ := hs
    rw [← hq]
    simp only [blen, blen_append]
    have := utf8Size_pos text[i]
    omega
  have hdrop : ∀ k, text.drop k = text.drop (min k text.length) := by
    intro k
    by_cases h : k ≤ text.length
    · rw [Nat.min_eq_left h]
    · rw [Nat.min_eq_right (by omega), List.drop_eq_nil_of_le (by omega), List.drop_eq_nil_of_le (by omega)]
  rw [hdrop] at oa ob
  rcases Nat.lt_trichotomy (min m text.length) (min n text.length) with h | h | h
  · have := key _ _ h (Nat.min_le_right _ _)
    rw [Nat.compare_eq_lt.2 h, Nat.compare_eq_lt.2 (by omega)]
  · rw [h] at oa
    rw [Nat.compare_eq_eq.2 h, Nat.compare_eq_eq.2 (by omega)]
  · have := key _ _ h (Nat.min_le_right _ _)
    rw [Nat.compare_eq_gt.2 h, Nat.compare_eq_gt.2 (by omega)]

example : readMany 3 (StrStream.new 7 "é€".toList) = .ok ([some 'é', some '€', none], ⟨7, "é€".toList, 5⟩) := rfl

/-! ### C02 -/

/-- C02: `consume_prefix(p)` returns true exactly when the remaining characters start with `p`, and then reads exactly `p`; otherwise the
stream does not move. -/
theorem C02_consume_prefix (ptr : Nat) (text read rest : List Char) (htext : text = read ++ rest) (p : String) :
    StrStream.consumePrefix p ⟨ptr, text, blen read⟩ =
      .ok (if p.toList <+: rest then (true, ⟨ptr, text, blen (read ++ p.toList)⟩) else (false, ⟨ptr, text, blen read⟩)) := by
  have hat : StrStream.At ptr text ⟨ptr, text, blen read⟩ := ⟨rfl, rfl, read, rest, htext, rfl⟩
  have hrest : (⟨ptr, text, blen read⟩ : StrStream).rest = rest := StrStream.rest_of htext rfl
  split
  · rename_i h
    obtain ⟨r, hr⟩ := h
    obtain ⟨s', h1, h2, _, h4⟩ := StrStream.prefix_true (p := p) (r := r) hat (by rw [hrest, hr])
    rw [h1]
    obtain ⟨h5, h6, _⟩ := h2
    cases s'
    simp only [blen_append] at *
    simp_all
  · rename_i h
    exact StrStream.prefix_false hat (by rw [hrest]; exact h)

theorem callMany_at {ptr : Nat} {raw : List Char} (cs : List StreamCall) {s : StrStream} (h : StrStream.At ptr raw s) :
    ∃ s', callMany cs s = .ok s' ∧ StrStream.At ptr raw s' ∧ s'.rest <:+ s.rest := by
  induction cs generalizing s with
  | nil => exact ⟨s, rfl, h, List.suffix_rfl⟩
  | cons c cs ih =>
    cases c with
    | next =>
      cases hr : s.rest with
      | nil =>
        obtain ⟨s', h1, h2, h3⟩ := ih h
        exact ⟨s', by simp only [callMany, StrStream.next_nil h hr, Res.bind_ok, h1], h2, by rw [← hr]; exact h3⟩
      | cons d ds =>
        obtain ⟨s1, h1, h2, h3, _⟩ := StrStream.next_cons h hr
        obtain ⟨s', h4, h5, h6⟩ := ih h2
        exact ⟨s', by simp only [callMany, h1, Res.bind_ok, h4], h5, by rw [h3] at h6; exact h6.trans (List.suffix_cons _ _)⟩
    | consume p =>
      by_cases hp : p.toList <+: s.rest
      · obtain ⟨r, hr⟩ := hp
        obtain ⟨s1, h1, h2, h3, _⟩ := StrStream.prefix_true (p := p) (r := r) h hr.symm
        obtain ⟨s', h4, h5, h6⟩ := ih h2
        exact ⟨s', by simp only [callMany, h1, Res.bind_ok, h4], h5,
          by rw [h3] at h6; rw [← hr]; exact h6.trans (List.suffix_append _ _)⟩
      · obtain ⟨s', h1, h2, h3⟩ := ih h
        exact ⟨s', by simp only [callMany, StrStream.prefix_false h hp, Res.bind_ok, h1], h2, h3⟩

/-- C02: whatever the history of calls of `next` and `consume_prefix`, no call panics and the stream is on a character boundary. -/
theorem C02_history (ptr : Nat) (text : List Char) (cs : List StreamCall) :
    ∃ read rest, text = read ++ rest ∧ callMany cs (StrStream.new ptr text) = .ok ⟨ptr, text, blen read⟩ := by
  obtain ⟨s, h1, ⟨h2, h3, p, r, h4, h5⟩, _⟩ := callMany_at cs (StrStream.At.new ptr text)
  refine ⟨p, r, h4, ?_⟩
  rw [h1]
  cases s; simp_all

example : StrStream.consumePrefix "€" ⟨0, "é€x".toList, 2⟩ = .ok (true, ⟨0, "é€x".toList, 5⟩) := by decide +kernel
/-- A prefix that shares its first byte with the input only. -/
example : StrStream.consumePrefix "ê" ⟨0, "é".toList, 0⟩ = .ok (false, ⟨0, "é".toList, 0⟩) := by decide +kernel

/-! ### C03 -/

/-- C03: after any history of calls of `error` on streams over the same text, the farthest position is the maximum of the initial one and of
those of the history, and the expected items are those reported there, in order, after the initial ones if they are there. -/
theorem C03_history {D : Type} (ptr : Nat) (hist : List (StrStream × String)) (st : PState StrStream D)
    (hfar : st.far.ptr = ptr) (hh : ∀ x ∈ hist, x.1.ptr = ptr) :
    ∃ st', errorMany hist st = .ok st' ∧
      (∀ x ∈ hist, x.1.off ≤ st'.far.off) ∧ st.far.off ≤ st'.far.off ∧
      (st'.far = st.far ∨ ∃ x ∈ hist, st'.far = x.1) ∧
      st'.exp = (if st'.far.off = st.far.off then st.exp else []) ++ (hist.filter (fun x => x.1.off = st'.far.off)).map (·.2) := by
  induction hist generalizing st with
  | nil => exact ⟨st, rfl, by simp, Nat.le_refl _, .inl rfl, by simp⟩
  | cons x hist ih =>
    obtain ⟨s, e⟩ := x
    have hs : s.ptr = ptr := hh (s, e) List.mem_cons_self
    have hh' : ∀ x ∈ hist, x.1.ptr = ptr := fun x hx => hh x (List.mem_cons_of_mem _ hx)
    have hcmp : StrStream.ops.cmp s st.far = .ok (compare s.off st.far.off) := by
      simp [StrStream.ops, StrStream.cmp, hs, hfar]
    rcases Nat.lt_trichotomy s.off st.far.off with h | h | h
    · obtain ⟨st', h1, h2, h3, h4, h5⟩ := ih { st with cur := s, failed := true } hfar hh'
      refine ⟨st', ?_, ?_, h3, ?_, ?_⟩
      · simp only [errorMany, PState.error, hcmp, Nat.compare_eq_lt.2 h, Res.bind_ok]
        exact h1
      · intro x hx
        cases hx with
        | head => exact Nat.le_trans (Nat.le_of_lt h) h3
        | tail _ hx => exact h2 x hx
      · rcases h4 with h4 | ⟨x, hx, h4⟩
        · exact .inl h4
        · exact .inr ⟨x, List.mem_cons_of_mem _ hx, h4⟩
      · rw [h5]
        have : ¬ s.off = st'.far.off := by simp only at h3; omega
        simp [List.filter_cons, this]
    · obtain ⟨st', h1, h2, h3, h4, h5⟩ := ih { st with cur := s, failed := true, exp := st.exp ++ [e] } hfar hh'
      refine ⟨st', ?_, ?_, h3, ?_, ?_⟩
      · simp only [errorMany, PState.error, hcmp, Nat.compare_eq_eq.2 h, Res.bind_ok]
        exact h1
      · intro x hx
        cases hx with
        | head => exact Nat.le_trans (Nat.le_of_eq h) h3
        | tail _ hx => exact h2 x hx
      · rcases h4 with h4 | ⟨x, hx, h4⟩
        · exact .inl h4
        · exact .inr ⟨x, List.mem_cons_of_mem _ hx, h4⟩
      · rw [h5]
        simp only [List.filter_cons]
        by_cases he : st'.far.off = st.far.off
        · simp [he, h]
        · have : ¬ s.off = st'.far.off := by omega
          simp [he, this]
    · obtain ⟨st', h1, h2, h3, h4, h5⟩ := ih { st with cur := s, failed := true, far := s, exp := [e] } hs hh'
      simp only at h3 h4 h5
      refine ⟨st', ?_, ?_, by omega, ?_, ?_⟩
      · simp only [errorMany, PState.error, hcmp, Nat.compare_eq_gt.2 h, Res.bind_ok]
        exact h1
      · intro x hx
        cases hx with
        | head => exact h3
        | tail _ hx => exact h2 x hx
      · rcases h4 with h4 | ⟨x, hx, h4⟩
        · exact .inr ⟨(s, e), List.mem_cons_self, h4⟩
        · exact .inr ⟨x, List.mem_cons_of_mem _ hx, h4⟩
      · rw [h5]
        have : ¬ st'.far.off = st.far.off := by omega
        simp only [List.filter_cons, this, if_false, List.nil_append]
        by_cases he : s.off = st'.far.off
        · simp [he]
        · have : ¬ st'.far.off = s.off := fun h => he h.symm
          simp [he, this]

/-- C03: the state is marked as failed by any error. -/
theorem C03_failed {D : Type} (st st' : PState StrStream D) (s : StrStream) (e : String)
    (h : errorMany [(s, e)] st = .ok st') : st'.failed = true ∧ st'.cur = s ∧ st'.data = st.data := by
  simp only [errorMany, PState.error] at h
  obtain ⟨st1, h1, h2⟩ := Res.bind_eq_ok h
  cases h2
  obtain ⟨o, _, h3⟩ := Res.bind_eq_ok h1
  cases o <;> cases h3 <;> exact ⟨rfl, rfl, rfl⟩

example : errorMany (D := Unit) [(⟨0, "abc".toList, 1⟩, "x"), (⟨0, "abc".toList, 2⟩, "y"), (⟨0, "abc".toList, 0⟩, "z"),
    (⟨0, "abc".toList, 2⟩, "y")] (PState.new ⟨0, "abc".toList, 0⟩) =
    .ok ⟨⟨0, "abc".toList, 2⟩, ["y", "y"], true, ⟨0, "abc".toList, 2⟩, none, []⟩ := by rfl

/-! ### C05 -/

/-- C05: the reported line and column are correct exactly when no carriage return before the position ends a line. -/
theorem C05_exact (ptr : Nat) (read rest : List Char) :
    StrStream.lineColumn ⟨ptr, read ++ rest, blen read⟩ = (lineAfter read, columnAfter read) ↔ NoEndingCR read rest := by
  rw [← lineColumnLoop_iff read.length read rest (Nat.le_refl _) 1]
  unfold StrStream.lineColumn
  rw [show 1 + (lineAfter read - 1) = lineAfter read by unfold lineAfter; omega]

/-- C05, restricted to texts without carriage returns: the reported line and column are correct. Missing: texts with a carriage return at
the end of a line, for which it is false. -/
theorem C05_partial (ptr : Nat) (read rest : List Char) (h : '\r' ∉ read) :
    StrStream.lineColumn ⟨ptr, read ++ rest, blen read⟩ = (lineAfter read, columnAfter read) := by
  rw [C05_exact]
  intro q s hs
  exact absurd (by rw [hs]; simp) h

/-- C05 is false of texts with Windows line endings. -/
theorem C05_counterexample : ∃ (read rest : List Char),
    StrStream.lineColumn ⟨0, read ++ rest, blen read⟩ ≠ (lineAfter read, columnAfter read) :=
  ⟨"a\r\nb".toList, "c".toList, by decide +kernel⟩

/-- C05: the location message is made of the line and column. -/
theorem C05_location (s : StrStream) : s.location = toString s.lineColumn.1 ++ ":" ++ toString s.lineColumn.2 := rfl

example : StrStream.lineColumn ⟨0, "ab\ncé\nx".toList, 6⟩ = (2, 4) := by decide +kernel

/-! ### C06 -/

/-- C06: at the end of the input the snippet is `<end-of-file>`. -/
theorem C06_end (ptr : Nat) (read : List Char) (n : Nat) : StrStream.codeSnippet ⟨ptr, read, blen read⟩ n = .ok "<end-of-file>" := by
  simp [StrStream.codeSnippet]

/-- C06: before the end, the snippet is the prefix of the remaining input of `n` bytes (or all of it), if there is such a prefix; otherwise
`code_snippet` panics. -/
theorem C06_exact (ptr : Nat) (read rest : List Char) (hne : rest ≠ []) (n : Nat) (res : Res String) :
    StrStream.codeSnippet ⟨ptr, read ++ rest, blen read⟩ n = res ↔
      (∃ a b, rest = a ++ b ∧ blen a = min n (blen rest) ∧ res = .ok (String.ofList a)) ∨
      ((¬ ∃ a b, rest = a ++ b ∧ blen a = min n (blen rest)) ∧ res = .panic) := by
  have hpos : blen rest ≠ 0 := fun h => hne (blen_eq_zero.1 h)
  have hev : StrStream.codeSnippet ⟨ptr, read ++ rest, blen read⟩ n =
      match takeBytes rest (min n (blen rest)) with
      | none => .panic
      | some t => .ok (String.ofList t) := by
    simp only [StrStream.codeSnippet, blen_append]
    rw [if_neg (by omega), if_neg (by omega), dropBytes_append]
    simp only
    rw [show blen read + blen rest - blen read = blen rest by omega, Nat.min_comm]
    cases takeBytes rest (min n (blen rest)) <;> rfl
  rw [hev]
  cases ht : takeBytes rest (min n (blen rest)) with
  | none =>
    have hno : ¬ ∃ a b, rest = a ++ b ∧ blen a = min n (blen rest) := by
      rintro ⟨a, b, hab, hlen⟩
      rw [← hlen, hab, takeBytes_append] at ht
      cases ht
    constructor
    · intro h; exact .inr ⟨hno, h.symm⟩
    · rintro (⟨a, b, h1, h2, _⟩ | ⟨_, h⟩)
      · exact absurd ⟨a, b, h1, h2⟩ hno
      · exact h.symm
  | some t =>
    obtain ⟨r, h1, h2⟩ := takeBytes_eq_some ht
    constructor
    · intro h; exact .inl ⟨t, r, h1, h2, h.symm⟩
    · rintro (⟨a, b, h3, h4, h⟩ | ⟨h, _⟩)
      · rw [← h4, h3, takeBytes_append] at ht
        cases ht
        exact h.symm
      · exact absurd ⟨t, r, h1, h2⟩ h

/-- C06, restricted to remaining inputs made of one-byte characters and positive hints: the snippet is a non-empty prefix of at most `n` bytes.
Missing: multi-byte characters, for which `code_snippet` may panic. -/
theorem C06_partial (ptr : Nat) (read rest : List Char) (hne : rest ≠ []) (n : Nat) (hn : 0 < n) (hascii : ∀ c ∈ rest, c.utf8Size = 1) :
    ∃ a b, rest = a ++ b ∧ a ≠ [] ∧ blen a ≤ n ∧ StrStream.codeSnippet ⟨ptr, read ++ rest, blen read⟩ n = .ok (String.ofList a) := by
  have hlen : ∀ l : List Char, (∀ c ∈ l, c.utf8Size = 1) → blen l = l.length := by
    intro l
    induction l with
    | nil => intro _; rfl
    | cons c l ih =>
      intro h
      simp only [blen, h c List.mem_cons_self, ih (fun c hc => h c (List.mem_cons_of_mem _ hc)), List.length_cons]; omega
  have h1 : blen (rest.take n) = min n (blen rest) := by
    rw [hlen _ (fun c hc => hascii c (List.mem_of_mem_take hc)), hlen _ hascii, List.length_take]
  refine ⟨rest.take n, rest.drop n, (List.take_append_drop n rest).symm, ?_, by omega, ?_⟩
  · intro h
    rw [h] at h1
    have : 0 < blen rest := Nat.pos_of_ne_zero (fun h => hne (blen_eq_zero.1 h))
    simp only [blen] at h1
    omega
  · exact (C06_exact ptr read rest hne n _).2 (.inl ⟨_, _, (List.take_append_drop n rest).symm, h1, rfl⟩)

/-- C06 is false: `code_snippet` panics when the cut is inside a character. -/
theorem C06_counterexample : StrStream.codeSnippet ⟨0, "aéééééé".toList, 0⟩ 10 = .panic := by decide +kernel

/-- C06: so does the printing of an error message by a user. -/
theorem C06_message_counterexample : ∃ res, Returns noFns Sample.digitsFs true "digits" 0 "aéééééé".toList res ∧
    debugResult (fun _ => "") id res = .panic :=
  ⟨.failure ⟨0, "aéééééé".toList, 0⟩ ["[\"0-9\"]"], ⟨20, rfl⟩, by decide +kernel⟩

/-- C06: messages never panic when the text is made of one-byte characters: whatever `parse_r` or `recognize_r` returns can be printed. -/
theorem C06_message_partial {G : Grammar} {T : Nat → Ty} {fs : List (FnRef × Fn)}
    {ext : Nat → FnRef → PState StrStream Val → Res (PState StrStream Val)} {X : ExtSpec} {ptr : Nat} {input : List Char} {r : String} {e : Expr}
    (d : Deployed G T fs ext X ptr input) (he : G.find r = some e) (p : Bool) (res : PResult StrStream Val)
    (hres : Returns ext fs p r ptr input res) (hascii : ∀ c ∈ input, c.utf8Size = 1)
    (dbg : Val → String) (order : List String → List String) : ∃ msg, debugResult dbg order res = .ok msg := by
  obtain ⟨o, L, hp, rfl⟩ := (d.returns_iff he p res).1 hres
  have hsnip : ∃ s, StrStream.codeSnippet (streamAt ptr input (farthest input L)) 10 = .ok s := by
    have hf : farthest input L <:+ input := by
      have := (track_eq input [] L input List.suffix_rfl ((hp.forward d.fwd).2)).2
      simpa using this
    obtain ⟨q, hq⟩ := hf
    unfold streamAt
    have hoff : blen input - blen (farthest input L) = blen q := by
      conv => lhs; arg 1; rw [← hq]
      rw [blen_append]; omega
    rw [hoff]
    by_cases hne : farthest input L = []
    · rw [hne, List.append_nil] at hq
      rw [← hq]
      exact ⟨_, C06_end ptr q 10⟩
    · obtain ⟨a, b, _, _, _, h⟩ := C06_partial ptr q (farthest input L) hne 10 (by omega)
        (fun c hc => hascii c (by rw [← hq]; simp [hc]))
      rw [hq] at h
      exact ⟨_, h⟩
  obtain ⟨s, hs⟩ := hsnip
  have hdbg : ∀ items, ∃ m, debugExpectation (streamAt ptr input (farthest input L)) items = .ok m := by
    intro items
    simp only [debugExpectation, expectedItems_eq, Res.bind_ok, hs]
    exact ⟨_, rfl⟩
  cases o with
  | fail =>
    obtain ⟨m, hm⟩ := hdbg (order (expectedAt (farthest input L) L))
    simp only [expectedResult, debugResult, hm, Res.bind_ok]
    exact ⟨_, rfl⟩
  | ok s' t =>
    simp only [expectedResult]
    split
    · exact ⟨_, rfl⟩
    · obtain ⟨m, hm⟩ := hdbg (order (expectedAt (farthest input L) L))
      simp only [debugResult, hm, Res.bind_ok]
      exact ⟨_, rfl⟩

/-! ### C07 -/

/-- C07: whatever the enumeration order of the set of expected items, the message is made of the items between backquotes, separated by
` or `, and nothing when there is none. No truncation panics. -/
theorem C07_message (exp items : List String) (_hset : ∀ x, x ∈ items ↔ x ∈ exp) (_hnodup : items.Nodup) :
    expectedItems items = .ok (String.ofList (itemList items)) := expectedItems_eq items

/-- C07: two enumerations of the same set give messages with the same items. -/
theorem C07_order (exp items items' : List String) (hset : ∀ x, x ∈ items ↔ x ∈ exp) (hnodup : items.Nodup)
    (hset' : ∀ x, x ∈ items' ↔ x ∈ exp) (hnodup' : items'.Nodup) :
    items.Perm items' ∧ ∃ m m', expectedItems items = .ok m ∧ expectedItems items' = .ok m' ∧ m.toList.length = m'.toList.length := by
  have hp : items.Perm items' := (List.perm_ext_iff_of_nodup hnodup hnodup').2 (fun x => by rw [hset, hset'])
  refine ⟨hp, _, _, expectedItems_eq _, expectedItems_eq _, ?_⟩
  simp only [String.toList_ofList]
  have hlen : ∀ l : List String, l ≠ [] → (itemList l).length + 4 = (l.flatMap (fun x => '`' :: x.toList ++ "` or ".toList)).length := by
    intro l hl; rw [itemList_append hl]; simp
  have hperm := (hp.flatMap_right (fun x => '`' :: x.toList ++ "` or ".toList)).length_eq
  by_cases h : items = []
  · subst h; rw [List.Perm.nil_eq hp]
  · have h' : items' ≠ [] := fun e => h (by rw [e] at hp; exact hp.eq_nil)
    have := hlen _ h; have := hlen _ h'
    omega

example : expectedItems ["(", "[\"0-9\"]"] = .ok "`(` or `[\"0-9\"]`" := by rfl
example : expectedItems [] = .ok "" := by rfl

/-! ### C28 -/

section
variable {G : Grammar} {T : Nat → Ty} {fs : List (FnRef × Fn)} {ext : Nat → FnRef → PState StrStream Val → Res (PState StrStream Val)}
  {X : ExtSpec} {ptr : Nat} {input : List Char} {r : String}

/-- C28: a character class matches exactly when the next character lies in one of the intervals, and reads exactly that character. -/
theorem C28_matches (d : Deployed G T fs ext X ptr input) (i : Nat) (ivs : List Interval) (he : G.find r = some (.cls i ivs)) (p : Bool)
    (st : PState StrStream Val) (hst : OkSt (StrStream.At ptr input) st) (s' : List Char) :
    StepsTo ext fs p r ptr input st s' ↔
      ∃ c, st.cur.rest = c :: s' ∧ ∃ iv ∈ ivs, iv.lo.val ≤ c.val ∧ c.val ≤ iv.hi.val := by
  rw [C08_position d he p st hst s']
  constructor
  · rintro ⟨t, L, h⟩
    generalize hs : st.cur.rest = s at h
    cases h with
    | cls_ok h => exact ⟨_, rfl, h⟩
  · rintro ⟨c, hc, h⟩
    rw [hc]
    exact ⟨_, _, .cls_ok h⟩

/-- C28: otherwise it fails. -/
theorem C28_fails (d : Deployed G T fs ext X ptr input) (i : Nat) (ivs : List Interval) (he : G.find r = some (.cls i ivs)) (p : Bool)
    (st : PState StrStream Val) (hst : OkSt (StrStream.At ptr input) st) :
    StepsFail ext fs p r st ↔ ∀ c s', st.cur.rest = c :: s' → ¬ ∃ iv ∈ ivs, iv.lo.val ≤ c.val ∧ c.val ≤ iv.hi.val := by
  rw [C08_failure d he p st hst]
  constructor
  · rintro ⟨L, h⟩ c s' hc
    rw [hc] at h
    cases h with
    | cls_fail h => exact h
  · intro h
    cases hr : st.cur.rest with
    | nil => exact ⟨_, .cls_eof⟩
    | cons c cs => exact ⟨_, .cls_fail (h c cs hr)⟩

/-- C28: and then nothing is read: the cursor of the failed state is where it was. -/
theorem C28_unread (d : Deployed G T fs ext X ptr input) (i : Nat) (ivs : List Interval) (he : G.find r = some (.cls i ivs)) (p : Bool)
    (st st' : PState StrStream Val) (hs : Steps ext fs p r st st') (hf : st'.failed = true) : st'.cur = st.cur := by
  obtain ⟨n, hn⟩ := hs
  rw [program_correct StrStream.ops ext G T fs d.gen.compiled d.gen.scopes d.gen.coherent] at hn
  have key : ∀ n p, (run StrStream.ops (runProg StrStream.ops ext G T n) T n p (.cls i ivs) st >>= finish) = .ok st' →
      st'.cur = st.cur := by
    intro n p h
    obtain ⟨⟨r, st1⟩, h1, h2⟩ := Res.bind_eq_ok h
    simp only [run] at h1
    obtain ⟨m, hm, h1⟩ := Res.bind_eq_ok h1
    obtain ⟨⟨c, st2⟩, hnx, h1⟩ := Res.bind_eq_ok h1
    simp only at h1
    split at h1
    · cases h1
      cases h2
      cases hf
    · obtain ⟨st3, h3, h1⟩ := Res.bind_eq_ok h1
      obtain ⟨st4, h4, h1⟩ := Res.bind_eq_ok h1
      cases h1
      cases h2
      obtain ⟨_, _, h3⟩ := Res.bind_eq_ok h3
      cases h3
      obtain ⟨_, _, hm⟩ := Res.bind_eq_ok hm
      cases hm
      obtain ⟨o, _, h4⟩ := Res.bind_eq_ok h4
      cases o <;> cases h4 <;> rfl
  cases n with
  | zero => cases hn
  | succ n =>
    simp only [runProg, he] at hn
    split at hn
    · cases n with
      | zero => cases hn
      | succ n =>
        simp only [runProg, he, Bool.false_and, Bool.false_eq_true, if_false] at hn
        exact key _ _ hn
    · exact key _ _ hn

/-- Overlapping and reversed intervals. -/
example (c : Char) : InClass [⟨'a', 'm'⟩, ⟨'k', 'z'⟩, ⟨'9', '0'⟩] c ↔ InClass [⟨'a', 'z'⟩] c := by
  simp only [InClass, List.mem_cons, List.not_mem_nil, or_false, exists_eq_or_imp, exists_eq_left, Char.le_def]
  constructor
  · rintro (⟨h1, h2⟩ | ⟨h1, h2⟩ | ⟨h1, h2⟩)
    · exact ⟨h1, UInt32.le_trans h2 (by decide)⟩
    · exact ⟨UInt32.le_trans (by decide) h1, h2⟩
    · exact absurd (UInt32.le_trans h1 h2) (by decide)
  · rintro ⟨h1, h2⟩
    rcases UInt32.le_total c.val ('m').val with h | h
    · exact .inl ⟨h1, h⟩
    · exact .inr (.inl ⟨UInt32.le_trans (by decide) h, h2⟩)

example : StepsTo noFns Sample.digitsFs true "digits" 0 "42".toList (start 0 "42".toList) [] :=
  ⟨_, ⟨20, rfl⟩, rfl, ⟨rfl, rfl, ⟨"42".toList, [], rfl, rfl⟩⟩, rfl⟩

end
end Oak
