import Verif.Properties.Reports
import Verif.Properties.Runtime
import Verif.Spec.Message
/-!
C62: the texts printed for the results of generated functions.
-/
set_option linter.constructorNameAsVariable false
set_option autoImplicit false

namespace Oak
open Spec

variable {G : Grammar} {T : Nat → Ty} {fs : List (FnRef × Fn)} {ext : Nat → FnRef → PState StrStream Val → Res (PState StrStream Val)}
  {X : ExtSpec} {ptr : Nat} {input : List Char} {r : String} {e : Expr} {p : Bool}

theorem codeSnippet_shows (ptr : Nat) (read rest : List Char) :
    (∃ shown, Shows rest shown ∧ StrStream.codeSnippet ⟨ptr, read ++ rest, blen read⟩ 10 = .ok (String.ofList shown)) ∨
    ((¬ ∃ shown, Shows rest shown) ∧ StrStream.codeSnippet ⟨ptr, read ++ rest, blen read⟩ 10 = .panic) := by
  by_cases hne : rest = []
  · subst hne
    refine .inl ⟨_, .inl ⟨rfl, rfl⟩, ?_⟩
    rw [List.append_nil, C06_end]
    rfl
  · rcases (C06_exact ptr read rest hne 10 _).1 rfl with ⟨a, b, hab, hl, h⟩ | ⟨hno, h⟩
    · exact .inl ⟨a, .inr ⟨hne, ⟨b, hab.symm⟩, hl⟩, h⟩
    · refine .inr ⟨?_, h⟩
      rintro ⟨a, ⟨h0, _⟩ | ⟨_, ⟨b, hb⟩, hl⟩⟩
      · exact hne h0
      · exact hno ⟨a, b, hb.symm, hl⟩

theorem Shows.unique {rest a b : List Char} (ha : Shows rest a) (hb : Shows rest b) : a = b := by
  rcases ha with ⟨h0, rfl⟩ | ⟨h0, ⟨u, hu⟩, hl⟩
  · rcases hb with ⟨_, rfl⟩ | ⟨h1, _⟩
    · rfl
    · exact absurd h0 h1
  · rcases hb with ⟨h1, _⟩ | ⟨_, ⟨v, hv⟩, hl'⟩
    · exact absurd h1 h0
    · have h1 := takeBytes_append a u
      have h2 := takeBytes_append b v
      rw [hu, hl] at h1
      rw [hv, hl'] at h2
      rw [h1] at h2
      exact Option.some.inj h2

theorem debugExpectation_shows {read rest : List Char} (hcr : NoEndingCR read rest) (items : List String) :
    (∃ shown, Shows rest shown ∧ debugExpectation ⟨ptr, read ++ rest, blen read⟩ items = .ok (complaint read shown items)) ∨
    ((¬ ∃ shown, Shows rest shown) ∧ debugExpectation ⟨ptr, read ++ rest, blen read⟩ items = .panic) := by
  have hlc := (C05_exact ptr read rest).2 hcr
  rcases codeSnippet_shows ptr read rest with ⟨sh, h1, h2⟩ | ⟨h1, h2⟩
  · refine .inl ⟨sh, h1, ?_⟩
    simp only [debugExpectation, expectedItems_eq, Res.bind_ok, h2, StrStream.location, hlc, complaint]
  · refine .inr ⟨h1, ?_⟩
    simp only [debugExpectation, expectedItems_eq, Res.bind_ok, h2]
    rfl

theorem printed_aux (d : Deployed G T fs ext X ptr input) (he : G.find r = some e) {res : PResult StrStream Val}
    (hres : Returns ext fs p r ptr input res) (dbg : Val → String) (order : List String → List String)
    (horder : ∀ l, Enumerates (order l) l) :
    ∃ o L read items, Peg G X e input o L ∧ input = read ++ farthest input L ∧ res = expectedResult G T e p ptr input L o ∧ Enumerates items (expectedAt (farthest input L) L) ∧
      (NoEndingCR read (farthest input L) →
        (∀ msg, debugResult dbg order res = .ok msg ↔
          Prints (fun t => dbg (tupleVal (if p then ast G T (strSpans input) e t else []))) read (farthest input L) items o msg) ∧
        (debugResult dbg order res = .panic ↔
          ¬ ∃ msg, Prints (fun t => dbg (tupleVal (if p then ast G T (strSpans input) e t else []))) read (farthest input L) items o msg)) := by
  obtain ⟨o, L, hp, rfl⟩ := (d.returns_iff he p res).1 hres
  have hf : farthest input L <:+ input := by
    have := (track_eq input [] L input List.suffix_rfl ((hp.forward d.fwd).2)).2
    simpa using this
  obtain ⟨q, hq⟩ := hf
  refine ⟨o, L, q, order (expectedAt (farthest input L) L), hp, hq.symm, rfl, horder _, fun hcr => ?_⟩
  have hs : streamAt ptr input (farthest input L) = ⟨ptr, q ++ farthest input L, blen q⟩ := by
    unfold streamAt
    rw [hq]
    congr 1
    conv => lhs; arg 1; rw [← hq]
    rw [blen_append]; omega
  cases o with
  | fail =>
    simp only [expectedResult, debugResult, Prints, hs]
    rcases debugExpectation_shows (ptr := ptr) hcr (order (expectedAt (farthest input L) L)) with ⟨sh, h1, h2⟩ | ⟨h1, h2⟩
    · rw [h2]
      simp only [Res.bind_ok]
      constructor
      · intro msg
        constructor
        · intro h; cases h; exact ⟨sh, h1, rfl⟩
        · rintro ⟨sh', h3, rfl⟩; rw [Shows.unique h1 h3]
      · constructor
        · intro h; cases h
        · intro h; exact absurd ⟨_, sh, h1, rfl⟩ h
    · rw [h2]
      constructor
      · intro msg
        constructor
        · intro h; cases h
        · rintro ⟨sh, h3, _⟩; exact absurd ⟨sh, h3⟩ h1
      · constructor
        · rintro _ ⟨_, sh, h3, _⟩; exact h1 ⟨sh, h3⟩
        · intro _; rfl
  | ok s t =>
    cases s with
    | nil =>
      simp only [expectedResult, debugResult, Prints, if_true]
      constructor
      · intro msg
        constructor
        · intro h; cases h; rfl
        · intro h; rw [h]
      · constructor
        · intro h; cases h
        · intro h; exact absurd ⟨_, rfl⟩ h
    | cons c s =>
      simp only [expectedResult, if_neg (List.cons_ne_nil c s), debugResult, Prints, hs]
      rcases debugExpectation_shows (ptr := ptr) hcr (order (expectedAt (farthest input L) L)) with ⟨sh, h1, h2⟩ | ⟨h1, h2⟩
      · rw [h2]
        simp only [Res.bind_ok]
        constructor
        · intro msg
          constructor
          · intro h; cases h; exact ⟨sh, h1, rfl⟩
          · rintro ⟨sh', h3, rfl⟩; rw [Shows.unique h1 h3]
        · constructor
          · intro h; cases h
          · intro h; exact absurd ⟨_, sh, h1, rfl⟩ h
      · rw [h2]
        constructor
        · intro msg
          constructor
          · intro h; cases h
          · rintro ⟨sh, h3, _⟩; exact absurd ⟨sh, h3⟩ h1
        · constructor
          · rintro _ ⟨_, sh, h3, _⟩; exact h1 ⟨sh, h3⟩
          · intro _; rfl

/-- C62: the text printed for the result of `parse_r` or `recognize_r`. -/
theorem C62_printed (d : Deployed G T fs ext X ptr input) (he : G.find r = some e) {res : PResult StrStream Val}
    (hres : Returns ext fs p r ptr input res) (dbg : Val → String) (order : List String → List String)
    (horder : ∀ l, Enumerates (order l) l) :
    ∃ o L read items, Peg G X e input o L ∧ input = read ++ farthest input L ∧ Enumerates items (expectedAt (farthest input L) L) ∧
      (NoEndingCR read (farthest input L) →
        (∀ msg, debugResult dbg order res = .ok msg ↔
          Prints (fun t => dbg (tupleVal (if p then ast G T (strSpans input) e t else []))) read (farthest input L) items o msg) ∧
        (debugResult dbg order res = .panic ↔
          ¬ ∃ msg, Prints (fun t => dbg (tupleVal (if p then ast G T (strSpans input) e t else []))) read (farthest input L) items o msg)) := by
  obtain ⟨o, L, read, items, h1, h2, _, h3⟩ := printed_aux d he hres dbg order horder
  exact ⟨o, L, read, items, h1, h2, h3⟩

theorem shows_ascii {rest : List Char} (h : ∀ c ∈ rest, c.utf8Size = 1) :
    Shows rest (if rest = [] then "<end-of-file>".toList else rest.take 10) := by
  by_cases hne : rest = []
  · rw [if_pos hne]; exact .inl ⟨hne, rfl⟩
  · rw [if_neg hne]
    refine .inr ⟨hne, List.take_prefix _ _, ?_⟩
    have hlen : ∀ l : List Char, (∀ c ∈ l, c.utf8Size = 1) → blen l = l.length := by
      intro l
      induction l with
      | nil => intro _; rfl
      | cons c l ih =>
        intro h
        simp only [blen, h c List.mem_cons_self, ih (fun c hc => h c (List.mem_cons_of_mem _ hc)), List.length_cons]; omega
    rw [hlen _ (fun c hc => h c (List.mem_of_mem_take hc)), hlen _ h, List.length_take]

/-- C62: on a text made of one-byte characters without carriage returns, the text printed for a failure is exactly this one: the line and the column of the
farthest position where a terminal was tried, the ten characters that follow, and the terminals tried there. -/
theorem C62_failure (d : Deployed G T fs ext X ptr input) (he : G.find r = some e) (hascii : ∀ c ∈ input, c.utf8Size = 1 ∧ c ≠ '\r')
    {far : StrStream} {exp : List String} (hres : Returns ext fs p r ptr input (.failure far exp)) (dbg : Val → String)
    (order : List String → List String) (horder : ∀ l, Enumerates (order l) l) :
    ∃ L read rest items, Peg G X e input .fail L ∧ input = read ++ rest ∧ rest = farthest input L ∧ Enumerates items (expectedAt rest L) ∧
      debugResult dbg order (.failure far exp) =
        .ok ("Error:\n\t" ++ complaint read (if rest = [] then "<end-of-file>".toList else rest.take 10) items) := by
  obtain ⟨o, L, read, items, hp, hin, hr, hen, h⟩ := printed_aux d he hres dbg order horder
  have hcr : NoEndingCR read (farthest input L) := by
    intro q s hs
    exact absurd rfl (hascii '\r' (by rw [hin, hs]; simp)).2
  have h := (h hcr).1
  have ho : o = .fail := by
    cases o with
    | fail => rfl
    | ok s t =>
      simp only [expectedResult] at hr
      split at hr <;> cases hr
  subst ho
  refine ⟨L, read, _, items, hp, hin, rfl, hen, ?_⟩
  exact (h _).2 ⟨_, shows_ascii (fun c hc => (hascii c (by rw [hin]; simp [hc])).1), rfl⟩

/-- An enumeration of the items. -/
def Sample.dedup : List String → List String
  | [] => []
  | x :: l => if x ∈ Sample.dedup l then Sample.dedup l else x :: Sample.dedup l

theorem Sample.dedup_enumerates (l : List String) : Enumerates (Sample.dedup l) l := by
  induction l with
  | nil => exact ⟨List.nodup_nil, fun _ => Iff.rfl⟩
  | cons x l ih =>
    simp only [Sample.dedup]
    split
    · rename_i h
      refine ⟨ih.1, fun y => ?_⟩
      rw [ih.2 y, List.mem_cons]
      constructor
      · exact .inr
      · rintro (rfl | h')
        · exact (ih.2 _).1 h
        · exact h'
    · rename_i h
      exact ⟨List.nodup_cons.2 ⟨h, ih.1⟩, fun y => by rw [List.mem_cons, List.mem_cons, ih.2 y]⟩

/-- A failure of the grammar of sums, as a user sees it. -/
example : ∃ res, Returns noFns Sample.sumFs true "sum" 0 "x1".toList res ∧
    debugResult (fun _ => "") Sample.dedup res = .ok "Error:\n\t1:1: unexpected `x1`, expecting `[\"0-9\"]`." :=
  ⟨.failure ⟨0, "x1".toList, 0⟩ ["[\"0-9\"]"], ⟨20, rfl⟩, by decide +kernel⟩

example : ∃ res, Returns noFns Sample.sumFs false "sum" 0 "1+2+".toList res ∧
    debugResult (fun _ => "()") Sample.dedup res =
      .ok "Partial match, got data `()`. It stopped because:\n\t1:5: unexpected `<end-of-file>`, expecting `[\"0-9\"]`." :=
  ⟨.part (tupleVal []) ⟨0, "1+2+".toList, 4⟩ ["[\"0-9\"]"], ⟨20, rfl⟩, by decide +kernel⟩

end Oak
