import Verif.Spec.Macro
import Verif.Proofs.PipelineFuel
import Verif.Properties.Typing
import Verif.Properties.Codegen
import Verif.Properties.WellFormed
/-!
The macro `oak!` from the tokens to the generated functions.
-/
set_option linter.constructorNameAsVariable false
set_option autoImplicit false

namespace Oak
open Spec Syntax

/-! ### Tools -/

theorem typeInference_value {A : AGrammar} {k m n : Nat} (H : A.Ready k) {T : Nat → Ty} {us : List TMsg} (h : typeInference A k m n = .ok (.value T, us))
    (rank : String → Nat) : ∃ m, k + 2 ≤ m ∧ Typing.Accepted A k m (Typing.Strict A.grammar rank) T := by
  have h1 : typeInference A k (max m (k + 2)) (max n (A.grammar.rules.length + 1)) = .ok (.value T, us) := by
    rcases Typing.typeInference_mono (A := A) (k := k) (Nat.le_max_left m (k + 2)) (Nat.le_max_left n (A.grammar.rules.length + 1)) with h2 | h2 <;> rw [h] at h2
    · cases h2
    · exact h2.symm
  have h2 := Typing.typeInference_post H (Nat.le_max_right m (k + 2)) (Nat.le_max_right n (A.grammar.rules.length + 1)) rank
  rw [h1] at h2
  exact ⟨_, Nat.le_max_right m (k + 2), h2.1 T rfl⟩

/-- What the types of a grammar accepted by the typing phase are good for. -/
theorem typed_sized {A : AGrammar} {k m n : Nat} (H : Prepared A k) (hr : A.Regular) {T : Nat → Ty} {us : List TMsg}
    (h : typeInference A k m n = .ok (.value T, us)) : A.grammar.sized T = true ∧ A.grammar.coherent T = true := by
  obtain ⟨⟨rank, hrank⟩, hmix⟩ := hr
  obtain ⟨m, _, h1⟩ := typeInference_value H.ready h rank
  exact Typing.accepted_sized H.ready h1 hrank hmix H.plain

theorem Analysed.prepared {ts : List Tok} {A : AGrammar} {k : Nat} (h : Analysed ts A k) : Prepared A k := by
  obtain ⟨n, F, B, ms, h1, h2, rfl⟩ := h
  exact prepared_stream (Oak.prepared h1 h2).1

/-- The steps of an expansion that gives code. -/
theorem oak_code {n : Nat} {ts : List Tok} {ms : List Msg} {us : List TMsg} {A : AGrammar} {T : Nat → Ty} {fs : List (FnRef × Fn)}
    (h : oak n ts = .ok (.code ms us A T fs)) : ∃ F k B, parseBlocks n 0 ts = .ok (F, k) ∧ analysisPhase n n F = .ok (.value B, ms) ∧ A = extractStream B ∧
    typeInference A k n n = .ok (.value T, us) ∧ compileGrammar T A.grammar.rules = .ok fs := by
  unfold oak at h
  split at h
  · rename_i F k hp
    unfold checkAndCompile at h
    obtain ⟨⟨p, ms'⟩, h1, h2⟩ := Res.bind_eq_ok h
    dsimp only at h2
    split at h2
    · rename_i B
      unfold typeAndCompile at h2
      obtain ⟨⟨q, us'⟩, h3, h4⟩ := Res.bind_eq_ok h2
      dsimp only at h4
      split at h4
      · split at h4
        · rename_i hc
          cases h4
          exact ⟨F, k, B, hp, h1, rfl, h3, hc⟩
        · cases h4
      · cases h4
    · cases h2
  · cases h
  · cases h
  · cases h

/-! ### C47 -/

/-- C47: on every list of tokens the macro stops, with the same outcome whatever the (large) bounds of the model: it reports an error, generates code, or
panics. -/
theorem C47_terminates (ts : List Tok) : (∃ x, Expands ts (.ok x)) ∨ Expands ts .panic := by
  rcases Classical.em (∃ F, Blocks ts F) with ⟨F, hF⟩ | hF
  · obtain ⟨N1, F', k, _, h1⟩ := blocks_complete hF 0
    have hb : F'.Built := C46_built (parseGrammar_ok.2 ⟨k, h1 N1 (Nat.le_refl _)⟩)
    obtain ⟨N2, ⟨p, ms⟩, h2⟩ := C43_terminates hb
    have hstep : ∀ n, N1 ≤ n → N2 ≤ n → oak n ts = checkAndCompile n k F' := by
      intro n hn1 hn2
      unfold oak
      rw [h1 n hn1]
    cases p with
    | fake A => exact .inl ⟨.analysisError ms, max N1 N2, fun n hn => by rw [hstep n (by omega) (by omega), checkAndCompile, h2 n n (by omega) (by omega)]; rfl⟩
    | nothing => exact .inl ⟨.analysisError ms, max N1 N2, fun n hn => by rw [hstep n (by omega) (by omega), checkAndCompile, h2 n n (by omega) (by omega)]; rfl⟩
    | value A =>
      have H : Prepared (extractStream A) k := prepared_stream (prepared (h1 N1 (Nat.le_refl _)) (h2 N2 N2 (Nat.le_refl _) (Nat.le_refl _))).1
      have hn3 : ∀ n, max (max N1 N2) (k + 2 + (extractStream A).grammar.rules.length) ≤ n → k + 2 ≤ n ∧ (extractStream A).grammar.rules.length < n :=
        fun n hn => by omega
      rcases C32_terminates H.ready with ⟨⟨q, us⟩, h3⟩ | h3
      · cases q with
        | fake T =>
          refine .inl ⟨.typingError ms us, max (max N1 N2) (k + 2 + (extractStream A).grammar.rules.length), fun n hn => ?_⟩
          rw [hstep n (by omega) (by omega), checkAndCompile, h2 n n (by omega) (by omega), Res.bind_ok]
          dsimp only
          unfold typeAndCompile
          rw [h3 n n (hn3 n hn).1 (hn3 n hn).2]; rfl
        | nothing =>
          refine .inl ⟨.typingError ms us, max (max N1 N2) (k + 2 + (extractStream A).grammar.rules.length), fun n hn => ?_⟩
          rw [hstep n (by omega) (by omega), checkAndCompile, h2 n n (by omega) (by omega), Res.bind_ok]
          dsimp only
          unfold typeAndCompile
          rw [h3 n n (hn3 n hn).1 (hn3 n hn).2]; rfl
        | value T =>
          cases hc : compileGrammar T (extractStream A).grammar.rules with
          | ok fs =>
            refine .inl ⟨.code ms us (extractStream A) T fs, max (max N1 N2) (k + 2 + (extractStream A).grammar.rules.length), fun n hn => ?_⟩
            rw [hstep n (by omega) (by omega), checkAndCompile, h2 n n (by omega) (by omega), Res.bind_ok]
            dsimp only
            unfold typeAndCompile
            rw [h3 n n (hn3 n hn).1 (hn3 n hn).2, Res.bind_ok]
            dsimp only
            rw [hc]
          | error s =>
            refine .inr ⟨max (max N1 N2) (k + 2 + (extractStream A).grammar.rules.length), fun n hn => ?_⟩
            rw [hstep n (by omega) (by omega), checkAndCompile, h2 n n (by omega) (by omega), Res.bind_ok]
            dsimp only
            unfold typeAndCompile
            rw [h3 n n (hn3 n hn).1 (hn3 n hn).2, Res.bind_ok]
            dsimp only
            rw [hc]
      · refine .inr ⟨max (max N1 N2) (k + 2 + (extractStream A).grammar.rules.length), fun n hn => ?_⟩
        rw [hstep n (by omega) (by omega), checkAndCompile, h2 n n (by omega) (by omega), Res.bind_ok]
        dsimp only
        unfold typeAndCompile
        rw [h3 n n (hn3 n hn).1 (hn3 n hn).2]; rfl
  · refine .inl ⟨.syntaxError, 10 * sizeOf ts + 10, fun n hn => ?_⟩
    have := (C39_rejects ts n hn).2 hF
    unfold parseGrammar at this
    unfold oak
    cases hp : parseBlocks n 0 ts with
    | ok x => rw [hp] at this; cases this
    | stuck => rfl
    | panic => rw [hp] at this; cases this
    | timeout => rw [hp] at this; cases this

/-- C47: larger bounds never change the outcome. -/
theorem C47_bounds {n n' : Nat} (hn : n ≤ n') {ts : List Tok} {x : Res Expansion} (h : oak n ts = x) (hx : x ≠ .timeout) : oak n' ts = x := by
  rcases oak_mono hn ts with h1 | h1
  · exact absurd (h.symm.trans h1) hx
  · rw [← h1, h]

/-- C47: the macro reports a syntax error exactly on the lists of tokens that are not a grammar. -/
theorem C47_syntax (ts : List Tok) : Expands ts (.ok .syntaxError) ↔ ¬ ∃ F, Blocks ts F := by
  constructor
  · rintro ⟨N, h⟩ ⟨F, hF⟩
    obtain ⟨N1, F', k, _, h1⟩ := blocks_complete hF 0
    have h := h (max N N1) (by omega)
    unfold oak at h
    rw [h1 (max N N1) (by omega)] at h
    dsimp only at h
    unfold checkAndCompile at h
    obtain ⟨⟨p, ms⟩, h2, h3⟩ := Res.bind_eq_ok h
    cases p with
    | value A =>
      dsimp only at h3
      unfold typeAndCompile at h3
      obtain ⟨⟨q, us⟩, h4, h5⟩ := Res.bind_eq_ok h3
      dsimp only at h5
      split at h5
      · split at h5 <;> cases h5
      · cases h5
    | fake A => cases h3
    | nothing => cases h3
  · intro hF
    refine ⟨10 * sizeOf ts + 10, fun n hn => ?_⟩
    have := (C39_rejects ts n hn).2 hF
    unfold parseGrammar at this
    unfold oak
    cases hp : parseBlocks n 0 ts with
    | ok x => rw [hp] at this; cases this
    | stuck => rfl
    | panic => rw [hp] at this; cases this
    | timeout => rw [hp] at this; cases this

/-- C47: every abort is preceded by an error message of the phase that aborts, and code is generated only if no error was reported, but those of semantic
actions of type `()`. -/
theorem C47_messages {n : Nat} {ts : List Tok} {x : Expansion} (h : oak n ts = .ok x) :
    (∀ ms, x = .analysisError ms → ∃ msg ∈ ms, msg.isError = true) ∧
    (∀ ms us, x = .typingError ms us → (∀ msg ∈ ms, msg.isError = false) ∧ ∃ u ∈ us, u.blocking = true) ∧
    (∀ ms us A T fs, x = .code ms us A T fs → (∀ msg ∈ ms, msg.isError = false) ∧ ∀ u ∈ us, u.blocking = false) := by
  have hana : ∀ {F : FGrammar} {p : Partial AGrammar} {ms : List Msg}, analysisPhase n n F = .ok (p, ms) → (∀ A, p ≠ .value A) → ∃ msg ∈ ms, msg.isError = true := by
    intro F p ms hp hne
    refine Classical.byContradiction fun hc => ?_
    obtain ⟨A, hA⟩ := (C43_error_iff hp).2 fun msg hm => by
      cases hb : msg.isError with
      | false => rfl
      | true => exact absurd ⟨msg, hm, hb⟩ hc
    exact hne A hA
  unfold oak at h
  split at h
  · rename_i F k hp
    unfold checkAndCompile at h
    obtain ⟨⟨p, ms⟩, h1, h2⟩ := Res.bind_eq_ok h
    cases p with
    | fake A =>
      cases h2
      refine ⟨?_, ?_, ?_⟩
      · rintro _ ⟨rfl⟩; exact hana h1 (by simp)
      · intro ms us hx; cases hx
      · intro ms us A T fs hx; cases hx
    | nothing =>
      cases h2
      refine ⟨?_, ?_, ?_⟩
      · rintro _ ⟨rfl⟩; exact hana h1 (by simp)
      · intro ms us hx; cases hx
      · intro ms us A T fs hx; cases hx
    | value A =>
      have hms := (C43_error_iff h1).1 ⟨A, rfl⟩
      dsimp only at h2
      unfold typeAndCompile at h2
      obtain ⟨⟨q, us⟩, h4, h5⟩ := Res.bind_eq_ok h2
      obtain ⟨hq, hiff⟩ := Typing.typeInference_honest h4
      rcases hq with ⟨T, rfl⟩ | rfl
      · dsimp only at h5
        split at h5
        · cases h5
          refine ⟨?_, ?_, ?_⟩
          · intro ms hx; cases hx
          · intro ms us hx; cases hx
          · rintro _ _ _ _ _ ⟨rfl, rfl⟩; exact ⟨hms, hiff.1 ⟨T, rfl⟩⟩
        · cases h5
      · cases h5
        refine ⟨?_, ?_, ?_⟩
        · intro ms hx; cases hx
        · rintro _ _ ⟨rfl, rfl⟩
          refine ⟨hms, Classical.byContradiction fun hc => ?_⟩
          obtain ⟨T, hT⟩ := hiff.2 fun u hu => by
            cases hb : u.blocking with
            | false => rfl
            | true => exact absurd ⟨u, hu, hb⟩ hc
          cases hT
        · intro ms us A T fs hx; cases hx
  · cases h
    refine ⟨?_, ?_, ?_⟩
    · intro ms hx; cases hx
    · intro ms us hx; cases hx
    · intro ms us A T fs hx; cases hx
  · cases h
  · cases h

/-- C47: the macro does not panic (but to abort after an error) when the grammar is regular. -/
theorem C47_no_panic {ts : List Tok} (hr : ∀ A k, Analysed ts A k → A.Regular) : ∃ x, Expands ts (.ok x) := by
  rcases C47_terminates ts with h | ⟨N, h⟩
  · exact h
  · exfalso
    rcases Classical.em (∃ F, Blocks ts F) with ⟨F, hF⟩ | hF
    · obtain ⟨N1, F', k, _, h1⟩ := blocks_complete hF 0
      have hb : F'.Built := C46_built (parseGrammar_ok.2 ⟨k, h1 N1 (Nat.le_refl _)⟩)
      obtain ⟨N2, ⟨p, ms⟩, h2⟩ := C43_terminates hb
      cases p with
      | value A =>
        let n := max (max N1 N2) (max N (k + 2 + (extractStream A).grammar.rules.length))
        have hA : Analysed ts (extractStream A) k := ⟨n, F', A, ms, h1 n (by omega), h2 n n (by omega) (by omega), rfl⟩
        have H := hA.prepared
        have hreg := hr _ _ hA
        have h0 := h n (by omega)
        unfold oak at h0
        rw [h1 n (by omega)] at h0
        dsimp only at h0
        unfold checkAndCompile at h0
        rw [h2 n n (by omega) (by omega), Res.bind_ok] at h0
        dsimp only at h0
        unfold typeAndCompile at h0
        obtain ⟨x, h3⟩ := C32_no_panic H.ready (by obtain ⟨rank, hk⟩ := hreg.rec_; exact ⟨rank, fun r b s hb hs => .inr (hk r b s hb hs)⟩)
        obtain ⟨q, us⟩ := x
        have h3 := h3 n n (by omega) (by omega)
        rw [h3, Res.bind_ok] at h0
        dsimp only at h0
        split at h0
        · obtain ⟨fs, hc⟩ := C34_no_panic H.shaped (typed_sized H hreg h3).1
          rw [hc] at h0; cases h0
        · cases h0
      | fake A =>
        have h0 := h (max N (max N1 N2)) (by omega)
        unfold oak at h0
        rw [h1 (max N (max N1 N2)) (by omega)] at h0
        dsimp only at h0
        unfold checkAndCompile at h0
        rw [h2 _ _ (by omega) (by omega)] at h0
        cases h0
      | nothing =>
        have h0 := h (max N (max N1 N2)) (by omega)
        unfold oak at h0
        rw [h1 (max N (max N1 N2)) (by omega)] at h0
        dsimp only at h0
        unfold checkAndCompile at h0
        rw [h2 _ _ (by omega) (by omega)] at h0
        cases h0
    · obtain ⟨N', h'⟩ := (C47_syntax ts).2 hF
      have h0 := h (max N N') (by omega)
      rw [h' (max N N') (by omega)] at h0
      cases h0

section
variable {n : Nat} {ts : List Tok} {ms : List Msg} {us : List TMsg} {A : AGrammar} {T : Nat → Ty} {fs : List (FnRef × Fn)}

/-- C47: the compiled grammar is the one that is written: same rules in the same order. Calls are resolved; the grammar is well formed. -/
theorem C47_faithful (h : oak n ts = .ok (.code ms us A T fs)) : ∃ F, Blocks ts F ∧ A.grammar.rules.map (fun r => (r.1, r.2.written.bare)) = F.rules ∧
    F.rules ≠ [] ∧ (F.rules.map (·.1)).Nodup ∧ A.grammar.resolved = true ∧ Accepted A.grammar := by
  obtain ⟨F, k, B, h1, h2, rfl, _, _⟩ := oak_code h
  have hg : parseGrammar n ts = .ok F := parseGrammar_ok.2 ⟨k, h1⟩
  have e := (C44_stream B).2.2.2.1
  obtain ⟨c1, c2, c3, c4, c5, _⟩ := C43_accepted (C46_built hg) h2
  rw [e]
  refine ⟨F.bare, (C39_reads ts F.bare).1 ⟨n, F, hg, rfl⟩, ?_, ?_, ?_, c4, c5⟩
  · conv => rhs; rw [FGrammar.bare]
    dsimp only
    rw [← c3, List.map_map]; rfl
  · simpa [FGrammar.bare] using c1
  · have : F.bare.rules.map (·.1) = F.rules.map (·.1) := by simp [FGrammar.bare, Function.comp_def]
    rw [this]; exact c2

/-- C47: the code generated for a regular grammar is correct, provided that it passes the scope checks of rustc (see C30). -/
theorem C47_generated (h : oak n ts = .ok (.code ms us A T fs)) (hr : A.Regular) (hs : A.grammar.scopable T = true) : Generated A.grammar T fs := by
  obtain ⟨F, k, B, h1, h2, rfl, h3, h4⟩ := oak_code h
  have H : Prepared (extractStream B) k := prepared_stream (prepared h1 h2).1
  obtain ⟨hsz, hco⟩ := typed_sized H hr h3
  exact ⟨h4, C30_scopes_partial h4 hsz hs, hco, H.resolved⟩

/-- From correct code to the results of the parsers. -/
theorem generated_end_to_end (h : oak n ts = .ok (.code ms us A T fs)) (hg : Generated A.grammar T fs)
    {ext : Nat → FnRef → PState StrStream Val → Res (PState StrStream Val)} {X : ExtSpec} {ptr : Nat} {input : List Char}
    (hext : ExtOk (StrStream.At ptr input) StrStream.rest ext A.grammar X) (hfwd : X.Forward) (hcon : ExtSpec.Consuming X) (htot : ExtSpec.TotalOn X A.grammar)
    {F : FGrammar} (hF : Blocks ts F) {r : String} (hrule : r ∈ F.rules.map (·.1)) (p : Bool) :
    ∃ e, A.grammar.find r = some e ∧ (r, e.written.bare) ∈ F.rules ∧ (∃ res, Returns ext fs p r ptr input res) ∧
    ∀ res, Returns ext fs p r ptr input res ↔ ∃ o L, Peg A.grammar X e input o L ∧ res = expectedResult A.grammar T e p ptr input L o := by
  obtain ⟨F', hF', hmap, _, hnd, hres, hacc⟩ := C47_faithful h
  obtain rfl : F' = F := C39_unambiguous hF' hF
  have d : Deployed A.grammar T fs ext X ptr input := ⟨hg, hext, hfwd⟩
  have hmem : r ∈ A.grammar.rules.map (·.1) := by
    rw [← hmap, List.map_map] at hrule; exact hrule
  obtain ⟨e, he⟩ := Option.isSome_iff_exists.1 (find_isSome_iff.2 hmem)
  refine ⟨e, he, ?_, ?_, fun res => d.returns_iff he p res⟩
  · rw [← hmap]; exact List.mem_map.2 ⟨_, grammar_find_mem he, rfl⟩
  · obtain ⟨res, n0, h0⟩ := C13_terminates d hacc hcon htot he p
    exact ⟨res, n0, h0 n0 (Nat.le_refl _)⟩

/-- C47: from the tokens of the grammar to the results of the parsers: on every text, the function generated for a rule returns, and returns what the grammar
as it is written says. -/
theorem C47_end_to_end (h : oak n ts = .ok (.code ms us A T fs)) (hr : A.Regular) (hs : A.grammar.scopable T = true)
    {ext : Nat → FnRef → PState StrStream Val → Res (PState StrStream Val)} {X : ExtSpec} {ptr : Nat} {input : List Char}
    (hext : ExtOk (StrStream.At ptr input) StrStream.rest ext A.grammar X) (hfwd : X.Forward) (hcon : ExtSpec.Consuming X) (htot : ExtSpec.TotalOn X A.grammar)
    {F : FGrammar} (hF : Blocks ts F) {r : String} (hrule : r ∈ F.rules.map (·.1)) (p : Bool) :
    ∃ e, A.grammar.find r = some e ∧ (r, e.written.bare) ∈ F.rules ∧ (∃ res, Returns ext fs p r ptr input res) ∧
    ∀ res, Returns ext fs p r ptr input res ↔ ∃ o L, Peg A.grammar X e input o L ∧ res = expectedResult A.grammar T e p ptr input L o :=
  generated_end_to_end h (C47_generated h hr hs) hext hfwd hcon htot hF hrule p

end

/-! ### Cases that meet the hypotheses -/

namespace Sample

/-- The tokens of `#![show_typing] sum = term ("+" term)* > add  term: u32 = num / "(" sum ")" > id  num = ["0-9"]+ > to_num` and two functions. -/
def arithTokens : List Tok :=
  [.attr ["show_typing"], .path ["sum"], .punct '=' false, .path ["term"], .paren [.lit "+", .path ["term"]], .punct '*' false, .punct '>' false, .path ["add"],
   .path ["term"], .punct ':' false, .path ["u32"], .punct '=' false, .path ["num"], .punct '/' false, .lit "(", .path ["sum"], .lit ")", .punct '>' false,
   .path ["id"], .path ["num"], .punct '=' false, .bracket [.lit "0-9"], .punct '+' false, .punct '>' false, .path ["to_num"],
   .item (.fn ⟨"add", .ty "u32"⟩), .item (.fn ⟨"to_num", .ty "u32"⟩)]

/-- The grammar given to the typing phase. -/
def arith : AGrammar := ⟨⟨[
    ("sum", .act 6 (.seq 5 [.nt 0 "term", .star 4 (.seq 3 [.str 1 "+", .nt 2 "term"])]) false ["add"]),
    ("term", .asc 14 (.choice 13 [.nt 7 "num", .act 12 (.seq 11 [.str 8 "(", .nt 9 "sum", .str 10 ")"]) false ["id"]]) (.regular (.rust "u32"))),
    ("num", .act 17 (.plus 16 (.cls 15 [⟨'0', '9'⟩])) false ["to_num"])]⟩,
  [("add", ⟨"add", .ty "u32"⟩), ("to_num", ⟨"to_num", .ty "u32"⟩)], [.alias "Stream" "StrStream"], "StrStream", .show⟩

/-- The inferred types. -/
def arithT : Nat → Ty := fun i =>
  ([.rust "u32", .unit, .rust "u32", .rust "u32", .list 3, .tuple [0, 4], .rust "u32", .rust "u32", .unit, .rust "u32", .unit, .rust "u32", .rust "u32",
    .rust "u32", .rust "u32", .atom, .list 15, .rust "u32", .rust "<Range<Stream> as StreamSpan>::Output"] : List Ty)[i]?.getD .unit

theorem arith_regular : arith.Regular :=
  ⟨Typing.noSeenRec_of (fun r => if r = "sum" then 2 else if r = "term" then 1 else 0) (by decide +kernel), Typing.unmixed_of (by decide +kernel)⟩

theorem arith_expands : ∃ fs, oak 100 arithTokens = .ok (.code [] [] arith arithT fs) := ⟨_, rfl⟩

/-- The generated code is correct. -/
example : ∃ fs, oak 100 arithTokens = .ok (.code [] [] arith arithT fs) ∧ Generated arith.grammar arithT fs := by
  obtain ⟨fs, h⟩ := arith_expands
  exact ⟨fs, h, C47_generated h arith_regular (by decide +kernel)⟩

/-- The parser of `sum` returns on every text. -/
example (ptr : Nat) (input : List Char) : ∃ fs, oak 100 arithTokens = .ok (.code [] [] arith arithT fs) ∧ ∃ res, Returns noFns fs true "sum" ptr input res := by
  obtain ⟨fs, h⟩ := arith_expands
  obtain ⟨F, hF, hmap, _⟩ := C47_faithful h
  obtain ⟨_, _, _, h1, _⟩ := C47_end_to_end h arith_regular (by decide +kernel) (ext := noFns) (X := noExt) (ptr := ptr) (input := input)
    ⟨fun _ _ _ _ _ _ => .inl rfl, fun _ _ _ _ _ _ h => h.elim, fun _ _ _ _ _ _ h => h.elim⟩ (fun _ _ _ _ h => h.elim) (fun _ _ _ _ _ h => h.elim)
    (fun i p h => (no_ext_of (by decide +kernel) i p h).elim) hF (r := "sum") (by rw [← hmap]; decide +kernel) true
  exact ⟨fs, h, h1⟩

/-- The tokens of `r = . . / a`. -/
def mixedTokens : List Tok := [.path ["r"], .punct '=' false, .punct '.' false, .punct '.' false, .punct '/' false, .path ["a"]]

end Sample

/-- C47: the condition is needed: the macro panics on `r = . . / a`, without any error message. -/
theorem C47_regular_needed : Expands Sample.mixedTokens .panic :=
  ⟨100, fun n hn => C47_bounds hn (show oak 100 Sample.mixedTokens = .panic from rfl) (by simp)⟩

/-- The tokens of `r = "(" r r ")" / .`. -/
def Sample.twiceTokens : List Tok := [.path ["r"], .punct '=' false, .lit "(", .path ["r"], .path ["r"], .lit ")", .punct '/' false, .punct '.' false]

/-- C47: the other condition is needed: the macro panics on `r = "(" r r ")" / .`, a grammar that the well-formedness analysis accepts, without any error message. -/
theorem C47_recursion_needed : Expands Sample.twiceTokens .panic :=
  ⟨100, fun n hn => C47_bounds hn (show oak 100 Sample.twiceTokens = .panic from rfl) (by simp)⟩

end Oak
