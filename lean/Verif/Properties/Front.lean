import Verif.Proofs.Print
import Verif.Properties.Analysis
/-! # The front-end: C39, C45, C46 -/
set_option autoImplicit false

namespace Oak
open Syntax

theorem parseGrammar_ok {n : Nat} {ts : List Tok} {F : FGrammar} : parseGrammar n ts = .ok F ↔ ∃ k, parseBlocks n 0 ts = .ok (F, k) := by
  unfold parseGrammar
  constructor
  · intro h
    obtain ⟨⟨F', k⟩, h1, h2⟩ := Res.bind_eq_ok h
    cases h2
    exact ⟨k, h1⟩
  · rintro ⟨k, h⟩
    rw [h]; rfl

/-! ### C39 -/

/-- C39: the front-end terminates on every list of tokens, with a grammar or with an error; it does not panic. -/
theorem C39_terminates (ts : List Tok) (n : Nat) (hn : 10 * sizeOf ts + 10 ≤ n) :
    (∃ F, parseGrammar n ts = .ok F) ∨ parseGrammar n ts = .stuck := by
  unfold parseGrammar
  exact (blocks_total n 0 ts hn).bind fun _ _ => .ok _

/-- C39: a list of tokens is read as a grammar (up to the numbering of the expressions) iff the concrete syntax says so. -/
theorem C39_reads (ts : List Tok) (F : FGrammar) : (∃ n F', parseGrammar n ts = .ok F' ∧ F'.bare = F) ↔ Blocks ts F := by
  constructor
  · rintro ⟨n, F', h, rfl⟩
    obtain ⟨k, h⟩ := parseGrammar_ok.1 h
    exact blocks_sound _ _ _ _ _ h
  · intro h
    obtain ⟨N, F', k', he, h⟩ := blocks_complete h 0
    exact ⟨N, F', parseGrammar_ok.2 ⟨k', h N (Nat.le_refl _)⟩, he⟩

/-- C39: the lists of tokens that are not a grammar are rejected with an error. -/
theorem C39_rejects (ts : List Tok) (n : Nat) (hn : 10 * sizeOf ts + 10 ≤ n) : parseGrammar n ts = .stuck ↔ ¬ ∃ F, Blocks ts F := by
  rcases C39_terminates ts n hn with ⟨F, h⟩ | h
  · rw [h]
    simp only [reduceCtorEq, false_iff, Classical.not_not]
    exact ⟨F.bare, (C39_reads ts F.bare).1 ⟨n, F, h, rfl⟩⟩
  · rw [h]
    simp only [true_iff]
    rintro ⟨F, hF⟩
    obtain ⟨N, F', k', _, hN⟩ := blocks_complete hF 0
    have h1 : parseBlocks n 0 ts ≠ .timeout := by
      intro h1
      rcases blocks_total n 0 ts hn with ⟨a, h2⟩ | h2 <;> rw [h1] at h2 <;> cases h2
    have h2 := parseBlocks_mono (Nat.le_max_left n N) h1
    rw [hN _ (Nat.le_max_right n N)] at h2
    unfold parseGrammar at h
    rw [← h2] at h
    cases h

/-- C39: the concrete syntax is not ambiguous: a list of tokens is at most one grammar. -/
theorem C39_unambiguous {ts : List Tok} {F1 F2 : FGrammar} (h1 : Blocks ts F1) (h2 : Blocks ts F2) : F1 = F2 := by
  obtain ⟨N1, F1', k1, rfl, g1⟩ := blocks_complete h1 0
  obtain ⟨N2, F2', k2, rfl, g2⟩ := blocks_complete h2 0
  have g1 := g1 _ (Nat.le_max_left N1 N2)
  rw [g2 _ (Nat.le_max_right N1 N2)] at g1
  cases g1
  rfl

/-- C39: a list of tokens is at most one expression. -/
theorem C39_one_reading {ts : List Tok} {e1 e2 : Expr} (h1 : Choice ts e1) (h2 : Choice ts e2) : e1 = e2 := by
  have hend : ChoiceEnd [] := ⟨⟨⟨rfl, .inl rfl⟩, by simp⟩, by simp⟩
  obtain ⟨N1, e1', k1, rfl, g1⟩ := (complete_all h1).2 [] hend 0
  obtain ⟨N2, e2', k2, rfl, g2⟩ := (complete_all h2).2 [] hend 0
  have g1 := g1 _ (Nat.le_max_left N1 N2)
  rw [g2 _ (Nat.le_max_right N1 N2)] at g1
  cases g1
  rfl

/-- C39: reading a printed expression gives it back: the parentheses required by the precedence of the operators are sufficient. -/
theorem C39_round_trip (e : Expr) (h : e.Writable) (k : Nat) :
    ∃ N e' k', e'.bare = e.bare ∧ ∀ n, N ≤ n → parseChoice n k e.print = .ok (e', k', []) := by
  obtain ⟨N, e', k', he, h⟩ := (complete_all (print_choice e h)).2 [] ⟨⟨⟨rfl, .inl rfl⟩, by simp⟩, by simp⟩ k
  exact ⟨N, e', k', he, fun n hn => by simpa using h n hn⟩

theorem writable_all {ts : List Tok} {e : Expr} (h : Choice ts e) : e.Writable := by
  refine Choice.rec
    (motive_1 := fun ts e _ => e.Writable)
    (motive_2 := fun ts e _ => e.Writable)
    (motive_3 := fun ts e _ => e.Writable)
    (motive_4 := fun ts e b _ => e.Writable)
    (motive_5 := fun ts es _ => WritableAll es)
    (motive_6 := fun ts e _ => e.Writable)
    (motive_7 := fun ts e _ => e.Writable)
    (motive_8 := fun ts e _ => e.Writable)
    (motive_9 := fun ts es _ => WritableAll es)
    (motive_10 := fun ts e _ => e.Writable)
    ?_ ?_ ?_ ?_ ?_ ?_ ?_ ?_ ?_ ?_ ?_ ?_ ?_ ?_ ?_ ?_ ?_ ?_ ?_ ?_ ?_ ?_ ?_ ?_ ?_ ?_ ?_ ?_ h
  · intro s; trivial
  · intro j; trivial
  · intro ts e _ ih; exact ih
  · intro p; trivial
  · intro s K hK ht; exact ⟨K, hK, rfl⟩
  · intro ts e _ ih; exact ih
  · intro ts e j _ ih; exact ih
  · intro ts e j _ ih; exact ih
  · intro ts e j _ ih; exact ih
  · intro ts e _ ih; exact ih
  · intro ts e j _ ih; exact ih
  · intro ts e j _ ih; exact ih
  · intro ts e _ ih; exact ih
  · intro ts us e ty b j _ ht ih
    refine ⟨ih, ?_⟩
    cases ht with
    | unit => exact .inl rfl
    | invisible => exact .inr (.inl rfl)
    | _ => exact .inr (.inr ⟨_, rfl⟩)
  · intro ts e b _ ih; exact ⟨ih, trivial⟩
  · intro ts us e b es _ _ _ ih1 ih2; exact ⟨ih1, ih2⟩
  · intro ts e _ ih; exact ih.1
  · intro ts e1 e2 es _ ih; exact ⟨by simp, ih⟩
  · intro ts e _ _ ih; exact ih
  · intro ts e j _ _ ih; exact ih
  · intro ts e j _ ih; exact ⟨ih, rfl⟩
  · intro ts e _ ih; exact ih
  · intro ts e f j _ ih; exact ih
  · intro ts e f j _ ih; exact ih
  · intro ts e _ ih; exact ⟨ih, trivial⟩
  · intro ts us e es j _ _ ih1 ih2; exact ⟨ih1, ih2⟩
  · intro ts e _ ih; exact ih.1
  · intro ts e1 e2 es _ ih; exact ⟨by simp, ih⟩

/-- C39: every expression the front-end can read can be printed, so that the round trip is about all of them. -/
theorem C39_writable (e : Expr) : (∃ ts, Choice ts e.bare) ↔ e.bare.Writable := by
  constructor
  · rintro ⟨ts, h⟩; exact writable_all h
  · intro h
    have := print_choice e.bare h
    rw [bare_bare] at this
    exact ⟨_, this⟩

/-- The tokens of `a .. b`. -/
def Sample.lateSpan : List Tok := [.path ["a"], .punct '.' true, .punct '.' false, .path ["b"]]

/-- C39: the error announced for a span operator inside a sequence (front/parser.rs:355-360) is never reported: `a .. b` is read as `a . . b`. -/
theorem C39_late_span : parseChoice 20 0 Sample.lateSpan = .ok (.seq 4 [.ext 0 ["a"], .any 1, .any 2, .ext 3 ["b"]], 5, []) := by
  rfl

/-- C39: a parenthesised expression after a type is read as the arguments of the type: `a:T (b)` is `a` of type `T(b)`, not a sequence. -/
theorem C39_type_arguments : parseChoice 20 0 [.path ["a"], .punct ':' false, .path ["T"], .paren [.path ["b"]]] =
    .ok (.asc 1 (.ext 0 ["a"]) (.regular (.rust "T(b)")), 2, []) := by
  rfl

/-- The tokens of `#![debug_typing] sum = .. ["0-9"]+ ("+" sum > f / "") !. > g  start: T = sum`. -/
def Sample.sumTokens : List Tok :=
  [.attr ["debug_typing"], .path ["sum"], .punct '=' false, .punct '.' true, .punct '.' false, .bracket [.lit "0-9"], .punct '+' false,
   .paren [.lit "+", .path ["sum"], .punct '>' false, .path ["f"], .punct '/' false, .lit ""], .punct '!' false, .punct '.' false,
   .punct '>' false, .path ["g"], .path ["start"], .punct ':' false, .path ["T"], .punct '=' false, .path ["sum"]]

/-- The grammar read from these tokens. -/
def Sample.sumRead : FGrammar := ⟨[("sum",
  .act 12 (.span 11 (.seq 10 [.plus 1 (.cls 0 [⟨'0', '9'⟩]), .choice 7 [.act 5 (.seq 4 [.str 2 "+", .ext 3 ["sum"]]) false ["f"], .str 6 ""],
    .not 9 (.any 8)])) false ["g"]), ("start", .asc 14 (.ext 13 ["sum"]) (.regular (.rust "T")))], [], [["debug_typing"]]⟩

theorem Sample.sum_reads : parseGrammar 300 Sample.sumTokens = .ok Sample.sumRead := by
  rfl
example : Blocks Sample.sumTokens Sample.sumRead.bare := (C39_reads _ _).1 ⟨300, _, Sample.sum_reads, rfl⟩
/-- Two prefix operators are not accepted. -/
example : parseGrammar 300 [.path ["a"], .punct '=' false, .punct '!' true, .punct '!' false, .punct '.' false] = .stuck := by
  rfl
/-- The body of a rule stops before the next rule. -/
example : parseGrammar 300 [.path ["a"], .punct '=' false, .path ["b"], .path ["c"], .punct '=' false, .punct '.' false] =
    .ok ⟨[("a", .ext 0 ["b"]), ("c", .any 1)], [], []⟩ := by
  rfl

/-! ### C45 -/

/-- C45: the expressions of a grammar are numbered in the order in which they are read, children first, without gaps: the arena is a forest and every
expression has its own slot. -/
theorem C45_numbering {n : Nat} {ts : List Tok} {F : FGrammar} (h : parseGrammar n ts = .ok F) :
    ∃ size, indicesAll (F.rules.map (·.2)) = List.range size := by
  obtain ⟨k, h⟩ := parseGrammar_ok.1 h
  obtain ⟨_, h⟩ := blocks_numbered _ _ _ _ _ h
  exact ⟨k, by rw [h, Nat.sub_zero, List.range_eq_range']⟩

/-- C45: two expressions never share an index. -/
theorem C45_distinct {n : Nat} {ts : List Tok} {F : FGrammar} (h : parseGrammar n ts = .ok F) :
    (indicesAll (F.rules.map (·.2))).Nodup := by
  obtain ⟨k, h⟩ := C45_numbering h
  rw [h]
  exact List.nodup_range

example : (indicesAll (Sample.sumRead.rules.map (·.2))).Nodup := C45_distinct Sample.sum_reads
example : (indicesAll (Sample.sumRead.rules.map (·.2))).length = 15 := by rfl

/-! ### C46 -/

/-- C46: the grammars read by the front-end meet what the next phases assume: choices, sequences and classes are not empty and calls are not resolved. -/
theorem C46_built {n : Nat} {ts : List Tok} {F : FGrammar} (h : parseGrammar n ts = .ok F) : F.Built := by
  obtain ⟨k, h⟩ := parseGrammar_ok.1 h
  exact parse_built h

example : Sample.sumRead.Built := C46_built Sample.sum_reads

/-- C46: from the tokens to the analysed grammar: for every list of tokens, the front-end and the analysis phase stop, without panicking. -/
theorem C46_pipeline (ts : List Tok) (n : Nat) (hn : 10 * sizeOf ts + 10 ≤ n) :
    parseGrammar n ts = .stuck ∨ ∃ F, parseGrammar n ts = .ok F ∧ ∃ N x, ∀ a b, N ≤ a → N ≤ b → analysisPhase a b F = .ok x := by
  rcases C39_terminates ts n hn with ⟨F, h⟩ | h
  · exact .inr ⟨F, h, C43_terminates (C46_built h)⟩
  · exact .inl h

end Oak
