import Verif.Proofs.LL1Check
import Verif.Properties.Samples
import Verif.Properties.WellFormed
import Verif.Proofs.RustGives
import Verif.Proofs.CallsLL1
import Verif.Properties.Calls
/-!
C64: the context-free reading of a grammar.
-/
set_option linter.constructorNameAsVariable false
set_option autoImplicit false

namespace Oak
open Spec

variable {G : Grammar} {T : Nat → Ty} {fs : List (FnRef × Fn)} {ext : Nat → FnRef → PState StrStream Val → Res (PState StrStream Val)}
  {X : ExtSpec} {ptr : Nat} {input : List Char} {r : String} {e : Expr}

theorem accepted_total (hres : G.resolved = true) (ha : Accepted G) (hf : X.Forward) (hc : ExtSpec.Consuming X) (ht : ExtSpec.TotalOn X G)
    {e : Expr} (he : Occurs G e) (s : List Char) : ∃ o L, Peg G X e s o L := by
  obtain ⟨h1, h2⟩ := accepted_ok ha
  have hr : ∀ r e, G.find r = some e → e.resolved G = true := by
    intro r e he
    simp only [Grammar.resolved, List.all_eq_true] at hres
    exact hres _ (grammar_find_mem he)
  have hbody : ∀ r e, G.find r = some e → TermOk G X e := fun r e he => ⟨hr r e he, h1 r e he, fun i p hp => ht i p ⟨r, e, he, hp⟩⟩
  obtain ⟨r, b, hb, hs⟩ := he
  exact decided hf hc h2 hbody s.length s rfl e ((hbody r b hb).of (Typing.resolved_occurs (hr r b hb) hs) fun y hy => hy.trans hs)

/-! ### Every grammar -/

/-- C64: what a parser or a recognizer accepts is a text of the context-free reading, and the data returned is that of a derivation tree of this text. -/
theorem C64_accepted_derived (d : Deployed G T fs ext X ptr input) (he : G.find r = some e) (p : Bool) {v : Val} (h : Returns ext fs p r ptr input (.success v)) :
    ∃ t, Derives G X e input [] t ∧ v = tupleVal (if p then ast G T (strSpans input) e t else []) := by
  obtain ⟨o, L, hp, hr⟩ := (d.returns_iff he p _).1 h
  cases o with
  | fail => cases hr
  | ok s' t =>
    rw [expectedResult] at hr
    split at hr
    · rename_i hs
      subst hs
      cases hr
      exact ⟨t, peg_derives hp _ _ rfl, rfl⟩
    · cases hr

/-- C64: the same for a partial match, with the text read. -/
theorem C64_partial_derived (d : Deployed G T fs ext X ptr input) (he : G.find r = some e) (p : Bool) {v : Val} {far : StrStream} {exp : List String}
    (h : Returns ext fs p r ptr input (.part v far exp)) :
    ∃ read rest t, input = read ++ rest ∧ rest ≠ [] ∧ Derives G X e input rest t ∧ v = tupleVal (if p then ast G T (strSpans input) e t else []) := by
  obtain ⟨o, L, hp, hr⟩ := (d.returns_iff he p _).1 h
  cases o with
  | fail => cases hr
  | ok s' t =>
    rw [expectedResult] at hr
    split at hr
    · cases hr
    · rename_i hs
      cases hr
      have hd := peg_derives hp _ _ rfl
      obtain ⟨read, hread⟩ := hd.suffix d.fwd
      exact ⟨read, s', t, hread.symm, hs, hd, rfl⟩

/-! ### LL(1) grammars -/

theorem predictive (hres : G.resolved = true) (hsh : G.shaped = true) (ha : Accepted G) (hf : X.Forward) (hc : ExtSpec.Consuming X) (ht : ExtSpec.TotalOn X G) (hn : NoPredicates G)
    (hl : LL1 G X r) : Predictive G X r :=
  ⟨hf, hc, fun _ he => accepted_total hres ha hf hc ht he, accepted_wellFormed hsh ha, hn, hl⟩

/-- C64: when one character of lookahead is enough to choose, the parser succeeds exactly on the texts of the context-free reading, with the data of their derivation trees. -/
theorem C64_exact (d : Deployed G T fs ext X ptr input) (hsh : G.shaped = true) (ha : Accepted G) (hc : ExtSpec.Consuming X) (ht : ExtSpec.TotalOn X G) (hn : NoPredicates G)
    (hl : LL1 G X r) (he : G.find r = some e) (p : Bool) (v : Val) :
    Returns ext fs p r ptr input (.success v) ↔ ∃ t, Derives G X e input [] t ∧ v = tupleVal (if p then ast G T (strSpans input) e t else []) := by
  refine ⟨C64_accepted_derived d he p, ?_⟩
  rintro ⟨t, hd, rfl⟩
  obtain ⟨L, hp⟩ := (predictive d.gen.resolved hsh ha d.fwd hc ht hn hl).complete hd (.here (.start he))
  exact (d.returns_iff he p _).2 ⟨_, L, hp, by rw [expectedResult, if_pos rfl]⟩

/-- C64: a text of such a grammar has only one derivation tree. -/
theorem C64_unambiguous (hres : G.resolved = true) (hsh : G.shaped = true) (ha : Accepted G) (hf : X.Forward) (hX : X.Det) (hc : ExtSpec.Consuming X) (ht : ExtSpec.TotalOn X G) (hn : NoPredicates G)
    (hl : LL1 G X r) (he : G.find r = some e) {t t' : Tree} (h : Derives G X e input [] t) (h' : Derives G X e input [] t') : t = t' := by
  have H := predictive hres hsh ha hf hc ht hn hl
  obtain ⟨L, hp⟩ := H.complete h (.here (.start he))
  obtain ⟨L', hp'⟩ := H.complete h' (.here (.start he))
  have := (Peg.det hX hp hp').1
  cases this
  rfl

/-- C64: grammars that pass the check of Proofs/LL1Check.lean meet the conditions. -/
theorem C64_checked (d : Deployed G T fs ext noExt ptr input) (hsh : G.shaped = true) (ha : Accepted G) {tab : LLTable} (hl : ll1 tab G = true) (he : G.find r = some e) (p : Bool) (v : Val) :
    Returns ext fs p r ptr input (.success v) ↔ ∃ t, Derives G noExt e input [] t ∧ v = tupleVal (if p then ast G T (strSpans input) e t else []) := by
  obtain ⟨h1, h2, h3⟩ := ll1_sound (r0 := r) hl
  exact C64_exact d hsh ha (fun _ _ _ _ _ h => h.elim) (fun i p h => (h3 i p h).elim) h2 h1 he p v

/-- C64: no call is wasted. When one character of lookahead is enough to choose, every expression has a text and the actions apply to expressions that read something,
the user functions called by a parser that reads a whole text are exactly those of its derivation tree, each called once per node, in the order of the tree (compare with `C17_abandoned`). -/
theorem C64_calls (d : Deployed G T fs ext noExt ptr input) (hq : QuietExt ext) (hsh : G.shaped = true) (ha : Accepted G) (ht : ExtSpec.TotalOn noExt G) (hn : NoPredicates G) (hl : LL1 G noExt r)
    (hp : Productive G noExt) (hr : ActionsRead G noExt) (he : G.find r = some e) {st' : PState StrStream Val} (h : Steps ext fs true r (start ptr input) st')
    {t : Tree} (hd : Derives G noExt e input [] t) : st'.calls = treeCalls G T (strSpans input) e t := by
  obtain ⟨L, hpeg⟩ := (predictive d.gen.resolved hsh ha noExt_fwd (fun _ _ _ _ _ h => h.elim) ht hn hl).complete hd (.here (.start he))
  obtain ⟨cs, h1, h2⟩ := C17_calls d hq he (okSt_new ptr input) h
  have hrest : (PState.new (StrStream.new ptr input) : PState StrStream Val).cur.rest = input := by simp [PState.new]
  rw [hrest] at h2
  rw [h1, calls_exact hl hp hr ((h2 cs).2 rfl) hpeg (.here (.start he))]
  rfl

/-- C64: grammars that pass the checks of Proofs/LL1Check.lean and Proofs/CallsLL1.lean meet the conditions. -/
theorem C64_calls_checked (d : Deployed G T fs ext noExt ptr input) (hq : QuietExt ext) (hsh : G.shaped = true) (ha : Accepted G) {tab : LLTable} {order : List String} (hl : ll1 tab G = true)
    (ho : callsOk tab order G = true) (he : G.find r = some e) {st' : PState StrStream Val} (h : Steps ext fs true r (start ptr input) st')
    {t : Tree} (hd : Derives G noExt e input [] t) : st'.calls = treeCalls G T (strSpans input) e t := by
  obtain ⟨h1, h2, h3⟩ := ll1_sound (r0 := r) hl
  obtain ⟨h4, h5⟩ := callsOk_sound hl ho
  exact C64_calls d hq hsh ha (fun i p h => (h3 i p h).elim) h2 h1 h4 h5 he h hd

/-! ### Cases that meet the hypotheses -/

/-- The grammar of sums is LL(1). -/
def Sample.sumTable : LLTable := [("sum", ⟨[⟨'0', '9'⟩], false, []⟩), ("num", ⟨[⟨'0', '9'⟩], false, [⟨'+', '+'⟩]⟩)]

example (input : List Char) (v : Val) : Returns noFns Sample.sumFs true "sum" 0 input (.success v) ↔
    ∃ t, Derives Sample.sum noExt (.act 6 (.seq 5 [.nt 0 "num", .star 4 (.seq 3 [.str 1 "+", .nt 2 "num"])]) false ["add"]) input [] t ∧
      v = tupleVal (ast Sample.sum Sample.sumT (strSpans input) (.act 6 (.seq 5 [.nt 0 "num", .star 4 (.seq 3 [.str 1 "+", .nt 2 "num"])]) false ["add"]) t) :=
  C64_checked (Sample.sum_generated.deployed 0 input) Sample.sum_shaped Sample.sum_accepted (tab := Sample.sumTable) (by decide +kernel) rfl true v

/-- The parser of sums calls `to_num` and `add` once for each number and each sum of the text, whatever the text. -/
example (input : List Char) {st' : PState StrStream Val} (h : Steps noFns Sample.sumFs true "sum" (start 0 input) st') {e : Expr} {t : Tree} (he : Sample.sum.find "sum" = some e)
    (hd : Derives Sample.sum noExt e input [] t) : st'.calls = treeCalls Sample.sum Sample.sumT (strSpans input) e t :=
  C64_calls_checked (Sample.sum_generated.deployed 0 input) noFns_quiet Sample.sum_shaped Sample.sum_accepted (tab := Sample.sumTable) (order := ["num", "sum"]) (by decide +kernel)
    (by decide +kernel) he h hd

namespace Sample

/-- `r = a "x" / "y" > g ; a = "" > f` -/
def eager : Grammar := ⟨[("r", .choice 5 [.seq 2 [.nt 0 "a", .str 1 "x"], .act 4 (.str 3 "y") false ["g"]]), ("a", .act 7 (.str 6 "") false ["f"])]⟩

/-- Types of its nodes. -/
def eagerT : Nat → Ty
  | 0 | 7 | 5 | 4 => .rust "A"
  | 2 => .tuple [0]
  | _ => .unit

/-- Its generated program. -/
def eagerFs : List (FnRef × Fn) := match compileGrammar eagerT eager.rules with | .ok f => f | .error _ => []

theorem eager_generated : Generated eager eagerT eagerFs where
  compiled := by rfl
  scopes := by decide +kernel
  coherent := by decide +kernel
  resolved := by decide +kernel

/-- What the checker is told. -/
def eagerTable : LLTable := [("r", ⟨[⟨'x', 'y'⟩], false, []⟩), ("a", ⟨[], true, [⟨'x', 'x'⟩]⟩)]

end Sample

/-- C64: the condition on the actions is needed. In `r = a "x" / "y" > g ; a = "" > f`, one character of lookahead is enough to choose, and yet `f` is called before `y` is read, for nothing. -/
theorem C64_calls_condition_needed : Accepted Sample.eager ∧ ll1 Sample.eagerTable Sample.eager = true ∧
    ∃ st', Steps noFns Sample.eagerFs true "r" (start 0 ['y']) st' ∧ st'.data = some (.app ["g"] []) ∧ st'.calls = [.app ["f"] [], .app ["g"] []] :=
  ⟨⟨5, 9, _, rfl, by decide +kernel⟩, by decide +kernel, steps_of_runCalls (n := 20) (by decide +kernel)⟩

namespace Sample

/-- `value = "(" (value ("," value)*)? ")" / "a"+` -/
def lists : Grammar := ⟨[("value", .choice 12 [.seq 9 [.str 0 "(", .opt 7 (.seq 6 [.nt 1 "value", .star 5 (.seq 4 [.str 2 ",", .nt 3 "value"])]), .str 8 ")"], .plus 11 (.str 10 "a")])]⟩

/-- Its generated program. -/
def listsFs : List (FnRef × Fn) := match compileGrammar opsT lists.rules with | .ok f => f | .error _ => []

theorem lists_generated : Generated lists opsT listsFs where
  compiled := by rfl
  scopes := by decide +kernel
  coherent := by decide +kernel
  resolved := by decide +kernel

theorem lists_accepted : Accepted lists := ⟨5, 9, _, rfl, by decide +kernel⟩

/-- What the checker is told. -/
def listsTable : LLTable := [("value", ⟨[⟨'(', '('⟩, ⟨'a', 'a'⟩], false, [⟨',', ','⟩, ⟨')', ')'⟩]⟩)]

/-- The recognizer of nested lists accepts exactly the texts of the context-free grammar. -/
theorem lists_exact (input : List Char) : Returns noFns listsFs false "value" 0 input (.success (tupleVal [])) ↔
    ∃ t, Derives lists noExt (.choice 12 [.seq 9 [.str 0 "(", .opt 7 (.seq 6 [.nt 1 "value", .star 5 (.seq 4 [.str 2 ",", .nt 3 "value"])]), .str 8 ")"], .plus 11 (.str 10 "a")]) input [] t := by
  rw [C64_checked (lists_generated.deployed 0 input) (by decide +kernel) lists_accepted (tab := listsTable) (by decide +kernel) rfl false]
  simp

example : Returns noFns listsFs false "value" 0 "(a,(),(aa))".toList (.success (tupleVal [])) := ⟨40, rfl⟩

/-- `r = "a" / "ab"` -/
def hidden : Grammar := ⟨[("r", .choice 2 [.str 0 "a", .str 1 "ab"])]⟩

/-- Its generated program. -/
def hiddenFs : List (FnRef × Fn) := match compileGrammar opsT hidden.rules with | .ok f => f | .error _ => []

theorem hidden_generated : Generated hidden opsT hiddenFs where
  compiled := by rfl
  scopes := by decide +kernel
  coherent := by decide +kernel
  resolved := by decide +kernel

/-- `r = "a"* "a"` -/
def greedy : Grammar := ⟨[("r", .seq 3 [.star 1 (.str 0 "a"), .str 2 "a"])]⟩

/-- Its generated program. -/
def greedyFs : List (FnRef × Fn) := match compileGrammar opsT greedy.rules with | .ok f => f | .error _ => []

theorem greedy_generated : Generated greedy opsT greedyFs where
  compiled := by rfl
  scopes := by decide +kernel
  coherent := by decide +kernel
  resolved := by decide +kernel

end Sample

/-- C64: the condition is needed, even for grammars that Oak accepts. The text `ab` belongs to the context-free reading of `r = "a" / "ab"`, but the parser reads `a` and stops;
and no text at all is accepted by `r = "a"* "a"`, whose context-free reading has all the non-empty sequences of `a`. -/
theorem C64_condition_needed :
    (Accepted Sample.hidden ∧ NoPredicates Sample.hidden ∧ (∃ e t, Sample.hidden.find "r" = some e ∧ Derives Sample.hidden noExt e ['a', 'b'] [] t) ∧
      ∀ p v, ¬ Returns noFns Sample.hiddenFs p "r" 0 ['a', 'b'] (.success v)) ∧
    (Accepted Sample.greedy ∧ NoPredicates Sample.greedy ∧ (∀ n, ∃ e t, Sample.greedy.find "r" = some e ∧ Derives Sample.greedy noExt e (List.replicate (n + 1) 'a') [] t) ∧
      ∀ p input v, ¬ Returns noFns Sample.greedyFs p "r" 0 input (.success v)) := by
  refine ⟨⟨⟨5, 9, _, rfl, by decide +kernel⟩, ?_, ⟨_, _, rfl, .choice (k := 1) rfl (.str (l := "ab"))⟩, ?_⟩, ⟨⟨5, 9, _, rfl, by decide +kernel⟩, ?_, ?_, ?_⟩⟩
  · intro i e
    constructor <;> rintro ⟨r, b, hb, hs⟩ <;> have := grammar_find_mem hb <;> simp only [Sample.hidden, List.mem_singleton, Prod.mk.injEq] at this <;> obtain ⟨rfl, rfl⟩ := this <;>
      cases hs with
      | choice hm hs =>
        simp only [List.mem_cons, List.not_mem_nil, or_false] at hm
        rcases hm with rfl | rfl <;> cases hs
  · intro p v h
    obtain ⟨o, L, hp, hr⟩ := ((Sample.hidden_generated.deployed 0 ['a', 'b']).returns_iff (r := "r") rfl p _).1 h
    have h1 : Peg Sample.hidden noExt (.choice 2 [.str 0 "a", .str 1 "ab"]) ['a', 'b'] (.ok ['b'] (.alt 0 .leaf)) [] := .choice_first (.str_ok (lit := "a"))
    have := (Peg.det (fun _ _ _ _ _ _ h => h.elim) hp h1).1
    subst this
    rw [expectedResult, if_neg (by simp)] at hr
    cases hr
  · intro i e
    constructor <;> rintro ⟨r, b, hb, hs⟩ <;> have := grammar_find_mem hb <;> simp only [Sample.greedy, List.mem_singleton, Prod.mk.injEq] at this <;> obtain ⟨rfl, rfl⟩ := this <;>
      cases hs with
      | seq hm hs =>
        simp only [List.mem_cons, List.not_mem_nil, or_false] at hm
        rcases hm with rfl | rfl
        · cases hs with | star hs => cases hs
        · cases hs
  · intro n
    have : ∀ n s, ∃ ts, Derives Sample.greedy noExt (.star 1 (.str 0 "a")) (List.replicate n 'a' ++ s) s (.rep ts) := by
      intro n
      induction n with
      | zero => exact fun s => ⟨_, .star_nil⟩
      | succ n ih =>
        intro s
        obtain ⟨ts, h⟩ := ih s
        exact ⟨_, .star_cons (.str (l := "a")) h⟩
    obtain ⟨ts, h⟩ := this n ['a']
    have h2 : Derives Sample.greedy noExt (.seq 3 [.star 1 (.str 0 "a"), .str 2 "a"]) (List.replicate n 'a' ++ ['a']) [] (.seq [.rep ts, .leaf]) :=
      .seq_cons h (.seq_cons (.str (l := "a")) .seq_nil)
    rw [← List.replicate_succ'] at h2
    exact ⟨_, _, rfl, h2⟩
  · intro p input v h
    obtain ⟨o, L, hp, hr⟩ := ((Sample.greedy_generated.deployed 0 input).returns_iff (r := "r") rfl p _).1 h
    have key : ∀ {e s o L}, Peg Sample.greedy noExt e s o L → e = .star 1 (.str 0 "a") → ∀ s' t, o = .ok s' t → ∀ s'', s' ≠ 'a' :: s'' := by
      intro e s o L h
      induction h with
      | star_stop hf _ =>
        rintro he s' t ho s'' rfl
        cases he; cases ho
        cases hf with
        | str_fail hn => exact hn (by exact ⟨s'', rfl⟩)
      | star_more _ _ _ ih =>
        intro he s' t ho
        cases he; cases ho
        exact ih rfl _ _ rfl
      | _ => intro he; cases he
    cases hp with
    | seq_cons h1 h2 =>
      cases h2 with
      | seq_cons h3 h4 =>
        generalize hl : "a" = l at h3
        cases h3 with
        | str_ok => subst hl; exact key h1 rfl _ _ rfl _ rfl
      | _ => cases hr
    | _ => cases hr

end Oak
