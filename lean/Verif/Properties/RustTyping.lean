import Verif.Proofs.RustGives
import Verif.Proofs.RustConverse
import Verif.Properties.Macro
/-!
The generated functions are accepted by the type checker of Rust: C49.
-/
set_option linter.constructorNameAsVariable false
set_option autoImplicit false

namespace Oak
open Spec Syntax Typing

/-! ### Tools -/

/-- Every function of the list is the parser or the recognizer of a rule. -/
theorem compileGrammar_ref {T : Nat → Ty} {rules : List (String × Expr)} {fs : List (FnRef × Fn)} (h : compileGrammar T rules = .ok fs) :
    ∀ f ∈ fs, ∃ r ∈ rules, f.1.path = [r.1] := by
  induction rules generalizing fs with
  | nil => cases h; simp
  | cons r rs ih =>
    obtain ⟨r, e⟩ := r
    simp only [compileGrammar] at h
    obtain ⟨f, h1, h⟩ := except_bind_eq_ok h
    obtain ⟨g, h2, h⟩ := except_bind_eq_ok h
    obtain ⟨fs', h3, h⟩ := except_bind_eq_ok h
    cases h
    intro x hx
    simp only [List.mem_cons] at hx
    rcases hx with rfl | rfl | hx
    · exact ⟨_, List.mem_cons_self, rfl⟩
    · exact ⟨_, List.mem_cons_self, rfl⟩
    · obtain ⟨q, q1, q2⟩ := ih h3 x hx
      exact ⟨q, List.mem_cons_of_mem _ q1, q2⟩

/-- Every rule has its parser and its recognizer. -/
theorem compileGrammar_both {T : Nat → Ty} {rules : List (String × Expr)} {fs : List (FnRef × Fn)} (h : compileGrammar T rules = .ok fs) :
    ∀ r ∈ rules, ∀ p, ∃ f, (⟨p, [r.1]⟩, f) ∈ fs := by
  induction rules generalizing fs with
  | nil => simp
  | cons r rs ih =>
    obtain ⟨r, e⟩ := r
    simp only [compileGrammar] at h
    obtain ⟨f, h1, h⟩ := except_bind_eq_ok h
    obtain ⟨g, h2, h⟩ := except_bind_eq_ok h
    obtain ⟨fs', h3, h⟩ := except_bind_eq_ok h
    cases h
    intro x hx p
    simp only [List.mem_cons] at hx
    rcases hx with rfl | hx
    · cases p
      · exact ⟨f, by simp⟩
      · exact ⟨g, by simp⟩
    · obtain ⟨f', hf'⟩ := ih h3 x hx p
      exact ⟨f', by simp [hf']⟩

theorem accepted_wellTyped {A : AGrammar} {k m : Nat} {N : Prop} {T : Nat → Ty} (H : A.Ready k) (h : Typing.Accepted A k m N T) (nn : N) (hmix : A.Unmixed)
    (hran : A.PlainRanges) (hag : A.Agrees) {fs : List (FnRef × Fn)} (hc : compileGrammar T A.grammar.rules = .ok fs) (hsc : A.grammar.scopable T = true)
    (hr : ∀ f ∈ fs, f.2.refOk = true) : A.WellTyped T fs := by
  intro r b hb
  have h1 := accepted_fnOk H h nn hmix hran hag hc hsc hr
  have hm := grammar_find_mem hb
  refine ⟨compileGrammar_both hc _ hm false, compileGrammar_both hc _ hm true, fun f hf => ?_, fun f hf => ?_⟩
  · simpa using h1 _ hf
  · obtain ⟨t, t1, t2⟩ : ∃ t, (A.sigs T).parser [r] t ∧ FnOk (A.sigs T) f t := by simpa using h1 _ hf
    obtain ⟨j, hj⟩ := t1 r b rfl hb
    exact ⟨t, j, hj, t2⟩

theorem refable_refOk {G : Grammar} {T : Nat → Ty} {fs : List (FnRef × Fn)} (hc : compileGrammar T G.rules = .ok fs) (h : G.refable T = true) : ∀ f ∈ fs, f.2.refOk = true := by
  have := compileGrammar_refOk (o := .direct) (by intro h; cases h) hc
  rw [Grammar.refable] at h
  rw [h] at this
  exact fun f hf => List.all_eq_true.1 this f hf

/-! ### C49 -/

/-- C49: the functions generated for an accepted grammar where no recursion is seen are well typed, provided that the Rust types written in the grammar agree, that no
closure uses a variable out of scope (see C30), and that no closure assigns or borrows one of its `&mut` parameters (`refable`). -/
theorem C49_well_typed_partial {A : AGrammar} {k m n : Nat} {T : Nat → Ty} {ms : List TMsg} (H : A.Ready k) (hr : A.grammar.NoSeenRec) (hmix : A.Unmixed) (hran : A.PlainRanges)
    (hag : A.Agrees) (h : typeInference A k m n = .ok (.value T, ms)) {fs : List (FnRef × Fn)} (hc : compileGrammar T A.grammar.rules = .ok fs)
    (hsc : A.grammar.scopable T = true) (href : A.grammar.refable T = true) : A.WellTyped T fs := by
  obtain ⟨rank, hrank⟩ := hr
  obtain ⟨m, _, h1⟩ := typeInference_value H h rank
  exact accepted_wellTyped H h1 hrank hmix hran hag hc hsc (refable_refOk hc href)

/-- A well typed grammar meets the two conditions. -/
theorem wellTyped_conditions {A : AGrammar} {T : Nat → Ty} (hnd : (A.grammar.rules.map (·.1)).Nodup) (hsz : A.grammar.sized T = true) {fs : List (FnRef × Fn)}
    (hc : compileGrammar T A.grammar.rules = .ok fs) (hw : A.WellTyped T fs) : A.grammar.scopable T = true ∧ A.grammar.refable T = true := by
  have hall : ∀ f ∈ fs, ∃ t, FnOk (A.sigs T) f.2 t := by
    rintro ⟨⟨p, path⟩, f⟩ hf
    obtain ⟨⟨r, b⟩, r1, r2⟩ := compileGrammar_ref hc _ hf
    have r2 : path = [r] := r2
    subst r2
    obtain ⟨_, _, w1, w2⟩ := hw r b (body_of_mem hnd r1)
    cases p with
    | false => exact ⟨_, w1 f hf⟩
    | true => obtain ⟨t, _, _, ht⟩ := w2 f hf; exact ⟨t, ht⟩
  have key := compileGrammar_converse hc (fun r hr => (Grammar.sized_iff.1 hsz r hr).imp_right (·.1)) hall
  refine ⟨Grammar.scopable_iff.2 fun r hr => (key r hr).1, List.all_eq_true.2 fun r hr => ?_⟩
  obtain ⟨_, k1, k2⟩ := key r hr
  rw [k1, Bool.true_and, Bool.or_eq_true, beq_iff_eq]
  exact k2

/-- C52: without one of these two conditions, whether the written types agree or not, some generated function is ill typed. -/
theorem C52_conditions {A : AGrammar} {k m n : Nat} {T : Nat → Ty} {ms : List TMsg} (H : A.Ready k) (hr : A.grammar.NoSeenRec) (hmix : A.Unmixed) (hran : A.PlainRanges)
    (h : typeInference A k m n = .ok (.value T, ms)) {fs : List (FnRef × Fn)} (hc : compileGrammar T A.grammar.rules = .ok fs) (hw : A.WellTyped T fs) :
    A.grammar.scopable T = true ∧ A.grammar.refable T = true := by
  obtain ⟨rank, hrank⟩ := hr
  obtain ⟨m, _, h1⟩ := typeInference_value H h rank
  exact wellTyped_conditions H.names (accepted_sized H h1 hrank hmix hran).1 hc hw

/-- C49: a recognizer is well typed whatever the types, if no closure assigns or borrows one of its `&mut` parameters. -/
theorem C49_recognizer_partial {sg : Sigs} {T : Nat → Ty} {e : Expr} {f : Fn} (h : compileRecognizer T e = .ok f) (hr : refable T false false false false e = true) :
    FnOk sg f .unit := recognizer_fnOk h ((recognizer_refOk (o := .direct) (by intro h; cases h) h).trans hr)

/-- C49: the same for the macro, from the tokens. -/
theorem C49_macro_partial {n : Nat} {ts : List Tok} {ms : List Msg} {us : List TMsg} {A : AGrammar} {T : Nat → Ty} {fs : List (FnRef × Fn)}
    (h : oak n ts = .ok (.code ms us A T fs)) (hr : A.Regular) (hag : A.Agrees) (hs : A.grammar.scopable T = true) (href : A.grammar.refable T = true) :
    A.WellTyped T fs := by
  obtain ⟨F, k, B, h1, h2, rfl, h3, h4⟩ := oak_code h
  have H : Prepared (extractStream B) k := prepared_stream (prepared h1 h2).1
  exact C49_well_typed_partial H.ready hr.rec_ hr.mixed H.plain hag h3 h4 hs href

/-- C52: the two conditions of C49 are exact: the functions generated for an accepted grammar where the written Rust types agree are well typed if and only if they hold. -/
theorem C52_types {A : AGrammar} {k m n : Nat} {T : Nat → Ty} {ms : List TMsg} (H : A.Ready k) (hr : A.grammar.NoSeenRec) (hmix : A.Unmixed) (hran : A.PlainRanges)
    (hag : A.Agrees) (h : typeInference A k m n = .ok (.value T, ms)) {fs : List (FnRef × Fn)} (hc : compileGrammar T A.grammar.rules = .ok fs) :
    A.WellTyped T fs ↔ A.grammar.scopable T = true ∧ A.grammar.refable T = true :=
  ⟨C52_conditions H hr hmix hran h hc, fun ⟨h1, h2⟩ => C49_well_typed_partial H hr hmix hran hag h hc h1 h2⟩

/-- C52: the same for the macro, from the tokens. -/
theorem C52_macro {n : Nat} {ts : List Tok} {ms : List Msg} {us : List TMsg} {A : AGrammar} {T : Nat → Ty} {fs : List (FnRef × Fn)}
    (h : oak n ts = .ok (.code ms us A T fs)) (hr : A.Regular) (hag : A.Agrees) :
    A.WellTyped T fs ↔ A.grammar.scopable T = true ∧ A.grammar.refable T = true := by
  obtain ⟨F, k, B, h1, h2, rfl, h3, h4⟩ := oak_code h
  have H : Prepared (extractStream B) k := prepared_stream (prepared h1 h2).1
  exact C52_types H.ready hr.rec_ hr.mixed H.plain hag h3 h4

/-- C47: code that the type checker of Rust accepts is right: if the functions generated from the tokens of a regular grammar are well typed, then on every text the function of
a rule returns, and returns what the grammar as it is written says. -/
theorem C47_typed_end_to_end {n : Nat} {ts : List Tok} {ms : List Msg} {us : List TMsg} {A : AGrammar} {T : Nat → Ty} {fs : List (FnRef × Fn)}
    (h : oak n ts = .ok (.code ms us A T fs)) (hr : A.Regular) (hw : A.WellTyped T fs)
    {ext : Nat → FnRef → PState StrStream Val → Res (PState StrStream Val)} {X : ExtSpec} {ptr : Nat} {input : List Char}
    (hext : ExtOk (StrStream.At ptr input) StrStream.rest ext A.grammar X) (hfwd : X.Forward) (hcon : ExtSpec.Consuming X) (htot : ExtSpec.TotalOn X A.grammar)
    {F : FGrammar} (hF : Blocks ts F) {r : String} (hrule : r ∈ F.rules.map (·.1)) (p : Bool) :
    ∃ e, A.grammar.find r = some e ∧ (r, e.written.bare) ∈ F.rules ∧ (∃ res, Returns ext fs p r ptr input res) ∧
    ∀ res, Returns ext fs p r ptr input res ↔ ∃ o L, Peg A.grammar X e input o L ∧ res = expectedResult A.grammar T e p ptr input L o := by
  have hs : A.grammar.scopable T = true := by
    obtain ⟨F, k, B, h1, h2, rfl, h3, h4⟩ := oak_code h
    have H : Prepared (extractStream B) k := prepared_stream (prepared h1 h2).1
    exact (C52_conditions H.ready hr.rec_ hr.mixed H.plain h3 h4 hw).1
  exact C47_end_to_end h hr hs hext hfwd hcon htot hF hrule p

/-! ### Cases that meet the hypotheses -/

mutual
/-- The parts of an expression. -/
def subs (e : Expr) : List Expr :=
  e :: (match e with
    | .str _ _ | .any _ | .cls _ _ | .ext _ _ | .nt _ _ => []
    | .seq _ es | .choice _ es => subsAll es
    | .star _ e | .plus _ e | .opt _ e | .span _ e | .range _ e | .not _ e | .and _ e | .act _ e _ _ | .asc _ e _ => subs e)
/-- The same for lists. -/
def subsAll (es : List Expr) : List Expr :=
  match es with
  | [] => []
  | e :: es => subs e ++ subsAll es
end

theorem subs_mem {x e : Expr} (h : Sub x e) : x ∈ subs e := by
  have all : ∀ {es : List Expr} {e : Expr}, e ∈ es → x ∈ subs e → x ∈ subsAll es := by
    intro es e he hx
    induction he with
    | head => rw [subsAll]; simp [hx]
    | tail _ _ ih => rw [subsAll]; simp [ih]
  induction h with
  | refl => cases x <;> rw [subs] <;> simp
  | seq hm _ ih | choice hm _ ih => rw [subs]; exact List.mem_cons_of_mem _ (all hm ih)
  | _ _ ih => rw [subs]; exact List.mem_cons_of_mem _ ih

theorem occurs_subs {G : Grammar} {x : Expr} (h : Occurs G x) : x ∈ subsAll (G.rules.map (·.2)) := by
  obtain ⟨r, b, hb, hs⟩ := h
  have hm := grammar_find_mem hb
  generalize G.rules = rules at hm
  induction rules with
  | nil => simp at hm
  | cons a as ih =>
    rw [List.map_cons, subsAll, List.mem_append]
    rcases List.mem_cons.1 hm with rfl | hm
    · exact .inl (subs_mem hs)
    · exact .inr (ih hm)

namespace Sample

/-- `signed = ("+" > plus / "-" > minus) ["0-9"]+` with `fn plus() -> Op` and `fn minus() -> Op`. -/
def signed : AGrammar := ⟨⟨[
    ("signed", .seq 7 [.choice 4 [.act 1 (.str 0 "+") false ["plus"], .act 3 (.str 2 "-") false ["minus"]], .plus 6 (.cls 5 [⟨'0', '9'⟩])])]⟩,
  [("plus", ⟨"plus", .ty "Op"⟩), ("minus", ⟨"minus", .ty "Op"⟩)], [], "StrStream", .debug⟩

/-- The inferred types. -/
def signedT : Nat → Ty := fun i =>
  ([.unit, .rust "Op", .unit, .rust "Op", .rust "Op", .atom, .list 5, .tuple [4, 6], .rust "<Range<Stream> as StreamSpan>::Output"] : List Ty)[i]?.getD .unit

theorem signed_agrees : signed.Agrees := by
  have hact : ∀ {i e b f t}, HasType signed (.act i e b f) t → t = actionType signed b f := fun h => by cases h; rfl
  refine ⟨?_, ?_, ?_, ?_, ?_⟩
  · intro i es ho d hd e he t u ht hu _
    have := occurs_subs ho
    simp [signed, subsAll, subs] at this
    obtain ⟨_, rfl⟩ := this
    have key : ∀ {d t}, d ∈ [Expr.act 1 (.str 0 "+") false ["plus"], .act 3 (.str 2 "-") false ["minus"]] → HasType signed d t → t = .rust "Op" := by
      intro d t hd ht
      simp only [List.mem_cons, List.not_mem_nil, or_false] at hd
      rcases hd with rfl | rfl <;> exact hact ht
    rw [key hd ht, key he hu]
  · intro i e s ho
    have := occurs_subs ho
    simp [signed, subsAll, subs] at this
  · intro i e f ho
    have := occurs_subs ho
    simp [signed, subsAll, subs] at this
  · intro i e b f ho
    have := occurs_subs ho
    simp [signed, subsAll, subs] at this
    rcases this with ⟨_, _, rfl, rfl⟩ | ⟨_, _, rfl, rfl⟩ <;> intro h <;> exact DType.noConfusion h
  · intro i e b f ho
    have := occurs_subs ho
    simp [signed, subsAll, subs] at this
    rcases this with ⟨_, _, rfl, rfl⟩ | ⟨_, _, rfl, rfl⟩ <;> intro h <;> exact absurd h (by decide +kernel)

theorem signed_accepted : typeInference signed 8 10 2 = .ok (.value signedT, []) := rfl

/-- Its functions, one with a closure, are well typed. -/
example : ∃ fs, compileGrammar signedT signed.grammar.rules = .ok fs ∧ (∃ f ∈ fs, f.2.closures ≠ []) ∧ signed.WellTyped signedT fs := by
  refine ⟨_, rfl, by decide +kernel, ?_⟩
  refine C49_well_typed_partial (k := 8) (ready_of (by decide +kernel)) (noSeenRec_of (fun _ => 0) (by decide +kernel)) (unmixed_of (by decide +kernel)) ?_ signed_agrees
    signed_accepted rfl (by decide +kernel) (by decide +kernel)
  intro i e ho
  have := occurs_subs ho
  simp [signed, subsAll, subs] at this

/-- `r = ("a" / "b") "c" / "d"` -/
def refs : AGrammar := ⟨⟨[("r", .choice 6 [.seq 4 [.choice 2 [.str 0 "a", .str 1 "b"], .str 3 "c"], .str 5 "d"])]⟩, [], [], "StrStream", .debug⟩

theorem sub_trans {x y z : Expr} (h1 : Sub x y) (h2 : Sub y z) : Sub x z := by
  induction h2 with
  | refl => exact h1
  | seq hm _ ih => exact .seq hm ih
  | choice hm _ ih => exact .choice hm ih
  | star _ ih => exact .star ih
  | plus _ ih => exact .plus ih
  | opt _ ih => exact .opt ih
  | not _ ih => exact .not ih
  | and _ ih => exact .and ih
  | act _ ih => exact .act ih
  | asc _ ih => exact .asc ih
  | span _ ih => exact .span ih
  | range _ ih => exact .range ih

theorem refs_hidden {i : Nat} {es : List Expr} {x : Expr} {t : DType} (ho : Occurs refs.grammar (.choice i es)) (he : x ∈ es) (hx : HasType refs x t) : t = .hidden := by
  obtain ⟨r, b, hb, hs⟩ := ho
  have hb := grammar_find_mem hb
  simp only [refs, List.mem_singleton, Prod.mk.injEq] at hb
  obtain ⟨rfl, rfl⟩ := hb
  have := subs_mem (sub_trans (.choice he .refl) hs)
  simp [subsAll, subs] at this
  have h2 : HasType refs (.choice 2 [.str 0 "a", .str 1 "b"]) .hidden :=
    .choice (.cons .str (.cons .str .nil)) (.same (by simp [Same.hidden]))
  have h4 : HasType refs (.seq 4 [.choice 2 [.str 0 "a", .str 1 "b"], .str 3 "c"]) .hidden := .seqHidden (.cons h2 (.cons .str .nil)) (by simp)
  rcases this with rfl | rfl | rfl | rfl | rfl | rfl | rfl
  · exact hx.det (.choice (.cons h4 (.cons .str .nil)) (.same (by simp [Same.hidden])))
  · exact hx.det h4
  · exact hx.det h2
  all_goals exact hx.det .str

theorem refs_agrees : refs.Agrees := by
  refine ⟨?_, ?_, ?_, ?_, ?_⟩
  · intro i es ho d hd e he t u ht hu _
    rw [refs_hidden ho hd ht, refs_hidden ho he hu]
  · intro i e s ho
    have := occurs_subs ho
    simp [refs, subsAll, subs] at this
  · intro i e f ho
    have := occurs_subs ho
    simp [refs, subsAll, subs] at this
  · intro i e b f ho
    have := occurs_subs ho
    simp [refs, subsAll, subs] at this
  · intro i e b f ho
    have := occurs_subs ho
    simp [refs, subsAll, subs] at this

/-- `r = "a" > f / "b" > g` with `fn f() -> A` and `fn g() -> B`. -/
def unequal : AGrammar := ⟨⟨[("r", .choice 4 [.act 1 (.str 0 "a") false ["f"], .act 3 (.str 2 "b") false ["g"]])]⟩,
  [("f", ⟨"f", .ty "A"⟩), ("g", ⟨"g", .ty "B"⟩)], [], "StrStream", .debug⟩

/-- `r = "a" > F` with `fn F() -> A`. -/
def capital : AGrammar := ⟨⟨[("r", .act 1 (.str 0 "a") false ["F"])]⟩, [("F", ⟨"F", .ty "A"⟩)], [], "StrStream", .debug⟩

/-- `r = "a" > box f / .` -/
def boxedUnknown : AGrammar := ⟨⟨[("r", .choice 3 [.act 1 (.str 0 "a") true ["f"], .any 2])]⟩, [], [], "StrStream", .debug⟩

/-- The grammar is accepted and compiled, but the generated functions are ill typed. -/
def IllTyped (A : AGrammar) (k : Nat) : Prop := A.Ready k ∧ A.Regular ∧ A.PlainRanges ∧
  ∃ T fs, typeInference A k (k + 2) (A.grammar.rules.length + 1) = .ok (.value T, []) ∧ compileGrammar T A.grammar.rules = .ok fs ∧ A.grammar.scopable T = true ∧
    ¬ A.WellTyped T fs

end Sample

theorem val_one {sg : Sigs} {Γ : TEnv} {x : Name} {u : RTy} (h : ValOk sg Γ (.tup [x]) u) : Γ x = some (.val u) := by
  cases h with
  | @tup _ ts h =>
    match ts, h with
    | [], h => simp [TEnv.Has] at h
    | [t], h => simpa [TEnv.Has, RTy.pack] using h
    | _ :: _ :: _, h => simp [TEnv.Has] at h

theorem call_known {sg : Sigs} {Γ : TEnv} {f : Path} {vs : List Name} {t u : RTy} (h : ValOk sg Γ (.call f vs) u) (hf : sg.function f = some t) : some t = some u := by
  cases h with
  | call _ h => rw [← hf, h]
  | callUnknown _ h => rw [hf] at h; cases h

/-- The two branches of a choice have the same type. -/
theorem two_branches {sg : Sigs} {ok : Name → VTy → Prop} {cl : Bool} {K : Nat → Option ClosureSig} {Γ : TEnv} {m b : Name} {l : String} {a a' k : Ex} {t : RTy}
    (h : ExOk sg ok K Γ (.state .unit) (.stmt (.letMark m) (.stmt (.letTrue b) (.bind (.ifPrefix l a a') (.ite (.var b) (.stmt (.restoreFailed cl m) (.bind k .st)) .st)))) t) :
    ∃ u v, ExOk sg ok K ((Γ.set m .stream).set b .bool) (.state .unit) a u ∧ ExOk sg ok K ((Γ.set m .stream).set b .bool) (.state .unit) k v ∧ u = v := by
  cases h with
  | stmt hs h =>
  cases hs with
  | letMark =>
  cases h with
  | stmt hs h =>
  cases hs with
  | letTrue =>
  cases h with
  | bind h1 h2 =>
  cases h1 with
  | ifPrefix h1 _ =>
  cases h2 with
  | ite _ h2 h3 =>
  cases h3 with
  | st =>
  cases h2 with
  | stmt hs h2 =>
  cases hs with
  | restoreFailed _ =>
  cases h2 with
  | bind h2 h3 =>
  cases h3 with
  | st => exact ⟨_, _, h1, h2, rfl⟩

/-- C49: the condition on references is needed: on `r = ("a" / "b") "c" / "d"` the only thing that is wrong is that a closure assigns its parameter `&mut bool`. -/
theorem C49_references_needed : Sample.IllTyped Sample.refs 7 ∧ Sample.refs.Agrees := by
  refine ⟨⟨ready_of (by decide +kernel), ⟨noSeenRec_of (fun _ => 0) (by decide +kernel), ?_⟩, ?_, _, _, rfl, rfl, by decide +kernel, ?_⟩, Sample.refs_agrees⟩
  · intro i es ho ⟨e, he, ht⟩
    cases Sample.refs_hidden ho he ht
  · intro i e ho
    have := occurs_subs ho
    simp [Sample.refs, subsAll, subs] at this
  · intro h
    obtain ⟨K, hK, _⟩ := (h "r" _ rfl).2.2.1 _ List.mem_cons_self
    cases hK with
    | @cons _ _ _ _ sig l1 _ _ _ _ _ hb _ =>
    clear h
    cases hb with
    | ifPrefix ha _ =>
    cases ha with
    | stmt hs _ =>
    cases hs with
    | setFalse hx =>
    obtain ⟨muts, vars, marks, ret⟩ := sig
    have l1 : muts.length = 1 := l1
    have hx : ClosureSig.env ⟨muts, vars, marks, ret⟩ ⟨1, [.branchFailed 1], [], [], .st⟩ (.branchFailed 1) = some .bool := hx
    match muts, l1 with
    | [t], _ => simp [ClosureSig.env, TEnv.setMany, TEnv.set] at hx

/-- The exact condition tells so. -/
example : ∃ T fs, typeInference Sample.refs 7 9 2 = .ok (.value T, []) ∧ compileGrammar T Sample.refs.grammar.rules = .ok fs ∧ Sample.refs.grammar.scopable T = true ∧
    Sample.refs.grammar.refable T = false := ⟨_, _, rfl, rfl, by decide +kernel, by decide +kernel⟩

/-- C49: the conditions on the Rust types are needed: branches of two Rust types, a function with a capital, and a box of unknown content in a choice with a character are
accepted. -/
theorem C49_agreement_needed : Sample.IllTyped Sample.unequal 5 ∧ Sample.IllTyped Sample.capital 2 ∧ Sample.IllTyped Sample.boxedUnknown 4 := by
  have reg : ∀ {A : AGrammar}, (A.grammar.rules.all fun r => r.2.seenCalls.all fun s => decide (0 < 0)) = true →
      (A.grammar.rules.all fun r => singles A.grammar r.2) = true → A.Regular := fun h1 h2 => ⟨noSeenRec_of (fun _ => 0) h1, unmixed_of h2⟩
  refine ⟨⟨ready_of (by decide +kernel), reg (by decide +kernel) (by decide +kernel), ?_, _, _, rfl, rfl, by decide +kernel, ?_⟩,
    ⟨ready_of (by decide +kernel), reg (by decide +kernel) (by decide +kernel), ?_, _, _, rfl, rfl, by decide +kernel, ?_⟩,
    ⟨ready_of (by decide +kernel), reg (by decide +kernel) (by decide +kernel), ?_, _, _, rfl, rfl, by decide +kernel, ?_⟩⟩
  · intro i e ho
    have := occurs_subs ho
    simp [Sample.unequal, subsAll, subs] at this
  · intro h
    obtain ⟨t, j, _, K, hK, hb⟩ := (h "r" _ rfl).2.2.2 _ (List.mem_cons_of_mem _ List.mem_cons_self)
    clear h hK
    obtain ⟨u, v, hu, hv, huv⟩ := two_branches hb
    cases hu with
    | stmt hs hu =>
    cases hs with
    | letVal _ hf =>
    cases hu with
    | stmt hs hu =>
    cases hs with
    | setFalse _ =>
    cases hu with
    | success hu =>
    cases hv with
    | ifPrefix hv _ =>
    cases hv with
    | stmt hs hv =>
    cases hs with
    | letVal _ hg =>
    cases hv with
    | success hv =>
    have hu := val_one hu
    have hv := val_one hv
    simp [TEnv.set] at hu hv
    subst hu hv
    have hf : _ = some _ := call_known hf rfl
    have hg : _ = some _ := call_known hg rfl
    rw [← Option.some.inj hf, ← Option.some.inj hg] at huv; simp at huv
  · intro i e ho
    have := occurs_subs ho
    simp [Sample.capital, subsAll, subs] at this
  · intro h
    obtain ⟨t, j, _, K, hK, hb⟩ := (h "r" _ rfl).2.2.2 _ (List.mem_cons_of_mem _ List.mem_cons_self)
    clear h hK
    cases hb with
    | ifPrefix hb _ =>
    cases hb with
    | stmt hs _ =>
    cases hs with
    | letVal _ hf =>
    cases hf with
    | path hf => cases hf
  · intro i e ho
    have := occurs_subs ho
    simp [Sample.boxedUnknown, subsAll, subs] at this
  · intro h
    obtain ⟨t, j, _, K, hK, hb⟩ := (h "r" _ rfl).2.2.2 _ (List.mem_cons_of_mem _ List.mem_cons_self)
    clear h hK
    obtain ⟨u, v, hu, hv, huv⟩ := two_branches hb
    cases hu with
    | stmt hs hu =>
    cases hs with
    | letVal _ hf =>
    cases hu with
    | stmt hs hu =>
    cases hs with
    | setFalse _ =>
    cases hu with
    | success hu =>
    cases hv with
    | matchNextVar _ hv _ =>
    cases hv with
    | success hv =>
    have hu := val_one hu
    have hv := val_one hv
    simp [TEnv.set] at hu hv
    subst hu hv huv
    cases hf

end Oak
