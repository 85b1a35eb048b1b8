import Verif.Proofs.Module
import Verif.Properties.RustTyping
/-!
C54: the module that `oak!` expands to.
-/
set_option autoImplicit false
set_option linter.constructorNameAsVariable false

namespace Oak

open Syntax Typing

theorem filterMap_user {β : Type} (g : MItem → Option β) (is : List Item) : (is.map MItem.user).filterMap g = is.filterMap fun i => g (.user i) := by
  rw [List.filterMap_map]; rfl

theorem filterMap_const {α β : Type} {g : α → Option β} {l : List α} (h : ∀ a ∈ l, g a = none) : l.filterMap g = [] := by
  rw [List.filterMap_eq_nil_iff]; exact h

theorem filterMap_all {α β : Type} {g : α → Option β} {f : α → β} {l : List α} (h : ∀ a ∈ l, g a = some (f a)) : l.filterMap g = l.map f := by
  induction l with
  | nil => rfl
  | cons a l ih => rw [List.filterMap_cons, h a (List.mem_cons_self ..), List.map_cons, ih fun b hb => h b (List.mem_cons_of_mem _ hb)]

/-- The parts of a module. -/
def moduleParts (is : List Item) (gs : List GenFn) (us : List RustFn) : List MItem :=
  [.use "oak_runtime::stream::*", .use "oak_runtime::str_stream::StrStream", .use "std::ops::Range"] ++
    is.map .user ++ gs.map .gen ++ us.map fun f => .user (.fn f)

theorem parts_filterMap {β : Type} (g : MItem → Option β) (is : List Item) (gs : List GenFn) (us : List RustFn) :
    (moduleParts is gs us).filterMap g =
    [.use "oak_runtime::stream::*", .use "oak_runtime::str_stream::StrStream", .use "std::ops::Range"].filterMap g ++
    is.filterMap (g ∘ .user) ++ gs.filterMap (g ∘ .gen) ++ us.filterMap (g ∘ fun f => .user (.fn f)) := by
  simp only [moduleParts, List.filterMap_append, List.filterMap_map]

theorem parts_spec {is : List Item} (hi : ∀ i ∈ is, i.fn? = none) (gs : List GenFn) (us : List RustFn) :
    imports (moduleParts is gs us) = ["oak_runtime::stream::*", "oak_runtime::str_stream::StrStream", "std::ops::Range"] ∧
    plainItems (moduleParts is gs us) = is ∧ userFns (moduleParts is gs us) = us ∧ genFns (moduleParts is gs us) = gs ∧
    fnNames (moduleParts is gs us) = gs.map (·.name) ++ us.map (·.name) := by
  have hf : ∀ i ∈ is, ∀ f, i ≠ .fn f := by
    rintro i hi' f rfl
    have := hi _ hi'
    cases this
  refine ⟨?_, ?_, ?_, ?_, ?_⟩
  · rw [imports, parts_filterMap, filterMap_const (l := is) (g := MItem.import? ∘ .user) fun _ _ => rfl,
      filterMap_const (l := gs) (g := MItem.import? ∘ .gen) fun _ _ => rfl, filterMap_const (l := us) (g := MItem.import? ∘ _) fun _ _ => rfl]; rfl
  · rw [plainItems, parts_filterMap, filterMap_all (l := is) (g := MItem.plain? ∘ .user) (f := id) fun a ha => by
        cases a <;> first | rfl | exact absurd rfl (hf _ ha _),
      filterMap_const (l := gs) (g := MItem.plain? ∘ .gen) fun _ _ => rfl, filterMap_const (l := us) (g := MItem.plain? ∘ _) fun _ _ => rfl]
    simp [MItem.plain?]
  · rw [userFns, parts_filterMap, filterMap_const (l := is) (g := MItem.userFn? ∘ .user) fun a ha => by
        cases a <;> first | rfl | exact absurd rfl (hf _ ha _),
      filterMap_const (l := gs) (g := MItem.userFn? ∘ .gen) fun _ _ => rfl,
      filterMap_all (l := us) (g := MItem.userFn? ∘ fun f => .user (.fn f)) (f := id) fun _ _ => rfl]
    simp [MItem.userFn?]
  · rw [genFns, parts_filterMap, filterMap_const (l := is) (g := MItem.gen? ∘ .user) fun _ _ => rfl,
      filterMap_all (l := gs) (g := MItem.gen? ∘ .gen) (f := id) fun _ _ => rfl,
      filterMap_const (l := us) (g := MItem.gen? ∘ _) fun _ _ => rfl]
    simp [MItem.gen?]
  · rw [fnNames, parts_filterMap, filterMap_const (l := is) (g := MItem.fnName? ∘ .user) fun a ha => by
        cases a <;> first | rfl | exact absurd rfl (hf _ ha _),
      filterMap_all (l := gs) (g := MItem.fnName? ∘ .gen) (f := (·.name)) fun _ _ => rfl,
      filterMap_all (l := us) (g := MItem.fnName? ∘ fun f => .user (.fn f)) (f := (·.name)) fun _ _ => rfl]
    simp [MItem.fnName?]

theorem findStream_mem {t : String} : ∀ {is : List Item}, findStream is = some t → .alias "Stream" t ∈ is
  | [], h => by cases h
  | .fn f :: is, h => List.mem_cons_of_mem _ (findStream_mem h)
  | .other f :: is, h => List.mem_cons_of_mem _ (findStream_mem h)
  | .alias m u :: is, h => by
    simp only [findStream] at h
    split at h
    · rename_i hm; cases h
      have : m = "Stream" := by simpa using hm
      rw [this]; exact List.mem_cons_self ..
    · exact List.mem_cons_of_mem _ (findStream_mem h)

variable {n : Nat} {ts : List Tok} {ms : List Msg} {ws : List TMsg} {A : AGrammar} {T : Nat → Ty} {fs : List (FnRef × Fn)}

/-- The steps of the generation of the module. -/
theorem module_steps (h : oak n ts = .ok (.code ms ws A T fs)) : ∃ F, Blocks ts F ∧ (F.rules.map (·.1)).Nodup ∧
    A.items = (F.items.filter fun i => i.fn?.isNone) ++ (if F.items.any Item.isStream then [] else [.alias "Stream" "StrStream"]) ∧
    A.functions.map (·.2) = F.items.filterMap Item.fn? ∧ ((F.items.filterMap Item.fn?).map (·.name)).Nodup ∧
    A.grammar.rules.map (·.1) = F.rules.map (·.1) ∧ findStream A.items = some A.streamAlias ∧ compileGrammar T A.grammar.rules = .ok fs ∧
    ∃ k, ∀ r ∈ A.grammar.rules, ∃ t, ∀ j, k ≤ j → compileType T j r.2.id = .ok t := by
  obtain ⟨F, k, B, h1, h2, rfl, h3, h4⟩ := oak_code h
  have hg : parseGrammar n ts = .ok F := parseGrammar_ok.2 ⟨k, h1⟩
  obtain ⟨s1, s2, s3, s4, s5⟩ := C44_stream B
  obtain ⟨i1, i2, i3, i4⟩ := analysis_items h2
  obtain ⟨c1, c2, c3, c4, c5, _⟩ := C43_accepted (C46_built hg) h2
  have H : Prepared (extractStream B) k := prepared_stream (prepared h1 h2).1
  rw [(filterMap_fns F.items).1] at i2 i3
  rw [(filterMap_fns F.items).2] at i1
  refine ⟨F.bare, (C39_reads ts F.bare).1 ⟨n, F, hg, rfl⟩, ?_, ?_, ?_, i3, ?_, s1, h4, k + 2, fun r hr => ?_⟩
  · have : F.bare.rules.map (·.1) = F.rules.map (·.1) := by simp [FGrammar.bare, Function.comp_def]
    rw [this]; exact c2
  · show _ = (F.items.filter fun i => i.fn?.isNone) ++ (if F.items.any Item.isStream then [] else [.alias "Stream" "StrStream"])
    have hs := findStream_some B.items
    rw [i1, filter_any] at hs
    unfold extractStream
    rw [i1]
    cases hf : findStream (F.items.filter fun i => i.fn?.isNone) with
    | some t => rw [hf] at hs; simp [← hs]
    | none => rw [hf] at hs; simp [← hs, i4]
  · rw [s5, i2]; rfl
  · have : F.bare.rules.map (·.1) = F.rules.map (·.1) := by simp [FGrammar.bare, Function.comp_def]
    rw [this, s4, ← c3, List.map_map]; rfl
  · have hk : typeInference (extractStream B) k (max n (k + 2)) (max n ((extractStream B).grammar.rules.length + 1)) = .ok (.value T, ws) := by
      rcases Typing.typeInference_mono (A := extractStream B) (k := k) (Nat.le_max_left n (k + 2))
        (Nat.le_max_left n ((extractStream B).grammar.rules.length + 1)) with h2 | h2 <;> rw [h3] at h2
      · cases h2
      · exact h2.symm
    exact C33_finite H.ready (Nat.le_max_right ..) (Nat.le_max_right ..) hk
      ⟨r.1, r.2, body_of_mem H.ready.names hr, .refl⟩

/-- The generated module. -/
theorem module_parts (h : oak n ts = .ok (.code ms ws A T fs)) (us : List RustFn) : (∀ i ∈ A.items, i.fn? = none) ∧ ∃ gs k,
    (∀ j, k ≤ j → compileModule j A T us = .ok (moduleParts A.items gs us)) ∧
    gs.map (fun g => (g.name, g.fn)) = fs.map (fun f => ((if f.1.parser then "parse_" else "recognize_") ++ f.1.path.headD "", f.2)) ∧
    gs.map (·.name) = (A.grammar.rules.map (·.1)).flatMap (fun r => ["recognize_" ++ r, "parse_" ++ r]) ∧
    (∀ g ∈ gs, g.stream = A.streamAlias) ∧
    ∀ g ∈ gs, ∃ r ∈ A.grammar.rules, (g.name = "recognize_" ++ r.1 ∧ g.mutState = true ∧ g.ty = .unit ∧ (⟨false, [r.1]⟩, g.fn) ∈ fs) ∨
      (g.name = "parse_" ++ r.1 ∧ (g.mutState = true ↔ T r.2.id ≠ .unit) ∧ (⟨true, [r.1]⟩, g.fn) ∈ fs ∧ ∀ j, k ≤ j → compileType T j r.2.id = .ok g.ty) := by
  obtain ⟨F, hF, hnd, hi, hfn, _, hr, hst, hc, k, hk⟩ := module_steps h
  obtain ⟨gs, g1, g2, g3, g4, g5⟩ := ruleItems_ok (n := k) (A := A) hc hk
  refine ⟨?_, gs, k, fun j hj => ?_, g2, ?_, g4, g5⟩
  · intro i hm
    rw [hi, List.mem_append] at hm
    rcases hm with hm | hm
    · simpa using (List.mem_filter.1 hm).2
    · split at hm
      · cases hm
      · rw [List.mem_singleton] at hm; rw [hm]; rfl
  · unfold compileModule; rw [g1 j hj]; rfl
  · rw [g3, List.flatMap_map]

/-- C54: the macro expands to the imports of the run-time, the items of the user, a default stream if the user gives none, the functions of the user, and a
recognizer and a parser for each rule, with the announced types; whatever the order in which the functions of the user are kept. -/
theorem C54_module (h : oak n ts = .ok (.code ms ws A T fs)) {F : FGrammar} (hF : Blocks ts F) {us : List RustFn} (hu : us.Perm (A.functions.map (·.2))) :
    ∃ M N, (∀ j, N ≤ j → compileModule j A T us = .ok M) ∧ ModuleOf F M ∧
    ∀ g ∈ genFns M, .alias "Stream" g.stream ∈ plainItems M ∧ ∃ r b, A.grammar.find r = some b ∧
      ((g.name = "recognize_" ++ r ∧ g.mutState = true ∧ g.ty = .unit ∧ (⟨false, [r]⟩, g.fn) ∈ fs) ∨
       (g.name = "parse_" ++ r ∧ (g.mutState = true ↔ T b.id ≠ .unit) ∧ (⟨true, [r]⟩, g.fn) ∈ fs ∧ ∀ j, N ≤ j → compileType T j b.id = .ok g.ty)) := by
  obtain ⟨F', hF', hnd, hi, hfn, _, hr, hst, _, _, _⟩ := module_steps h
  obtain rfl : F' = F := C39_unambiguous hF' hF
  obtain ⟨hi', gs, k, g1, g2, g3, g4, g5⟩ := module_parts h us
  obtain ⟨p1, p2, p3, p4, p5⟩ := parts_spec hi' gs us
  refine ⟨moduleParts A.items gs us, k, g1, ⟨p1, ?_, ?_, ?_, ?_⟩, ?_⟩
  · rw [p2, hi]
  · rw [p3, ← hfn]; exact hu
  · rw [p4, g3, hr, List.flatMap_map]
  · rw [p2, p3, p4]; simp [moduleParts]; omega
  · intro g hg
    rw [p4] at hg
    rw [p2, g4 g hg]
    refine ⟨findStream_mem hst, ?_⟩
    obtain ⟨r, hr', hh⟩ := g5 g hg
    refine ⟨r.1, r.2, ?_, hh⟩
    have hnd' : (A.grammar.rules.map (·.1)).Nodup := by rw [hr]; exact hnd
    exact body_of_mem hnd' hr'

theorem compileModule_eq {j k : Nat} {us : List RustFn} {M M' : List MItem} (hM : compileModule j A T us = .ok M)
    (h : ∀ j, k ≤ j → compileModule j A T us = .ok M') : M = M' := by
  have := compileModule_mono (Nat.le_max_left j k) hM
  rw [h _ (Nat.le_max_right j k)] at this
  cases this; rfl

/-- C54: the generated functions have different names. The names of all the functions of the module are different, as Rust requires, exactly when no function of
the user has the name of a generated function, which is not checked by the macro. -/
theorem C54_names (h : oak n ts = .ok (.code ms ws A T fs)) {F : FGrammar} (hF : Blocks ts F) {us : List RustFn} (hu : us.Perm (A.functions.map (·.2)))
    {j : Nat} {M : List MItem} (hM : compileModule j A T us = .ok M) : ((genFns M).map (·.name)).Nodup ∧
    ((fnNames M).Nodup ↔ ∀ f ∈ F.items.filterMap Item.fn?, ∀ r ∈ F.rules, f.name ≠ "recognize_" ++ r.1 ∧ f.name ≠ "parse_" ++ r.1) := by
  obtain ⟨F', hF', hnd, hi, hfn, hnf, hr, hst, _, _, _⟩ := module_steps h
  obtain rfl : F' = F := C39_unambiguous hF' hF
  obtain ⟨hi', gs, k, g1, g2, g3, g4, g5⟩ := module_parts h us
  obtain ⟨p1, p2, p3, p4, p5⟩ := parts_spec hi' gs us
  obtain rfl := compileModule_eq hM g1
  have hgn : (gs.map (·.name)).Nodup := by rw [g3, hr]; exact generated_nodup hnd
  rw [hfn] at hu
  refine ⟨by rw [p4]; exact hgn, ?_⟩
  rw [p5, List.nodup_append]
  have hun : (us.map (·.name)).Nodup := (hu.map _).nodup_iff.2 hnf
  constructor
  · rintro ⟨_, _, hd⟩ f hf r hr'
    have hf' : f.name ∈ us.map (·.name) := List.mem_map.2 ⟨f, hu.mem_iff.2 hf, rfl⟩
    have hx : r.1 ∈ F'.rules.map (·.1) := List.mem_map.2 ⟨r, hr', rfl⟩
    refine ⟨fun he => hd _ ?_ _ hf' he.symm, fun he => hd _ ?_ _ hf' he.symm⟩ <;> rw [g3, hr, List.mem_flatMap] <;> exact ⟨r.1, hx, by simp⟩
  · intro hd
    refine ⟨hgn, hun, fun a ha b hb => ?_⟩
    rw [g3, hr, List.mem_flatMap] at ha
    obtain ⟨x, hx, ha⟩ := ha
    obtain ⟨r, hr', rfl⟩ := List.mem_map.1 hx
    obtain ⟨f, hf, rfl⟩ := List.mem_map.1 hb
    have := hd f (hu.mem_iff.1 hf) r hr'
    simp only [List.mem_cons, List.not_mem_nil, or_false] at ha
    rcases ha with rfl | rfl
    · exact fun he => this.1 he.symm
    · exact fun he => this.2 he.symm

theorem find_linked {gs : List GenFn} {fs : List (FnRef × Fn)} (hp : ∀ f ∈ fs, ∃ r, f.1.path = [r])
    (h : gs.map (fun g => (g.name, g.fn)) = fs.map (fun f => ((if f.1.parser then "parse_" else "recognize_") ++ f.1.path.headD "", f.2))) (f : FnRef) :
    ((gs.find? fun g => [g.name] == f.callPath).map (·.fn)) = (fs.find? (·.1 == f)).map (·.2) := by
  induction fs generalizing gs with
  | nil => cases gs with
    | nil => rfl
    | cons g gs => simp at h
  | cons x fs ih =>
    cases gs with
    | nil => simp at h
    | cons g gs =>
      simp only [List.map_cons, List.cons.injEq, Prod.mk.injEq] at h
      have ih := ih (fun f hf => hp f (List.mem_cons_of_mem _ hf)) h.2
      obtain ⟨r, hr⟩ := hp x (List.mem_cons_self ..)
      obtain ⟨⟨q, path⟩, fn⟩ := x
      dsimp only at hr h
      subst hr
      have hk : ([g.name] == f.callPath) = ((⟨q, [r]⟩ : FnRef) == f) := by
        rw [h.1.1, show [r].headD "" = r from rfl, ← callPath_one, Bool.eq_iff_iff, beq_iff_eq, beq_iff_eq]
        exact ⟨callPath_inj, fun he => by rw [he]⟩
      rw [List.find?_cons, List.find?_cons, hk]
      dsimp only
      cases ((⟨q, [r]⟩ : FnRef) == f) with
      | true => simp [h.1.2]
      | false => exact ih

/-- C54: a call `recognize_p(state)` or `parse_p(state)` written in the generated code denotes, in the module, the function generated for `p` when `p` is a rule
of the grammar, and no generated function otherwise. -/
theorem C54_links (h : oak n ts = .ok (.code ms ws A T fs)) {us : List RustFn} {j : Nat} {M : List MItem}
    (hM : compileModule j A T us = .ok M) (f : FnRef) : linked M f.callPath = (Program.mk fs).find f := by
  obtain ⟨F, hF, hnd, hi, hfn, hnf, hr, hst, hc, _, _⟩ := module_steps h
  obtain ⟨hi', gs, k, g1, g2, g3, g4, g5⟩ := module_parts h us
  obtain ⟨p1, p2, p3, p4, p5⟩ := parts_spec hi' gs us
  obtain rfl := compileModule_eq hM g1
  rw [linked, p4]
  exact find_linked (fun f hf => by obtain ⟨r, _, hr⟩ := compileGrammar_ref hc f hf; exact ⟨_, hr⟩) g2 f

/-- C54: the rule `r` of the module `q` is called by the path `q::parse_r` or `q::recognize_r`. -/
theorem C54_external (p : Bool) (q : Path) (r : String) : FnRef.callPath ⟨p, q ++ [r]⟩ = q ++ [(if p then "parse_" else "recognize_") ++ r] := by
  have key : ∀ (s : String) (q : Path), modifyPath s (q ++ [r]) = q ++ [s ++ "_" ++ r] := by
    intro s q
    induction q with
    | nil => rfl
    | cons x q ih =>
      cases q with
      | nil => rfl
      | cons y q => exact congrArg (x :: ·) ih
  cases p <;> exact key _ q

/-- C54: different rules of any modules, and the recognizer and the parser of a rule, are called by different paths. -/
theorem C54_paths {f g : FnRef} (hf : f.path ≠ []) (hg : g.path ≠ []) (h : f.callPath = g.callPath) : f = g := by
  obtain ⟨p, fp⟩ := f
  obtain ⟨q, gp⟩ := g
  dsimp only at hf hg
  obtain ⟨a, x, rfl⟩ : ∃ a x, fp = a ++ [x] := ⟨_, _, (List.dropLast_concat_getLast hf).symm⟩
  obtain ⟨b, y, rfl⟩ : ∃ b y, gp = b ++ [y] := ⟨_, _, (List.dropLast_concat_getLast hg).symm⟩
  rw [C54_external, C54_external] at h
  obtain ⟨rfl, h1⟩ := List.append_inj' h rfl
  replace h := (List.cons.inj h1).1
  cases p <;> cases q <;> simp only [Bool.false_eq_true, if_true, if_false] at h
  · rw [prefix_inj h]
  · exact absurd h (prefix_ne _ _)
  · exact absurd h.symm (prefix_ne _ _)
  · rw [prefix_inj h]

/-! ### Cases that meet the hypotheses -/

example : FnRef.callPath ⟨true, ["json", "value"]⟩ = ["json", "parse_value"] := C54_external true ["json"] "value"

/-- C54: if the code generation of a rule panics, so does the expansion of the module. -/
theorem C54_panics {j : Nat} {us : List RustFn} {err : String} (ht : ∀ r ∈ A.grammar.rules, ∃ t, compileType T j r.2.id = .ok t)
    (h : compileGrammar T A.grammar.rules = .error err) : compileModule j A T us = .panic := by
  have key : ∀ rs : List (String × Expr), (∀ r ∈ rs, ∃ t, compileType T j r.2.id = .ok t) → compileGrammar T rs = .error err → ruleItems j A T rs = .panic := by
    intro rs
    induction rs with
    | nil => intro _ h; cases h
    | cons q rs ih =>
      obtain ⟨r, e⟩ := q
      intro ht h
      rw [compileGrammar] at h
      rw [ruleItems, recognizerItem, parserItem]
      cases h1 : compileRecognizer T e with
      | error x => rfl
      | ok a =>
        cases h2 : compileParser T r e with
        | error x => rfl
        | ok b =>
          rw [h1, h2] at h
          have hr : compileGrammar T rs = .error err := by
            cases h3 : compileGrammar T rs with
            | error x => rw [h3] at h; cases h; rfl
            | ok c => rw [h3] at h; cases h
          have := ih (fun r hr => ht r (List.mem_cons_of_mem _ hr)) hr
          obtain ⟨t, ht⟩ := ht (r, e) (List.mem_cons_self ..)
          dsimp only at ht
          rw [this, ht]
          simp only [orPanic, Res.bind_ok]
          split <;> rfl
  rw [compileModule, key _ ht h]
  rfl

/-- The types say two values for the choice, and one branch has one. -/
example : compileModule 9 { AGrammar.new with grammar := ⟨[("r", .choice 4 [.seq 2 [.any 0, .any 1], .any 3])]⟩ } (fun i => if i = 4 ∨ i = 2 then .tuple [0, 1] else .atom) [] = .panic :=
  C54_panics (by intro r hr; simp at hr; subst hr; exact ⟨_, rfl⟩) rfl

namespace Sample

/-- The module of the arithmetic grammar. -/
example : ∃ fs M N, oak 100 arithTokens = .ok (.code [] [] arith arithT fs) ∧
    (∀ j, N ≤ j → compileModule j arith arithT [⟨"to_num", .ty "u32"⟩, ⟨"add", .ty "u32"⟩] = .ok M) ∧
    (genFns M).map (·.name) = ["recognize_sum", "parse_sum", "recognize_term", "parse_term", "recognize_num", "parse_num"] ∧ (fnNames M).Nodup ∧
    plainItems M = [.alias "Stream" "StrStream"] ∧ ∀ f, linked M f.callPath = (Program.mk fs).find f := by
  obtain ⟨fs, h⟩ := arith_expands
  obtain ⟨F, hF, _⟩ := module_steps h
  have hp : [RustFn.mk "to_num" (.ty "u32"), ⟨"add", .ty "u32"⟩].Perm (arith.functions.map (·.2)) := List.Perm.swap ..
  obtain ⟨M, N, h1, h2, h3⟩ := C54_module h hF hp
  have hM : compileModule 100 arith arithT [⟨"to_num", .ty "u32"⟩, ⟨"add", .ty "u32"⟩] = .ok M := by
    have : ∃ M', compileModule 100 arith arithT [⟨"to_num", .ty "u32"⟩, ⟨"add", .ty "u32"⟩] = .ok M' := ⟨_, rfl⟩
    obtain ⟨M', h'⟩ := this
    rw [compileModule_eq h' h1] at h'
    exact h'
  refine ⟨fs, M, N, h, h1, ?_, ?_, ?_, fun f => C54_links h hM f⟩
  · have := hM
    cases this
    rfl
  · have := hM
    cases this
    decide +kernel
  · have := hM
    cases this
    rfl

/-- The tokens of `a = "x"` and `fn parse_a() {}`. -/
def clashTokens : List Tok := [.path ["a"], .punct '=' false, .lit "x", .item (.fn ⟨"parse_a", .default⟩)]

/-- C54: the macro gives a module that declares `parse_a` twice, and reports nothing. -/
theorem C54_clash : ∃ A T fs M, oak 100 clashTokens = .ok (.code [] [] A T fs) ∧ compileModule 100 A T (A.functions.map (·.2)) = .ok M ∧
    fnNames M = ["recognize_a", "parse_a", "parse_a"] := ⟨_, _, _, _, rfl, rfl, rfl⟩

end Sample

end Oak
