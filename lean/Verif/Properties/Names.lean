import Verif.Proofs.NamesCompile
import Verif.Properties.Samples
/-! # The identifiers of the generated code: C29 -/
set_option autoImplicit false
set_option linter.constructorNameAsVariable false

namespace Oak

/-- C29: the identifiers given by a new factory are all different, for every sequence of requests with at most 187263 requests of variables. -/
theorem C29_distinct (rs : List Request) (h : varRequests rs ≤ 187263) : (NameFactory.new.serveAll rs).Nodup := by
  rw [serveAll_giveAll]
  refine nodup_map_of_inj (giveAll_nodup _ _) fun a ha b hb hab => ?_
  refine sym_text_inj ?_ ?_ hab
  · rintro p i rfl
    have := giveAll_bound ha
    simp only [NameFactory.new] at this
    omega
  · rintro p i rfl
    have := giveAll_bound hb
    simp only [NameFactory.new] at this
    omega

example : NameFactory.new.serveAll [.mark, .closure, .mark, .counter, .branchFailed] =
    ["mark1", "success_continuation_1", "mark2", "counter1", "branch_failed_1"] := by decide +kernel
example : varPrefix 1 = ['b'] ∧ varPrefix 25 = ['z'] ∧ varPrefix 26 = ['a', 'b'] ∧ varPrefix 27 = ['b', 'b'] := by
  refine ⟨?_, ?_, ?_, ?_⟩ <;> simp only [varPrefix_pos, varPrefix_zero, Nat.reduceLT, Nat.reduceMod, Nat.reduceDiv] <;> decide +kernel
example : (NameFactory.new.serveAll [.vars 2, .mark, .vars 1, .closure, .mark]).Nodup := C29_distinct _ (by decide)

/-- C29: two requests of the same kind never get the same identifier, and identifiers of two kinds are the same only for the prefix `mark` (the
187264-th) with a mark, or the prefix `counter` (the 5308018614-th) with a counter. -/
theorem C29_collisions (a b : Name) : a.text = b.text ↔ a = b ∨ (∃ i, a = .var 187264 i ∧ b = .mark i) ∨ (∃ i, a = .mark i ∧ b = .var 187264 i) ∨
    (∃ i, a = .var 5308018614 i ∧ b = .counter i) ∨ (∃ i, a = .counter i ∧ b = .var 5308018614 i) := by
  rw [text_inj]
  unfold Name.collides
  constructor
  · rintro (h | ⟨i, h | h⟩ | ⟨i, h | h⟩)
    · exact .inl h
    · exact .inr (.inl ⟨i, h⟩)
    · exact .inr (.inr (.inr (.inl ⟨i, h⟩)))
    · exact .inr (.inr (.inl ⟨i, h.2, h.1⟩))
    · exact .inr (.inr (.inr (.inr ⟨i, h.2, h.1⟩)))
  · rintro (h | ⟨i, h⟩ | ⟨i, h⟩ | ⟨i, h⟩ | ⟨i, h⟩)
    · exact .inl h
    · exact .inr (.inl ⟨i, .inl h⟩)
    · exact .inr (.inr ⟨i, .inl ⟨h.2, h.1⟩⟩)
    · exact .inr (.inl ⟨i, .inr h⟩)
    · exact .inr (.inr ⟨i, .inr ⟨h.2, h.1⟩⟩)

theorem serveAll_replicate (n : Nat) (f : NameFactory) (rs : List Request) : f.serveAll (List.replicate n (.vars 0) ++ rs) =
    { f with prefixUid := f.prefixUid + n }.serveAll rs := by
  induction n generalizing f with
  | zero => rfl
  | succ n ih =>
    rw [List.replicate_succ, List.cons_append, NameFactory.serveAll, serve_next, NameFactory.next, ih]
    simp only [NameFactory.serve, NameFactory.freshVarNames, List.range_zero, List.map_nil, List.nil_append]
    rw [Nat.add_right_comm, Nat.add_assoc]

/-- C29: the bound is needed: with one more request of variables an identifier is given twice, `mark1`. -/
theorem C29_counterexample : ∃ rs, varRequests rs = 187264 ∧ ¬ (NameFactory.new.serveAll rs).Nodup := by
  have hv : ∀ n rs, varRequests (List.replicate n (.vars 0) ++ rs) = n + varRequests rs := by
    intro n rs
    induction n with
    | zero => simp
    | succ n ih => rw [List.replicate_succ, List.cons_append, varRequests, ih]; omega
  refine ⟨List.replicate 187263 (.vars 0) ++ [.vars 2, .mark], ?_, ?_⟩
  · rw [hv]; rfl
  · rw [serveAll_replicate]
    have h : NameFactory.serveAll { NameFactory.new with prefixUid := NameFactory.new.prefixUid + 187263 } [.vars 2, .mark] =
        [(Name.var 187264 0).text, (Name.var 187264 1).text, (Name.mark 1).text] := rfl
    have h1 : (Name.var 187264 1).text = (Name.mark 1).text := text_var_mark.2 ⟨rfl, rfl⟩
    rw [h, h1]
    simp

/-- The text of an identifier of the factory is a word followed by a number. -/
theorem give_shape {f : NameFactory} {rs : List Request} {s : String} (hf : 0 < f.prefixUid) (h : s ∈ f.serveAll rs) :
    ∃ w : List Char, ∃ n : Nat, s.toList = w ++ n.repr.toList ∧ w ≠ [] ∧ (∀ c ∈ w, c.isLower = true ∨ c = '_') ∧ w.head? ≠ some '_' := by
  rw [serveAll_giveAll] at h
  obtain ⟨a, ha, rfl⟩ := List.mem_map.1 h
  have hp : ∀ p i, a = .name (.var p i) → 0 < p := by
    rintro p i rfl
    have := giveAll_fresh ha
    simp only [Sym.old, NameFactory.old] at this
    omega
  have hkind : (∃ p i, a = .name (.var p i)) ∨ (∃ n, a = .name (.mark n)) ∨ (∃ n, a = .name (.branchFailed n)) ∨ (∃ n, a = .name (.counter n)) ∨
      ∃ k, a = .closure k := by
    clear h hp
    induction rs generalizing f with
    | nil => simp [NameFactory.giveAll] at ha
    | cons r rs ih =>
      simp only [NameFactory.giveAll, List.mem_append] at ha
      rcases ha with ha | ha
      · cases r <;> simp only [NameFactory.give, List.mem_map, List.mem_singleton] at ha
        · obtain ⟨i, _, rfl⟩ := ha; exact .inl ⟨_, _, rfl⟩
        · exact .inr (.inl ⟨_, ha⟩)
        · exact .inr (.inr (.inl ⟨_, ha⟩))
        · exact .inr (.inr (.inr (.inl ⟨_, ha⟩)))
        · exact .inr (.inr (.inr (.inr ⟨_, ha⟩)))
      · exact ih (Nat.lt_of_lt_of_le hf (serve_le f r).p) ha
  rcases hkind with ⟨p, i, rfl⟩ | ⟨n, rfl⟩ | ⟨n, rfl⟩ | ⟨n, rfl⟩ | ⟨k, rfl⟩
  · refine ⟨varPrefix p, i, (Name.var p i).toList_text, varPrefix_ne_nil (hp _ _ rfl), fun c hc => .inl (varPrefix_lower p c hc), ?_⟩
    intro h
    exact varPrefix_no_underscore p (List.mem_of_head? h)
  · exact ⟨_, n, (Name.mark n).toList_text, by simp [Name.stem], by simp only [Name.stem]; decide, by simp [Name.stem]⟩
  · exact ⟨_, n, (Name.branchFailed n).toList_text, by simp [Name.stem], by simp only [Name.stem]; decide, by simp [Name.stem]⟩
  · exact ⟨_, n, (Name.counter n).toList_text, by simp [Name.stem], by simp only [Name.stem]; decide, by simp [Name.stem]⟩
  · refine ⟨['s', 'u', 'c', 'c', 'e', 's', 's', '_', 'c', 'o', 'n', 't', 'i', 'n', 'u', 'a', 't', 'i', 'o', 'n', '_'], k, ?_, by simp, by decide, by simp⟩
    rw [← closure_stem]; exact closureText_toList k

/-- C29: every identifier of the factory is a Rust identifier (`format_ident!` does not panic): it begins with a letter or an underscore and continues with
letters, digits and underscores. -/
theorem C29_identifier {rs : List Request} {s : String} (h : s ∈ NameFactory.new.serveAll rs) :
    ∃ c cs, s.toList = c :: cs ∧ identStart c = true ∧ ∀ d ∈ cs, identChar d = true := by
  obtain ⟨w, n, hs, hw, hl, hu⟩ := give_shape (by decide) h
  cases w with
  | nil => exact absurd rfl hw
  | cons c w =>
    refine ⟨c, w ++ n.repr.toList, by rw [hs]; rfl, ?_, ?_⟩
    · rcases hl c (by simp) with hc | rfl
      · simp [identStart, Char.isAlpha, hc]
      · rfl
    · intro d hd
      rcases List.mem_append.1 hd with hd | hd
      · rcases hl d (by simp [hd]) with hc | rfl
        · simp [identChar, Char.isAlphanum, Char.isAlpha, hc]
        · rfl
      · simp [identChar, Char.isAlphanum, repr_digits n d hd]

/-- C29: every identifier of the factory ends with a digit: it is not one of the other names of the templates, a keyword, nor any user function whose name
does not end with a digit. -/
theorem C29_digit {rs : List Request} {s : String} (h : s ∈ NameFactory.new.serveAll rs) : ∃ c, s.toList.getLast? = some c ∧ c.isDigit = true := by
  obtain ⟨w, n, hs, _⟩ := give_shape (by decide) h
  have hn := repr_toList_ne n
  refine ⟨n.repr.toList.getLast hn, ?_, repr_digits n _ (List.getLast_mem hn)⟩
  rw [hs, List.getLast?_append, List.getLast?_eq_some_getLast hn]; rfl

/-- C29: the identifiers of the factory are not the other names of the templates. -/
theorem C29_reserved {rs : List Request} {s : String} (h : s ∈ NameFactory.new.serveAll rs) : s ∉ reservedNames := by
  obtain ⟨c, hc, hd⟩ := C29_digit h
  intro hs
  simp only [reservedNames, List.mem_cons, List.not_mem_nil, or_false] at hs
  rcases hs with rfl | rfl | rfl | rfl | rfl <;> (simp at hc; subst hc; revert hd; decide)

/-- C29: the context of the compiler takes its names from the factory. -/
theorem C29_context (c : Ctx) (n : Nat) (S : Ex) :
    ((c.nextMark.1.text, c.nextMark.2.names) = c.names.nextMarkName) ∧
    ((c.nextCounter.1.text, c.nextCounter.2.names) = c.names.nextCounterName) ∧
    ((c.nextBranchFailed.1.text, c.nextBranchFailed.2.names) = c.names.nextBranchFailedName) ∧
    (((c.freshVars n).1.map Name.text, (c.freshVars n).2.names) = c.names.freshVarNames n) ∧
    (0 < c.ncomb → ∃ k, (c.successAsClosure S).1 = .call k c.muts c.fv c.marks ∧
      (closureText k, (c.successAsClosure S).2.names) = c.names.nextClosureName) := by
  refine ⟨rfl, rfl, rfl, ?_, ?_⟩
  · simp only [Ctx.freshVars, NameFactory.freshVarNames, NameFactory.nextVarPrefix, List.map_map]; rfl
  · intro h
    refine ⟨c.names.closureUid + 1, ?_, ?_⟩ <;> simp only [Ctx.successAsClosure, h, if_true, gt_iff_lt] <;> rfl

/-- C29: in the functions generated for a rule of at most 187262 expressions, two names are the same only when they come from the same request, so that
distinct variables of the generated code are distinct for rustc. -/
theorem C29_generated {T : Nat → Ty} {r : String} {e : Expr} {f : Fn} (h : compileRecognizer T e = .ok f ∨ compileParser T r e = .ok f)
    (hn : e.nodes ≤ 187262) {x y : Name} (hx : x ∈ f.names) (hy : y ∈ f.names) : x.text = y.text ↔ x = y := by
  have key : ∃ fac : NameFactory, fac.prefixUid ≤ e.nodes + 2 ∧ ∀ x ∈ f.names, fac.known x := by
    rcases h with h | h
    · obtain ⟨fac, h1, h2⟩ := recognizer_names h
      exact ⟨fac, by omega, h2⟩
    · exact parser_names h
  obtain ⟨fac, h1, h2⟩ := key
  refine ⟨?_, fun h => by rw [h]⟩
  intro hxy
  have hb : ∀ z ∈ f.names, ∀ p i, Sym.name z = .name (.var p i) → p < 187264 := by
    rintro z hz p i h
    cases h
    rcases h2 _ hz with h3 | h3 | h3
    · simp only [NameFactory.old] at h3; omega
    · cases h3
    · cases h3
  have := sym_text_inj (hb x hx) (hb y hy) hxy
  cases this
  rfl

example : Sample.sum.rules.all (fun r => decide (r.2.nodes ≤ 187262)) = true := by decide

/-- C29: closures have names of their own. -/
theorem C29_closures (k j : Nat) (x : Name) : (closureText k = closureText j ↔ k = j) ∧ closureText k ≠ x.text :=
  ⟨⟨closureText_inj, fun h => by rw [h]⟩, closureText_ne k x⟩

theorem ident_inj {p q : Bool} {r s : String} (h : FnRef.ident p r = FnRef.ident q s) : p = q ∧ r = s := by
  have h1 : (FnRef.ident p r).toList = (FnRef.ident q s).toList := by rw [h]
  have e1 : "parse_".toList = ['p', 'a', 'r', 's', 'e', '_'] := by decide +kernel
  have e2 : "recognize_".toList = ['r', 'e', 'c', 'o', 'g', 'n', 'i', 'z', 'e', '_'] := by decide +kernel
  cases p <;> cases q <;> simp only [FnRef.ident, if_true, Bool.false_eq_true, if_false, String.toList_append, e1, e2] at h1
  · exact ⟨rfl, String.toList_inj.1 (by simpa using h1)⟩
  · simp at h1
  · simp at h1
  · exact ⟨rfl, String.toList_inj.1 (by simpa using h1)⟩

/-- C29: two references to generated or external functions are written in the same way only when they are the same: `parse_r` and `recognize_s` differ for all
rules, as do the functions of two rules. -/
theorem C29_functions {f g : FnRef} (hf : f.path ≠ []) (hg : g.path ≠ []) : f.text = g.text ↔ f = g := by
  refine ⟨?_, fun h => by rw [h]⟩
  intro h
  obtain ⟨p, path⟩ := f
  obtain ⟨q, path'⟩ := g
  simp only at hf hg
  unfold FnRef.text at h
  simp only [List.getLast?_eq_some_getLast hf, List.getLast?_eq_some_getLast hg] at h
  obtain ⟨h1, h2⟩ := List.append_inj' h rfl
  obtain ⟨rfl, h3⟩ := ident_inj (List.cons.inj h2).1
  have : path = path' := by
    rw [← List.dropLast_concat_getLast hf, ← List.dropLast_concat_getLast hg, h1, h3]
  rw [this]

/-- C29: a call to a rule is written as the name of its function. -/
theorem C29_call (p : Bool) (r : String) : FnRef.text ⟨p, [r]⟩ = [FnRef.ident p r] := rfl

/-- C29: a call to an external rule keeps the path of its module. -/
theorem C29_external_call (p : Bool) (m : Path) (r : String) : FnRef.text ⟨p, m ++ [r]⟩ = m ++ [FnRef.ident p r] := by
  simp [FnRef.text]

end Oak
