import Verif.Proofs.RustScope
import Verif.Proofs.NamesCompile
/-! The generated functions are well typed. -/
set_option autoImplicit false
set_option linter.constructorNameAsVariable false

namespace Oak

section
variable {sg : Sigs} {T : Nat → Ty}

theorem cloTyped_nil (a : Asg) : CloTyped sg a [] := by
  intro pre c post h; simp at h

theorem Extends.some {c c' : Ctx} {Q : Asg → Prop} (h : Extends c c' Q) : ∃ a, Q a :=
  ⟨h.2.2.choose, h.2.2.choose_spec _ ⟨fun _ _ _ => rfl, fun _ _ _ => rfl⟩⟩

theorem marks_stream {a : Asg} {cs : List Closure} (h : ∀ cl ∈ cs, ∀ x ∈ cl.marks, ∃ n, x = Name.mark n) : ∀ c ∈ cs, ∀ m ∈ c.marks, a.ty m = .stream := by
  intro c hc m hm
  obtain ⟨n, rfl⟩ := h c hc m hm
  rfl

/-- Recognizers. -/
theorem recognizer_typed {e : Expr} {f : Fn} (h : compileRecognizer T e = .ok f) (hr : f.refOk = true) :
    ∃ a : Asg, Asgd sg T a false e Ctx.new.names.prefixUid ∧ FnTyped sg (fun x t => a.ty x = t) f .unit := by
  have hs := recognizer_scopeOk h
  have hm := recognizer_marks h
  unfold compileRecognizer at h
  obtain ⟨⟨body, c⟩, h1, h⟩ := except_bind_eq_ok h
  cases h
  obtain ⟨a, ha⟩ := (types_all (sg := sg) e false _ _ _ _ [] .unit h1 (gives_false e)).some
  have hv : ValOk sg a.env (.tup []) .unit := .tup (ts := []) rfl
  have := ha.2 ⟨[], [], rfl, rfl⟩ (cloTyped_nil a) (.success hv)
  exact ⟨a, ha.1, fn_ok this.clo this.code hs hr (marks_stream hm)⟩

theorem recognizer_fnOk {e : Expr} {f : Fn} (h : compileRecognizer T e = .ok f) (hr : f.refOk = true) : FnOk sg f .unit :=
  (recognizer_typed (sg := sg) h hr).choose_spec.2.ok

/-- Parsers. -/
theorem parser_typed {r : String} {e : Expr} {f : Fn} {ts : List RTy} (h : compileParser T r e = .ok f) (hT : T e.id ≠ .unit) (hg : Gives sg T true e ts)
    (hl : ts.length = (T e.id).card) (hsc : scopable T true false e = true) (hr : f.refOk = true) :
    ∃ a : Asg, (Ctx.new.openScope (T e.id).card).2.fv.map a.ty = ts.map .val ∧
      Asgd sg T a true e (Ctx.new.openScope (T e.id).card).2.names.prefixUid ∧ FnTyped sg (fun x t => a.ty x = t) f (.pack ts) := by
  have hz := gives_sized e _ _ hg
  have hs := parser_scopeOk h (.inr ⟨hz.1, by rw [hz.2, hl]⟩) (.inr hsc)
  have hm := parser_marks h
  unfold compileParser at h
  rw [if_neg hT] at h
  obtain ⟨⟨body, c⟩, h1, h⟩ := except_bind_eq_ok h
  obtain ⟨c2, h2, h⟩ := except_bind_eq_ok h
  cases h
  obtain ⟨e1, rfl⟩ := closeScope_eq h2
  obtain ⟨a, ho, ha⟩ := ((openScope_types Ctx.new hl).trans (types_all (sg := sg) e true _ _ _ _ ts (.pack ts) h1 hg)).some
  have hv : ValOk sg a.env (.tup (Ctx.new.openScope (T e.id).card).2.fv) (.pack ts) := .tup (ts := ts) (by rw [← ho]; exact a.has _)
  have := ha.2 ⟨[], _, rfl, ho⟩ (cloTyped_nil a) (.success hv)
  exact ⟨a, ho, ha.1, fn_ok this.clo this.code hs hr (marks_stream hm)⟩

theorem parser_fnOk {r : String} {e : Expr} {f : Fn} {ts : List RTy} (h : compileParser T r e = .ok f) (hT : T e.id ≠ .unit) (hg : Gives sg T true e ts)
    (hl : ts.length = (T e.id).card) (hsc : scopable T true false e = true) (hr : f.refOk = true) : FnOk sg f (.pack ts) :=
  (parser_typed h hT hg hl hsc hr).choose_spec.2.2.ok

/-- The parser of a rule that gives no value. -/
theorem alias_typed {r : String} {e : Expr} {f : Fn} (h : compileParser T r e = .ok f) (hT : T e.id = .unit) : FnTyped sg (fun x t => (fun _ : Name => VTy.bool) x = t) f .unit := by
  unfold compileParser at h
  rw [if_pos hT] at h
  cases h
  exact ⟨_, .nil, .stmt .recognize .st⟩

/-- All the functions of a grammar. -/
theorem grammar_fnTyped {rules : List (String × Expr)} {fs : List (FnRef × Fn)} (h : compileGrammar T rules = .ok fs)
    (hg : ∀ r ∈ rules, T r.2.id ≠ .unit → ∃ ts, Gives sg T true r.2 ts ∧ ts.length = (T r.2.id).card ∧ sg.parser [r.1] (.pack ts))
    (hu : ∀ r ∈ rules, T r.2.id = .unit → sg.parser [r.1] .unit)
    (hsc : ∀ r ∈ rules, T r.2.id = .unit ∨ scopable T true false r.2 = true) (hr : ∀ f ∈ fs, f.2.refOk = true) :
    ∀ f ∈ fs, ∃ ty : Name → VTy, if f.1.parser then ∃ t, sg.parser f.1.path t ∧ FnTyped sg (fun x t => ty x = t) f.2 t else FnTyped sg (fun x t => ty x = t) f.2 .unit := by
  induction rules generalizing fs with
  | nil => cases h; simp
  | cons r rs ih =>
    obtain ⟨r, e⟩ := r
    simp only [compileGrammar] at h
    obtain ⟨f, h1, h⟩ := except_bind_eq_ok h
    obtain ⟨g, h2, h⟩ := except_bind_eq_ok h
    obtain ⟨fs', h3, h⟩ := except_bind_eq_ok h
    cases h
    intro x hx
    simp only [List.mem_cons] at hx
    rcases hx with rfl | rfl | hx
    · obtain ⟨a, _, ha⟩ := recognizer_typed (sg := sg) (T := T) h1 (hr (⟨false, [r]⟩, f) List.mem_cons_self)
      exact ⟨a.ty, ha⟩
    · by_cases hT : T e.id = .unit
      · exact ⟨_, _, hu (r, e) (by simp) hT, alias_typed h2 hT⟩
      · obtain ⟨ts, k1, k2, k3⟩ := hg (r, e) (by simp) hT
        obtain ⟨a, _, _, ha⟩ := parser_typed h2 hT k1 k2 ((hsc (r, e) (by simp)).resolve_left hT) (hr (⟨true, [r]⟩, g) (by simp))
        exact ⟨a.ty, _, k3, ha⟩
    · exact ih h3 (fun r hr => hg r (by simp [hr])) (fun r hr => hu r (by simp [hr])) (fun r hr => hsc r (by simp [hr])) (fun f hf => hr f (by simp [hf])) x hx

end

end Oak
