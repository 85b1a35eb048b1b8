import Verif.Proofs.CalcParser
/-!
Writing the expressions of the calculator.
-/
set_option linter.constructorNameAsVariable false
set_option autoImplicit false

namespace Oak.Calculator
open Oak Spec

theorem lastDigit_digit (n : Nat) : isDigit (lastDigit n) = true := by
  have h : n % 10 < 10 := Nat.mod_lt _ (by decide)
  unfold lastDigit
  generalize n % 10 = k at h
  match k, h with
  | 0, _ | 1, _ | 2, _ | 3, _ | 4, _ | 5, _ | 6, _ | 7, _ | 8, _ | 9, _ => decide
  | k + 10, h => omega

theorem lastDigit_val (n : Nat) : (lastDigit n).toNat - '0'.toNat = n % 10 := by
  have h : n % 10 < 10 := Nat.mod_lt _ (by decide)
  unfold lastDigit
  generalize n % 10 = k at h
  match k, h with
  | 0, _ | 1, _ | 2, _ | 3, _ | 4, _ | 5, _ | 6, _ | 7, _ | 8, _ | 9, _ => decide
  | k + 10, h => omega

theorem digits_ok (n : Nat) : digits n ≠ [] ∧ (∀ c ∈ digits n, isDigit c = true) ∧ decimal (digits n) = n := by
  induction n using Nat.strongRecOn with
  | _ n ih =>
    rw [digits]
    split
    · rename_i h
      refine ⟨by simp, by simpa using lastDigit_digit n, ?_⟩
      simp only [decimal, List.foldl_cons, List.foldl_nil, lastDigit_val]
      omega
    · rename_i h
      obtain ⟨h1, h2, h3⟩ := ih (n / 10) (by omega)
      refine ⟨by simp, ?_, ?_⟩
      · intro c hc
        rcases List.mem_append.1 hc with hc | hc
        · exact h2 c hc
        · rw [List.mem_singleton.1 hc]; exact lastDigit_digit n
      · unfold decimal at h3 ⊢
        rw [List.foldl_append, h3]
        simp only [List.foldl_cons, List.foldl_nil, lastDigit_val]
        omega

/-- The lexemes of the text. -/
def Term.lexemes : Term → List Lexeme
  | .var x => [.name x]
  | .num n => [.num (digits n)]
  | .bin o a b => .sym '(' :: (a.lexemes ++ .sym o.sym :: b.lexemes) ++ [.sym ')']
  | .letIn x v b => .sym '(' :: (.kwLet :: .name x :: .sym '=' :: v.lexemes ++ .kwIn :: b.lexemes) ++ [.sym ')']

theorem lexemes_factor (t : Term) : Factor t t.lexemes false := by
  induction t with
  | var x => exact .var
  | num n =>
    have := Factor.num (ds := digits n)
    rw [(digits_ok n).2.2] at this
    exact this
  | bin o a b iha ihb =>
    refine .paren (o := false) ?_
    cases o with
    | add => exact .bin (op := .add) (.inl rfl) (.one (.one (.one iha))) (.one (.one ihb))
    | sub => exact .bin (op := .sub) (.inr rfl) (.one (.one (.one iha))) (.one (.one ihb))
    | mul => exact .one (.bin (op := .mul) (.inl rfl) (.one (.one iha)) (.one ihb))
    | div => exact .one (.bin (op := .div) (.inr rfl) (.one (.one iha)) (.one ihb))
    | exp => exact .one (.one (.exp iha (.one ihb)))
  | letIn x v b ihv ihb =>
    exact .paren (o := true) (.one (.one (.one (.letIn (.one (.one (.one ihv))) (.one (.one (.one ihb)))))))

theorem space_not_word {c : Char} (h : isWord c = true) : isSpace c = false := by
  cases hs : isSpace c with
  | false => rfl
  | true =>
    simp only [isSpace, Bool.or_eq_true, decide_eq_true_eq] at hs
    exfalso
    rcases hs with ((rfl | rfl) | rfl) | rfl <;> revert h <;> decide

theorem word_of_digit {c : Char} (h : isDigit c = true) : isWord c = true := by simp [isWord, h]

theorem notStart_mono {p q : Char → Bool} (h : ∀ c, p c = true → q c = true) {s : List Char} (hs : NotStart q s) : NotStart p s := by
  cases s with
  | nil => trivial
  | cons c s =>
    simp only [NotStart] at hs ⊢
    cases hp : p c with
    | false => rfl
    | true => rw [h c hp] at hs; cases hs

theorem words_start {x r : List Char} (hne : x ≠ []) (h : ∀ c ∈ x, isWord c = true) : NotStart isSpace (x ++ r) := by
  cases x with
  | nil => exact absurd rfl hne
  | cons c x => exact space_not_word (h c (by simp))

theorem text_start {t : Term} (h : t.Named) (r : List Char) : NotStart isSpace (t.text ++ r) := by
  cases t with
  | var x => exact words_start h.1 h.2.1
  | num n => exact words_start (digits_ok n).1 fun c hc => word_of_digit ((digits_ok n).2.1 c hc)
  | bin o a b => simp [Term.text, NotStart, isSpace]
  | letIn x v b => simp [Term.text, NotStart, isSpace]

theorem spaces_none {s : List Char} (h : NotStart isSpace s) : Spaces s s := ⟨[], rfl, by simp, h⟩

theorem spaces_one {s : List Char} (h : NotStart isSpace s) : Spaces (' ' :: s) s := ⟨[' '], rfl, by decide, h⟩

theorem reads_sym {c : Char} {m s : List Char} (h : Spaces m s) : Reads (.sym c) (c :: m) s :=
  ⟨trivial, m, rfl, by cases m <;> simp [NotStart, Lexeme.glues], h⟩

theorem text_lex {t : Term} (h : t.Named) : ∀ m rest, NotStart isWord m → Spaces m rest → Lex t.lexemes (t.text ++ m) rest := by
  induction t with
  | var x =>
    intro m rest hw hs
    exact lex_cons.2 ⟨rest, ⟨h, m, rfl, hw, hs⟩, .nil⟩
  | num n =>
    intro m rest hw hs
    exact lex_cons.2 ⟨rest, ⟨⟨(digits_ok n).1, (digits_ok n).2.1⟩, m, rfl, notStart_mono (fun c => word_of_digit) hw, hs⟩, .nil⟩
  | bin o a b iha ihb =>
    intro m rest hw hs
    simp only [Term.lexemes, Term.text, List.cons_append, List.append_assoc, List.nil_append, lex_cons, lex_append, lex_nil]
    have ho : isSpace o.sym = false ∧ isWord o.sym = false := by cases o <;> decide
    refine ⟨_, reads_sym (spaces_none (text_start h.1 _)), o.sym :: (b.text ++ ')' :: m), iha h.1 _ _ ho.2 (spaces_none ho.1), _,
      reads_sym (spaces_none (text_start h.2 _)), ')' :: m, ihb h.2 _ _ (by simp [NotStart]; decide) (spaces_none (by simp [NotStart]; decide)), rest, reads_sym hs, rfl⟩
  | letIn x v b ihv ihb =>
    intro m rest hw hs
    obtain ⟨hx, hv, hb⟩ := h
    simp only [Term.lexemes, Term.text, List.cons_append, List.append_assoc, List.nil_append, lex_cons, lex_append, lex_nil]
    have e1 : NotStart isWord ('=' :: (v.text ++ ' ' :: 'i' :: 'n' :: ' ' :: (b.text ++ ')' :: m))) := by simp [NotStart]; decide
    have e2 : NotStart isSpace ('=' :: (v.text ++ ' ' :: 'i' :: 'n' :: ' ' :: (b.text ++ ')' :: m))) := by simp [NotStart]; decide
    refine ⟨'l' :: 'e' :: 't' :: ' ' :: (x ++ '=' :: (v.text ++ ' ' :: 'i' :: 'n' :: ' ' :: (b.text ++ ')' :: m))), reads_sym (spaces_none (by simp [NotStart]; decide)),
      x ++ '=' :: (v.text ++ ' ' :: 'i' :: 'n' :: ' ' :: (b.text ++ ')' :: m)), ⟨trivial, _, rfl, by simp [NotStart, Lexeme.glues]; decide, spaces_one (words_start hx.1 hx.2.1)⟩,
      '=' :: (v.text ++ ' ' :: 'i' :: 'n' :: ' ' :: (b.text ++ ')' :: m)), ⟨hx, _, rfl, e1, spaces_none e2⟩, v.text ++ ' ' :: 'i' :: 'n' :: ' ' :: (b.text ++ ')' :: m),
      reads_sym (spaces_none (text_start hv _)), 'i' :: 'n' :: ' ' :: (b.text ++ ')' :: m), ihv hv _ _ (by simp [NotStart]; decide) (spaces_one (by simp [NotStart]; decide)),
      b.text ++ ')' :: m, ⟨trivial, ' ' :: (b.text ++ ')' :: m), rfl, by simp [NotStart, Lexeme.glues]; decide, spaces_one (text_start hb _)⟩, ')' :: m,
      ihb hb _ _ (by simp [NotStart]; decide) (spaces_none (by simp [NotStart]; decide)), rest, reads_sym hs, rfl⟩

/-- Expressions can be written. -/
theorem text_written {t : Term} (h : t.Named) : Written t t.text := by
  refine ⟨[], t.text, t.lexemes, false, rfl, by simp, ?_, ?_, .one (.one (.one (lexemes_factor t)))⟩
  · have := text_start h []
    rwa [List.append_nil] at this
  · have := text_lex h [] [] trivial (spaces_none trivial)
    rwa [List.append_nil] at this

/-- Only names can be written. -/
theorem written_named {t : Term} {s : List Char} (h : Written t s) : t.Named := by
  obtain ⟨_, s1, ls, o, _, _, _, hl, hs⟩ := h
  refine Sum.rec (motive_1 := fun t ls _ _ => ∀ s rest, Lex ls s rest → t.Named) (motive_2 := fun t ls _ _ => ∀ s rest, Lex ls s rest → t.Named)
    (motive_3 := fun t ls _ _ => ∀ s rest, Lex ls s rest → t.Named) (motive_4 := fun t ls _ _ => ∀ s rest, Lex ls s rest → t.Named) ?_ ?_ ?_ ?_ ?_ ?_ ?_ ?_ ?_ ?_ hs _ _ hl
  · intro ds s rest _; trivial
  · intro x s rest h
    obtain ⟨_, h, _⟩ := lex_cons.1 h
    exact h.1
  · intro x v b lv lb o o' _ _ ihv ihb s rest h
    simp only [List.cons_append, lex_cons, lex_append] at h
    obtain ⟨s1, h1, s2, h2, s3, h3, s4, hv, s5, h5, hb⟩ := h
    exact ⟨h2.1, ihv _ _ hv, ihb _ _ hb⟩
  · intro t ls o _ ih s rest h
    simp only [List.cons_append, lex_cons, lex_append] at h
    obtain ⟨s1, h1, s2, hv, s3, h3, hn⟩ := h
    exact ih _ _ hv
  · intro t ls o _ ih; exact ih
  · intro a b la lb o _ _ iha ihb s rest h
    simp only [lex_cons, lex_append] at h
    obtain ⟨m, ha, m', hr, hb⟩ := h
    exact ⟨iha _ _ ha, ihb _ _ hb⟩
  · intro t ls o _ ih; exact ih
  · intro op a b la lb o _ _ _ iha ihb s rest h
    simp only [lex_cons, lex_append] at h
    obtain ⟨m, ha, m', hr, hb⟩ := h
    exact ⟨iha _ _ ha, ihb _ _ hb⟩
  · intro t ls o _ ih; exact ih
  · intro op a b la lb o _ _ _ iha ihb s rest h
    simp only [lex_cons, lex_append] at h
    obtain ⟨m, ha, m', hr, hb⟩ := h
    exact ⟨iha _ _ ha, ihb _ _ hb⟩

/-! ## Panics -/

theorem panics_app {f : Path} {vs : List Val} : Panics (.app f vs) ↔ (∃ ds, f = ["to_number"] ∧ vs = [.list (ds.map .chr)] ∧ 2 ^ 32 ≤ decimal ds) ∨ ∃ v ∈ vs, Panics v := by
  constructor
  · intro h
    cases h with
    | number h => exact .inl ⟨_, rfl, rfl, h⟩
    | app h1 h2 => exact .inr ⟨_, h1, h2⟩
  · rintro (⟨ds, rfl, rfl, h⟩ | ⟨v, h1, h2⟩)
    · exact .number h
    · exact .app h1 h2

theorem panics_list {vs : List Val} : Panics (.list vs) ↔ ∃ v ∈ vs, Panics v :=
  ⟨fun h => by cases h with | list h1 h2 => exact ⟨_, h1, h2⟩, fun ⟨_, h1, h2⟩ => .list h1 h2⟩

theorem panics_tup {vs : List Val} : Panics (.tup vs) ↔ ∃ v ∈ vs, Panics v :=
  ⟨fun h => by cases h with | tup h1 h2 => exact ⟨_, h1, h2⟩, fun ⟨_, h1, h2⟩ => .tup h1 h2⟩

theorem panics_chars {x : List Char} : ¬ Panics (.list (x.map .chr)) := by
  intro h
  obtain ⟨v, hv, h⟩ := panics_list.1 h
  obtain ⟨c, _, rfl⟩ := List.mem_map.1 hv
  cases h

theorem panics_name {x : List Char} : ¬ Panics (nameVal x) := by
  simp [nameVal, panics_app, panics_chars]

theorem panics_op {o : Op} : ¬ Panics (opVal o) := by
  cases o <;> simp [opVal, opName, panics_app]

theorem denotes_panics {v : Val} {t : Term} (h : Denotes v t) : Panics v ↔ ¬ t.Small := by
  induction h with
  | @number ds =>
    have hn : Panics (.app ["to_number"] [.list (ds.map .chr)]) ↔ 2 ^ 32 ≤ decimal ds := by
      constructor
      · intro h
        rcases panics_app.1 h with ⟨ds', _, h1, h2⟩ | ⟨v, hv, h⟩
        · simp only [List.cons.injEq, Val.list.injEq, and_true] at h1
          rw [chars_inj h1]; exact h2
        · rw [List.mem_singleton.1 hv] at h
          exact absurd h panics_chars
      · exact .number
    rw [panics_app]
    simp only [List.mem_singleton, exists_eq_left, hn, Term.Small, Nat.not_lt]
    simp
  | var => simp [panics_app, panics_name, Term.Small]
  | letIn _ _ ih1 ih2 =>
    rw [panics_app]
    simp only [List.mem_cons, List.not_mem_nil, or_false, exists_eq_or_imp, exists_eq_left, ih1, ih2, panics_name, false_or, Term.Small, Classical.not_and_iff_not_or_not]
    simp
  | leftNil _ ih => simpa [panics_app, panics_list] using ih
  | leftSnoc _ _ ih1 ih2 =>
    simp only [panics_app, panics_list, List.mem_cons, List.not_mem_nil, or_false, exists_eq_or_imp, exists_eq_left, List.mem_append, or_and_right, exists_or, panics_tup, panics_op,
      false_or, ih2, Term.Small, Classical.not_and_iff_not_or_not] at ih1 ⊢
    rw [← ih1]
    simp [or_assoc]
  | rightNil _ ih => simpa [panics_app, panics_list] using ih
  | rightCons _ _ ih1 ih2 =>
    simp only [panics_app, panics_list, List.mem_cons, List.not_mem_nil, or_false, exists_eq_or_imp, exists_eq_left, panics_tup, panics_op,
      ih1, Term.Small, Classical.not_and_iff_not_or_not] at ih2 ⊢
    rw [← ih2]
    simp [or_assoc]

end Oak.Calculator
