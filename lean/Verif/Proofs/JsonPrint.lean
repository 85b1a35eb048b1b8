import Verif.Proofs.JsonParser
import Verif.Proofs.CalcPrint
import Verif.Spec.Calls
/-!
Writing JSON data, and the numbers of a data.
-/
set_option linter.constructorNameAsVariable false
set_option autoImplicit false

namespace Oak.JsonText
open Oak Spec Calculator

theorem lexed_valid {ls s rest} (h : Lexed ls s rest) : ∀ l ∈ ls, l.Valid := by
  induction h with
  | nil => simp
  | cons h1 _ _ _ _ ih =>
    intro l hl
    rcases List.mem_cons.1 hl with rfl | hl
    · exact h1
    · exact ih l hl

theorem value_writable {d ls} (h : Value d ls) : (∀ l ∈ ls, l.Valid) → d.Writable := by
  refine Value.rec (motive_1 := fun d ls _ => (∀ l ∈ ls, l.Valid) → d.Writable) (motive_2 := fun vs ls _ => (∀ l ∈ ls, l.Valid) → vs ≠ [] ∧ WritableAll vs)
    (motive_3 := fun ms ls _ => (∀ l ∈ ls, l.Valid) → WritablePairs ms) ?_ ?_ ?_ ?_ ?_ ?_ ?_ ?_ ?_ h
  · intro ds _; simp [Data.Writable]
  · intro cs h; rw [Data.Writable]; exact h _ (List.mem_cons_self)
  · intro vs ls _ ih h
    rw [Data.Writable]
    exact ih fun l hl => h l (by simp [hl])
  · intro _; simp [Data.Writable, WritablePairs]
  · intro ms ls _ ih h
    rw [Data.Writable]
    exact ih fun l hl => h l (by simp [hl])
  · intro v ls _ ih h
    simp only [WritableAll]
    exact ⟨by simp, ih h, trivial⟩
  · intro v l1 vs l2 _ _ ih1 ih2 h
    simp only [WritableAll]
    exact ⟨by simp, ih1 fun l hl => h l (by simp [hl]), (ih2 fun l hl => h l (by simp [hl])).2⟩
  · intro k v ls _ ih h
    simp only [WritablePairs, WritablePair]
    exact ⟨⟨h (.str k) (by simp), ih fun l hl => h l (by simp [hl])⟩, trivial⟩
  · intro k v l1 ms l2 _ _ ih1 ih2 h
    simp only [WritablePairs, WritablePair]
    exact ⟨⟨h (.str k) (by simp), ih1 fun l hl => h l (by simp [hl])⟩, ih2 fun l hl => h l (by simp [hl])⟩

theorem written_writable {d s} (h : Written d s) : d.Writable := by
  obtain ⟨_, _, ls, _, _, _, h1, h2⟩ := h
  exact value_writable h2 (lexed_valid h1)

theorem data_start (d : Data) (m : List Char) : NotStart isSpace (d.text ++ m) := by
  cases d with
  | num n => rw [Data.text]; exact words_start (digits_ok n).1 fun c hc => word_of_digit ((digits_ok n).2.1 c hc)
  | str cs => rw [Data.text]; exact (by decide : isSpace '"' = false)
  | arr vs => rw [Data.text]; exact (by decide : isSpace '[' = false)
  | obj vs => rw [Data.text]; exact (by decide : isSpace '{' = false)

theorem takes_char {c : Char} {m : List Char} (h : NotStart isSpace m) : Takes (.sym c) (c :: m) m :=
  ⟨trivial, m, rfl, notStart_false m, (spaces_none h).2 rfl⟩

/-- The text of a data can be read as the lexemes. -/
def Prints (text : List Char) (ls : List Token) : Prop := ∀ m rest, NotStart isDigit m → Spaces m rest → Lexed ls (text ++ m) rest

theorem Prints.sym (c : Char) : Prints [c] [.sym c] := fun m _ _ hs => lexed_cons.2 ⟨_, ⟨trivial, m, rfl, notStart_false m, hs⟩, .nil⟩

theorem Prints.append {t1 t2 l1 l2} (h1 : Prints t1 l1) (h2 : Prints t2 l2) (hd : ∀ m, NotStart isDigit (t2 ++ m)) (hs : ∀ m, NotStart isSpace (t2 ++ m)) : Prints (t1 ++ t2) (l1 ++ l2) := by
  intro m rest k1 k2
  rw [List.append_assoc]
  exact lexed_append.2 ⟨_, h1 _ _ (hd m) ((spaces_none (hs m)).2 rfl), h2 _ _ k1 k2⟩

theorem Prints.cons {c t2 l2} (h2 : Prints t2 l2) (hs : ∀ m, NotStart isSpace (t2 ++ m)) : Prints (c :: t2) (.sym c :: l2) := by
  intro m rest k1 k2
  exact lexed_cons.2 ⟨_, takes_char (hs m), h2 _ _ k1 k2⟩

theorem Prints.str {cs} (h : ∀ c ∈ cs, isStrChar c = true) : Prints ('"' :: (cs ++ ['"'])) [.str cs] := fun m _ _ hs =>
  lexed_cons.2 ⟨_, ⟨h, m, by simp [Token.chars], notStart_false m, hs⟩, .nil⟩

theorem text_prints (d : Data) : d.Writable → ∃ ls, Value d ls ∧ Prints d.text ls := by
  refine Data.rec (motive_1 := fun d => d.Writable → ∃ ls, Value d ls ∧ Prints d.text ls)
    (motive_2 := fun vs => WritableAll vs → vs ≠ [] → (∃ ls, Items vs ls ∧ Prints (textAll vs) ls) ∧ ∀ m, NotStart isSpace (textAll vs ++ m))
    (motive_3 := fun ms => WritablePairs ms → ms ≠ [] → (∃ ls, Members ms ls ∧ Prints (textPairs ms) ls) ∧ ∀ m, NotStart isSpace (textPairs ms ++ m))
    (motive_4 := fun p => WritablePair p → ∃ ls, Value p.2 ls ∧ Prints (textPair p) (.str p.1 :: .sym ':' :: ls)) ?_ ?_ ?_ ?_ ?_ ?_ ?_ ?_ ?_ d
  · intro n _
    refine ⟨[.num (digits n)], ?_, ?_⟩
    · have := Value.num (ds := digits n)
      rw [(digits_ok n).2.2] at this
      exact this
    · intro m rest h1 h2
      rw [Data.text]
      exact lexed_cons.2 ⟨_, ⟨⟨(digits_ok n).1, (digits_ok n).2.1⟩, m, rfl, h1, h2⟩, .nil⟩
  · intro cs h
    rw [Data.Writable] at h
    exact ⟨_, .str, by rw [Data.text]; exact .str h⟩
  · intro vs ih h
    rw [Data.Writable] at h
    obtain ⟨⟨ls, h1, h2⟩, h3⟩ := ih h.2 h.1
    refine ⟨_, .arr h1, ?_⟩
    rw [Data.text]
    refine .cons (h2.append (.sym ']') (fun m => (by decide : isDigit ']' = false)) fun m => (by decide : isSpace ']' = false)) fun m => ?_
    rw [List.append_assoc]; exact h3 _
  · intro ms ih h
    rw [Data.Writable] at h
    by_cases he : ms = []
    · subst he
      refine ⟨_, .empty, ?_⟩
      rw [Data.text, textPairs]
      exact .cons (.sym '}') fun m => (by decide : isSpace '}' = false)
    · obtain ⟨⟨ls, h1, h2⟩, h3⟩ := ih h he
      refine ⟨_, .obj h1, ?_⟩
      rw [Data.text]
      refine .cons (h2.append (.sym '}') (fun m => (by decide : isDigit '}' = false)) fun m => (by decide : isSpace '}' = false)) fun m => ?_
      rw [List.append_assoc]; exact h3 _
  · intro _ h; exact absurd rfl h
  · intro v vs ih1 ih2 h _
    rw [WritableAll] at h
    obtain ⟨ls, h1, h2⟩ := ih1 h.1
    refine ⟨?_, fun m => by rw [textAll, List.append_assoc]; exact data_start v _⟩
    rw [textAll]
    cases vs with
    | nil => exact ⟨ls, .one h1, by simpa using h2⟩
    | cons w vs =>
      obtain ⟨⟨ls', h3, h4⟩, h5⟩ := ih2 h.2 (by simp)
      refine ⟨_, .cons h1 h3, ?_⟩
      simp only [List.isEmpty_cons, Bool.false_eq_true, if_false]
      exact h2.append (h4.cons h5) (fun m => (by decide : isDigit ',' = false)) fun m => (by decide : isSpace ',' = false)
  · intro _ h; exact absurd rfl h
  · intro p ms ih1 ih2 h _
    obtain ⟨k, v⟩ := p
    rw [WritablePairs] at h
    obtain ⟨ls, h1, h2⟩ := ih1 h.1
    refine ⟨?_, fun m => by rw [textPairs, textPair]; exact (by decide : isSpace '"' = false)⟩
    rw [textPairs]
    cases ms with
    | nil => exact ⟨_, .one h1, by simpa using h2⟩
    | cons w vs =>
      obtain ⟨⟨ls', h3, h4⟩, h5⟩ := ih2 h.2 (by simp)
      refine ⟨_, .cons h1 h3, ?_⟩
      simp only [List.isEmpty_cons, Bool.false_eq_true, if_false]
      exact h2.append (h4.cons h5) (fun m => (by decide : isDigit ',' = false)) fun m => (by decide : isSpace ',' = false)
  · intro k v ih h
    rw [WritablePair] at h
    obtain ⟨ls, h1, h2⟩ := ih h.2
    refine ⟨ls, h1, ?_⟩
    have := (Prints.str h.1).append (h2.cons (c := ':') (data_start v)) (fun m => (by decide : isDigit ':' = false)) fun m => (by decide : isSpace ':' = false)
    simpa [textPair] using this

theorem text_written {d : Data} (h : d.Writable) : Written d d.text := by
  obtain ⟨ls, h1, h2⟩ := text_prints d h
  have h3 := h2 [] [] trivial ((spaces_none (show NotStart isSpace [] from trivial)).2 rfl)
  have h4 := data_start d []
  rw [List.append_nil] at h3 h4
  exact ⟨[], d.text, ls, rfl, by simp, h4, h3, h1⟩

/-! ## Calls that panic -/

theorem shown_app {w f vs} : Shown w (.app f vs) ↔ w = .app f vs ∨ ∃ v ∈ vs, Shown w v := by
  constructor
  · intro h
    cases h with
    | here => exact .inl rfl
    | app h1 h2 => exact .inr ⟨_, h1, h2⟩
  · rintro (rfl | ⟨v, h1, h2⟩)
    · exact .here
    · exact .app h1 h2

theorem shown_list {w vs} : Shown w (.list vs) ↔ w = .list vs ∨ ∃ v ∈ vs, Shown w v := by
  constructor
  · intro h
    cases h with
    | here => exact .inl rfl
    | list h1 h2 => exact .inr ⟨_, h1, h2⟩
  · rintro (rfl | ⟨v, h1, h2⟩)
    · exact .here
    · exact .list h1 h2

theorem shown_some {w v} : Shown w (.some v) ↔ w = .some v ∨ Shown w v := by
  constructor
  · intro h
    cases h with
    | here => exact .inl rfl
    | some h => exact .inr h
  · rintro (rfl | h)
    · exact .here
    · exact .some h

theorem shown_none {w} : Shown w .none ↔ w = .none := by
  constructor
  · intro h; cases h; rfl
  · rintro rfl; exact .here

theorem shown_chr {w c} : Shown w (.chr c) ↔ w = .chr c := by
  constructor
  · intro h; cases h; rfl
  · rintro rfl; exact .here

/-- A call that panics is in the value. -/
def HasPanic (v : Val) : Prop := ∃ w, PanickingCall w ∧ Shown w v

theorem hasPanic_app {f vs} (h : f ≠ ["to_number"]) : HasPanic (.app f vs) ↔ ∃ v ∈ vs, HasPanic v := by
  constructor
  · rintro ⟨w, ⟨ds, rfl, h1⟩, h2⟩
    rcases shown_app.1 h2 with h2 | ⟨v, hv, h2⟩
    · simp only [Val.app.injEq] at h2; exact absurd h2.1.symm h
    · exact ⟨v, hv, _, ⟨ds, rfl, h1⟩, h2⟩
  · rintro ⟨v, hv, w, h1, h2⟩
    exact ⟨w, h1, .app hv h2⟩

theorem hasPanic_list {vs} : HasPanic (.list vs) ↔ ∃ v ∈ vs, HasPanic v := by
  constructor
  · rintro ⟨w, ⟨ds, rfl, h1⟩, h2⟩
    rcases shown_list.1 h2 with h2 | ⟨v, hv, h2⟩
    · cases h2
    · exact ⟨v, hv, _, ⟨ds, rfl, h1⟩, h2⟩
  · rintro ⟨v, hv, w, h1, h2⟩
    exact ⟨w, h1, .list hv h2⟩

theorem hasPanic_some {v} : HasPanic (.some v) ↔ HasPanic v := by
  constructor
  · rintro ⟨w, ⟨ds, rfl, h1⟩, h2⟩
    rcases shown_some.1 h2 with h2 | h2
    · cases h2
    · exact ⟨_, ⟨ds, rfl, h1⟩, h2⟩
  · rintro ⟨w, h1, h2⟩
    exact ⟨w, h1, .some h2⟩

theorem hasPanic_none : ¬ HasPanic .none := by
  rintro ⟨w, ⟨ds, rfl, _⟩, h⟩
  cases shown_none.1 h

theorem hasPanic_chars {cs : List Char} : ¬ HasPanic (.list (cs.map .chr)) := by
  rw [hasPanic_list]
  rintro ⟨v, hv, w, ⟨ds, rfl, _⟩, h⟩
  obtain ⟨c, _, rfl⟩ := List.mem_map.1 hv
  cases shown_chr.1 h

theorem hasPanic_str {cs : List Char} : ¬ HasPanic (strVal cs) := by
  rw [strVal, hasPanic_app (by decide)]
  simp [hasPanic_chars]

theorem hasPanic_num {ds : List Char} : HasPanic (.app ["to_number"] [.list (ds.map .chr)]) ↔ 2 ^ 32 ≤ decimal ds := by
  constructor
  · rintro ⟨w, ⟨ds', rfl, h1⟩, h2⟩
    rcases shown_app.1 h2 with h2 | ⟨v, hv, h2⟩
    · simp only [Val.app.injEq, List.cons.injEq, Val.list.injEq, true_and, and_true] at h2
      rw [← chars_eq h2]; exact h1
    · rw [List.mem_singleton] at hv
      subst hv
      exact absurd ⟨_, ⟨ds', rfl, h1⟩, h2⟩ (hasPanic_chars (cs := ds))
  · intro h
    exact ⟨_, ⟨ds, rfl, h⟩, .here⟩

theorem denotes_panics {x d} (h : Denotes x d) : HasPanic x ↔ ∃ n ∈ d.numbers, 2 ^ 32 ≤ n := by
  refine Denotes.rec (motive_1 := fun x d _ => HasPanic x ↔ ∃ n ∈ d.numbers, 2 ^ 32 ≤ n)
    (motive_2 := fun xs vs _ => (∃ x ∈ xs, HasPanic x) ↔ ∃ n ∈ numbersAll vs, 2 ^ 32 ≤ n)
    (motive_3 := fun p _ v _ => HasPanic p ↔ ∃ n ∈ v.numbers, 2 ^ 32 ≤ n)
    (motive_4 := fun ps ms _ => (∃ x ∈ ps, HasPanic x) ↔ ∃ n ∈ numbersPairs ms, 2 ^ 32 ≤ n) ?_ ?_ ?_ ?_ ?_ ?_ ?_ ?_ ?_ ?_ h
  · intro ds
    rw [hasPanic_app (by decide)]
    simp [hasPanic_num, Data.numbers]
  · intro cs
    rw [hasPanic_app (by decide)]
    simp [hasPanic_str, Data.numbers]
  · intro xs x vs v _ _ ih1 ih2
    have e : ∀ vs : List Data, numbersAll (vs ++ [v]) = numbersAll vs ++ v.numbers := by
      intro vs
      induction vs with
      | nil => simp [numbersAll]
      | cons w vs ih => simp [numbersAll, ih]
    rw [hasPanic_app (by decide)]
    simp only [List.mem_cons, List.not_mem_nil, or_false, exists_eq_or_imp, exists_eq_left, hasPanic_list, ih1, ih2, Data.numbers, e, List.mem_append, or_and_right, exists_or]
  · rw [hasPanic_app (by decide)]
    simp [hasPanic_none, Data.numbers, numbersPairs]
  · intro p ps k v ms _ _ ih1 ih2
    rw [hasPanic_app (by decide)]
    simp only [List.mem_singleton, exists_eq_left, hasPanic_some]
    rw [hasPanic_app (by decide)]
    simp only [List.mem_cons, List.not_mem_nil, or_false, exists_eq_or_imp, exists_eq_left, hasPanic_list, ih1, ih2, Data.numbers, numbersPairs, numbersPair, List.mem_append, or_and_right, exists_or]
  · simp [numbersAll]
  · intro x xs v vs _ _ ih1 ih2
    simp only [List.mem_cons, exists_eq_or_imp, exists_eq_left, ih1, ih2, numbersAll, List.mem_append, or_and_right, exists_or]
  · intro k x v _ ih
    rw [hasPanic_app (by decide)]
    simp [hasPanic_str, ih]
  · simp [numbersPairs]
  · intro p ps k v ms _ _ ih1 ih2
    simp only [List.mem_cons, exists_eq_or_imp, exists_eq_left, ih1, ih2, numbersPairs, numbersPair, List.mem_append, or_and_right, exists_or]

end Oak.JsonText
