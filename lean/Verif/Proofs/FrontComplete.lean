import Verif.Proofs.FrontSound
/-! The front-end reads everything the concrete syntax describes. -/
set_option autoImplicit false

namespace Oak
open Syntax

/-- The tokens begin like an element of a sequence. -/
def starts : List Tok → Bool
  | .lit _ :: _ | .paren _ :: _ | .path _ :: _ | .bracket _ :: _ | .punct '.' _ :: _ | .punct '!' _ :: _ | .punct '&' _ :: _ => true
  | _ => false

/-- The tokens begin with an operator that would continue an element. -/
def continues : List Tok → Bool
  | .punct '=' _ :: _ | .punct '*' _ :: _ | .punct '+' _ :: _ | .punct '?' _ :: _ | .punct ':' _ :: _ => true
  | _ => false

/-- The tokens that can follow a sequence. -/
def SeqEnd (ts : List Tok) : Prop := continues ts = false ∧ (starts ts = false ∨ peekLhs ts = true)

/-- The tokens that can follow a branch. -/
def BranchEnd (ts : List Tok) : Prop := SeqEnd ts ∧ ∀ j us, ts ≠ .punct '>' j :: us

/-- The tokens that can follow a choice. -/
def ChoiceEnd (ts : List Tok) : Prop := BranchEnd ts ∧ ∀ j us, ts ≠ .punct '/' j :: us

theorem starts_append {us rest : List Tok} (h : starts us = true) : starts (us ++ rest) = true := by
  unfold starts at h
  split at h <;> first | rfl | cases h

theorem starts_not_continues {us : List Tok} (h : starts us = true) : continues us = false := by
  unfold starts at h
  split at h <;> first | rfl | cases h

theorem starts_ne {us : List Tok} (h : starts us = true) : us ≠ [] := by
  rintro rfl; cases h

theorem parseType_infer {ts : List Tok} (h : ∀ j us, ts ≠ .punct ':' j :: us) : parseType ts = .ok (.infer, ts) := by
  unfold parseType
  split
  · exact (h _ _ rfl).elim
  · exact (h _ _ rfl).elim
  · exact (h _ _ rfl).elim
  · rfl

theorem peekType_ok {ts us : List Tok} {ty : IType} (h : parseType ts = .ok (ty, us)) : peekType ts = .ok (ty, us) := by
  unfold peekType
  split
  · unfold parseType at h
    split at h
    · rename_i h1; cases h1
    · rename_i h1; cases h1
      split at h
      · cases h; rfl
      · cases h
    · rename_i h1 h2; cases h2; exact (h1 _ _ _ rfl).elim
    · rename_i h1 h2 h3; exact (h3 _ _ rfl).elim
  · exact h

theorem peekType_infer {ts : List Tok} (h : ∀ j us, ts ≠ .punct ':' j :: us) : peekType ts = .ok (.infer, ts) := peekType_ok (parseType_infer h)

/-- What follows a call must not turn it into the left-hand side of a rule. -/
def NoLhs (ts : List Tok) : Prop := ∀ p, peekLhs (.path p :: ts) = false

theorem noLhs_of {ts : List Tok} (h1 : peekEq ts = false) (h2 : ∀ ty us, peekType ts = .ok (ty, us) → peekEq us = false) : NoLhs ts := by
  intro p
  unfold peekLhs
  split
  · rename_i he
    cases he
    rw [h1]
    simp only [Bool.false_eq_true, if_false]
    split
    · rename_i hx; exact h2 _ _ hx
    · rfl
  · rfl

theorem not_continues {ts : List Tok} (h : continues ts = false) :
    peekEq ts = false ∧ (∀ j us, ts ≠ .punct ':' j :: us) ∧ (∀ j us, ts ≠ .punct '*' j :: us) ∧ (∀ j us, ts ≠ .punct '+' j :: us) ∧
      (∀ j us, ts ≠ .punct '?' j :: us) := by
  refine ⟨?_, ?_, ?_, ?_, ?_⟩
  · unfold peekEq
    split
    · cases h
    · rfl
  all_goals (rintro j us rfl; cases h)

theorem noLhs_of_not_continues {ts : List Tok} (h : continues ts = false) : NoLhs ts := by
  obtain ⟨h1, h2, _⟩ := not_continues h
  refine noLhs_of h1 fun ty us h => ?_
  rw [peekType_infer h2] at h
  cases h
  exact h1

theorem noLhs_suffix {c : Char} (hc : c ≠ '=') (hc2 : c ≠ ':') (j : Bool) (ts : List Tok) : NoLhs (.punct c j :: ts) := by
  have h1 : peekEq (.punct c j :: ts) = false := by
    unfold peekEq
    split
    · rename_i he; cases he; exact (hc rfl).elim
    · rfl
  refine noLhs_of h1 fun ty us h => ?_
  rw [peekType_infer (by rintro j us he; cases he; exact hc2 rfl)] at h
  cases h
  exact h1

theorem parseRustTy_complete {t : String} {pre rest : List Tok} {b : Bool} (h : IsType pre (.regular (.rust t)) b)
    (hb : b = true → startsParen rest = false) : parseRustTy (pre ++ rest) = .ok (t, rest) := by
  generalize hty : IType.regular (.rust t) = ty at h
  cases h with
  | unit => cases hty
  | invisible => cases hty
  | path =>
    cases hty
    have := hb rfl
    rw [← written_eq]
    cases rest with
    | nil => rfl
    | cons r rest =>
      cases r <;> first | rfl | (cases this)
  | rust => cases hty; rfl
  | paren ht => cases hty; simp [parseRustTy, tokType, tokType_complete ht]
  | args0 => cases hty; rw [← written_eq]; rfl
  | args ht => cases hty; simp [parseRustTy, tokType_complete ht, written_eq]

theorem tokType_not_unit {t : Tok} {s : String} (h : tokType t = some s) : ∀ j, t ≠ .punct '^' j := by
  rintro j rfl; cases h

theorem parseType_complete {ty : IType} {pre rest : List Tok} {b j : Bool} (h : IsType pre ty b)
    (hb : b = true → startsParen rest = false) : parseType (.punct ':' j :: pre ++ rest) = .ok (ty, rest) ∧ ty ≠ .infer := by
  have key : ∀ t, ty = .regular (.rust t) → parseType (.punct ':' j :: pre ++ rest) = .ok (ty, rest) := by
    rintro t rfl
    have h1 := parseRustTy_complete h hb
    unfold parseType
    split
    · rename_i he
      cases h <;> cases he
    · rename_i he
      cases h <;> cases he
      rename_i ht
      cases ht
    · rename_i he
      cases he
      simp only [List.append_eq]
      rw [h1]; rfl
    · rename_i hx
      exact (hx _ _ rfl).elim
  cases h with
  | unit => exact ⟨rfl, by simp⟩
  | invisible => exact ⟨rfl, by simp⟩
  | path => exact ⟨key _ rfl, by simp⟩
  | rust => exact ⟨key _ rfl, by simp⟩
  | paren ht => exact ⟨key _ rfl, by simp⟩
  | args0 => exact ⟨key _ rfl, by simp⟩
  | args ht => exact ⟨key _ rfl, by simp⟩

theorem parseCharClass_at {s : String} {K : ClassText} (hK : K.Valid) (ht : K.text = s.toList) :
    parseCharClass (s.toList.length + 2) s.toList = .ok K.intervals := by
  rw [← ht]
  exact parseCharClass_complete K hK _ (Nat.le_refl _)

/-- `f` reads `ts` in front of `rest` as `e`. -/
def ReadsOpt (f : Nat → Nat → List Tok → Res (Option Expr × Nat × List Tok)) (ts rest : List Tok) (e : Expr) : Prop :=
  ∀ k, ∃ N e' k', e'.bare = e ∧ ∀ n, N ≤ n → f n k (ts ++ rest) = .ok (some e', k', rest)

/-- The same for the functions that always return an expression. -/
def ReadsExpr (f : Nat → Nat → List Tok → Res (Expr × Nat × List Tok)) (ts rest : List Tok) (e : Expr) : Prop :=
  ∀ k, ∃ N e' k', e'.bare = e ∧ ∀ n, N ≤ n → f n k (ts ++ rest) = .ok (e', k', rest)

/-- The same for lists of expressions. -/
def ReadsList (f : Nat → Nat → List Tok → Res (List Expr × Nat × List Tok)) (ts rest : List Tok) (es : List Expr) : Prop :=
  ∀ k, ∃ N es' k', bareAll es' = es ∧ ∀ n, N ≤ n → f n k (ts ++ rest) = .ok (es', k', rest)

/-- At the end of a sequence no element can be read. -/
theorem parseTyped_end {rest : List Tok} (h : SeqEnd rest) (n k : Nat) (hn : 4 ≤ n) : parseTyped n k rest = .ok (none, k, rest) := by
  obtain ⟨m, rfl⟩ : ∃ m, n = m + 4 := ⟨n - 4, by omega⟩
  obtain ⟨hc, hs⟩ := h
  obtain ⟨_, h2, _⟩ := not_continues hc
  have ha : parseAtom (m + 1) k rest = .ok (none, k, rest) := by
    unfold parseAtom
    split
    · rcases hs with hs | hs <;> cases hs
    · rcases hs with hs | hs <;> cases hs
    · rcases hs with hs | hs <;> cases hs
    · rcases hs with hs | hs
      · cases hs
      · rw [if_pos hs]
    · rcases hs with hs | hs <;> cases hs
    · rfl
  have hsf : parseSuffixed (m + 2) k rest = .ok (none, k, rest) := by rw [parseSuffixed, ha]; rfl
  have hp : parsePrefixed (m + 3) k rest = .ok (none, k, rest) := by
    unfold parsePrefixed
    split
    · rcases hs with hs | hs <;> cases hs
    · rcases hs with hs | hs <;> cases hs
    · exact hsf
  rw [parseTyped, hp]
  simp only [Res.bind_ok, parseType_infer h2]

theorem seqEnd_paren {rest : List Tok} (h : SeqEnd rest) : startsParen rest = false := by
  cases hp : startsParen rest with
  | false => rfl
  | true =>
    obtain ⟨g, us, rfl⟩ := startsParen_iff hp
    rcases h.2 with h | h <;> cases h

theorem bareAll_one {es : List Expr} {e : Expr} (h : bareAll es = [e]) : ∃ e', es = [e'] ∧ e'.bare = e := by
  cases es with
  | nil => cases h
  | cons a es =>
    cases es with
    | nil => exact ⟨a, rfl, by simpa [bareAll] using h⟩
    | cons b es => simp [bareAll] at h

theorem bareAll_many {es l : List Expr} {e1 e2 : Expr} (h : bareAll es = e1 :: e2 :: l) : ∃ a b l', es = a :: b :: l' := by
  cases es with
  | nil => cases h
  | cons a es =>
    cases es with
    | nil => simp [bareAll] at h
    | cons b es => exact ⟨a, b, es, rfl⟩

/-- A suffixed expression does not begin with a predicate. -/
theorem suffixed_head {ts rest : List Tok} {e : Expr} (h : Suffixed ts e) :
    (∀ j us, ts ++ rest ≠ .punct '!' j :: us) ∧ (∀ j us, ts ++ rest ≠ .punct '&' j :: us) := by
  have key : ∀ {ts e}, Atom ts e → ∀ rest, (∀ j us, ts ++ rest ≠ .punct '!' j :: us) ∧ (∀ j us, ts ++ rest ≠ .punct '&' j :: us) := by
    intro ts e h rest
    cases h <;> exact ⟨(by rintro j us he; cases he), (by rintro j us he; cases he)⟩
  cases h with
  | atom h => exact key h _
  | star h => rw [List.append_assoc]; exact key h _
  | plus h => rw [List.append_assoc]; exact key h _
  | opt h => rw [List.append_assoc]; exact key h _

theorem complete_all {ts : List Tok} {e : Expr} (h : Choice ts e) :
    starts ts = true ∧ ∀ rest, ChoiceEnd rest → ReadsExpr parseChoice ts rest e := by
  refine Choice.rec
    (motive_1 := fun ts e _ => starts ts = true ∧ ∀ rest, NoLhs rest → ReadsOpt parseAtom ts rest e)
    (motive_2 := fun ts e _ => starts ts = true ∧ ∀ rest, continues rest = false ∨ (∃ j us, rest = .punct ':' j :: us ∧ NoLhs rest) → ReadsOpt parseSuffixed ts rest e)
    (motive_3 := fun ts e _ => starts ts = true ∧ ∀ rest, continues rest = false ∨ (∃ j us, rest = .punct ':' j :: us ∧ NoLhs rest) → ReadsOpt parsePrefixed ts rest e)
    (motive_4 := fun ts e b _ => starts ts = true ∧ ∀ rest, continues rest = false → (b = true → startsParen rest = false) → ReadsOpt parseTyped ts rest e)
    (motive_5 := fun ts es _ => starts ts = true ∧ ∀ rest, SeqEnd rest → ReadsList parseTypeds ts rest es)
    (motive_6 := fun ts e _ => starts ts = true ∧ ∀ rest, SeqEnd rest → ReadsExpr parseSeq ts rest e)
    (motive_7 := fun ts e _ => starts ts = true ∧ ∀ rest, SeqEnd rest → ReadsExpr parseSpanned ts rest e)
    (motive_8 := fun ts e _ => starts ts = true ∧ ∀ rest, BranchEnd rest →
      ∀ k, ∃ N e1 k1 ts1 e' k', e'.bare = e ∧ (∀ n, N ≤ n → parseSpanned n k (ts ++ rest) = .ok (e1, k1, ts1)) ∧
        parseAction k1 e1 ts1 = .ok (e', k', rest))
    (motive_9 := fun ts es _ => starts ts = true ∧ ∀ rest, ChoiceEnd rest → ReadsList parseBranches ts rest es)
    (motive_10 := fun ts e _ => starts ts = true ∧ ∀ rest, ChoiceEnd rest → ReadsExpr parseChoice ts rest e)
    ?_ ?_ ?_ ?_ ?_ ?_ ?_ ?_ ?_ ?_ ?_ ?_ ?_ ?_ ?_ ?_ ?_ ?_ ?_ ?_ ?_ ?_ ?_ ?_ ?_ ?_ ?_ ?_ h
  · -- lit
    intro s
    refine ⟨rfl, fun rest hr k => ⟨1, .str k s, k + 1, rfl, fun n hn => ?_⟩⟩
    obtain ⟨m, rfl⟩ : ∃ m, n = m + 1 := ⟨n - 1, by omega⟩
    rw [List.singleton_append, parseAtom]
  · -- any
    intro j
    refine ⟨rfl, fun rest hr k => ⟨1, .any k, k + 1, rfl, fun n hn => ?_⟩⟩
    obtain ⟨m, rfl⟩ : ∃ m, n = m + 1 := ⟨n - 1, by omega⟩
    rw [List.singleton_append, parseAtom]
  · -- paren
    intro ts e _ ih
    refine ⟨rfl, fun rest hr k => ?_⟩
    obtain ⟨N, e', k', he, h⟩ := ih.2 [] ⟨⟨⟨rfl, .inl rfl⟩, by simp⟩, by simp⟩ k
    refine ⟨N + 1, e', k', he, fun n hn => ?_⟩
    obtain ⟨m, rfl⟩ : ∃ m, n = m + 1 := ⟨n - 1, by omega⟩
    have hm := h m (by omega)
    rw [List.append_nil] at hm
    have hne : ts.isEmpty = false := by
      cases ts with
      | nil => cases ih.1
      | cons => rfl
    rw [List.singleton_append, parseAtom, hne, hm]
    rfl
  · -- call
    intro p
    refine ⟨rfl, fun rest hr k => ⟨1, .ext k p, k + 1, rfl, fun n hn => ?_⟩⟩
    obtain ⟨m, rfl⟩ : ∃ m, n = m + 1 := ⟨n - 1, by omega⟩
    rw [List.singleton_append, parseAtom, hr p]
    rfl
  · -- cls
    intro s K hK ht
    refine ⟨rfl, fun rest hr k => ⟨1, .cls k K.intervals, k + 1, rfl, fun n hn => ?_⟩⟩
    obtain ⟨m, rfl⟩ : ∃ m, n = m + 1 := ⟨n - 1, by omega⟩
    rw [List.singleton_append, parseAtom, parseClass, parseCharClass_at hK ht]
    rfl
  · -- atom
    intro ts e _ ih
    refine ⟨ih.1, fun rest hr k => ?_⟩
    have hl : NoLhs rest := by
      rcases hr with hr | ⟨_, _, _, hr⟩
      · exact noLhs_of_not_continues hr
      · exact hr
    have hs : ∀ k e, parseSuffix k e rest = (e, k, rest) := by
      intro k e
      unfold parseSuffix
      rcases hr with hr | ⟨j, us, rfl, _⟩
      · obtain ⟨_, _, h3, h4, h5⟩ := not_continues hr
        split
        · exact (h3 _ _ rfl).elim
        · exact (h4 _ _ rfl).elim
        · exact (h5 _ _ rfl).elim
        · rfl
      · rfl
    obtain ⟨N, e', k', he, h⟩ := ih.2 rest hl k
    refine ⟨N + 1, e', k', he, fun n hn => ?_⟩
    obtain ⟨m, rfl⟩ : ∃ m, n = m + 1 := ⟨n - 1, by omega⟩
    rw [parseSuffixed, h m (by omega)]
    simp only [Res.bind_ok, hs]
  · -- star
    intro ts e j _ ih
    refine ⟨starts_append ih.1, fun rest hr k => ?_⟩
    obtain ⟨N, e', k', he, h⟩ := ih.2 (.punct '*' j :: rest) (noLhs_suffix (by decide) (by decide) _ _) k
    refine ⟨N + 1, .star k' e', k' + 1, by simp [Expr.bare, he], fun n hn => ?_⟩
    obtain ⟨m, rfl⟩ : ∃ m, n = m + 1 := ⟨n - 1, by omega⟩
    rw [List.append_assoc, List.singleton_append, parseSuffixed, h m (by omega)]
    rfl
  · -- plus
    intro ts e j _ ih
    refine ⟨starts_append ih.1, fun rest hr k => ?_⟩
    obtain ⟨N, e', k', he, h⟩ := ih.2 (.punct '+' j :: rest) (noLhs_suffix (by decide) (by decide) _ _) k
    refine ⟨N + 1, .plus k' e', k' + 1, by simp [Expr.bare, he], fun n hn => ?_⟩
    obtain ⟨m, rfl⟩ : ∃ m, n = m + 1 := ⟨n - 1, by omega⟩
    rw [List.append_assoc, List.singleton_append, parseSuffixed, h m (by omega)]
    rfl
  · -- opt
    intro ts e j _ ih
    refine ⟨starts_append ih.1, fun rest hr k => ?_⟩
    obtain ⟨N, e', k', he, h⟩ := ih.2 (.punct '?' j :: rest) (noLhs_suffix (by decide) (by decide) _ _) k
    refine ⟨N + 1, .opt k' e', k' + 1, by simp [Expr.bare, he], fun n hn => ?_⟩
    obtain ⟨m, rfl⟩ : ∃ m, n = m + 1 := ⟨n - 1, by omega⟩
    rw [List.append_assoc, List.singleton_append, parseSuffixed, h m (by omega)]
    rfl
  · -- suffixed
    intro ts e hsf ih
    refine ⟨ih.1, fun rest hr k => ?_⟩
    obtain ⟨N, e', k', he, h⟩ := ih.2 rest hr k
    refine ⟨N + 1, e', k', he, fun n hn => ?_⟩
    obtain ⟨m, rfl⟩ : ∃ m, n = m + 1 := ⟨n - 1, by omega⟩
    have hh := suffixed_head (rest := rest) hsf
    unfold parsePrefixed
    split
    · rename_i heq; exact (hh.1 _ _ heq).elim
    · rename_i heq; exact (hh.2 _ _ heq).elim
    · exact h m (by omega)
  · -- not
    intro ts e j _ ih
    refine ⟨rfl, fun rest hr k => ?_⟩
    obtain ⟨N, e', k', he, h⟩ := ih.2 rest hr k
    refine ⟨N + 1, .not k' e', k' + 1, by simp [Expr.bare, he], fun n hn => ?_⟩
    obtain ⟨m, rfl⟩ : ∃ m, n = m + 1 := ⟨n - 1, by omega⟩
    rw [List.cons_append, parsePrefixed, h m (by omega)]
    rfl
  · -- and
    intro ts e j _ ih
    refine ⟨rfl, fun rest hr k => ?_⟩
    obtain ⟨N, e', k', he, h⟩ := ih.2 rest hr k
    refine ⟨N + 1, .and k' e', k' + 1, by simp [Expr.bare, he], fun n hn => ?_⟩
    obtain ⟨m, rfl⟩ : ∃ m, n = m + 1 := ⟨n - 1, by omega⟩
    rw [List.cons_append, parsePrefixed, h m (by omega)]
    rfl
  · -- prefixed
    intro ts e _ ih
    refine ⟨ih.1, fun rest hr _ k => ?_⟩
    obtain ⟨N, e', k', he, h⟩ := ih.2 rest (.inl hr) k
    refine ⟨N + 1, e', k', he, fun n hn => ?_⟩
    obtain ⟨m, rfl⟩ : ∃ m, n = m + 1 := ⟨n - 1, by omega⟩
    rw [parseTyped, h m (by omega)]
    simp only [Res.bind_ok, parseType_infer (not_continues hr).2.1]
  · -- asc
    intro ts us e ty b j _ ht ih
    refine ⟨starts_append ih.1, fun rest hr hb k => ?_⟩
    obtain ⟨hpt, hty⟩ := parseType_complete (j := j) ht hb
    have hl : NoLhs (.punct ':' j :: us ++ rest) := by
      refine noLhs_of rfl fun ty' us' h => ?_
      rw [peekType_ok hpt] at h
      cases h
      exact (not_continues hr).1
    obtain ⟨N, e', k', he, h⟩ := ih.2 (.punct ':' j :: us ++ rest) (.inr ⟨_, _, rfl, hl⟩) k
    refine ⟨N + 1, .asc k' e' ty, k' + 1, by simp [Expr.bare, he], fun n hn => ?_⟩
    obtain ⟨m, rfl⟩ : ∃ m, n = m + 1 := ⟨n - 1, by omega⟩
    rw [List.append_assoc, parseTyped, h m (by omega)]
    simp only [Res.bind_ok, hpt]
  · -- one element
    intro ts e b _ ih
    refine ⟨ih.1, fun rest hr k => ?_⟩
    have hp : startsParen rest = false := seqEnd_paren hr
    obtain ⟨N, e', k', he, h⟩ := ih.2 rest hr.1 (fun _ => hp) k
    refine ⟨N + 6, [e'], k', by simp [bareAll, he], fun n hn => ?_⟩
    obtain ⟨m, rfl⟩ : ∃ m, n = m + 2 := ⟨n - 2, by omega⟩
    rw [parseTypeds, h (m + 1) (by omega)]
    simp only [Res.bind_ok]
    rw [parseTypeds, parseTyped_end hr m k' (by omega)]
    rfl
  · -- cons
    intro ts us e b es _ _ hb ih1 ih2
    refine ⟨starts_append ih1.1, fun rest hr k => ?_⟩
    obtain ⟨N1, e', k1, he, h1⟩ := ih1.2 (us ++ rest) (starts_not_continues (starts_append ih2.1))
      (fun h => by rw [startsParen_append (starts_ne ih2.1)]; exact hb h) k
    obtain ⟨N2, es', k2, hes, h2⟩ := ih2.2 rest hr k1
    refine ⟨max N1 N2 + 1, e' :: es', k2, by simp [bareAll, he, hes], fun n hn => ?_⟩
    obtain ⟨m, rfl⟩ : ∃ m, n = m + 1 := ⟨n - 1, by omega⟩
    rw [List.append_assoc, parseTypeds, h1 m (by omega)]
    simp only [Res.bind_ok, h2 m (by omega)]
  · -- seq one
    intro ts e _ ih
    refine ⟨ih.1, fun rest hr k => ?_⟩
    obtain ⟨N, es', k', hes, h⟩ := ih.2 rest hr k
    obtain ⟨e', rfl, he⟩ := bareAll_one hes
    refine ⟨N + 1, e', k', he, fun n hn => ?_⟩
    obtain ⟨m, rfl⟩ : ∃ m, n = m + 1 := ⟨n - 1, by omega⟩
    rw [parseSeq, h m (by omega)]
    rfl
  · -- seq many
    intro ts e1 e2 es _ ih
    refine ⟨ih.1, fun rest hr k => ?_⟩
    obtain ⟨N, es', k', hes, h⟩ := ih.2 rest hr k
    obtain ⟨a, b, l, rfl⟩ := bareAll_many hes
    refine ⟨N + 1, .seq k' (a :: b :: l), k' + 1, by simp [Expr.bare, hes], fun n hn => ?_⟩
    obtain ⟨m, rfl⟩ : ∃ m, n = m + 1 := ⟨n - 1, by omega⟩
    rw [parseSeq, h m (by omega)]
    rfl
  · -- plain
    intro ts e _ hd ih
    refine ⟨ih.1, fun rest hr k => ?_⟩
    obtain ⟨N, e', k', he, h⟩ := ih.2 rest hr k
    refine ⟨N + 1, e', k', he, fun n hn => ?_⟩
    obtain ⟨m, rfl⟩ : ∃ m, n = m + 1 := ⟨n - 1, by omega⟩
    have hd2 : startsDots (ts ++ rest) = false := by
      cases hx : startsDots (ts ++ rest) with
      | false => rfl
      | true =>
        obtain ⟨j, us, hj⟩ := startsDots_iff hx
        cases ts with
        | nil => cases ih.1
        | cons t ts =>
          cases ts with
          | nil =>
            cases hj
            rcases hr.2 with h | h <;> cases h
          | cons u ts =>
            cases hj
            cases hd
    unfold parseSpanned
    split
    · rename_i heq; rw [heq] at hd2; cases hd2
    · rename_i heq; rw [heq] at hd2; cases hd2
    · exact h m (by omega)
  · -- span
    intro ts e j _ hd ih
    refine ⟨rfl, fun rest hr k => ?_⟩
    obtain ⟨N, e', k', he, h⟩ := ih.2 rest hr k
    refine ⟨N + 1, .span k' e', k' + 1, by simp [Expr.bare, he], fun n hn => ?_⟩
    obtain ⟨m, rfl⟩ : ∃ m, n = m + 1 := ⟨n - 1, by omega⟩
    rw [List.cons_append, List.cons_append]
    unfold parseSpanned
    split
    · rename_i heq
      simp only [List.cons.injEq, Tok.punct.injEq, true_and] at heq
      obtain ⟨rfl, heq⟩ := heq
      have := hd rfl
      rw [← startsDot_append (rest := rest) (starts_ne ih.1), heq] at this
      cases this
    · rename_i heq
      cases heq
      rw [h m (by omega)]
      rfl
    · rename_i hx
      exact (hx _ _ rfl).elim
  · -- range
    intro ts e j _ ih
    refine ⟨rfl, fun rest hr k => ?_⟩
    obtain ⟨N, e', k', he, h⟩ := ih.2 rest hr k
    refine ⟨N + 1, .range (k' + 1) (.asc k' e' (.regular .unit)), k' + 2, by simp [Expr.bare, he], fun n hn => ?_⟩
    obtain ⟨m, rfl⟩ : ∃ m, n = m + 1 := ⟨n - 1, by omega⟩
    rw [List.cons_append, List.cons_append, List.cons_append, parseSpanned, h m (by omega)]
    rfl
  · -- spanned
    intro ts e _ ih
    refine ⟨ih.1, fun rest hr k => ?_⟩
    obtain ⟨N, e', k', he, h⟩ := ih.2 rest hr.1 k
    refine ⟨N, e', k', rest, e', k', he, h, ?_⟩
    unfold parseAction
    split
    · exact (hr.2 _ _ rfl).elim
    · exact (hr.2 _ _ rfl).elim
    · exact (hr.2 _ _ rfl).elim
    · rfl
  · -- act
    intro ts e f j _ ih
    refine ⟨starts_append ih.1, fun rest hr k => ?_⟩
    obtain ⟨N, e', k', he, h⟩ := ih.2 (.punct '>' j :: .path f :: rest) ⟨rfl, .inl rfl⟩ k
    exact ⟨N, e', k', _, .act k' e' false f, k' + 1, by simp [Expr.bare, he], fun n hn => by
      rw [List.append_assoc]; exact h n hn, rfl⟩
  · -- boxed
    intro ts e f j _ ih
    refine ⟨starts_append ih.1, fun rest hr k => ?_⟩
    obtain ⟨N, e', k', he, h⟩ := ih.2 (.punct '>' j :: .box :: .path f :: rest) ⟨rfl, .inl rfl⟩ k
    exact ⟨N, e', k', _, .act k' e' true f, k' + 1, by simp [Expr.bare, he], fun n hn => by
      rw [List.append_assoc]; exact h n hn, rfl⟩
  · -- one branch
    intro ts e _ ih
    refine ⟨ih.1, fun rest hr k => ?_⟩
    obtain ⟨N, e1, k1, ts1, e', k', he, h, ha⟩ := ih.2 rest hr.1 k
    refine ⟨N + 1, [e'], k', by simp [bareAll, he], fun n hn => ?_⟩
    obtain ⟨m, rfl⟩ : ∃ m, n = m + 1 := ⟨n - 1, by omega⟩
    rw [parseBranches, h m (by omega)]
    simp only [Res.bind_ok, ha]
    split
    · exact (hr.2 _ _ rfl).elim
    · rfl
  · -- branches
    intro ts us e es j _ _ ih1 ih2
    refine ⟨starts_append ih1.1, fun rest hr k => ?_⟩
    obtain ⟨N1, e1, k1, ts1, e', k', he, h, ha⟩ := ih1.2 (.punct '/' j :: us ++ rest) ⟨⟨rfl, .inl rfl⟩, by simp⟩ k
    obtain ⟨N2, es', k2, hes, h2⟩ := ih2.2 rest hr k'
    refine ⟨max N1 N2 + 1, e' :: es', k2, by simp [bareAll, he, hes], fun n hn => ?_⟩
    obtain ⟨m, rfl⟩ : ∃ m, n = m + 1 := ⟨n - 1, by omega⟩
    rw [List.append_assoc, parseBranches, h m (by omega)]
    simp only [Res.bind_ok, ha, List.cons_append, h2 m (by omega)]
  · -- choice one
    intro ts e _ ih
    refine ⟨ih.1, fun rest hr k => ?_⟩
    obtain ⟨N, es', k', hes, h⟩ := ih.2 rest hr k
    obtain ⟨e', rfl, he⟩ := bareAll_one hes
    refine ⟨N + 1, e', k', he, fun n hn => ?_⟩
    obtain ⟨m, rfl⟩ : ∃ m, n = m + 1 := ⟨n - 1, by omega⟩
    rw [parseChoice, h m (by omega)]
    rfl
  · -- choice many
    intro ts e1 e2 es _ ih
    refine ⟨ih.1, fun rest hr k => ?_⟩
    obtain ⟨N, es', k', hes, h⟩ := ih.2 rest hr k
    obtain ⟨a, b, l, rfl⟩ := bareAll_many hes
    refine ⟨N + 1, .choice k' (a :: b :: l), k' + 1, by simp [Expr.bare, hes], fun n hn => ?_⟩
    obtain ⟨m, rfl⟩ : ∃ m, n = m + 1 := ⟨n - 1, by omega⟩
    rw [parseChoice, h m (by omega)]
    rfl

theorem peekLhs_typed {tys : List Tok} {ty : IType} {b : Bool} (ht : IsType tys ty b) (name : String) (i j : Bool) (us : List Tok) :
    peekLhs (.path [name] :: .punct ':' i :: (tys ++ .punct '=' j :: us)) = true := by
  have h1 : peekEq (.punct ':' i :: (tys ++ .punct '=' j :: us)) = false := rfl
  have h2 : parseType (.punct ':' i :: (tys ++ .punct '=' j :: us)) = .ok (ty, .punct '=' j :: us) :=
    (parseType_complete (j := i) (rest := .punct '=' j :: us) ht (fun _ => rfl)).1
  unfold peekLhs
  simp only [h1, peekType_ok h2, Bool.false_eq_true, if_false]
  rfl

/-- The tokens at the head of a block. -/
theorem blocks_end {ts : List Tok} {F : FGrammar} (h : Blocks ts F) : ChoiceEnd ts := by
  have attr : ∀ (as : List Path) us, ChoiceEnd us → ChoiceEnd (as.map .attr ++ us) := by
    intro as us h
    cases as with
    | nil => exact h
    | cons a as => exact ⟨⟨⟨rfl, .inl rfl⟩, by simp⟩, by simp⟩
  cases h with
  | nil => exact ⟨⟨⟨rfl, .inl rfl⟩, by simp⟩, by simp⟩
  | @rule as name ts e us F j hc hb =>
    rw [List.append_assoc]
    exact attr _ _ ⟨⟨⟨rfl, .inr rfl⟩, by simp⟩, by simp⟩
  | @typed as name tys ty b ts e us F i j ht hc hb =>
    simp only [List.append_assoc]
    refine attr _ _ ⟨⟨⟨rfl, .inr ?_⟩, by simp⟩, by simp⟩
    exact peekLhs_typed ht _ _ _ _
  | item hb => exact attr _ _ ⟨⟨⟨rfl, .inl rfl⟩, by simp⟩, by simp⟩

theorem splitAttrs_complete (as : List Path) {ts : List Tok} (h : ∀ p us, ts ≠ .attr p :: us) : splitAttrs (as.map .attr ++ ts) = (as, ts) := by
  induction as with
  | nil =>
    simp only [List.map_nil, List.nil_append]
    unfold splitAttrs
    split
    · exact (h _ _ rfl).elim
    · rfl
  | cons a as ih => simp only [List.map_cons, List.cons_append, splitAttrs, ih]

theorem blocks_complete {ts : List Tok} {F : FGrammar} (h : Blocks ts F) :
    ∀ k, ∃ N F' k', F'.bare = F ∧ ∀ n, N ≤ n → parseBlocks n k ts = .ok (F', k') := by
  induction h with
  | nil =>
    intro k
    refine ⟨1, ⟨[], [], []⟩, k, rfl, fun n hn => ?_⟩
    obtain ⟨m, rfl⟩ : ∃ m, n = m + 1 := ⟨n - 1, by omega⟩
    rfl
  | @rule as name ts e us F j hc hb ih =>
    intro k
    obtain ⟨N1, e', k1, he, h1⟩ := (complete_all hc).2 us (blocks_end hb) k
    obtain ⟨N2, F', k2, hF, h2⟩ := ih k1
    subst hF
    subst he
    refine ⟨max N1 N2 + 1, ⟨(name, e') :: F'.rules, F'.items, as ++ F'.attrs⟩, k2, rfl, fun n hn => ?_⟩
    obtain ⟨m, rfl⟩ : ∃ m, n = m + 1 := ⟨n - 1, by omega⟩
    unfold parseBlocks
    rw [if_neg (by simp), List.append_assoc, splitAttrs_complete as (by simp)]
    simp only [List.cons_append, peekLhs, peekEq, if_true, parseRule]
    rw [parseType_infer (by simp)]
    simp only [Res.bind_ok, h1 m (by omega), h2 m (by omega)]
  | @typed as name tys ty b ts e us F i j ht hc hb ih =>
    intro k
    obtain ⟨N1, e', k1, he, h1⟩ := (complete_all hc).2 us (blocks_end hb) k
    obtain ⟨N2, F', k2, hF, h2⟩ := ih (k1 + 1)
    subst hF
    subst he
    refine ⟨max N1 N2 + 1, ⟨(name, .asc k1 e' ty) :: F'.rules, F'.items, as ++ F'.attrs⟩, k2, rfl, fun n hn => ?_⟩
    obtain ⟨m, rfl⟩ : ∃ m, n = m + 1 := ⟨n - 1, by omega⟩
    have hpt := parseType_complete (j := i) (rest := .punct '=' j :: ts ++ us) ht (fun _ => rfl)
    have hty := hpt.2
    have hpt := hpt.1
    unfold parseBlocks
    simp only [List.append_assoc]
    rw [if_neg (by simp), splitAttrs_complete as (by simp)]
    simp only [List.cons_append] at hpt ⊢
    rw [if_pos (peekLhs_typed ht _ _ _ _)]
    simp only [parseRule, hpt, Res.bind_ok, h1 m (by omega), h2 m (by omega)]
  | @item as it us F hb ih =>
    intro k
    obtain ⟨N2, F', k2, hF, h2⟩ := ih k
    subst hF
    refine ⟨N2 + 1, ⟨F'.rules, it :: F'.items, as ++ F'.attrs⟩, k2, rfl, fun n hn => ?_⟩
    obtain ⟨m, rfl⟩ : ∃ m, n = m + 1 := ⟨n - 1, by omega⟩
    unfold parseBlocks
    rw [if_neg (by simp), splitAttrs_complete as (by simp)]
    simp only [peekLhs, Bool.false_eq_true, if_false, h2 m (by omega), Res.bind_ok]

end Oak
