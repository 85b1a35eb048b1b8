import Verif.Proofs.CharClass
import Verif.Spec.Front
/-! The front-end accepts only what the concrete syntax describes. -/
set_option autoImplicit false

namespace Oak
open Syntax

theorem startsDots_iff {ts : List Tok} (h : startsDots ts = true) : ∃ j us, ts = .punct '.' true :: .punct '.' j :: us := by
  unfold startsDots at h
  split at h
  · exact ⟨_, _, rfl⟩
  · cases h

theorem startsDot_iff {ts : List Tok} (h : startsDot ts = true) : ∃ j us, ts = .punct '.' j :: us := by
  unfold startsDot at h
  split at h
  · exact ⟨_, _, rfl⟩
  · cases h

theorem startsParen_iff {ts : List Tok} (h : startsParen ts = true) : ∃ g us, ts = .paren g :: us := by
  unfold startsParen at h
  split at h
  · exact ⟨_, _, rfl⟩
  · cases h

theorem written_eq (p : Path) : pathText p = written p := by
  induction p with
  | nil => exact String.intercalate_nil
  | cons x p ih =>
    cases p with
    | nil => exact String.intercalate_singleton
    | cons y p =>
      unfold written
      rw [← ih]
      exact String.intercalate_cons_cons

theorem tokType_sound : ∀ {t : Tok} {s : String}, tokType t = some s → TypeText t s
  | .path p, s, h => by unfold tokType at h; cases h; rw [written_eq]; exact .path
  | .rtype t, s, h => by unfold tokType at h; cases h; exact .rust
  | .paren [t], s, h => by
    unfold tokType at h
    cases ht : tokType t with
    | none => simp [ht] at h
    | some u =>
      simp only [ht, Option.map_some, Option.some.injEq] at h
      subst h
      exact .paren (tokType_sound ht)
  | .paren [], s, h => by unfold tokType at h; cases h
  | .paren (_ :: _ :: _), s, h => by unfold tokType at h; cases h
  | .lit _, s, h | .punct _ _, s, h | .bracket _, s, h | .box, s, h | .item _, s, h | .attr _, s, h | .other _, s, h => by unfold tokType at h; cases h

theorem tokType_complete {t : Tok} {s : String} (h : TypeText t s) : tokType t = some s := by
  induction h with
  | path => unfold tokType; rw [written_eq]
  | rust => unfold tokType; rfl
  | paren _ ih => unfold tokType; rw [ih]; rfl

theorem parseRustTy_sound {ts rest : List Tok} {t : String} (h : parseRustTy ts = .ok (t, rest)) :
    ∃ pre b, ts = pre ++ rest ∧ IsType pre (.regular (.rust t)) b ∧ (b = true → startsParen rest = false) := by
  unfold parseRustTy at h
  split at h
  · cases h; rw [written_eq]; exact ⟨_, _, rfl, .args0, by simp⟩
  · split at h
    · rename_i ht; cases h; rw [written_eq]; exact ⟨_, _, rfl, .args (tokType_sound ht), by simp⟩
    · cases h
  · cases h
  · rename_i t' ts' h1 h2 h3
    split at h
    · rename_i s hs
      cases h
      unfold tokType at hs
      split at hs
      · cases hs
        rw [written_eq]
        refine ⟨_, _, rfl, .path, fun _ => ?_⟩
        cases hp : startsParen rest with
        | false => rfl
        | true =>
          obtain ⟨g, us, rfl⟩ := startsParen_iff hp
          exact (h3 _ _ _ rfl rfl).elim
      · cases hs; exact ⟨_, _, rfl, .rust, by simp⟩
      · rename_i u
        cases hu : tokType u with
        | none => simp [hu] at hs
        | some s' =>
          simp only [hu, Option.map_some, Option.some.injEq] at hs
          subst hs
          exact ⟨_, _, rfl, .paren (tokType_sound hu), by simp⟩
      · cases hs
    · cases h
  · cases h

theorem parseType_sound {ts rest : List Tok} {ty : IType} (h : parseType ts = .ok (ty, rest)) :
    (ty = .infer ∧ ts = rest ∧ ∀ j us, ts ≠ .punct ':' j :: us) ∨
    ∃ j pre b, ts = .punct ':' j :: pre ++ rest ∧ IsType pre ty b ∧ (b = true → startsParen rest = false) ∧ ty ≠ .infer := by
  unfold parseType at h
  split at h
  · cases h; exact .inr ⟨_, [.paren []], false, rfl, .unit, by simp, by simp⟩
  · rename_i j1 j2 g ts'
    split at h
    · rename_i hg
      cases h
      cases g with
      | nil => exact .inr ⟨_, [_], false, rfl, .invisible, by simp, by simp⟩
      | cons => cases hg
    · cases h
  · replace h := Res.bind_eq_ok h; obtain ⟨⟨t, r⟩, h1, h⟩ := h
    cases h
    obtain ⟨pre, b, rfl, ht, hb⟩ := parseRustTy_sound h1
    exact .inr ⟨_, pre, b, rfl, ht, hb, by simp⟩
  · rename_i h1 h2 h3
    cases h
    refine .inl ⟨rfl, rfl, ?_⟩
    rintro j us rfl
    exact h3 _ _ rfl

theorem parseAction_sound {k k' : Nat} {e e' : Expr} {ts rest : List Tok} (h : parseAction k e ts = .ok (e', k', rest)) {pre : List Tok}
    (hs : Spanned pre e.bare) : ∃ pre', ts = pre' ++ rest ∧ Branch (pre ++ pre') e'.bare := by
  unfold parseAction at h
  split at h
  · cases h; exact ⟨[_, _, _], rfl, .boxed hs⟩
  · cases h; exact ⟨[_, _], rfl, .act hs⟩
  · cases h
  · cases h; exact ⟨[], rfl, by simpa using Branch.spanned hs⟩

theorem parseSuffix_sound {k k' : Nat} {e e' : Expr} {ts rest : List Tok} (h : parseSuffix k e ts = (e', k', rest)) {pre : List Tok}
    (hs : Atom pre e.bare) : ∃ pre', ts = pre' ++ rest ∧ Suffixed (pre ++ pre') e'.bare := by
  unfold parseSuffix at h
  split at h
  · cases h; exact ⟨[_], rfl, .star hs⟩
  · cases h; exact ⟨[_], rfl, .plus hs⟩
  · cases h; exact ⟨[_], rfl, .opt hs⟩
  · cases h; exact ⟨[], rfl, by simpa using Suffixed.atom hs⟩

/-- What is known about the tokens read by each function, for a depth. -/
structure SoundAt (n : Nat) : Prop where
  choice : ∀ {k ts e k' rest}, parseChoice n k ts = .ok (e, k', rest) → ∃ pre, pre ≠ [] ∧ ts = pre ++ rest ∧ Choice pre e.bare
  branches : ∀ {k ts es k' rest}, parseBranches n k ts = .ok (es, k', rest) → ∃ pre, pre ≠ [] ∧ ts = pre ++ rest ∧ Branches pre (bareAll es)
  spanned : ∀ {k ts e k' rest}, parseSpanned n k ts = .ok (e, k', rest) → ∃ pre, pre ≠ [] ∧ ts = pre ++ rest ∧ Spanned pre e.bare
  seq : ∀ {k ts e k' rest}, parseSeq n k ts = .ok (e, k', rest) → ∃ pre, pre ≠ [] ∧ ts = pre ++ rest ∧ Seq pre e.bare
  elems : ∀ {k ts es k' rest}, parseTypeds n k ts = .ok (es, k', rest) →
    (es = [] ∧ ts = rest) ∨ ∃ pre, pre ≠ [] ∧ ts = pre ++ rest ∧ Elems pre (bareAll es)
  typed : ∀ {k ts o k' rest}, parseTyped n k ts = .ok (o, k', rest) →
    (o = none ∧ ts = rest) ∨
    ∃ e pre b, o = some e ∧ pre ≠ [] ∧ ts = pre ++ rest ∧ Typed pre e.bare b ∧ (b = true → startsParen rest = false)
  prefixed : ∀ {k ts o k' rest}, parsePrefixed n k ts = .ok (o, k', rest) →
    (o = none ∧ ts = rest) ∨ ∃ e pre, o = some e ∧ pre ≠ [] ∧ ts = pre ++ rest ∧ Prefixed pre e.bare
  suffixed : ∀ {k ts o k' rest}, parseSuffixed n k ts = .ok (o, k', rest) →
    (o = none ∧ ts = rest) ∨ ∃ e pre, o = some e ∧ pre ≠ [] ∧ ts = pre ++ rest ∧ Suffixed pre e.bare
  atom : ∀ {k ts o k' rest}, parseAtom n k ts = .ok (o, k', rest) →
    (o = none ∧ ts = rest) ∨ ∃ e pre, o = some e ∧ pre ≠ [] ∧ ts = pre ++ rest ∧ Atom pre e.bare

theorem startsParen_append {us rest : List Tok} (h : us ≠ []) : startsParen (us ++ rest) = startsParen us := by
  cases us with
  | nil => exact (h rfl).elim
  | cons u us => cases u <;> rfl

theorem startsDot_append {us rest : List Tok} (h : us ≠ []) : startsDot (us ++ rest) = startsDot us := by
  cases us with
  | nil => exact (h rfl).elim
  | cons u us =>
    rw [List.cons_append]
    unfold startsDot
    split
    · rename_i he; cases he; rfl
    · rename_i hx
      split
      · rename_i he; cases he; exact (hx _ _ rfl).elim
      · rfl

theorem sound_all : ∀ n, SoundAt n := by
  intro n
  induction n with
  | zero =>
    constructor <;> intro k ts o k' rest h
    all_goals first
      | (rw [parseChoice] at h; cases h) | (rw [parseBranches] at h; cases h) | (rw [parseSpanned] at h; cases h)
      | (rw [parseSeq] at h; cases h) | (rw [parseTypeds] at h; cases h) | (rw [parseTyped] at h; cases h)
      | (rw [parsePrefixed] at h; cases h) | (rw [parseSuffixed] at h; cases h) | (rw [parseAtom] at h; cases h)
  | succ n ih =>
    constructor
    · -- choice
      intro k ts e k' rest h
      rw [parseChoice] at h
      replace h := Res.bind_eq_ok h; obtain ⟨⟨es, k1, ts1⟩, h1, h⟩ := h
      obtain ⟨pre, hne, rfl, hb⟩ := ih.branches h1
      simp only at h
      split at h
      · cases h
        exact ⟨pre, hne, rfl, .one hb⟩
      · rename_i es' hes
        cases h
        refine ⟨pre, hne, rfl, ?_⟩
        cases es with
        | nil => cases hb
        | cons e1 es =>
          cases es with
          | nil => exact (hes e1 rfl).elim
          | cons e2 es => exact .many hb
    · -- branches
      intro k ts es k' rest h
      rw [parseBranches] at h
      replace h := Res.bind_eq_ok h; obtain ⟨⟨e, k1, ts1⟩, h1, h⟩ := h
      obtain ⟨pre, hne, rfl, hb⟩ := ih.spanned h1
      simp only at h
      replace h := Res.bind_eq_ok h; obtain ⟨⟨e2, k2, ts2⟩, h2, h⟩ := h
      obtain ⟨pre2, rfl, hb2⟩ := parseAction_sound h2 hb
      simp only at h
      split at h
      · replace h := Res.bind_eq_ok h; obtain ⟨⟨es3, k3, ts3⟩, h3, h⟩ := h
        cases h
        obtain ⟨pre3, _, rfl, hb3⟩ := ih.branches h3
        rename_i j _
        exact ⟨(pre ++ pre2) ++ .punct '/' j :: pre3, by simp, by simp, .cons hb2 hb3⟩
      · cases h
        exact ⟨pre ++ pre2, by simp [hne], by simp, .one hb2⟩
    · -- spanned
      intro k ts e k' rest h
      unfold parseSpanned at h
      split at h
      · replace h := Res.bind_eq_ok h; obtain ⟨⟨e1, k1, ts1⟩, h1, h⟩ := h
        cases h
        obtain ⟨pre, hne, rfl, hb⟩ := ih.seq h1
        exact ⟨_ :: _ :: _ :: pre, by simp, rfl, .range hb⟩
      · rename_i hnot
        replace h := Res.bind_eq_ok h; obtain ⟨⟨e1, k1, ts1⟩, h1, h⟩ := h
        cases h
        obtain ⟨pre, hne, rfl, hb⟩ := ih.seq h1
        refine ⟨_ :: _ :: pre, by simp, rfl, .span hb ?_⟩
        rintro rfl
        cases hd : startsDot pre with
        | false => rfl
        | true =>
          obtain ⟨j, us, rfl⟩ := startsDot_iff hd
          exact (hnot _ _ rfl rfl).elim
      · rename_i h2 h3
        obtain ⟨pre, hne, rfl, hb⟩ := ih.seq h
        refine ⟨pre, hne, rfl, .seq hb ?_⟩
        cases hd : startsDots pre with
        | false => rfl
        | true =>
          obtain ⟨j, us, rfl⟩ := startsDots_iff hd
          exact (h3 _ _ rfl).elim
    · -- seq
      intro k ts e k' rest h
      rw [parseSeq] at h
      replace h := Res.bind_eq_ok h; obtain ⟨⟨es, k1, ts1⟩, h1, h⟩ := h
      simp only at h
      rcases ih.elems h1 with ⟨rfl, rfl⟩ | ⟨pre, hne, rfl, hb⟩
      · cases h
      · cases es with
        | nil => cases h
        | cons e1 es =>
          cases es with
          | nil => cases h; exact ⟨pre, hne, rfl, .one hb⟩
          | cons e2 es => cases h; exact ⟨pre, hne, rfl, .many hb⟩
    · -- elems
      intro k ts es k' rest h
      rw [parseTypeds] at h
      replace h := Res.bind_eq_ok h; obtain ⟨⟨o, k1, ts1⟩, h1, h⟩ := h
      simp only at h
      rcases ih.typed h1 with ⟨rfl, rfl⟩ | ⟨e, pre, b, rfl, hne, rfl, hb, hp⟩
      · cases h; exact .inl ⟨rfl, rfl⟩
      · replace h := Res.bind_eq_ok h; obtain ⟨⟨es2, k2, ts2⟩, h2, h⟩ := h
        cases h
        right
        rcases ih.elems h2 with ⟨rfl, rfl⟩ | ⟨pre2, hne2, rfl, hb2⟩
        · exact ⟨pre, hne, rfl, .one hb⟩
        · refine ⟨pre ++ pre2, by simp [hne], by simp, .cons hb hb2 ?_⟩
          rw [← startsParen_append hne2]
          exact hp
    · -- typed
      intro k ts o k' rest h
      rw [parseTyped] at h
      replace h := Res.bind_eq_ok h; obtain ⟨⟨o1, k1, ts1⟩, h1, h⟩ := h
      simp only at h
      replace h := Res.bind_eq_ok h; obtain ⟨⟨ty, ts2⟩, h2, h⟩ := h
      simp only at h
      rcases ih.prefixed h1 with ⟨rfl, rfl⟩ | ⟨e, pre, rfl, hne, rfl, hb⟩
      · rcases parseType_sound h2 with ⟨rfl, rfl, _⟩ | ⟨j, pre, b, _, _, _, hty⟩
        · cases h; exact .inl ⟨rfl, rfl⟩
        · split at h
          · exact (hty rfl).elim
          · cases h
      · right
        rcases parseType_sound h2 with ⟨rfl, rfl, _⟩ | ⟨j, pre2, b, rfl, ht, hp, hty⟩
        · cases h; exact ⟨e, pre, false, rfl, hne, rfl, .prefixed hb, by simp⟩
        · split at h
          · exact (hty rfl).elim
          · cases h
            exact ⟨_, pre ++ .punct ':' j :: pre2, b, rfl, by simp, by simp, .asc hb ht, hp⟩
    · -- prefixed
      intro k ts o k' rest h
      unfold parsePrefixed at h
      split at h
      · replace h := Res.bind_eq_ok h; obtain ⟨⟨o1, k1, ts1⟩, h1, h⟩ := h
        simp only at h
        rcases ih.suffixed h1 with ⟨rfl, rfl⟩ | ⟨e, pre, rfl, hne, rfl, hb⟩
        · cases h
        · cases h; exact .inr ⟨_, _ :: pre, rfl, by simp, rfl, .not hb⟩
      · replace h := Res.bind_eq_ok h; obtain ⟨⟨o1, k1, ts1⟩, h1, h⟩ := h
        simp only at h
        rcases ih.suffixed h1 with ⟨rfl, rfl⟩ | ⟨e, pre, rfl, hne, rfl, hb⟩
        · cases h
        · cases h; exact .inr ⟨_, _ :: pre, rfl, by simp, rfl, .and hb⟩
      · rcases ih.suffixed h with ⟨rfl, rfl⟩ | ⟨e, pre, rfl, hne, rfl, hb⟩
        · exact .inl ⟨rfl, rfl⟩
        · exact .inr ⟨e, pre, rfl, hne, rfl, .suffixed hb⟩
    · -- suffixed
      intro k ts o k' rest h
      rw [parseSuffixed] at h
      replace h := Res.bind_eq_ok h; obtain ⟨⟨o1, k1, ts1⟩, h1, h⟩ := h
      simp only at h
      rcases ih.atom h1 with ⟨rfl, rfl⟩ | ⟨e, pre, rfl, hne, rfl, hb⟩
      · cases h; exact .inl ⟨rfl, rfl⟩
      · obtain ⟨e2, k2, ts2, hs⟩ : ∃ e2 k2 ts2, parseSuffix k1 e ts1 = (e2, k2, ts2) := ⟨_, _, _, rfl⟩
        simp only [hs] at h
        cases h
        obtain ⟨pre2, rfl, hb2⟩ := parseSuffix_sound hs hb
        exact .inr ⟨_, pre ++ pre2, rfl, by simp [hne], by simp, hb2⟩
    · -- atom
      intro k ts o k' rest h
      unfold parseAtom at h
      split at h
      · cases h; exact .inr ⟨_, [_], rfl, by simp, rfl, .lit⟩
      · cases h; exact .inr ⟨_, [_], rfl, by simp, rfl, .any⟩
      · split at h
        · cases h
        · replace h := Res.bind_eq_ok h; obtain ⟨⟨e, k1, g1⟩, h1, h⟩ := h
          simp only at h
          obtain ⟨pre, hne, rfl, hb⟩ := ih.choice h1
          split at h
          · rename_i hg
            cases g1 with
            | cons => cases hg
            | nil =>
              cases h
              rw [List.append_nil]
              exact .inr ⟨e, [.paren pre], rfl, by simp, rfl, .paren hb⟩
          · cases h
      · split at h
        · cases h; exact .inl ⟨rfl, rfl⟩
        · cases h; exact .inr ⟨_, [_], rfl, by simp, rfl, .call⟩
      · replace h := Res.bind_eq_ok h; obtain ⟨⟨e, k1⟩, h1, h⟩ := h
        cases h
        unfold parseClass at h1
        split at h1
        · replace h1 := Res.bind_eq_ok h1; obtain ⟨ivs, h2, h1⟩ := h1
          cases h1
          obtain ⟨K, hK, ht⟩ := parseCharClass_sound h2
          have := parseCharClass_exact h2 K hK ht
          subst this
          exact .inr ⟨_, [_], rfl, by simp, rfl, .cls hK ht⟩
        · cases h1
      · cases h; exact .inl ⟨rfl, rfl⟩

theorem splitAttrs_sound {ts rest : List Tok} {ps : List Path} (h : splitAttrs ts = (ps, rest)) : ts = ps.map .attr ++ rest := by
  induction ts generalizing ps rest with
  | nil => cases h; rfl
  | cons t ts ih =>
    unfold splitAttrs at h
    split at h
    · rename_i p us he
      cases he
      generalize hs : splitAttrs ts = x at h
      obtain ⟨qs, vs⟩ := x
      cases h
      simp [ih hs]
    · cases h; rfl

theorem blocks_sound : ∀ n k ts F k', parseBlocks n k ts = .ok (F, k') → Blocks ts F.bare := by
  intro n
  induction n with
  | zero => intro k ts F k' h; cases h
  | succ n ih =>
    intro k ts F k' h
    unfold parseBlocks at h
    split at h
    · cases h
      cases ts with
      | nil => exact .nil
      | cons t ts => rename_i ht; cases ht
    · generalize hs : splitAttrs ts = x at h
      obtain ⟨ps, ts1⟩ := x
      have hts := splitAttrs_sound hs
      subst hts
      simp only at h
      split at h
      · replace h := Res.bind_eq_ok h; obtain ⟨⟨r, k1, ts2⟩, h1, h⟩ := h
        simp only at h
        replace h := Res.bind_eq_ok h; obtain ⟨⟨F2, k2⟩, h2, h⟩ := h
        cases h
        have hF := ih _ _ _ _ h2
        unfold parseRule at h1
        split at h1
        · rename_i name ts3 _ _
          replace h1 := Res.bind_eq_ok h1; obtain ⟨⟨ty, ts4⟩, h3, h1⟩ := h1
          simp only at h1
          split at h1
          · rename_i j ts5
            replace h1 := Res.bind_eq_ok h1; obtain ⟨⟨e, k6, ts6⟩, h4, h1⟩ := h1
            obtain ⟨pre, hne, rfl, hb⟩ := (sound_all n).choice h4
            rcases parseType_sound h3 with ⟨rfl, rfl, _⟩ | ⟨i, pre2, b, rfl, ht, hp, hty⟩
            · cases h1
              simpa [FGrammar.bare] using Blocks.rule (as := ps) (j := j) (name := name) hb hF
            · simp only at h1
              cases h1
              simpa [FGrammar.bare, Expr.bare] using Blocks.typed (as := ps) (i := i) (j := j) (name := name) ht hb hF
          · cases h1
        · cases h1
      · split at h
        · replace h := Res.bind_eq_ok h; obtain ⟨⟨F2, k2⟩, h2, h⟩ := h
          cases h
          have hF := ih _ _ _ _ h2
          exact Blocks.item (as := ps) hF
        · cases h

end Oak
