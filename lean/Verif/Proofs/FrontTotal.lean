import Verif.Proofs.FrontComplete
import Verif.Spec.Analysis
/-! The front-end terminates; what it builds. -/
set_option autoImplicit false

namespace Oak
open Syntax

/-! ### Fuel -/

theorem Res.bind_stable {α β : Type} {x y : Res α} {f g : α → Res β} (hx : x ≠ .timeout → y = x)
    (hf : ∀ a, f a ≠ .timeout → g a = f a) (h : (x >>= f) ≠ .timeout) : (y >>= g) = (x >>= f) := by
  cases x with
  | ok a => rw [hx (by simp)]; exact hf a h
  | panic => rw [hx (by simp)]; rfl
  | stuck => rw [hx (by simp)]; rfl
  | timeout => exact (h rfl).elim

/-- More fuel does not change a result. -/
structure StableAt (n : Nat) : Prop where
  choice : ∀ k ts, parseChoice n k ts ≠ .timeout → parseChoice (n + 1) k ts = parseChoice n k ts
  branches : ∀ k ts, parseBranches n k ts ≠ .timeout → parseBranches (n + 1) k ts = parseBranches n k ts
  spanned : ∀ k ts, parseSpanned n k ts ≠ .timeout → parseSpanned (n + 1) k ts = parseSpanned n k ts
  seq : ∀ k ts, parseSeq n k ts ≠ .timeout → parseSeq (n + 1) k ts = parseSeq n k ts
  elems : ∀ k ts, parseTypeds n k ts ≠ .timeout → parseTypeds (n + 1) k ts = parseTypeds n k ts
  typed : ∀ k ts, parseTyped n k ts ≠ .timeout → parseTyped (n + 1) k ts = parseTyped n k ts
  prefixed : ∀ k ts, parsePrefixed n k ts ≠ .timeout → parsePrefixed (n + 1) k ts = parsePrefixed n k ts
  suffixed : ∀ k ts, parseSuffixed n k ts ≠ .timeout → parseSuffixed (n + 1) k ts = parseSuffixed n k ts
  atom : ∀ k ts, parseAtom n k ts ≠ .timeout → parseAtom (n + 1) k ts = parseAtom n k ts

theorem stable_all : ∀ n, StableAt n := by
  intro n
  induction n with
  | zero =>
    constructor <;> intro k ts h
    all_goals exfalso; apply h
    all_goals first
      | rw [parseChoice] | rw [parseBranches] | rw [parseSpanned] | rw [parseSeq] | rw [parseTypeds] | rw [parseTyped]
      | rw [parsePrefixed] | rw [parseSuffixed] | rw [parseAtom]
  | succ n ih =>
    constructor
    · intro k ts h
      rw [parseChoice] at h
      rw [parseChoice, parseChoice]
      exact Res.bind_stable (ih.branches k ts) (fun a _ => rfl) h
    · intro k ts h
      rw [parseBranches] at h
      rw [parseBranches, parseBranches]
      refine Res.bind_stable (ih.spanned k ts) (fun a h1 => ?_) h
      refine Res.bind_stable (fun _ => rfl) (fun b h2 => ?_) h1
      obtain ⟨b1, b2, b3⟩ := b
      simp only at h2 ⊢
      split at h2
      · exact Res.bind_stable (ih.branches _ _) (fun _ _ => rfl) h2
      · rfl
    · intro k ts h
      unfold parseSpanned at h ⊢
      split at h
      · exact Res.bind_stable (ih.seq _ _) (fun _ _ => rfl) h
      · exact Res.bind_stable (ih.seq _ _) (fun _ _ => rfl) h
      · exact ih.seq _ _ h
    · intro k ts h
      rw [parseSeq] at h
      rw [parseSeq, parseSeq]
      exact Res.bind_stable (ih.elems k ts) (fun a _ => rfl) h
    · intro k ts h
      rw [parseTypeds] at h
      rw [parseTypeds, parseTypeds]
      refine Res.bind_stable (ih.typed k ts) (fun a h1 => ?_) h
      obtain ⟨o, k1, ts1⟩ := a
      cases o with
      | none => rfl
      | some e => exact Res.bind_stable (ih.elems _ _) (fun _ _ => rfl) h1
    · intro k ts h
      rw [parseTyped] at h
      rw [parseTyped, parseTyped]
      exact Res.bind_stable (ih.prefixed k ts) (fun a _ => rfl) h
    · intro k ts h
      unfold parsePrefixed at h ⊢
      split at h
      · exact Res.bind_stable (ih.suffixed _ _) (fun _ _ => rfl) h
      · exact Res.bind_stable (ih.suffixed _ _) (fun _ _ => rfl) h
      · exact ih.suffixed _ _ h
    · intro k ts h
      rw [parseSuffixed] at h
      rw [parseSuffixed, parseSuffixed]
      exact Res.bind_stable (ih.atom k ts) (fun a _ => rfl) h
    · intro k ts h
      unfold parseAtom at h ⊢
      split at h
      · rfl
      · rfl
      · split at h
        · rename_i hg; rw [if_pos hg, if_pos hg]
        · rename_i hg
          rw [if_neg hg, if_neg hg]
          exact Res.bind_stable (ih.choice _ _) (fun _ _ => rfl) h
      · rfl
      · rfl
      · rfl

theorem parseChoice_mono {n m k : Nat} {ts : List Tok} (hm : n ≤ m) (h : parseChoice n k ts ≠ .timeout) :
    parseChoice m k ts = parseChoice n k ts := by
  induction hm with
  | refl => rfl
  | step _ ih => rw [← ih]; exact (stable_all _).choice k ts (by rw [ih]; exact h)

theorem parseRule_stable (n k : Nat) (ts : List Tok) (h : parseRule n k ts ≠ .timeout) : parseRule (n + 1) k ts = parseRule n k ts := by
  unfold parseRule at h ⊢
  split at h
  · refine Res.bind_stable (fun _ => rfl) (fun a h1 => ?_) h
    obtain ⟨ty, ts1⟩ := a
    simp only at h1 ⊢
    split at h1
    · exact Res.bind_stable ((stable_all n).choice _ _) (fun _ _ => rfl) h1
    · rfl
  · rfl

theorem parseBlocks_stable : ∀ n k ts, parseBlocks n k ts ≠ .timeout → parseBlocks (n + 1) k ts = parseBlocks n k ts := by
  intro n
  induction n with
  | zero => intro k ts h; exact (h rfl).elim
  | succ n ih =>
    intro k ts h
    unfold parseBlocks at h ⊢
    split at h
    · rename_i he; rw [if_pos he, if_pos he]
    · rename_i he
      rw [if_neg he, if_neg he]
      generalize splitAttrs ts = x at h ⊢
      obtain ⟨ps, ts1⟩ := x
      simp only at h ⊢
      split at h
      · rename_i hl
        rw [if_pos hl, if_pos hl]
        refine Res.bind_stable (parseRule_stable _ _ _) (fun a h1 => ?_) h
        exact Res.bind_stable (ih _ _) (fun _ _ => rfl) h1
      · rename_i hl
        rw [if_neg hl, if_neg hl]
        split at h
        · exact Res.bind_stable (ih _ _) (fun _ _ => rfl) h
        · rfl

theorem parseBlocks_mono {n m k : Nat} {ts : List Tok} (hm : n ≤ m) (h : parseBlocks n k ts ≠ .timeout) :
    parseBlocks m k ts = parseBlocks n k ts := by
  induction hm with
  | refl => rfl
  | step _ ih => rw [← ih]; exact parseBlocks_stable _ k ts (by rw [ih]; exact h)

/-! ### Termination -/

/-- The computation ends with a result or with an error. -/
def Res.Decided {α : Type} (x : Res α) : Prop := (∃ a, x = .ok a) ∨ x = .stuck

theorem Res.Decided.bind {α β : Type} {x : Res α} {f : α → Res β} (hx : x.Decided) (hf : ∀ a, x = .ok a → (f a).Decided) :
    (x >>= f).Decided := by
  rcases hx with ⟨a, rfl⟩ | rfl
  · exact hf a rfl
  · exact .inr rfl

theorem Res.Decided.ok {α : Type} (a : α) : (Res.ok a).Decided := .inl ⟨a, rfl⟩
theorem Res.Decided.stuck {α : Type} : (Res.stuck : Res α).Decided := .inr rfl

theorem parseRustTy_decided (ts : List Tok) : (parseRustTy ts).Decided := by
  unfold parseRustTy
  split
  · exact .ok _
  · split
    · exact .ok _
    · exact .stuck
  · exact .stuck
  · split
    · exact .ok _
    · exact .stuck
  · exact .stuck

theorem parseType_decided (ts : List Tok) : (parseType ts).Decided := by
  unfold parseType
  split
  · exact .ok _
  · split
    · exact .ok _
    · exact .stuck
  · exact (parseRustTy_decided _).bind fun a _ => .ok _
  · exact .ok _

theorem parseAction_decided (k : Nat) (e : Expr) (ts : List Tok) : (parseAction k e ts).Decided := by
  unfold parseAction
  split
  · exact .ok _
  · exact .ok _
  · exact .stuck
  · exact .ok _

theorem parseClass_decided (k : Nat) (ts : List Tok) : (parseClass k ts).Decided := by
  unfold parseClass
  split
  · exact Res.Decided.bind (parseCharClass_outcome _ _ (by omega)) fun a _ => .ok _
  · exact .stuck

theorem sizeOf_append_le (pre rest : List Tok) : sizeOf rest ≤ sizeOf (pre ++ rest) := by
  induction pre with
  | nil => simp
  | cons t pre ih => simp only [List.cons_append, List.cons.sizeOf_spec]; omega

theorem sizeOf_append_lt {pre : List Tok} (rest : List Tok) (h : pre ≠ []) : sizeOf rest + 1 ≤ sizeOf (pre ++ rest) := by
  cases pre with
  | nil => exact (h rfl).elim
  | cons t pre =>
    have := sizeOf_append_le pre rest
    simp only [List.cons_append, List.cons.sizeOf_spec]; omega

/-- Enough fuel for each function. -/
structure TotalAt (n : Nat) : Prop where
  choice : ∀ k ts, 10 * sizeOf ts + 9 ≤ n → (parseChoice n k ts).Decided
  branches : ∀ k ts, 10 * sizeOf ts + 8 ≤ n → (parseBranches n k ts).Decided
  spanned : ∀ k ts, 10 * sizeOf ts + 7 ≤ n → (parseSpanned n k ts).Decided
  seq : ∀ k ts, 10 * sizeOf ts + 6 ≤ n → (parseSeq n k ts).Decided
  elems : ∀ k ts, 10 * sizeOf ts + 5 ≤ n → (parseTypeds n k ts).Decided
  typed : ∀ k ts, 10 * sizeOf ts + 4 ≤ n → (parseTyped n k ts).Decided
  prefixed : ∀ k ts, 10 * sizeOf ts + 3 ≤ n → (parsePrefixed n k ts).Decided
  suffixed : ∀ k ts, 10 * sizeOf ts + 2 ≤ n → (parseSuffixed n k ts).Decided
  atom : ∀ k ts, 10 * sizeOf ts + 1 ≤ n → (parseAtom n k ts).Decided

theorem total_all : ∀ n, TotalAt n := by
  intro n
  induction n with
  | zero => constructor <;> intro k ts h <;> omega
  | succ n ih =>
    constructor
    · intro k ts h
      rw [parseChoice]
      refine (ih.branches k ts (by omega)).bind fun a _ => ?_
      obtain ⟨es, k1, ts1⟩ := a
      simp only
      split <;> exact .ok _
    · intro k ts h
      rw [parseBranches]
      refine (ih.spanned k ts (by omega)).bind fun a ha => ?_
      obtain ⟨e, k1, ts1⟩ := a
      obtain ⟨pre, hne, rfl, _⟩ := (sound_all n).spanned ha
      have h0 := sizeOf_append_lt ts1 hne
      refine (parseAction_decided _ _ _).bind fun b hb => ?_
      obtain ⟨e2, k2, ts2⟩ := b
      have h1 : sizeOf ts2 ≤ sizeOf ts1 := by
        unfold parseAction at hb
        split at hb <;> cases hb
        · simp only [List.cons.sizeOf_spec]; omega
        · simp only [List.cons.sizeOf_spec]; omega
        · exact Nat.le_refl _
      simp only
      split
      · simp only [List.cons.sizeOf_spec] at h1
        exact (ih.branches _ _ (by omega)).bind fun _ _ => .ok _
      · exact .ok _
    · intro k ts h
      unfold parseSpanned
      split
      · simp only [List.cons.sizeOf_spec] at h
        exact (ih.seq _ _ (by omega)).bind fun _ _ => .ok _
      · simp only [List.cons.sizeOf_spec] at h
        exact (ih.seq _ _ (by omega)).bind fun _ _ => .ok _
      · exact ih.seq _ _ (by omega)
    · intro k ts h
      rw [parseSeq]
      refine (ih.elems k ts (by omega)).bind fun a _ => ?_
      obtain ⟨es, k1, ts1⟩ := a
      simp only
      split
      · exact .stuck
      · exact .ok _
      · exact .ok _
    · intro k ts h
      rw [parseTypeds]
      refine (ih.typed k ts (by omega)).bind fun a ha => ?_
      obtain ⟨o, k1, ts1⟩ := a
      rcases (sound_all n).typed ha with ⟨rfl, rfl⟩ | ⟨e, pre, b, rfl, hne, rfl, _⟩
      · exact .ok _
      · have h0 := sizeOf_append_lt ts1 hne
        exact (ih.elems _ _ (by omega)).bind fun _ _ => .ok _
    · intro k ts h
      rw [parseTyped]
      refine (ih.prefixed k ts (by omega)).bind fun a ha => ?_
      obtain ⟨o, k1, ts1⟩ := a
      refine (parseType_decided _).bind fun b hb => ?_
      obtain ⟨ty, ts2⟩ := b
      simp only
      split
      · exact .ok _
      · split
        · exact .stuck
        · exact .ok _
    · intro k ts h
      unfold parsePrefixed
      split
      · simp only [List.cons.sizeOf_spec] at h
        refine (ih.suffixed _ _ (by omega)).bind fun a _ => ?_
        obtain ⟨o, k1, ts1⟩ := a
        cases o with
        | none => exact .stuck
        | some e => exact .ok _
      · simp only [List.cons.sizeOf_spec] at h
        refine (ih.suffixed _ _ (by omega)).bind fun a _ => ?_
        obtain ⟨o, k1, ts1⟩ := a
        cases o with
        | none => exact .stuck
        | some e => exact .ok _
      · exact ih.suffixed _ _ (by omega)
    · intro k ts h
      rw [parseSuffixed]
      refine (ih.atom k ts (by omega)).bind fun a _ => ?_
      obtain ⟨o, k1, ts1⟩ := a
      cases o with
      | none => exact .ok _
      | some e => exact .ok _
    · intro k ts h
      unfold parseAtom
      split
      · exact .ok _
      · exact .ok _
      · simp only [List.cons.sizeOf_spec, Tok.paren.sizeOf_spec] at h
        split
        · exact .stuck
        · refine (ih.choice _ _ (by omega)).bind fun a _ => ?_
          obtain ⟨e, k1, g1⟩ := a
          simp only
          split
          · exact .ok _
          · exact .stuck
      · split <;> exact .ok _
      · exact (parseClass_decided _ _).bind fun _ _ => .ok _
      · exact .ok _

theorem blocks_total : ∀ n k ts, 10 * sizeOf ts + 10 ≤ n → (parseBlocks n k ts).Decided := by
  intro n
  induction n with
  | zero => intro k ts h; omega
  | succ n ih =>
    intro k ts hn
    unfold parseBlocks
    split
    · exact .ok _
    · obtain ⟨ps, ts1, hs⟩ : ∃ ps ts1, splitAttrs ts = (ps, ts1) := ⟨_, _, rfl⟩
      rw [hs]
      have hts := splitAttrs_sound hs
      subst hts
      have h0 := sizeOf_append_le (ps.map .attr) ts1
      simp only
      split
      · unfold parseRule
        split
        · rename_i name ts2 _ _
          simp only [List.cons.sizeOf_spec] at h0
          have hr : ∀ r, (do
              let (ty, ts) ← parseType ts2
              match ts with
              | .punct '=' _ :: ts => do
                let (e, k, ts) ← parseChoice n k ts
                match ty with
                | .infer => Res.ok ((name, e), k, ts)
                | ty => .ok ((name, .asc k e ty), k + 1, ts)
              | _ => .stuck) = Res.ok r → sizeOf r.2.2 ≤ sizeOf ts2 := by
            intro r h
            replace h := Res.bind_eq_ok h; obtain ⟨⟨ty, ts3⟩, h1, h⟩ := h
            have h2 : sizeOf ts3 ≤ sizeOf ts2 := by
              rcases parseType_sound h1 with ⟨_, rfl, _⟩ | ⟨j, pre, b, rfl, _⟩
              · exact Nat.le_refl _
              · have := sizeOf_append_le pre ts3
                simp only [List.cons_append, List.cons.sizeOf_spec]; omega
            simp only at h
            split at h
            · replace h := Res.bind_eq_ok h; obtain ⟨⟨e, k1, ts4⟩, h3, h⟩ := h
              obtain ⟨pre, _, rfl, _⟩ := (sound_all n).choice h3
              have := sizeOf_append_le pre ts4
              simp only [List.cons.sizeOf_spec] at h2
              simp only at h
              split at h <;> cases h <;> simp only <;> omega
            · cases h
          refine Res.Decided.bind ?_ fun a ha => ?_
          · refine (parseType_decided _).bind fun b hb => ?_
            obtain ⟨ty, ts3⟩ := b
            have h2 : sizeOf ts3 ≤ sizeOf ts2 := by
              rcases parseType_sound hb with ⟨_, rfl, _⟩ | ⟨j, pre, b, rfl, _⟩
              · exact Nat.le_refl _
              · have := sizeOf_append_le pre ts3
                simp only [List.cons_append, List.cons.sizeOf_spec]; omega
            simp only
            split
            · simp only [List.cons.sizeOf_spec] at h2
              refine ((total_all n).choice _ _ (by omega)).bind fun c _ => ?_
              obtain ⟨e, k1, ts4⟩ := c
              simp only
              split <;> exact .ok _
            · exact .stuck
          · obtain ⟨r, k1, ts3⟩ := a
            have := hr _ ha
            simp only at this
            have h9 : 10 * sizeOf ts3 + 10 ≤ n := by omega
            exact (ih _ _ h9).bind fun _ _ => .ok _
        · exact .stuck
      · split
        · simp only [List.cons.sizeOf_spec] at h0
          exact (ih _ _ (by omega)).bind fun _ _ => .ok _
        · exact .stuck

/-! ### Indices -/

theorem range'_join {a b c : Nat} (h1 : a ≤ b) (h2 : b ≤ c) : List.range' a (b - a) ++ List.range' b (c - b) = List.range' a (c - a) := by
  have := List.range'_append_1 (s := a) (m := b - a) (n := c - b)
  rw [show a + (b - a) = b by omega, show b - a + (c - b) = c - a by omega] at this
  exact this

theorem range'_snoc {a b : Nat} (h : a ≤ b) : List.range' a (b - a) ++ [b] = List.range' a (b + 1 - a) := by
  have := range'_join h (Nat.le_succ b)
  rw [show b.succ - b = 1 by omega] at this
  exact this

/-- The nodes built from `k` to `k'` are numbered in order. -/
def Numbered (ids : List Nat) (k k' : Nat) : Prop := k ≤ k' ∧ ids = List.range' k (k' - k)

theorem Numbered.snoc {ids : List Nat} {k k' : Nat} (h : Numbered ids k k') : Numbered (ids ++ [k']) k (k' + 1) :=
  ⟨Nat.le_succ_of_le h.1, by rw [h.2]; exact range'_snoc h.1⟩

theorem Numbered.join {a b : List Nat} {k k1 k2 : Nat} (h1 : Numbered a k k1) (h2 : Numbered b k1 k2) : Numbered (a ++ b) k k2 :=
  ⟨Nat.le_trans h1.1 h2.1, by rw [h1.2, h2.2]; exact range'_join h1.1 h2.1⟩

theorem Numbered.nil (k : Nat) : Numbered [] k k := ⟨Nat.le_refl _, by simp⟩
theorem Numbered.one (k : Nat) : Numbered [k] k (k + 1) := ⟨Nat.le_succ _, by simp⟩

/-- The indices of an optional expression. -/
def optIndices : Option Expr → List Nat
  | none => []
  | some e => e.indices

structure NumberedAt (n : Nat) : Prop where
  choice : ∀ {k ts e k' rest}, parseChoice n k ts = .ok (e, k', rest) → Numbered e.indices k k'
  branches : ∀ {k ts es k' rest}, parseBranches n k ts = .ok (es, k', rest) → Numbered (indicesAll es) k k'
  spanned : ∀ {k ts e k' rest}, parseSpanned n k ts = .ok (e, k', rest) → Numbered e.indices k k'
  seq : ∀ {k ts e k' rest}, parseSeq n k ts = .ok (e, k', rest) → Numbered e.indices k k'
  elems : ∀ {k ts es k' rest}, parseTypeds n k ts = .ok (es, k', rest) → Numbered (indicesAll es) k k'
  typed : ∀ {k ts o k' rest}, parseTyped n k ts = .ok (o, k', rest) → Numbered (optIndices o) k k'
  prefixed : ∀ {k ts o k' rest}, parsePrefixed n k ts = .ok (o, k', rest) → Numbered (optIndices o) k k'
  suffixed : ∀ {k ts o k' rest}, parseSuffixed n k ts = .ok (o, k', rest) → Numbered (optIndices o) k k'
  atom : ∀ {k ts o k' rest}, parseAtom n k ts = .ok (o, k', rest) → Numbered (optIndices o) k k'

theorem numbered_all : ∀ n, NumberedAt n := by
  intro n
  induction n with
  | zero =>
    constructor <;> intro k ts o k' rest h
    all_goals first
      | (rw [parseChoice] at h; cases h) | (rw [parseBranches] at h; cases h) | (rw [parseSpanned] at h; cases h)
      | (rw [parseSeq] at h; cases h) | (rw [parseTypeds] at h; cases h) | (rw [parseTyped] at h; cases h)
      | (rw [parsePrefixed] at h; cases h) | (rw [parseSuffixed] at h; cases h) | (rw [parseAtom] at h; cases h)
  | succ n ih =>
    constructor
    · intro k ts e k' rest h
      rw [parseChoice] at h
      replace h := Res.bind_eq_ok h; obtain ⟨⟨es, k1, ts1⟩, h1, h⟩ := h
      have := ih.branches h1
      simp only at h
      split at h
      · cases h
        simpa [indicesAll] using this
      · cases h
        simpa [Expr.indices] using this.snoc
    · intro k ts es k' rest h
      rw [parseBranches] at h
      replace h := Res.bind_eq_ok h; obtain ⟨⟨e, k1, ts1⟩, h1, h⟩ := h
      have hs := ih.spanned h1
      simp only at h
      replace h := Res.bind_eq_ok h; obtain ⟨⟨e2, k2, ts2⟩, h2, h⟩ := h
      have ha : Numbered e2.indices k k2 := by
        unfold parseAction at h2
        split at h2 <;> cases h2
        · simpa [Expr.indices] using hs.snoc
        · simpa [Expr.indices] using hs.snoc
        · exact hs
      simp only at h
      split at h
      · replace h := Res.bind_eq_ok h; obtain ⟨⟨es3, k3, ts3⟩, h3, h⟩ := h
        cases h
        rw [indicesAll]
        exact ha.join (ih.branches h3)
      · cases h
        simpa [indicesAll] using ha
    · intro k ts e k' rest h
      unfold parseSpanned at h
      split at h
      · replace h := Res.bind_eq_ok h; obtain ⟨⟨e1, k1, ts1⟩, h1, h⟩ := h
        cases h
        simpa [Expr.indices] using (ih.seq h1).snoc.snoc
      · replace h := Res.bind_eq_ok h; obtain ⟨⟨e1, k1, ts1⟩, h1, h⟩ := h
        cases h
        simpa [Expr.indices] using (ih.seq h1).snoc
      · exact ih.seq h
    · intro k ts e k' rest h
      rw [parseSeq] at h
      replace h := Res.bind_eq_ok h; obtain ⟨⟨es, k1, ts1⟩, h1, h⟩ := h
      have := ih.elems h1
      simp only at h
      split at h
      · cases h
      · cases h
        simpa [indicesAll] using this
      · cases h
        simpa [Expr.indices] using this.snoc
    · intro k ts es k' rest h
      rw [parseTypeds] at h
      replace h := Res.bind_eq_ok h; obtain ⟨⟨o, k1, ts1⟩, h1, h⟩ := h
      have ho := ih.typed h1
      simp only at h
      split at h
      · cases h; simpa [optIndices, indicesAll] using ho
      · replace h := Res.bind_eq_ok h; obtain ⟨⟨es2, k2, ts2⟩, h2, h⟩ := h
        cases h
        rw [indicesAll]
        exact ho.join (ih.elems h2)
    · intro k ts o k' rest h
      rw [parseTyped] at h
      replace h := Res.bind_eq_ok h; obtain ⟨⟨o1, k1, ts1⟩, h1, h⟩ := h
      have ho := ih.prefixed h1
      simp only at h
      replace h := Res.bind_eq_ok h; obtain ⟨⟨ty, ts2⟩, h2, h⟩ := h
      simp only at h
      split at h
      · cases h; exact ho
      · split at h
        · cases h
        · cases h
          simpa [optIndices, Expr.indices] using Numbered.snoc ho
    · intro k ts o k' rest h
      unfold parsePrefixed at h
      split at h
      · replace h := Res.bind_eq_ok h; obtain ⟨⟨o1, k1, ts1⟩, h1, h⟩ := h
        have ho := ih.suffixed h1
        simp only at h
        split at h
        · cases h
          simpa [optIndices, Expr.indices] using Numbered.snoc ho
        · cases h
      · replace h := Res.bind_eq_ok h; obtain ⟨⟨o1, k1, ts1⟩, h1, h⟩ := h
        have ho := ih.suffixed h1
        simp only at h
        split at h
        · cases h
          simpa [optIndices, Expr.indices] using Numbered.snoc ho
        · cases h
      · exact ih.suffixed h
    · intro k ts o k' rest h
      rw [parseSuffixed] at h
      replace h := Res.bind_eq_ok h; obtain ⟨⟨o1, k1, ts1⟩, h1, h⟩ := h
      have ho := ih.atom h1
      simp only at h
      split at h
      · cases h; exact ho
      · rename_i e
        obtain ⟨e2, k2, ts2, hs⟩ : ∃ e2 k2 ts2, parseSuffix k1 e ts1 = (e2, k2, ts2) := ⟨_, _, _, rfl⟩
        simp only [hs] at h
        cases h
        unfold parseSuffix at hs
        split at hs <;> cases hs
        · simpa [optIndices, Expr.indices] using Numbered.snoc ho
        · simpa [optIndices, Expr.indices] using Numbered.snoc ho
        · simpa [optIndices, Expr.indices] using Numbered.snoc ho
        · exact ho
    · intro k ts o k' rest h
      unfold parseAtom at h
      split at h
      · cases h; exact .one k
      · cases h; exact .one k
      · split at h
        · cases h
        · replace h := Res.bind_eq_ok h; obtain ⟨⟨e, k1, g1⟩, h1, h⟩ := h
          simp only at h
          split at h
          · cases h; exact ih.choice h1
          · cases h
      · split at h
        · cases h; exact .nil k
        · cases h; exact .one k
      · replace h := Res.bind_eq_ok h; obtain ⟨⟨e, k1⟩, h1, h⟩ := h
        cases h
        unfold parseClass at h1
        split at h1
        · replace h1 := Res.bind_eq_ok h1; obtain ⟨ivs, h2, h1⟩ := h1
          cases h1
          exact .one k
        · cases h1
      · cases h; exact .nil k

theorem blocks_numbered : ∀ n k ts F k', parseBlocks n k ts = .ok (F, k') → Numbered (indicesAll (F.rules.map (·.2))) k k' := by
  intro n
  induction n with
  | zero => intro k ts F k' h; cases h
  | succ n ih =>
    intro k ts F k' h
    unfold parseBlocks at h
    split at h
    · cases h; exact .nil k
    · obtain ⟨ps, ts1, hs⟩ : ∃ ps ts1, splitAttrs ts = (ps, ts1) := ⟨_, _, rfl⟩
      simp only [hs] at h
      split at h
      · replace h := Res.bind_eq_ok h; obtain ⟨⟨r, k1, ts2⟩, h1, h⟩ := h
        simp only at h
        replace h := Res.bind_eq_ok h; obtain ⟨⟨F2, k2⟩, h2, h⟩ := h
        cases h
        have hF := ih _ _ _ _ h2
        have hr : Numbered r.2.indices k k1 := by
          unfold parseRule at h1
          split at h1
          · replace h1 := Res.bind_eq_ok h1; obtain ⟨⟨ty, ts4⟩, h3, h1⟩ := h1
            simp only at h1
            split at h1
            · replace h1 := Res.bind_eq_ok h1; obtain ⟨⟨e, k6, ts6⟩, h4, h1⟩ := h1
              have := (numbered_all n).choice h4
              simp only at h1
              split at h1 <;> cases h1
              · exact this
              · simpa [Expr.indices] using this.snoc
            · cases h1
          · cases h1
        simp only [List.map_cons, indicesAll]
        exact hr.join hF
      · split at h
        · replace h := Res.bind_eq_ok h; obtain ⟨⟨F2, k2⟩, h2, h⟩ := h
          cases h
          have hF := ih _ _ _ _ h2
          exact hF
        · cases h

/-! ### Shape -/

mutual
/-- No call is resolved. -/
def Expr.noNt (e : Expr) : Bool :=
  match e with
  | .nt _ _ => false
  | .str _ _ | .any _ | .cls _ _ | .ext _ _ => true
  | .seq _ es | .choice _ es => noNtAll es
  | .star _ e | .plus _ e | .opt _ e | .not _ e | .and _ e | .act _ e _ _ | .asc _ e _ | .span _ e | .range _ e => e.noNt
/-- The same for lists of expressions. -/
def noNtAll (es : List Expr) : Bool :=
  match es with
  | [] => true
  | e :: es => e.noNt && noNtAll es
end

theorem noNtAll_iff {es : List Expr} : noNtAll es = true ↔ ∀ e ∈ es, e.noNt = true := by
  induction es with
  | nil => simp [noNtAll]
  | cons e es ih => simp [noNtAll, ih]

theorem noNt_sub {x e : Expr} (h : Sub x e) (he : e.noNt = true) : x.noNt = true := by
  induction h with
  | refl => exact he
  | seq hm _ ih => exact ih (noNtAll_iff.1 (by simpa [Expr.noNt] using he) _ hm)
  | choice hm _ ih => exact ih (noNtAll_iff.1 (by simpa [Expr.noNt] using he) _ hm)
  | _ => rename_i ih; exact ih (by simpa [Expr.noNt] using he)

/-- What is required from an expression built by the front-end. -/
def Expr.fine (e : Expr) : Prop := e.shaped = true ∧ e.filled = true ∧ e.noNt = true

theorem bare_fine (e : Expr) : e.bare.shaped = e.shaped ∧ e.bare.filled = e.filled ∧ e.bare.noNt = e.noNt := by
  have list : ∀ es : List Expr, (∀ e ∈ es, e.bare.shaped = e.shaped ∧ e.bare.filled = e.filled ∧ e.bare.noNt = e.noNt) →
      shapedAll (bareAll es) = shapedAll es ∧ filledAll (bareAll es) = filledAll es ∧ noNtAll (bareAll es) = noNtAll es ∧
        (bareAll es).isEmpty = es.isEmpty := by
    intro es
    induction es with
    | nil => intro _; exact ⟨rfl, rfl, rfl, rfl⟩
    | cons e es ih =>
      intro h
      obtain ⟨h1, h2, h3⟩ := h e (by simp)
      obtain ⟨h4, h5, h6, _⟩ := ih fun e he => h e (by simp [he])
      simp [bareAll, shapedAll, filledAll, noNtAll, h1, h2, h3, h4, h5, h6]
  induction e using Expr.ind with
  | seq i es ih =>
    obtain ⟨h1, h2, h3, h4⟩ := list es ih
    simp [Expr.bare, Expr.shaped, Expr.filled, Expr.noNt, h1, h2, h3, h4]
  | choice i es ih =>
    obtain ⟨h1, h2, h3, h4⟩ := list es ih
    simp [Expr.bare, Expr.shaped, Expr.filled, Expr.noNt, h1, h2, h3, h4]
  | star | plus | opt | not | and | act | asc | span | range =>
    rename_i ih
    simp [Expr.bare, Expr.shaped, Expr.filled, Expr.noNt, ih]
  | _ => simp [Expr.bare, Expr.shaped, Expr.filled, Expr.noNt]

theorem fine_all {ts : List Tok} {e : Expr} (h : Choice ts e) : e.fine := by
  have seq : ∀ es : List Expr, (∀ e ∈ es, e.fine) → shapedAll es = true ∧ filledAll es = true ∧ noNtAll es = true := by
    intro es
    induction es with
    | nil => intro _; exact ⟨rfl, rfl, rfl⟩
    | cons e es ih =>
      intro h
      obtain ⟨h1, h2, h3⟩ := h e (by simp)
      obtain ⟨h4, h5, h6⟩ := ih fun e he => h e (by simp [he])
      simp [shapedAll, filledAll, noNtAll, h1, h2, h3, h4, h5, h6]
  have wrap : ∀ e : Expr, e.fine → ∀ e' : Expr, e'.shaped = e.shaped → e'.filled = e.filled → e'.noNt = e.noNt → e'.fine := by
    intro e h e' h1 h2 h3
    exact ⟨h1 ▸ h.1, h2 ▸ h.2.1, h3 ▸ h.2.2⟩
  refine Choice.rec
    (motive_1 := fun ts e _ => e.fine)
    (motive_2 := fun ts e _ => e.fine)
    (motive_3 := fun ts e _ => e.fine)
    (motive_4 := fun ts e b _ => e.fine)
    (motive_5 := fun ts es _ => ∀ e ∈ es, e.fine)
    (motive_6 := fun ts e _ => e.fine)
    (motive_7 := fun ts e _ => e.fine)
    (motive_8 := fun ts e _ => e.fine)
    (motive_9 := fun ts es _ => ∀ e ∈ es, e.fine)
    (motive_10 := fun ts e _ => e.fine)
    ?_ ?_ ?_ ?_ ?_ ?_ ?_ ?_ ?_ ?_ ?_ ?_ ?_ ?_ ?_ ?_ ?_ ?_ ?_ ?_ ?_ ?_ ?_ ?_ ?_ ?_ ?_ ?_ h
  · intro s; exact ⟨rfl, rfl, rfl⟩
  · intro j; exact ⟨rfl, rfl, rfl⟩
  · intro ts e _ ih; exact ih
  · intro p; exact ⟨rfl, rfl, rfl⟩
  · intro s K hK ht
    refine ⟨?_, rfl, rfl⟩
    have : K.intervals.isEmpty = false := by
      rcases hK.some with h | h | h
      · simp [ClassText.intervals, h]
      · cases hi : K.items with
        | nil => exact (h hi).elim
        | cons => simp [ClassText.intervals, hi]
      · simp [ClassText.intervals, h]
    simp [Expr.shaped, this]
  · intro ts e _ ih; exact ih
  · intro ts e j _ ih; exact wrap e ih _ rfl rfl rfl
  · intro ts e j _ ih; exact wrap e ih _ rfl rfl rfl
  · intro ts e j _ ih; exact wrap e ih _ rfl rfl rfl
  · intro ts e _ ih; exact ih
  · intro ts e j _ ih; exact wrap e ih _ rfl rfl rfl
  · intro ts e j _ ih; exact wrap e ih _ rfl rfl rfl
  · intro ts e _ ih; exact ih
  · intro ts us e ty b j _ _ ih; exact wrap e ih _ rfl rfl rfl
  · intro ts e b _ ih
    simpa using ih
  · intro ts us e b es _ _ _ ih1 ih2
    simpa using ⟨ih1, ih2⟩
  · intro ts e _ ih; exact ih e (by simp)
  · intro ts e1 e2 es _ ih
    obtain ⟨h1, h2, h3⟩ := seq _ ih
    simp [Expr.fine, Expr.shaped, Expr.filled, Expr.noNt, h1, h2, h3]
  · intro ts e _ _ ih; exact ih
  · intro ts e j _ _ ih; exact wrap e ih _ rfl rfl rfl
  · intro ts e j _ ih; exact wrap e ih _ rfl rfl rfl
  · intro ts e _ ih; exact ih
  · intro ts e f j _ ih; exact wrap e ih _ rfl rfl rfl
  · intro ts e f j _ ih; exact wrap e ih _ rfl rfl rfl
  · intro ts e _ ih
    simpa using ih
  · intro ts us e es j _ _ ih1 ih2
    simpa using ⟨ih1, ih2⟩
  · intro ts e _ ih; exact ih e (by simp)
  · intro ts e1 e2 es _ ih
    obtain ⟨h1, h2, h3⟩ := seq _ ih
    simp [Expr.fine, Expr.shaped, Expr.filled, Expr.noNt, h1, h2, h3]

theorem blocks_fine {ts : List Tok} {F : FGrammar} (h : Blocks ts F) : ∀ r ∈ F.rules, r.2.fine := by
  induction h with
  | nil => simp
  | rule hc _ ih =>
    intro r hr
    cases hr with
    | head => exact fine_all hc
    | tail _ hr => exact ih r hr
  | typed _ hc _ ih =>
    intro r hr
    cases hr with
    | head =>
      obtain ⟨h1, h2, h3⟩ := fine_all hc
      exact ⟨h1, h2, h3⟩
    | tail _ hr => exact ih r hr
  | item _ ih => exact ih

theorem parse_built {n k k' : Nat} {ts : List Tok} {F : FGrammar} (h : parseBlocks n k ts = .ok (F, k')) : F.Built := by
  have hb := blocks_fine (blocks_sound _ _ _ _ _ h)
  have key : ∀ r ∈ F.rules, r.2.fine := by
    intro r hr
    have := hb (r.1, r.2.bare) (List.mem_map.2 ⟨r, hr, rfl⟩)
    obtain ⟨h1, h2, h3⟩ := bare_fine r.2
    simp only [Expr.fine, h1, h2, h3] at this ⊢
    exact this
  refine ⟨fun r hr => (key r hr).1, fun r hr => (key r hr).2.1, fun r hr i s hs => ?_⟩
  have := noNt_sub hs (key r hr).2.2
  cases this

end Oak
