import Verif.Proofs.FrontTotal
import Verif.Spec.Print
/-! Printed expressions belong to the concrete syntax. -/
set_option autoImplicit false

namespace Oak
open Syntax

/-- The tokens begin with something else than a dot immediately followed by another token. -/
def Spaced (ts : List Tok) : Prop := ∃ t us, ts = t :: us ∧ t ≠ .punct '.' true

theorem Spaced.dots {ts : List Tok} (h : Spaced ts) : startsDots ts = false := by
  cases hd : startsDots ts with
  | false => rfl
  | true =>
    obtain ⟨j, us, rfl⟩ := startsDots_iff hd
    obtain ⟨t, us', he, ht⟩ := h
    cases he
    exact (ht rfl).elim

theorem Spaced.append {ts : List Tok} (h : Spaced ts) (us : List Tok) : Spaced (ts ++ us) := by
  obtain ⟨t, us', rfl, ht⟩ := h
  exact ⟨t, us' ++ us, rfl, ht⟩

/-- The tokens read at a level. -/
def AtLevel (n : Nat) (ts : List Tok) (e : Expr) : Prop :=
  match n with
  | 0 => Choice ts e
  | 1 => Branch ts e
  | 2 => Spanned ts e
  | 3 => Seq ts e ∧ Spaced ts
  | 4 => Typed ts e false ∧ Spaced ts
  | 5 => Prefixed ts e ∧ Spaced ts
  | 6 => Suffixed ts e ∧ Spaced ts
  | _ => Atom ts e ∧ Spaced ts

theorem AtLevel.down {n : Nat} {ts : List Tok} {e : Expr} (hn : n < 7) (h : AtLevel (n + 1) ts e) : AtLevel n ts e := by
  match n with
  | 0 => exact .one (.one h)
  | 1 => exact .spanned h
  | 2 => exact .seq h.1 h.2.dots
  | 3 => exact ⟨.one (.one h.1), h.2⟩
  | 4 => exact ⟨.prefixed h.1, h.2⟩
  | 5 => exact ⟨.suffixed h.1, h.2⟩
  | 6 => exact ⟨.atom h.1, h.2⟩

theorem AtLevel.weaken {n m : Nat} {ts : List Tok} {e : Expr} (h : AtLevel n ts e) (hn : n ≤ 7) (hm : m ≤ n) : AtLevel m ts e := by
  induction n with
  | zero =>
    have : m = 0 := by omega
    subst this
    exact h
  | succ n ih =>
    by_cases hx : m = n + 1
    · subst hx; exact h
    · exact ih (h.down (by omega)) (by omega) (by omega)

theorem level_le (e : Expr) : e.level ≤ 7 := by cases e <;> simp [Expr.level]

theorem AtLevel.guarded {e : Expr} {ts : List Tok} (h : AtLevel e.level ts e.bare) (r : Nat) (hr : r ≤ 7) :
    AtLevel r (guarded r e ts) e.bare := by
  unfold Oak.guarded
  split
  · rename_i hl; exact h.weaken (level_le e) hl
  · have hc : Choice ts e.bare := h.weaken (m := 0) (level_le e) (by omega)
    have : AtLevel 7 [.paren ts] e.bare := ⟨.paren hc, ⟨_, _, rfl, by simp⟩⟩
    exact this.weaken (by omega) hr

/-- An item written in its shortest form. -/
def ClassItem.short : ClassItem → ClassItem
  | .range lo hi => if lo = hi then .one lo else .range lo hi
  | x => x

theorem short_text (x : ClassItem) : x.short.text = x.interval.text := by
  cases x with
  | one c => simp [ClassItem.short, ClassItem.text, ClassItem.interval, Interval.text]
  | range lo hi =>
    by_cases h : lo = hi <;> simp [ClassItem.short, ClassItem.text, ClassItem.interval, Interval.text, h]

theorem short_interval (x : ClassItem) : x.short.interval = x.interval := by
  cases x with
  | one c => rfl
  | range lo hi =>
    by_cases h : lo = hi <;> simp [ClassItem.short, ClassItem.interval, h]

theorem short_plain (x : ClassItem) (h : x.Plain) : x.short.Plain := by
  cases x with
  | one c => exact h
  | range lo hi =>
    by_cases he : lo = hi
    · subst he; simp only [ClassItem.short, if_true]; exact h.1
    · simp only [ClassItem.short, he, if_false]; exact h

theorem print_class (K : ClassText) (hK : K.Valid) : ∃ K' : ClassText, K'.Valid ∧ K'.text = K.intervals.flatMap Interval.text ∧
    K'.intervals = K.intervals := by
  refine ⟨⟨K.lead, K.items.map ClassItem.short, K.trail⟩, ⟨?_, ?_⟩, ?_, ?_⟩
  · intro x hx
    obtain ⟨y, hy, rfl⟩ := List.mem_map.1 hx
    exact short_plain y (hK.plain y hy)
  · rcases hK.some with h | h | h
    · exact .inl h
    · exact .inr (.inl (by simpa using h))
    · exact .inr (.inr h)
  · have h1 : (K.items.map ClassItem.short).flatMap ClassItem.text = (K.items.map ClassItem.interval).flatMap Interval.text := by
      generalize K.items = l
      induction l with
      | nil => rfl
      | cons x l ih => simp only [List.map_cons, List.flatMap_cons, ih, short_text]
    simp only [ClassText.text, ClassText.intervals, List.flatMap_append, h1]
    cases K.lead <;> cases K.trail <;> simp [Interval.text]
  · have h1 : (K.items.map ClassItem.short).map ClassItem.interval = K.items.map ClassItem.interval := by
      simp [Function.comp_def, short_interval]
    simp only [ClassText.intervals, h1]

theorem writableAll_iff {es : List Expr} : WritableAll es ↔ ∀ e ∈ es, e.Writable := by
  induction es with
  | nil => simp [WritableAll]
  | cons e es ih => simp [WritableAll, ih]

theorem print_elems {es : List Expr} (hne : es ≠ []) (h : ∀ e ∈ es, AtLevel e.level e.print e.bare) :
    Elems (printSeq es) (bareAll es) ∧ Spaced (printSeq es) := by
  induction es with
  | nil => exact (hne rfl).elim
  | cons e es ih =>
    obtain ⟨h1, h2⟩ := (h e (by simp)).guarded 4 (by omega)
    cases es with
    | nil =>
      simp only [printSeq, List.append_nil, bareAll]
      exact ⟨.one h1, h2⟩
    | cons e2 es =>
      obtain ⟨h3, _⟩ := ih (by simp) fun x hx => h x (by simp [List.mem_cons.1 hx])
      rw [printSeq, bareAll]
      exact ⟨.cons h1 h3 (by simp), h2.append _⟩

theorem print_branches {es : List Expr} (hne : es ≠ []) (h : ∀ e ∈ es, AtLevel e.level e.print e.bare) :
    Branches (printChoice es) (bareAll es) := by
  induction es with
  | nil => exact (hne rfl).elim
  | cons e es ih =>
    have h1 : Branch _ _ := (h e (by simp)).guarded 1 (by omega)
    cases es with
    | nil =>
      simp only [printChoice, bareAll]
      exact .one h1
    | cons e2 es =>
      have h3 := ih (by simp) fun x hx => h x (by simp [List.mem_cons.1 hx])
      rw [printChoice, bareAll]
      exact .cons h1 h3
      exact fun h => by cases h

theorem print_level (e : Expr) (h : e.Writable) : AtLevel e.level e.print e.bare := by
  match e, h with
  | .str i l, _ => exact ⟨.lit, _, _, rfl, by simp⟩
  | .any i, _ => exact ⟨.any, _, _, rfl, by simp⟩
  | .cls i ivs, h =>
    obtain ⟨K, hK, rfl⟩ := h
    obtain ⟨K', h1, h2, h3⟩ := print_class K hK
    rw [Expr.print, Expr.bare, ← h3]
    exact ⟨.cls h1 (by simp [h2, h3]), _, _, rfl, by simp⟩
  | .nt i r, h => exact h.elim
  | .ext i p, _ => exact ⟨.call, _, _, rfl, by simp⟩
  | .seq i es, h =>
    obtain ⟨h2, hw⟩ := h
    have hw := writableAll_iff.1 hw
    have ih : ∀ e ∈ es, AtLevel e.level e.print e.bare := fun e he => print_level e (hw e he)
    match es with
    | e1 :: e2 :: es =>
      obtain ⟨h1, h3⟩ := print_elems (es := e1 :: e2 :: es) (by simp) ih
      rw [Expr.print, Expr.bare]
      exact ⟨.many h1, h3⟩
    | [] => simp at h2
    | [_] => simp at h2
  | .choice i es, h =>
    obtain ⟨h2, hw⟩ := h
    have hw := writableAll_iff.1 hw
    have ih : ∀ e ∈ es, AtLevel e.level e.print e.bare := fun e he => print_level e (hw e he)
    match es with
    | e1 :: e2 :: es =>
      have h1 := print_branches (es := e1 :: e2 :: es) (by simp) ih
      rw [Expr.print, Expr.bare]
      exact .many h1
    | [] => simp at h2
    | [_] => simp at h2
  | .star i e, h =>
    obtain ⟨h1, h2⟩ := (print_level e h).guarded 7 (by omega)
    rw [Expr.print, Expr.bare]
    exact ⟨.star h1, h2.append _⟩
  | .plus i e, h =>
    obtain ⟨h1, h2⟩ := (print_level e h).guarded 7 (by omega)
    rw [Expr.print, Expr.bare]
    exact ⟨.plus h1, h2.append _⟩
  | .opt i e, h =>
    obtain ⟨h1, h2⟩ := (print_level e h).guarded 7 (by omega)
    rw [Expr.print, Expr.bare]
    exact ⟨.opt h1, h2.append _⟩
  | .not i e, h =>
    obtain ⟨h1, h2⟩ := (print_level e h).guarded 6 (by omega)
    rw [Expr.print, Expr.bare]
    exact ⟨.not h1, _, _, rfl, by simp⟩
  | .and i e, h =>
    obtain ⟨h1, h2⟩ := (print_level e h).guarded 6 (by omega)
    rw [Expr.print, Expr.bare]
    exact ⟨.and h1, _, _, rfl, by simp⟩
  | .act i e b f, h =>
    have h1 := (print_level e h).guarded 2 (by omega)
    rw [Expr.print, Expr.bare]
    cases b with
    | false => exact Branch.act h1
    | true => exact Branch.boxed h1
  | .asc i e ty, h =>
    obtain ⟨h, hty⟩ := h
    obtain ⟨h1, h2⟩ := (print_level e h).guarded 5 (by omega)
    rw [Expr.print, Expr.bare]
    refine ⟨.asc h1 ?_, h2.append _⟩
    rcases hty with rfl | rfl | ⟨t, rfl⟩
    · exact .unit
    · exact .invisible
    · exact .rust
  | .span i e, h =>
    obtain ⟨h1, h2⟩ := (print_level e h).guarded 3 (by omega)
    rw [Expr.print, Expr.bare]
    exact Spanned.span h1 (by simp)
  | .range i e, h =>
    match e, h with
    | .asc j e ty, h =>
      obtain ⟨h, rfl⟩ := h
      obtain ⟨h1, h2⟩ := (print_level e h).guarded 3 (by omega)
      rw [Expr.print, Expr.bare, Expr.bare]
      exact Spanned.range h1
termination_by sizeOf e

theorem print_choice (e : Expr) (h : e.Writable) : Choice e.print e.bare :=
  (print_level e h).weaken (m := 0) (level_le e) (Nat.zero_le _)

theorem bareAll_map (es : List Expr) : bareAll es = es.map Expr.bare := by
  induction es with
  | nil => rfl
  | cons e es ih => simp [bareAll, ih]

theorem bare_bare (e : Expr) : e.bare.bare = e.bare := by
  induction e using Expr.ind with
  | seq i es ih | choice i es ih =>
    simp only [Expr.bare, bareAll_map, List.map_map]
    congr 1
    exact List.map_congr_left ih
  | star | plus | opt | not | and | act | asc | span | range =>
    rename_i ih
    simp [Expr.bare, ih]
  | _ => rfl

end Oak
