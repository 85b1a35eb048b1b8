import Verif.Model.CharClass
import Verif.Spec.CharClass
import Verif.Spec.Peg
/-! Character classes: the reader against the specification. -/
set_option autoImplicit false

namespace Oak

/-- The text of items followed by the optional dash. -/
def tailText (items : List ClassItem) (trail : Bool) : List Char :=
  items.flatMap ClassItem.text ++ (if trail then ['-'] else [])

/-- Their intervals. -/
def tailIntervals (items : List ClassItem) (trail : Bool) : List Interval :=
  items.map ClassItem.interval ++ (if trail then [⟨'-', '-'⟩] else [])

theorem charRanges_complete {items : List ClassItem} (h : ∀ x ∈ items, x.Plain) (trail : Bool) :
    ∀ n, items.length + 2 ≤ n → charRanges n (tailText items trail) = .ok (tailIntervals items trail) := by
  induction items with
  | nil =>
    intro n hn
    obtain ⟨m, rfl⟩ : ∃ m, n = m + 2 := ⟨n - 2, by simp at hn; omega⟩
    cases trail <;> rfl
  | cons x xs ih =>
    intro n hn
    obtain ⟨m, rfl⟩ : ∃ m, n = m + 1 := ⟨n - 1, by simp at hn; omega⟩
    have hx := h x (by simp)
    have ih := ih (fun y hy => h y (by simp [hy])) m (by simp at hn; omega)
    cases x with
    | one c =>
      have hc : c ≠ '-' := hx
      have e1 : tailText (.one c :: xs) trail = c :: tailText xs trail := rfl
      have e2 : tailIntervals (.one c :: xs) trail = ⟨c, c⟩ :: tailIntervals xs trail := rfl
      rw [e1, e2]
      cases xs with
      | nil =>
        obtain ⟨k, rfl⟩ : ∃ k, m = k + 1 := ⟨m - 1, by simp at hn; omega⟩
        cases trail with
        | false => rfl
        | true => simp [charRanges, tailText, tailIntervals, parseCharRange, hc]
      | cons y ys =>
        have hy := h y (by simp)
        have : ∃ d ds, d ≠ '-' ∧ tailText (y :: ys) trail = d :: ds := by
          cases y with
          | one d => exact ⟨d, _, hy, rfl⟩
          | range lo hi => exact ⟨lo, _, hy.1, rfl⟩
        obtain ⟨d, ds, hd, e3⟩ := this
        rw [e3] at ih ⊢
        simp [charRanges, parseCharRange, hc, hd, ih]
    | range lo hi =>
      obtain ⟨h1, h2⟩ : lo ≠ '-' ∧ hi ≠ '-' := hx
      have e1 : tailText (.range lo hi :: xs) trail = lo :: '-' :: hi :: tailText xs trail := rfl
      have e2 : tailIntervals (.range lo hi :: xs) trail = ⟨lo, hi⟩ :: tailIntervals xs trail := rfl
      rw [e1, e2]
      simp [charRanges, parseCharRange, h1, h2, ih]

theorem charRanges_sound : ∀ n cs ivs, charRanges n cs = .ok ivs →
    ∃ items trail, (∀ x ∈ items, ClassItem.Plain x) ∧ cs = tailText items trail := by
  intro n
  induction n with
  | zero => intro cs ivs h; cases h
  | succ n ih =>
    intro cs ivs h
    unfold charRanges at h
    obtain ⟨⟨is, rest⟩, hp, h'⟩ := Res.bind_eq_ok h
    clear h
    have h := h'
    clear h'
    simp only at h
    unfold parseCharRange at hp
    split at hp
    · exact ⟨[], false, by simp, rfl⟩
    · rename_i lo next
      split at hp
      · cases hp
        by_cases hlo : lo = '-'
        · subst hlo
          exact ⟨[], true, by simp, rfl⟩
        · exact ⟨[.one lo], false, by simpa [ClassItem.Plain] using hlo, rfl⟩
      · rename_i sep more
        split at hp
        · cases hp
        · rename_i hlo
          split at hp
          · rename_i hsep
            subst hsep
            split at hp
            · exact ⟨[.one lo], true, by simpa [ClassItem.Plain] using hlo, rfl⟩
            · rename_i hi more
              split at hp
              · cases hp
              · rename_i hhi
                cases hp
                simp only [List.isEmpty_cons, Bool.false_eq_true, if_false] at h
                obtain ⟨ivs', hr, _⟩ := Res.bind_eq_ok h
                obtain ⟨items, trail, hpl, rfl⟩ := ih _ _ hr
                refine ⟨.range lo hi :: items, trail, ?_, rfl⟩
                intro x hx
                cases hx with
                | head => exact ⟨hlo, hhi⟩
                | tail _ hx => exact hpl x hx
          · cases hp
            simp only [List.isEmpty_cons, Bool.false_eq_true, if_false] at h
            obtain ⟨ivs', hr, _⟩ := Res.bind_eq_ok h
            obtain ⟨items, trail, hpl, he⟩ := ih _ _ hr
            refine ⟨.one lo :: items, trail, ?_, ?_⟩
            · intro x hx
              cases hx with
              | head => exact hlo
              | tail _ hx => exact hpl x hx
            · rw [he]; rfl

theorem parseCharRange_rest {cs rest : List Char} {is : List Interval} (h : parseCharRange cs = .ok (is, rest)) :
    is = [] ∨ rest.length < cs.length := by
  unfold parseCharRange at h
  split at h
  · cases h; exact .inl rfl
  · split at h
    · cases h; right; simp
    · split at h
      · cases h
      · split at h
        · split at h
          · cases h; right; simp
          · split at h
            · cases h
            · cases h; right; simp only [List.length_cons]; omega
        · cases h; right; simp

theorem parseCharRange_outcome (cs : List Char) : (∃ a, parseCharRange cs = .ok a) ∨ parseCharRange cs = .stuck := by
  unfold parseCharRange
  split
  · exact .inl ⟨_, rfl⟩
  · split
    · exact .inl ⟨_, rfl⟩
    · split
      · exact .inr rfl
      · split
        · split
          · exact .inl ⟨_, rfl⟩
          · split
            · exact .inr rfl
            · exact .inl ⟨_, rfl⟩
        · exact .inl ⟨_, rfl⟩

theorem charRanges_outcome : ∀ n cs, cs.length < n → (∃ a, charRanges n cs = .ok a) ∨ charRanges n cs = .stuck := by
  intro n
  induction n with
  | zero => intro cs h; omega
  | succ n ih =>
    intro cs hn
    unfold charRanges
    rcases parseCharRange_outcome cs with ⟨⟨is, rest⟩, h⟩ | h
    · rw [h]
      simp only [Res.bind_ok]
      rcases parseCharRange_rest h with rfl | hr
      · exact .inl ⟨_, rfl⟩
      · split
        · exact .inl ⟨_, rfl⟩
        · rcases ih rest (by omega) with ⟨a, ha⟩ | ha
          · rw [ha]; exact .inl ⟨_, rfl⟩
          · rw [ha]; exact .inr rfl
    · rw [h]; exact .inr rfl

theorem parseCharClass_outcome (n : Nat) (cs : List Char) (h : cs.length < n) :
    (∃ a, parseCharClass n cs = .ok a) ∨ parseCharClass n cs = .stuck := by
  unfold parseCharClass
  split
  · exact .inr rfl
  · rename_i c rest
    split
    · rcases charRanges_outcome n rest (by simp at h; omega) with ⟨a, ha⟩ | ha
      · rw [ha]; exact .inl ⟨_, rfl⟩
      · rw [ha]; exact .inr rfl
    · exact charRanges_outcome n _ h

theorem text_le (items : List ClassItem) : items.length ≤ (items.flatMap ClassItem.text).length := by
  induction items with
  | nil => simp
  | cons x xs ih =>
    rw [List.flatMap_cons, List.length_append, List.length_cons]
    have : 1 ≤ x.text.length := by cases x <;> simp [ClassItem.text]
    omega

theorem parseCharClass_complete (K : ClassText) (hK : K.Valid) (n : Nat) (hn : K.text.length + 2 ≤ n) :
    parseCharClass n K.text = .ok K.intervals := by
  obtain ⟨lead, items, trail⟩ := K
  have hle := text_le items
  simp only [ClassText.text, List.length_append] at hn
  have hc := charRanges_complete hK.plain trail n (by simp only; omega)
  cases lead with
  | true =>
    have e : ClassText.text ⟨true, items, trail⟩ = '-' :: tailText items trail := by simp [ClassText.text, tailText]
    rw [e]
    simp only [parseCharClass, if_true]
    simp only at hc
    rw [hc]
    simp [ClassText.intervals, tailIntervals]
  | false =>
    have e : ClassText.text ⟨false, items, trail⟩ = tailText items trail := by simp [ClassText.text, tailText]
    have e2 : ClassText.intervals ⟨false, items, trail⟩ = tailIntervals items trail := by
      simp [ClassText.intervals, tailIntervals]
    rw [e, e2]
    simp only at hc
    cases items with
    | nil =>
      cases trail with
      | false => rcases hK.some with h | h | h <;> simp at h
      | true =>
        obtain ⟨m, rfl⟩ : ∃ m, n = m + 1 := ⟨n - 1, by omega⟩
        rfl
    | cons x xs =>
      have hx := hK.plain x (by simp)
      have : ∃ d ds, d ≠ '-' ∧ tailText (x :: xs) trail = d :: ds := by
        cases x with
        | one d => exact ⟨d, _, hx, rfl⟩
        | range lo hi => exact ⟨lo, _, hx.1, rfl⟩
      obtain ⟨d, ds, hd, e3⟩ := this
      rw [e3] at hc ⊢
      simp [parseCharClass, hd, hc]

theorem parseCharClass_sound {n : Nat} {cs : List Char} {ivs : List Interval} (h : parseCharClass n cs = .ok ivs) :
    ∃ K : ClassText, K.Valid ∧ K.text = cs := by
  unfold parseCharClass at h
  split at h
  · cases h
  · rename_i c rest
    split at h
    · rename_i hc
      subst hc
      obtain ⟨more, h1, _⟩ := Res.bind_eq_ok h
      obtain ⟨items, trail, hp, rfl⟩ := charRanges_sound _ _ _ h1
      exact ⟨⟨true, items, trail⟩, ⟨hp, .inl rfl⟩, by simp [ClassText.text, tailText]⟩
    · obtain ⟨items, trail, hp, he⟩ := charRanges_sound _ _ _ h
      refine ⟨⟨false, items, trail⟩, ⟨hp, ?_⟩, by simp [ClassText.text, he, tailText]⟩
      cases items with
      | cons => simp
      | nil =>
        cases trail with
        | true => simp
        | false => simp [tailText] at he

theorem charRanges_mono : ∀ n cs ivs, charRanges n cs = .ok ivs → ∀ m, n ≤ m → charRanges m cs = .ok ivs := by
  intro n
  induction n with
  | zero => intro cs ivs h; cases h
  | succ n ih =>
    intro cs ivs h m hm
    obtain ⟨k, rfl⟩ : ∃ k, m = k + 1 := ⟨m - 1, by omega⟩
    unfold charRanges at h ⊢
    obtain ⟨⟨is, rest⟩, hp, h⟩ := Res.bind_eq_ok h
    rw [hp]
    simp only [Res.bind_ok] at h ⊢
    split at h
    · rename_i he; rw [if_pos he]; exact h
    · rename_i he
      rw [if_neg he]
      obtain ⟨more, h1, h⟩ := Res.bind_eq_ok h
      rw [ih _ _ h1 k (by omega)]
      exact h

theorem parseCharClass_mono {n m : Nat} {cs : List Char} {ivs : List Interval} (h : parseCharClass n cs = .ok ivs) (hm : n ≤ m) :
    parseCharClass m cs = .ok ivs := by
  unfold parseCharClass at h ⊢
  split at h
  · cases h
  · split at h
    · rename_i hc
      rw [if_pos hc]
      obtain ⟨more, h1, h⟩ := Res.bind_eq_ok h
      rw [charRanges_mono _ _ _ h1 m hm]
      exact h
    · rename_i hc
      rw [if_neg hc]
      exact charRanges_mono _ _ _ h m hm

theorem charRanges_stuck_mono : ∀ n cs, charRanges n cs = .stuck → ∀ m, n ≤ m → charRanges m cs = .stuck := by
  intro n
  induction n with
  | zero => intro cs h; cases h
  | succ n ih =>
    intro cs h m hm
    obtain ⟨k, rfl⟩ : ∃ k, m = k + 1 := ⟨m - 1, by omega⟩
    unfold charRanges at h ⊢
    rcases parseCharRange_outcome cs with ⟨⟨is, rest⟩, hp⟩ | hp
    · rw [hp] at h ⊢
      simp only [Res.bind_ok] at h ⊢
      split at h
      · cases h
      · rename_i he
        rw [if_neg he]
        cases hr : charRanges n rest with
        | ok a => rw [hr] at h; cases h
        | stuck => rw [ih _ hr k (by omega)]; rfl
        | panic => rw [hr] at h; cases h
        | timeout => rw [hr] at h; cases h
    · rw [hp]; rfl

theorem stuck_mono {n m : Nat} {cs : List Char} (h : parseCharClass n cs = .stuck) (hm : n ≤ m) : parseCharClass m cs = .stuck := by
  unfold parseCharClass at h ⊢
  split at h
  · rfl
  · rename_i c rest
    split at h
    · rename_i hc
      rw [if_pos hc]
      cases hr : charRanges n rest with
      | ok a => rw [hr] at h; cases h
      | stuck => rw [charRanges_stuck_mono _ _ hr m hm]; rfl
      | panic => rw [hr] at h; cases h
      | timeout => rw [hr] at h; cases h
    · rename_i hc
      rw [if_neg hc]
      exact charRanges_stuck_mono _ _ h m hm

theorem parseCharClass_exact {n : Nat} {cs : List Char} {ivs : List Interval} (h : parseCharClass n cs = .ok ivs) (K : ClassText)
    (hK : K.Valid) (ht : K.text = cs) : ivs = K.intervals := by
  have h1 := parseCharClass_mono h (Nat.le_max_left n (K.text.length + 2))
  have h2 := parseCharClass_complete K hK _ (Nat.le_max_right n (K.text.length + 2))
  rw [ht] at h2
  rw [ht] at h1
  rw [h1] at h2
  cases h2
  rfl

theorem char_between {c d : Char} : (d ≤ c ∧ c ≤ d) ↔ c = d := by
  constructor
  · rintro ⟨h1, h2⟩
    exact Char.le_antisymm h2 h1
  · rintro rfl
    exact ⟨Char.le_refl _, Char.le_refl _⟩

theorem intervals_accept (K : ClassText) (c : Char) : Spec.InClass K.intervals c ↔ K.Accepts c := by
  obtain ⟨lead, items, trail⟩ := K
  have key : (∃ iv ∈ items.map ClassItem.interval, iv.lo ≤ c ∧ c ≤ iv.hi) ↔ ∃ x ∈ items, x.Accepts c := by
    constructor
    · rintro ⟨iv, hiv, h⟩
      obtain ⟨x, hx, rfl⟩ := List.mem_map.1 hiv
      refine ⟨x, hx, ?_⟩
      cases x with
      | one d => exact char_between.1 h
      | range lo hi => exact h
    · rintro ⟨x, hx, h⟩
      refine ⟨_, List.mem_map.2 ⟨x, hx, rfl⟩, ?_⟩
      cases x with
      | one d => exact char_between.2 h
      | range lo hi => exact h
  have dash : ∀ b : Bool, (∃ iv ∈ (if b then [(⟨'-', '-'⟩ : Interval)] else []), iv.lo ≤ c ∧ c ≤ iv.hi) ↔ (c = '-' ∧ b = true) := by
    intro b
    cases b with
    | false => simp
    | true => simp [char_between]
  have split3 : ∀ (a b d : List Interval), Spec.InClass (a ++ b ++ d) c ↔ Spec.InClass a c ∨ Spec.InClass b c ∨ Spec.InClass d c := by
    intro a b d
    simp only [Spec.InClass, List.mem_append]
    constructor
    · rintro ⟨iv, (h | h) | h, hc⟩
      · exact .inl ⟨iv, h, hc⟩
      · exact .inr (.inl ⟨iv, h, hc⟩)
      · exact .inr (.inr ⟨iv, h, hc⟩)
    · rintro (⟨iv, h, hc⟩ | ⟨iv, h, hc⟩ | ⟨iv, h, hc⟩)
      · exact ⟨iv, .inl (.inl h), hc⟩
      · exact ⟨iv, .inl (.inr h), hc⟩
      · exact ⟨iv, .inr h, hc⟩
  simp only [ClassText.intervals, ClassText.Accepts]
  rw [split3]
  simp only [Spec.InClass, key, dash]
  constructor
  · rintro (⟨h, h'⟩ | h | ⟨h, h'⟩)
    · exact .inl ⟨h, .inl h'⟩
    · exact .inr h
    · exact .inl ⟨h, .inr h'⟩
  · rintro (⟨h, h' | h'⟩ | h)
    · exact .inl ⟨h, h'⟩
    · exact .inr (.inr ⟨h, h'⟩)
    · exact .inr (.inl h)

end Oak
