import Verif.Proofs.Literal
import Verif.Properties.CharClass
/-!
C59: the expectation reported for a character class can be read as a class.
-/
set_option linter.constructorNameAsVariable false
set_option autoImplicit false

namespace Oak
open Spec

theorem item_plain {iv : Interval} (h1 : iv.lo ≠ '-') (h2 : iv.hi ≠ '-') : iv.item.Plain := by
  unfold Interval.item
  split
  · exact h1
  · exact ⟨h1, h2⟩

/-- The class whose text is shown: ranges of one character are shown as a character. -/
def ClassText.shown (K : ClassText) : ClassText := ⟨K.lead, K.items.map fun x => x.interval.item, K.trail⟩

theorem ClassText.shown_intervals (K : ClassText) : K.shown.intervals = K.intervals := by
  have : ∀ items : List ClassItem, (items.map fun x => x.interval.item).map ClassItem.interval = items.map ClassItem.interval := by
    intro items
    rw [List.map_map]
    exact List.map_congr_left fun x _ => Interval.item_interval _
  simp only [ClassText.intervals, ClassText.shown, this]
  rfl

theorem ClassText.shown_valid {K : ClassText} (h : K.Valid) : K.shown.Valid := by
  refine ⟨?_, ?_⟩
  · intro x hx
    obtain ⟨y, hy, rfl⟩ := List.mem_map.1 hx
    have := h.plain y hy
    cases y with
    | one c => exact item_plain this this
    | range lo hi => exact item_plain this.1 this.2
  · rcases h.some with h | h | h
    · exact .inl h
    · refine .inr (.inl ?_)
      simpa [ClassText.shown] using h
    · exact .inr (.inr h)

theorem ClassText.shown_text (K : ClassText) : K.shown.text = K.intervals.flatMap fun iv => iv.item.text := by
  obtain ⟨lead, items, trail⟩ := K
  have : ∀ items : List ClassItem, (items.map fun x => x.interval.item).flatMap ClassItem.text =
      (items.map ClassItem.interval).flatMap fun iv => iv.item.text := by
    intro items
    induction items with
    | nil => rfl
    | cons x xs ih => simp [ih]
  have hd : (Interval.mk '-' '-').item.text = ['-'] := rfl
  simp only [ClassText.text, ClassText.shown, ClassText.intervals, this, List.flatMap_append]
  cases lead <;> cases trail <;> simp [hd]

theorem classDesc_lit {n : Nat} {cs : List Char} {ivs : List Interval} (h : parseCharClass n cs = .ok ivs) :
    ∃ src v m, (classDesc ivs).toList = "[\"".toList ++ src ++ "\"]".toList ∧ (∀ c ∈ src, Printable c) ∧ LitOf src v ∧ parseCharClass m v = .ok ivs := by
  obtain ⟨K, hK, ht⟩ := parseCharClass_sound h
  have hi := parseCharClass_exact h K hK ht
  refine ⟨(String.join (ivs.map Interval.display)).toList, K.shown.text, K.shown.text.length + 2, ?_, ?_, ?_, ?_⟩
  · simp [classDesc, String.toList_append]
  · intro c hc
    have : ∀ ivs : List Interval, ∀ c ∈ (String.join (ivs.map Interval.display)).toList, Printable c := by
      intro ivs
      induction ivs with
      | nil => intro c hc; simp at hc
      | cons iv ivs ih =>
        intro c hc
        simp only [List.map_cons, String.join_cons, String.toList_append, List.mem_append] at hc
        rcases hc with hc | hc
        · unfold Interval.display at hc
          split at hc
          · exact escapeChar_printable _ c hc
          · simp only [String.toList_append, List.mem_append] at hc
            rcases hc with (hc | hc) | hc
            · exact escapeChar_printable _ c hc
            · have : c = '-' := by simpa using hc
              subst this
              exact ⟨by decide, by decide⟩
            · exact escapeChar_printable _ c hc
        · exact ih c hc
    exact this ivs c hc
  · rw [K.shown_text, ← hi]
    exact join_lit ivs
  · rw [parseCharClass_complete _ (ClassText.shown_valid hK) _ (Nat.le_refl _), K.shown_intervals, hi]

/-- C59: the description of a class is a class as it is written in a grammar: between brackets, a string literal of printable characters; when it is read
it gives the same intervals. -/
theorem C59_description {n : Nat} {cs : List Char} {ivs : List Interval} (h : parseCharClass n cs = .ok ivs) :
    ∃ src v m, (classDesc ivs).toList = "[\"".toList ++ src ++ "\"]".toList ∧ (∀ c ∈ src, Printable c) ∧ LitOf src v ∧ parseCharClass m v = .ok ivs :=
  classDesc_lit h

/-- C59: classes with the same description have the same intervals, hence accept the same characters. -/
theorem C59_distinct {n n' : Nat} {cs cs' : List Char} {ivs ivs' : List Interval} (h : parseCharClass n cs = .ok ivs) (h' : parseCharClass n' cs' = .ok ivs')
    (hd : classDesc ivs = classDesc ivs') : ivs = ivs' := by
  obtain ⟨src, v, m, h1, -, h2, h3⟩ := classDesc_lit h
  obtain ⟨src', v', m', h1', -, h2', h3'⟩ := classDesc_lit h'
  rw [hd, h1'] at h1
  have he : src' = src := by simpa using h1
  subst he
  have := h2.det h2'
  subst this
  have a := parseCharClass_mono h3 (Nat.le_max_left m m')
  have b := parseCharClass_mono h3' (Nat.le_max_right m m')
  rw [a] at b
  cases b
  rfl

section
variable {G : Grammar} {T : Nat → Ty} {fs : List (FnRef × Fn)} {ext : Nat → FnRef → PState StrStream Val → Res (PState StrStream Val)}
  {X : ExtSpec} {ptr : Nat} {input : List Char} {r : String}

/-- C59: the recognizer and the parser of a rule made of the class written `cs`, on a text that does not begin with a character of the class, report a failure at
the beginning of the text with one expectation, which can be read as that class. -/
theorem C59_expected (d : Deployed G T fs ext X ptr input) {n i : Nat} (K : ClassText) (hK : K.Valid) {ivs : List Interval}
    (h : parseCharClass n K.text = .ok ivs) (he : G.find r = some (.cls i ivs)) (p : Bool) (hn : ∀ c s, input = c :: s → ¬ K.Accepts c) :
    ∃ exp, Returns ext fs p r ptr input (.failure (StrStream.new ptr input) [exp]) ∧
      ∃ src v m, exp.toList = "[\"".toList ++ src ++ "\"]".toList ∧ LitOf src v ∧ parseCharClass m v = .ok ivs := by
  refine ⟨classDesc ivs, ?_, ?_⟩
  · have hp : Peg G X (.cls i ivs) input .fail [(input, classDesc ivs)] := by
      cases input with
      | nil => exact .cls_eof
      | cons c s =>
        refine .cls_fail fun hc => hn c s rfl ?_
        exact (C27_set h K hK rfl c).1 hc
    obtain ⟨n0, h0⟩ := d.parse_complete p r _ he _ _ hp
    refine ⟨n0, ?_⟩
    rw [h0 n0 (Nat.le_refl _)]
    simp [expectedResult, farthest, expectedAt, streamAt, StrStream.new]
  · obtain ⟨src, v, m, h1, -, h2⟩ := classDesc_lit h
    exact ⟨src, v, m, h1, h2⟩

end

/-- The class `["a-z\"\u{e9}-"]`. -/
example : parseCharClass 10 ['a', '-', 'z', '"', 'é', '-'] = .ok [⟨'a', 'z'⟩, ⟨'"', '"'⟩, ⟨'é', 'é'⟩, ⟨'-', '-'⟩] := rfl

/-- Its description: `["a-z\\"\\u{e9}-"]`. -/
example : classDesc [⟨'a', 'z'⟩, ⟨'"', '"'⟩, ⟨'é', 'é'⟩, ⟨'-', '-'⟩] = "[\"a-z\\\"\\u{e9}-\"]" := by decide +kernel

end Oak
