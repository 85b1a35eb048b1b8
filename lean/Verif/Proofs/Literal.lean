import Verif.Spec.Literal
import Verif.Proofs.CharClass
/-!
Descriptions of character classes (C59).
-/
set_option autoImplicit false

namespace Oak

theorem HexOf.digits {ds : List Char} {n : Nat} (h : HexOf ds n) : ∀ c ∈ ds, ∃ d, hexDigit c = some d := by
  induction h with
  | one h => intro c hc; rw [List.mem_singleton.1 hc]; exact ⟨_, h⟩
  | more _ h ih =>
    intro c hc
    rcases List.mem_append.1 hc with hc | hc
    · exact ih c hc
    · rw [List.mem_singleton.1 hc]; exact ⟨_, h⟩

theorem HexOf.ne_nil {ds : List Char} {n : Nat} (h : HexOf ds n) : ds ≠ [] := by
  induction h <;> simp

theorem HexOf.det {ds : List Char} {n m : Nat} (h : HexOf ds n) (h' : HexOf ds m) : n = m := by
  have inv : ∀ {ds : List Char} {n : Nat}, HexOf ds n → (∃ c d, ds = [c] ∧ hexDigit c = some d ∧ n = d) ∨
      ∃ ds' n' c d, ds = ds' ++ [c] ∧ ds' ≠ [] ∧ HexOf ds' n' ∧ hexDigit c = some d ∧ n = 16 * n' + d := by
    intro ds n h
    cases h with
    | one h => exact .inl ⟨_, _, rfl, h, rfl⟩
    | more h hd => exact .inr ⟨_, _, _, _, rfl, h.ne_nil, h, hd, rfl⟩
  induction h generalizing m with
  | one h =>
    rcases inv h' with ⟨c, d, he, hd, rfl⟩ | ⟨ds', n', c, d, he, hne, _⟩
    · cases he; rw [h] at hd; cases hd; rfl
    · cases ds' with
      | nil => exact absurd rfl hne
      | cons x l => simp at he
  | more hds h ih =>
    rcases inv h' with ⟨c, d, he, hd, rfl⟩ | ⟨ds', n', c, d, he, hne, hn', hd, rfl⟩
    · rename_i ds _ _ _
      have : ds = [] := by
        cases ds with
        | nil => rfl
        | cons x l => simp at he
      subst this
      rcases inv hds with ⟨c, d, he, _⟩ | ⟨ds', n', c, d, he, _⟩
      · cases he
      · simp at he
    · obtain ⟨h1, h2⟩ := List.append_inj' he rfl
      subst h1
      cases h2
      rw [h] at hd
      cases hd
      rw [ih hn']

theorem hexDigit_digitChar (d : Nat) (h : d < 16) : hexDigit d.digitChar = some d := by
  have : ∀ d : Fin 16, hexDigit d.val.digitChar = some d.val := by decide +kernel
  exact this ⟨d, h⟩

theorem toDigits_hex (n : Nat) : HexOf (Nat.toDigits 16 n) n := by
  induction n using Nat.strongRecOn with
  | _ n ih =>
    by_cases h : n < 16
    · rw [Nat.toDigits_of_lt_base h]
      exact .one (hexDigit_digitChar n h)
    · rw [Nat.toDigits_of_base_le (by omega) (by omega)]
      have h1 := ih (n / 16) (by omega)
      have h2 := HexOf.more h1 (hexDigit_digitChar (n % 16) (by omega))
      have : 16 * (n / 16) + n % 16 = n := Nat.div_add_mod n 16
      rwa [this] at h2

theorem toDigits_length {k : Nat} (hk : 0 < k) {n : Nat} (h : n < 16 ^ k) : (Nat.toDigits 16 n).length ≤ k := by
  induction k generalizing n with
  | zero => omega
  | succ k ih =>
    by_cases hn : n < 16
    · rw [Nat.toDigits_of_lt_base hn]; simp
    · rw [Nat.toDigits_of_base_le (by omega) (by omega), List.length_append]
      have hk' : 0 < k := by
        cases k with
        | zero => simp at h; omega
        | succ k => omega
      have : n / 16 < 16 ^ k := by rw [Nat.pow_succ] at h; omega
      have := ih hk' this
      simp
      omega

theorem LitOf.append {a b v w : List Char} (h : LitOf a v) (h' : LitOf b w) : LitOf (a ++ b) (v ++ w) := by
  induction h with
  | nil => exact h'
  | plain h1 h2 h3 _ ih => exact .plain h1 h2 h3 ih
  | simple h _ ih => exact .simple h ih
  | unicode h hl _ ih => simpa [List.append_assoc] using LitOf.unicode h hl ih

theorem close_inj {a b c d : List Char} {x : Char} (ha : x ∉ a) (hb : x ∉ b) (h : a ++ x :: c = b ++ x :: d) : a = b ∧ c = d := by
  induction a generalizing b with
  | nil =>
    cases b with
    | nil => simp at h; exact ⟨rfl, h⟩
    | cons y b => simp at h; simp [h.1] at hb
  | cons y a ih =>
    cases b with
    | nil => simp at h; simp [h.1] at ha
    | cons z b =>
      simp at h ha hb
      obtain ⟨h1, h2⟩ := ih ha.2 hb.2 h.2
      exact ⟨by rw [h.1, h1], h2⟩

theorem HexOf.no_close {ds : List Char} {n : Nat} (h : HexOf ds n) : '}' ∉ ds := by
  intro hm
  obtain ⟨d, hd⟩ := h.digits _ hm
  simp [hexDigit] at hd

theorem LitOf.det {s v w : List Char} (h : LitOf s v) (h' : LitOf s w) : v = w := by
  have hu : ∀ c, ('u', c) ∉ simpleEscapes := by intro c; simp [simpleEscapes]
  induction h generalizing w with
  | nil => cases h'; rfl
  | plain h1 h2 h3 _ ih =>
    cases h' with
    | plain _ _ _ h => rw [ih h]
    | simple => exact absurd rfl h2
    | unicode => exact absurd rfl h2
  | simple hm _ ih =>
    cases h' with
    | plain _ h2 => exact absurd rfl h2
    | simple hm' h =>
      rw [ih h]
      have hd : ∀ a ∈ simpleEscapes, ∀ b ∈ simpleEscapes, a.1 = b.1 → a.2 = b.2 := by decide
      have he := hd _ hm _ hm' rfl
      simp only at he
      rw [he]
    | unicode => exact absurd hm (hu _)
  | @unicode ds c src v hx hl _ ih =>
    generalize hs : '\\' :: 'u' :: '{' :: ds ++ '}' :: src = s at h'
    cases h' with
    | nil => simp at hs
    | plain _ h2 => simp at hs; exact absurd hs.1.symm h2
    | simple hm => simp at hs; rw [← hs.1] at hm; exact absurd hm (hu _)
    | @unicode ds' c' src' v' hx' hl' h =>
      simp at hs
      obtain ⟨rfl, rfl⟩ := close_inj hx.no_close hx'.no_close hs
      rw [ih h]
      have := hx.det hx'
      rw [show c = c' from Char.toNat_inj.1 this]

theorem escapeChar_lit (c : Char) : LitOf (escapeChar c).toList [c] := by
  unfold escapeChar
  have hnil := LitOf.nil
  split
  · rename_i h; subst h; rw [show "\\t".toList = ['\\', 't'] by decide]; exact .simple (by decide) hnil
  split
  · rename_i h; subst h; rw [show "\\r".toList = ['\\', 'r'] by decide]; exact .simple (by decide) hnil
  split
  · rename_i h; subst h; rw [show "\\n".toList = ['\\', 'n'] by decide]; exact .simple (by decide) hnil
  split
  · rename_i h; subst h; rw [show "\\'".toList = ['\\', '\''] by decide]; exact .simple (by decide) hnil
  split
  · rename_i h; subst h; rw [show "\\\"".toList = ['\\', '"'] by decide]; exact .simple (by decide) hnil
  split
  · rename_i h; subst h; rw [show "\\\\".toList = ['\\', '\\'] by decide]; exact .simple (by decide) hnil
  split
  · simp only [String.toList_ofList]
    exact .plain (by assumption) (by assumption) (by assumption) hnil
  · have hlen : (Nat.toDigits 16 c.toNat).length ≤ 6 := by
      refine toDigits_length (by omega) ?_
      have := c.valid
      simp only [UInt32.isValidChar, Nat.isValidChar] at this
      have hc : c.toNat = c.val.toNat := rfl
      omega
    have := LitOf.unicode (toDigits_hex c.toNat) hlen hnil
    simpa [String.toList_append] using this

theorem hexDigit_printable {c : Char} {d : Nat} (h : hexDigit c = some d) : Printable c := by
  unfold hexDigit at h
  unfold Printable
  have le : ∀ a b : Char, a ≤ b ↔ a.toNat ≤ b.toNat := fun a b => Iff.rfl
  simp only [le] at h
  split at h
  · simp at *; omega
  split at h
  · simp at *; omega
  split at h
  · simp at *; omega
  · cases h

theorem escapeChar_printable (c : Char) : ∀ x ∈ (escapeChar c).toList, Printable x := by
  unfold escapeChar
  have lit : ∀ s : String, (s.toList.all fun x => decide (0x20 ≤ x.toNat) && decide (x.toNat ≤ 0x7e)) = true → ∀ x ∈ s.toList, Printable x := by
    intro s h x hx
    have := List.all_eq_true.1 h x hx
    simp only [Bool.and_eq_true, decide_eq_true_eq] at this
    exact this
  split
  · exact lit _ (by decide)
  split
  · exact lit _ (by decide)
  split
  · exact lit _ (by decide)
  split
  · exact lit _ (by decide)
  split
  · exact lit _ (by decide)
  split
  · exact lit _ (by decide)
  split
  · rename_i h
    intro x hx
    simp only [String.toList_ofList, List.mem_singleton] at hx
    subst hx
    exact h
  · intro x hx
    simp only [String.toList_append, String.toList_ofList, List.mem_append] at hx
    rcases hx with (hx | hx) | hx
    · exact lit _ (by decide) x hx
    · obtain ⟨d, hd⟩ := (toDigits_hex c.toNat).digits x hx
      exact hexDigit_printable hd
    · exact lit _ (by decide) x hx

/-- The item that denotes an interval. -/
def Interval.item (iv : Interval) : ClassItem := if iv.lo = iv.hi then .one iv.lo else .range iv.lo iv.hi

theorem Interval.item_interval (iv : Interval) : iv.item.interval = iv := by
  obtain ⟨a, b⟩ := iv
  unfold Interval.item
  split
  · rename_i h; simp only at h; subst h; rfl
  · rfl

theorem dash_lit : LitOf ['-'] ['-'] := .plain (by decide) (by decide) (by decide) .nil

theorem display_lit (iv : Interval) : LitOf iv.display.toList iv.item.text := by
  unfold Interval.display Interval.item
  split
  · exact escapeChar_lit _
  · have := ((escapeChar_lit iv.lo).append dash_lit).append (escapeChar_lit iv.hi)
    simpa [String.toList_append, ClassItem.text] using this

theorem join_lit (ivs : List Interval) : LitOf (String.join (ivs.map Interval.display)).toList (ivs.flatMap fun iv => iv.item.text) := by
  induction ivs with
  | nil => simpa using LitOf.nil
  | cons iv ivs ih => simpa [String.join_cons, String.toList_append] using (display_lit iv).append ih

end Oak
