import Verif.Spec.Stream
/-!
Facts about UTF-8 lengths and the proof that `StrStream` is a lawful stream.
-/
set_option autoImplicit false

namespace Oak

theorem utf8_nil : utf8 [] = [] := rfl
theorem utf8_cons (c : Char) (l : List Char) : utf8 (c :: l) = String.utf8EncodeChar c ++ utf8 l := by
  simp [utf8]
theorem utf8_append (a b : List Char) : utf8 (a ++ b) = utf8 a ++ utf8 b := by
  simp [utf8]

theorem length_utf8 (l : List Char) : (utf8 l).length = blen l := by
  induction l with
  | nil => rfl
  | cons c l ih => simp [utf8_cons, blen, ih, String.length_utf8EncodeChar]

theorem blen_append (a b : List Char) : blen (a ++ b) = blen a + blen b := by
  induction a with
  | nil => simp [blen]
  | cons c l ih => simp [blen, ih]; omega

theorem utf8Size_pos (c : Char) : 0 < c.utf8Size := Char.utf8Size_pos c

theorem blen_eq_zero {l : List Char} : blen l = 0 ↔ l = [] := by
  cases l with
  | nil => simp [blen]
  | cons c l => simp [blen]; have := utf8Size_pos c; omega

theorem length_le_blen (l : List Char) : l.length ≤ blen l := by
  induction l with
  | nil => simp
  | cons c l ih => simp [blen]; have := utf8Size_pos c; omega

/-- Slicing at the length of a prefix gives the rest. -/
theorem dropBytes_append (p r : List Char) : dropBytes (p ++ r) (blen p) = some r := by
  induction p with
  | nil => cases r <;> simp [blen, dropBytes]
  | cons c p ih =>
    have hc := utf8Size_pos c
    obtain ⟨n, hn⟩ : ∃ n, c.utf8Size + blen p = n + 1 := ⟨c.utf8Size + blen p - 1, by omega⟩
    simp only [List.cons_append, blen, hn, dropBytes]
    rw [if_pos (by omega), ← hn, Nat.add_sub_cancel_left, ih]

/-- A successful slice is the rest after a prefix of that many bytes. -/
theorem dropBytes_eq_some {l r : List Char} {n : Nat} (h : dropBytes l n = some r) :
    ∃ p, l = p ++ r ∧ blen p = n := by
  induction l generalizing n with
  | nil =>
    cases n with
    | zero => simp [dropBytes] at h; exact ⟨[], by simp [h], rfl⟩
    | succ n => simp [dropBytes] at h
  | cons c l ih =>
    cases n with
    | zero => simp [dropBytes] at h; exact ⟨[], by simp [h], rfl⟩
    | succ n =>
      simp only [dropBytes] at h
      split at h
      · obtain ⟨p, hp, hb⟩ := ih h
        exact ⟨c :: p, by simp [hp], by simp [blen, hb]; omega⟩
      · cases h

theorem takeBytes_append (p r : List Char) : takeBytes (p ++ r) (blen p) = some p := by
  induction p with
  | nil => cases r <;> simp [blen, takeBytes]
  | cons c p ih =>
    have hc := utf8Size_pos c
    obtain ⟨n, hn⟩ : ∃ n, c.utf8Size + blen p = n + 1 := ⟨c.utf8Size + blen p - 1, by omega⟩
    simp only [List.cons_append, blen, hn, takeBytes]
    rw [if_pos (by omega), ← hn, Nat.add_sub_cancel_left, ih]; rfl

theorem takeBytes_eq_some {l p : List Char} {n : Nat} (h : takeBytes l n = some p) :
    ∃ r, l = p ++ r ∧ blen p = n := by
  induction l generalizing n p with
  | nil =>
    cases n with
    | zero => simp [takeBytes] at h; subst h; exact ⟨[], rfl, rfl⟩
    | succ n => simp [takeBytes] at h
  | cons c l ih =>
    cases n with
    | zero => simp [takeBytes] at h; subst h; exact ⟨c :: l, rfl, rfl⟩
    | succ n =>
      simp only [takeBytes] at h
      split at h
      · rw [Option.map_eq_some_iff] at h
        obtain ⟨q, hq, rfl⟩ := h
        obtain ⟨r, hr, hb⟩ := ih hq
        exact ⟨r, by simp [hr], by simp [blen, hb]; omega⟩
      · cases h

/-- UTF-8 is prefix free on characters. -/
theorem utf8EncodeChar_prefix_inj {c d : Char} {a b : List UInt8}
    (h : String.utf8EncodeChar c ++ a = String.utf8EncodeChar d ++ b) : c = d := by
  have e1 := ByteArray.utf8DecodeChar?_utf8EncodeChar_append (b := ⟨a.toArray⟩) (c := c)
  have e2 := ByteArray.utf8DecodeChar?_utf8EncodeChar_append (b := ⟨b.toArray⟩) (c := d)
  have : (String.utf8EncodeChar c).toByteArray ++ (⟨a.toArray⟩ : ByteArray)
       = (String.utf8EncodeChar d).toByteArray ++ (⟨b.toArray⟩ : ByteArray) := by
    have h1 : ∀ (x y : List UInt8), x.toByteArray ++ (⟨y.toArray⟩ : ByteArray) = (x ++ y).toByteArray := by
      intro x y
      apply ByteArray.ext
      simp
    rw [h1, h1, h]
  rw [this, e2] at e1
  exact (Option.some.inj e1).symm

/-- Byte-wise prefixes of UTF-8 encodings are character-wise prefixes. -/
theorem utf8_prefix_iff (p r : List Char) : utf8 p <+: utf8 r ↔ p <+: r := by
  constructor
  · intro h
    induction p generalizing r with
    | nil => exact List.nil_prefix
    | cons c p ih =>
      obtain ⟨t, ht⟩ := h
      cases r with
      | nil =>
        have := congrArg List.length ht
        simp [utf8_cons, utf8_nil, String.length_utf8EncodeChar] at this
        have := utf8Size_pos c; omega
      | cons d r =>
        rw [utf8_cons, utf8_cons, List.append_assoc] at ht
        have hcd := utf8EncodeChar_prefix_inj ht
        subst hcd
        have := List.append_cancel_left ht
        rw [List.cons_prefix_cons]
        exact ⟨rfl, ih r ⟨t, this⟩⟩
  · rintro ⟨t, rfl⟩
    exact ⟨utf8 t, by rw [utf8_append]⟩

theorem utf8_inj {a b : List Char} (h : utf8 a = utf8 b) : a = b := by
  have h1 : a <+: b := (utf8_prefix_iff a b).1 (h ▸ List.prefix_refl _)
  have h2 : b <+: a := (utf8_prefix_iff b a).1 (h ▸ List.prefix_refl _)
  exact List.IsPrefix.eq_of_length h1 (Nat.le_antisymm h1.length_le h2.length_le)

theorem blen_suffix_lt {input a b : List Char} (ha : a <:+ input) (hb : b <:+ input) :
    (blen a < blen b ↔ a.length < b.length) ∧ (blen a = blen b ↔ a.length = b.length) := by
  have key : ∀ {a b : List Char}, a <:+ b → blen a ≤ blen b ∧ (a.length < b.length → blen a < blen b) := by
    rintro a b ⟨t, rfl⟩
    rw [blen_append]
    refine ⟨by omega, fun h => ?_⟩
    simp only [List.length_append] at h
    have : blen t ≠ 0 := by
      rw [Ne, blen_eq_zero]; rintro rfl; simp at h
    omega
  rcases Nat.lt_trichotomy a.length b.length with h | h | h
  · have hs := List.suffix_of_suffix_length_le ha hb (Nat.le_of_lt h)
    have := (key hs).2 h
    omega
  · have hs := List.suffix_of_suffix_length_le ha hb (Nat.le_of_eq h)
    have := hs.eq_of_length h
    subst this
    simp
  · have hs := List.suffix_of_suffix_length_le hb ha (Nat.le_of_lt h)
    have := (key hs).2 h
    omega

namespace StrStream

theorem rest_of {s : StrStream} {p r : List Char} (h : s.raw = p ++ r) (ho : s.off = blen p) :
    s.rest = r := by
  simp [rest, h, ho, dropBytes_append]

theorem At.split {ptr raw s} (h : At ptr raw s) : ∃ p, s.raw = p ++ s.rest ∧ s.off = blen p ∧ raw = p ++ s.rest := by
  obtain ⟨_, hr, p, r, hpr, ho⟩ := h
  have : s.rest = r := rest_of (hr ▸ hpr) ho
  exact ⟨p, by rw [this, hr, hpr], ho, by rw [this, hpr]⟩

theorem At.new (ptr : Nat) (raw : List Char) : At ptr raw (StrStream.new ptr raw) :=
  ⟨rfl, rfl, [], raw, rfl, rfl⟩

@[simp] theorem rest_new (ptr : Nat) (raw : List Char) : (StrStream.new ptr raw).rest = raw :=
  rest_of (p := []) rfl rfl

theorem next_cons {ptr raw s c cs} (h : At ptr raw s) (hr : s.rest = c :: cs) :
    ∃ s', s.next = .ok (some c, s') ∧ At ptr raw s' ∧ s'.rest = cs ∧ s'.off = s.off + c.utf8Size := by
  obtain ⟨p, hp, ho, hraw⟩ := h.split
  rw [hr] at hp hraw
  refine ⟨{ s with off := s.off + c.utf8Size }, ?_, ⟨h.1, h.2.1, p ++ [c], cs, ?_, ?_⟩, ?_, rfl⟩
  · have hlt : s.off < blen s.raw := by
      rw [ho, hp, blen_append]; simp [blen]; have := utf8Size_pos c; omega
    have hd : dropBytes s.raw s.off = some (c :: cs) := by rw [hp, ho, dropBytes_append]
    simp [next, hlt, currentChar, hd]
  · simp [hraw]
  · simp [ho, blen_append, blen]
  · exact rest_of (p := p ++ [c]) (by simp [hp]) (by simp [ho, blen_append, blen])

theorem next_nil {ptr raw s} (h : At ptr raw s) (hr : s.rest = []) : s.next = .ok (none, s) := by
  obtain ⟨p, hp, ho, hraw⟩ := h.split
  rw [hr, List.append_nil] at hp
  have : ¬ s.off < blen s.raw := by rw [ho, hp]; omega
  simp [next, this]

theorem consumePrefix_iff {ptr raw s} (h : At ptr raw s) (p : String) :
    (s.off + blen p.toList ≤ blen s.raw ∧
      ((utf8 s.raw).drop s.off).take (blen p.toList) = utf8 p.toList) ↔ p.toList <+: s.rest := by
  obtain ⟨q, hq, ho, _⟩ := h.split
  have hdrop : (utf8 s.raw).drop s.off = utf8 s.rest := by
    rw [hq, ho, utf8_append, ← length_utf8, List.drop_left]
  rw [hdrop, ← length_utf8 p.toList]
  constructor
  · rintro ⟨_, h2⟩
    rw [← utf8_prefix_iff]
    rw [← h2]; exact List.take_prefix _ _
  · intro hp
    have hp' := (utf8_prefix_iff _ _).2 hp
    constructor
    · rw [hq, blen_append, ho, ← length_utf8 s.rest]
      have := hp'.length_le; omega
    · obtain ⟨t, ht⟩ := hp'
      rw [← ht, List.take_left]

theorem prefix_true {ptr raw s} {p : String} {r} (h : At ptr raw s) (hr : s.rest = p.toList ++ r) :
    ∃ s', s.consumePrefix p = .ok (true, s') ∧ At ptr raw s' ∧ s'.rest = r ∧
      s'.off = s.off + blen p.toList := by
  obtain ⟨q, hq, ho, hraw⟩ := h.split
  rw [hr] at hq hraw
  refine ⟨{ s with off := s.off + blen p.toList }, ?_, ⟨h.1, h.2.1, q ++ p.toList, r, ?_, ?_⟩, ?_, rfl⟩
  · have := (consumePrefix_iff h p).2 ⟨r, hr.symm⟩
    simp [consumePrefix, this]
  · simp [hraw]
  · simp [ho, blen_append]
  · exact rest_of (p := q ++ p.toList) (by simp [hq]) (by simp [ho, blen_append])

theorem prefix_false {ptr raw s} {p : String} (h : At ptr raw s) (hr : ¬ p.toList <+: s.rest) :
    s.consumePrefix p = .ok (false, s) := by
  rw [← consumePrefix_iff h p] at hr
  simp [consumePrefix, hr]

theorem off_add {ptr raw s} (h : At ptr raw s) : s.off + blen s.rest = blen raw := by
  obtain ⟨p, hp, ho, hraw⟩ := h.split
  rw [hraw, blen_append, ho]

theorem hasNext_eq {ptr raw s} (h : At ptr raw s) : s.hasNext = !s.rest.isEmpty := by
  have h1 := off_add h
  have h2 := h.2.1
  simp only [hasNext, h2]
  cases hr : s.rest with
  | nil => rw [hr] at h1; simp [blen] at h1; simp; omega
  | cons c cs => rw [hr] at h1; simp [blen] at h1; have := utf8Size_pos c; simp; omega

theorem At.inj {ptr raw} {a b : StrStream} (ha : At ptr raw a) (hb : At ptr raw b) (hab : a.rest = b.rest) : a = b := by
  have h1 := off_add ha
  have h2 := off_add hb
  rw [hab] at h1
  cases a; cases b
  obtain ⟨rfl, rfl, _⟩ := ha
  obtain ⟨h3, h4, _⟩ := hb
  simp at *
  exact ⟨h3.symm, h4.symm, by omega⟩

theorem At.suffix {ptr raw} {s : StrStream} (h : At ptr raw s) : s.rest <:+ raw := by
  obtain ⟨p, _, _, hraw⟩ := h.split
  exact ⟨p, hraw.symm⟩

theorem cmp_eq {ptr raw} {a b : StrStream} (ha : At ptr raw a) (hb : At ptr raw b) : a.cmp b = .ok (compare a.off b.off) := by
  simp [cmp, ha.1, hb.1]

theorem lawful (ptr : Nat) (raw : List Char) :
    LawfulStream StrStream.ops (At ptr raw) StrStream.rest raw where
  next_cons h hr := by
    obtain ⟨s', a, b, c, _⟩ := StrStream.next_cons h hr; exact ⟨s', a, b, c⟩
  next_nil h hr := ⟨_, StrStream.next_nil h hr, h, hr⟩
  prefix_true h hr := by
    obtain ⟨s', a, b, c, _⟩ := StrStream.prefix_true h hr; exact ⟨s', a, b, c⟩
  prefix_false h hr := StrStream.prefix_false h hr
  hasNext_eq h := StrStream.hasNext_eq h
  cmp_eq := by
    intro a b ha hb
    show a.cmp b = _
    rw [cmp_eq ha hb]
    have h1 := off_add ha
    have h2 := off_add hb
    obtain ⟨k1, k2⟩ := blen_suffix_lt ha.suffix hb.suffix
    obtain ⟨k3, _⟩ := blen_suffix_lt hb.suffix ha.suffix
    congr 1
    rcases Nat.lt_trichotomy a.off b.off with h | h | h
    · rw [Nat.compare_eq_lt.2 h, Nat.compare_eq_lt.2 (by omega)]
    · rw [Nat.compare_eq_eq.2 h, Nat.compare_eq_eq.2 (by omega)]
    · rw [Nat.compare_eq_gt.2 h, Nat.compare_eq_gt.2 (by omega)]
  suffix h := h.suffix

end StrStream
end Oak
