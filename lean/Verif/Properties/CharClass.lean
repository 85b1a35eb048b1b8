import Verif.Proofs.CharClass
import Verif.Properties.Runtime
/-! # Character classes: C27 -/
set_option autoImplicit false

namespace Oak
open Spec

/-- C27: the reader of a character class terminates on every text, and either accepts it or reports an error; it never panics. -/
theorem C27_terminates (cs : List Char) (n : Nat) (h : cs.length < n) :
    (∃ ivs, parseCharClass n cs = .ok ivs) ∨ parseCharClass n cs = .stuck := parseCharClass_outcome n cs h

/-- C27: a text is accepted iff it is the text of a class: items without dashes, possibly a dash before or after all of them, and something. -/
theorem C27_accepts (cs : List Char) : (∃ n ivs, parseCharClass n cs = .ok ivs) ↔ ∃ K : ClassText, K.Valid ∧ K.text = cs := by
  constructor
  · rintro ⟨n, ivs, h⟩
    exact parseCharClass_sound h
  · rintro ⟨K, hK, rfl⟩
    exact ⟨_, _, parseCharClass_complete K hK _ (Nat.le_refl _)⟩

/-- C27: the other texts are rejected with an error. -/
theorem C27_rejects (cs : List Char) (n : Nat) (h : cs.length < n) :
    parseCharClass n cs = .stuck ↔ ¬ ∃ K : ClassText, K.Valid ∧ K.text = cs := by
  rw [← C27_accepts]
  rcases parseCharClass_outcome n cs h with ⟨ivs, h1⟩ | h1
  · rw [h1]
    simp only [reduceCtorEq, false_iff, Classical.not_not]
    exact ⟨n, ivs, h1⟩
  · rw [h1]
    simp only [true_iff]
    rintro ⟨m, ivs, h2⟩
    have h3 := parseCharClass_mono h2 (Nat.le_max_left m n)
    have h4 : parseCharClass (max m n) cs ≠ .stuck := by rw [h3]; simp
    obtain ⟨K, hK, rfl⟩ := parseCharClass_sound h2
    rcases Nat.lt_or_ge n (K.text.length + 2) with h5 | h5
    · have h6 : n = K.text.length + 1 := by omega
      have h7 := parseCharClass_complete K hK (K.text.length + 2) (Nat.le_refl _)
      rw [stuck_mono h1 (by omega)] at h7
      cases h7
    · rw [parseCharClass_complete K hK n h5] at h1
      cases h1

/-- C27: the intervals returned denote exactly the characters described by the text. -/
theorem C27_set {n : Nat} {cs : List Char} {ivs : List Interval} (h : parseCharClass n cs = .ok ivs) (K : ClassText) (hK : K.Valid)
    (ht : K.text = cs) (c : Char) : (∃ iv ∈ ivs, iv.lo.val ≤ c.val ∧ c.val ≤ iv.hi.val) ↔ K.Accepts c := by
  rw [parseCharClass_exact h K hK ht]
  exact intervals_accept K c

section
variable {G : Grammar} {T : Nat → Ty} {fs : List (FnRef × Fn)} {ext : Nat → FnRef → PState StrStream Val → Res (PState StrStream Val)}
  {X : ExtSpec} {ptr : Nat} {input : List Char} {r : String}

/-- C27, with C28: the function generated for a class matches exactly the characters described by the text that was written. -/
theorem C27_matches (d : Deployed G T fs ext X ptr input) {n i : Nat} {ivs : List Interval} (K : ClassText) (hK : K.Valid)
    (h : parseCharClass n K.text = .ok ivs) (he : G.find r = some (.cls i ivs)) (p : Bool)
    (st : PState StrStream Val) (hst : OkSt (StrStream.At ptr input) st) (s' : List Char) :
    StepsTo ext fs p r ptr input st s' ↔ ∃ c, st.cur.rest = c :: s' ∧ K.Accepts c := by
  rw [C28_matches d i ivs he p st hst s']
  simp only [C27_set h K hK rfl]
end

/-- A class with two ranges, a character and dashes at both ends meets the hypotheses, and is read as expected. -/
def Sample.ident : ClassText := ⟨true, [.range 'a' 'z', .range '0' '9', .one '_'], true⟩

example : Sample.ident.Valid := ⟨by simp [Sample.ident, ClassItem.Plain], .inl rfl⟩
example : Sample.ident.text = "-a-z0-9_-".toList := rfl
example : parseCharClass 20 "-a-z0-9_-".toList = .ok [⟨'-', '-'⟩, ⟨'a', 'z'⟩, ⟨'0', '9'⟩, ⟨'_', '_'⟩, ⟨'-', '-'⟩] := rfl
/-- A dash in the middle, and an empty class, are rejected. -/
example : parseCharClass 20 "a-z-x".toList = .stuck := rfl
example : parseCharClass 20 [] = .stuck := rfl

end Oak
