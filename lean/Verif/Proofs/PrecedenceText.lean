import Verif.Proofs.Precedence
/-!
Operators with precedences: symbols written as they are, values that are runs of characters of a class.
-/
set_option linter.constructorNameAsVariable false
set_option autoImplicit false

namespace Oak.Precedence
open Oak Spec

variable {G : Grammar} {X : ExtSpec} {T : Nat → Ty} {sp : SpanSpec} {tab : List Level} {p : Char → Bool}

/-- The text does not begin with a character of the class. -/
def Ends (p : Char → Bool) : List Char → Prop
  | [] => True
  | c :: _ => p c = false

/-- Symbols and parentheses as they are, values that are the longest possible. -/
def plain (p : Char → Bool) : Lexis where
  op o s r := s = o.sym.toList ++ r
  opening s r := s = '(' :: r
  closing s r := s = ')' :: r
  word vs s r := ∃ w, Word p vs w ∧ s = w ++ r ∧ Ends p r

theorem Clear.sym_cons (hc : Clear tab p) {i : Nat} {lv o} (hi : tab[i]? = some lv) (ho : o ∈ lv.ops) : ∃ c cs, o.sym.toList = c :: cs ∧ p c = false ∧ c ≠ ')' :=
  hc.symbols i lv o hi ho

theorem writes_reads (hc : Clear tab p) {par k t s} (h : Writes tab (Word p) par k t s) : ∀ r, Ends p r → Reads tab (plain p) k t (s ++ r) r := by
  induction h with
  | word h => exact fun r hr => .word ⟨_, h, rfl, hr⟩
  | @paren k t s _ _ ih =>
    intro r hr
    refine .paren (s1 := s ++ (')' :: r)) (s2 := ')' :: r) ?_ (ih _ hc.closing) rfl
    simp [plain]
  | @left k i lv o a b sa sb hk hi hR ho _ _ ih1 ih2 =>
    intro r hr
    obtain ⟨c, cs, hs, hp, _⟩ := hc.sym_cons hi ho
    have := ih1 (o.sym.toList ++ (sb ++ r)) (by rw [hs]; exact hp)
    rw [List.append_assoc, List.append_assoc]
    exact .left hk hi hR ho this rfl (ih2 r hr)
  | @right k i lv o a b sa sb hk hi hR ho _ _ ih1 ih2 =>
    intro r hr
    obtain ⟨c, cs, hs, hp, _⟩ := hc.sym_cons hi ho
    have := ih1 (o.sym.toList ++ (sb ++ r)) (by rw [hs]; exact hp)
    rw [List.append_assoc, List.append_assoc]
    exact .right hk hi hR ho this rfl (ih2 r hr)

theorem reads_writes {k t s r} (h : Reads tab (plain p) k t s r) : ∃ x, s = x ++ r ∧ Writes tab (Word p) anywhere k t x := by
  induction h with
  | word h =>
    obtain ⟨w, h1, h2, _⟩ := h
    exact ⟨w, h2, .word h1⟩
  | paren h1 _ h3 ih =>
    obtain ⟨x, rfl, hx⟩ := ih
    cases h1; cases h3
    exact ⟨_, by simp, .paren trivial hx⟩
  | left hk hi hR ho _ h2 _ ih1 ih2 =>
    obtain ⟨x, rfl, hx⟩ := ih1
    obtain ⟨y, rfl, hy⟩ := ih2
    cases h2
    exact ⟨_, by simp, .left hk hi hR ho hx hy⟩
  | right hk hi hR ho _ h2 _ ih1 ih2 =>
    obtain ⟨x, rfl, hx⟩ := ih1
    obtain ⟨y, rfl, hy⟩ := ih2
    cases h2
    exact ⟨_, by simp, .right hk hi hR ho hx hy⟩

theorem writes_iff (hc : Clear tab p) {t s} : Writes tab (Word p) anywhere 0 t s ↔ Reads tab (plain p) 0 t s [] := by
  constructor
  · intro h
    have := writes_reads hc h [] trivial
    rwa [List.append_nil] at this
  · intro h
    obtain ⟨x, rfl, h⟩ := reads_writes h
    rwa [List.append_nil]

theorem Writes.anywhere {word par k t s} (h : Writes tab word par k t s) : Writes tab word Precedence.anywhere k t s := by
  induction h with
  | word h => exact .word h
  | paren _ _ ih => exact .paren trivial ih
  | left hk hi hR ho _ _ ih1 ih2 => exact .left hk hi hR ho ih1 ih2
  | right hk hi hR ho _ _ ih1 ih2 => exact .right hk hi hR ho ih1 ih2

theorem over_written {word t} (h : Over tab word t) : ∀ k, ∃ s, Writes tab word (needed tab) k t s := by
  induction h with
  | leaf h => exact fun k => ⟨_, .word h⟩
  | @bin i lv o a b hi ho _ _ ih1 ih2 =>
    have key : ∀ k, k ≤ i → ∃ s, Writes tab word (needed tab) k (.bin o.fn a b) s := by
      intro k hk
      cases hR : lv.right with
      | false =>
        obtain ⟨sa, ha⟩ := ih1 i
        obtain ⟨sb, hb⟩ := ih2 (i + 1)
        exact ⟨_, .left hk hi hR ho ha hb⟩
      | true =>
        obtain ⟨sa, ha⟩ := ih1 (i + 1)
        obtain ⟨sb, hb⟩ := ih2 i
        exact ⟨_, .right hk hi hR ho ha hb⟩
    intro k
    by_cases hk : k ≤ i
    · exact key k hk
    · obtain ⟨s, hs⟩ := key 0 (Nat.zero_le _)
      exact ⟨_, .paren ⟨i, lv, o, a, b, rfl, hi, ho, by omega⟩ hs⟩

theorem many_class {i : Nat} {ivs : List Interval} (hi : T i ≠ .unit) (hivs : ∀ c, InClass ivs c ↔ p c = true) {s r ws} :
    YieldsMany G X T sp (.cls i ivs) s r ws ↔ ∃ w, (∀ c ∈ w, p c = true) ∧ s = w ++ r ∧ ws = w.map .chr := by
  constructor
  · intro h
    induction h with
    | nil => exact ⟨[], by simp, rfl, rfl⟩
    | cons h1 _ ih =>
      obtain ⟨w, h3, rfl, rfl⟩ := ih
      obtain ⟨c, rfl, hc, rfl⟩ := yields_cls.1 h1
      refine ⟨c :: w, fun x hx => ?_, rfl, ?_⟩
      · rcases List.mem_cons.1 hx with rfl | hx
        · exact (hivs _).1 hc
        · exact h3 x hx
      · rw [if_neg hi]; rfl
  · rintro ⟨w, hw, rfl, rfl⟩
    induction w with
    | nil => exact .nil
    | cons c w ih =>
      refine .cons (vs := [.chr c]) (s1 := w ++ r) (yields_cls.2 ⟨c, rfl, (hivs c).2 (hw c List.mem_cons_self), by rw [if_neg hi]⟩) ?_
      exact ih fun x hx => hw x (List.mem_cons_of_mem _ hx)

theorem cls_fails_iff {i : Nat} {ivs : List Interval} (hivs : ∀ c, InClass ivs c ↔ p c = true) {s} : Fails G X (.cls i ivs) s ↔ Ends p s := by
  constructor
  · rintro ⟨L, h⟩
    cases h with
    | cls_eof => trivial
    | @cls_fail _ _ c s hn =>
      show p c = false
      cases hp : p c with
      | false => rfl
      | true => exact absurd ((hivs c).2 hp) hn
  · intro h
    cases s with
    | nil => exact ⟨_, .cls_eof⟩
    | cons c s =>
      refine ⟨_, .cls_fail fun hc => ?_⟩
      have h' : p c = false := h
      rw [(hivs c).1 hc] at h'
      cases h'

/-- The tokens of the plain syntax. -/
theorem plain_tokens (hc : Clear tab p) {opI : Oper → Nat} {a b c d : Nat} {ivs : List Interval} (hivs : ∀ x, InClass ivs x ↔ p x = true) (hcT : T c ≠ .unit) (hdT : T d ≠ .unit) :
    Tokens G X T sp tab (fun o => .str (opI o) o.sym) (.str a "(") (.str b ")") (.plus d (.cls c ivs)) (plain p) where
  op _ _ s r vs := yields_str
  op_fails hi ho s h := by
    refine ⟨_, .str_fail fun hp => ?_⟩
    obtain ⟨r, hr⟩ := hp
    exact h r hr.symm
  opening s r vs := by rw [yields_str]; rfl
  closing s r vs := by rw [yields_str]; rfl
  word s r vs := by
    rw [yields_plus]
    constructor
    · rintro ⟨ws, ⟨h1, hne, h2⟩, rfl⟩
      obtain ⟨w, hw, rfl, rfl⟩ := (many_class hcT hivs).1 h1
      refine ⟨w, ⟨fun h => hne (by rw [h]; rfl), hw, by rw [if_neg hdT]⟩, rfl, (cls_fails_iff hivs).1 h2⟩
    · rintro ⟨w, ⟨hne, hw, rfl⟩, rfl, hr⟩
      refine ⟨_, ⟨(many_class hcT hivs).2 ⟨w, hw, rfl, rfl⟩, fun h => hne (List.map_eq_nil_iff.1 h), (cls_fails_iff hivs).2 hr⟩, by rw [if_neg hdT]⟩
  word_fails s h := by
    rw [plus_fails_iff, cls_fails_iff hivs]
    cases s with
    | nil => trivial
    | cons x s =>
      show p x = false
      cases hx : p x with
      | false => rfl
      | true =>
        exfalso
        have : ∀ s : List Char, ∃ w r, (∀ c ∈ w, p c = true) ∧ s = w ++ r ∧ Ends p r := by
          intro s
          induction s with
          | nil => exact ⟨[], [], by simp, rfl, trivial⟩
          | cons y s ih =>
            cases hy : p y with
            | false => exact ⟨[], y :: s, by simp, rfl, hy⟩
            | true =>
              obtain ⟨w, r, h1, rfl, h2⟩ := ih
              refine ⟨y :: w, r, fun c hcm => ?_, rfl, h2⟩
              rcases List.mem_cons.1 hcm with rfl | hcm
              · exact hy
              · exact h1 c hcm
        obtain ⟨w, r, h1, rfl, h2⟩ := this s
        refine h [.list ((x :: w).map .chr)] r ⟨x :: w, ⟨List.cons_ne_nil _ _, fun c hcm => ?_, rfl⟩, rfl, h2⟩
        rcases List.mem_cons.1 hcm with rfl | hcm
        · exact hx
        · exact h1 c hcm
  op_shorter {i lv o s r} hi ho h := by
    obtain ⟨x, xs, hs, _⟩ := hc.sym_cons hi ho
    have h' : s = o.sym.toList ++ r := h
    rw [h', hs]
    simp
    omega
  opening_shorter h := by cases h; simp
  exclusive {i j li lj o q s r r'} hi ho hj hq h1 h2 := by
    have h1 : s = o.sym.toList ++ r := h1
    have h2 : s = q.sym.toList ++ r' := h2
    have ha : o.sym.toList <+: s := ⟨r, h1.symm⟩
    have hb : q.sym.toList <+: s := ⟨r', h2.symm⟩
    rcases List.prefix_or_prefix_of_prefix ha hb with h | h
    · exact hc.distinct i j li lj o q hi ho hj hq h
    · obtain ⟨h3, h4⟩ := hc.distinct j i lj li q o hj hq hi ho h
      exact ⟨h3.symm, h4.symm⟩
  op_not_closing {i lv o s r q} hi ho h := by
    intro h2
    obtain ⟨x, xs, hs, _, hx⟩ := hc.sym_cons hi ho
    have h' : s = o.sym.toList ++ r := h
    have h2' : s = ')' :: q := h2
    rw [h', hs] at h2'
    simp only [List.cons_append, List.cons.injEq] at h2'
    exact hx h2'.1
  opening_not_word {s r vs q} h := by
    rintro ⟨w, ⟨hne, hw, _⟩, h2, _⟩
    cases h
    cases w with
    | nil => exact hne rfl
    | cons x w =>
      cases h2
      have := hw '(' List.mem_cons_self
      rw [hc.opening] at this
      cases this

end Oak.Precedence
