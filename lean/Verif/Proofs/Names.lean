import Verif.Spec.Names
import Verif.Proofs.CompileCorrect
import Std.Data.String.ToNat
/-! Identifiers are not confused. -/
set_option autoImplicit false

namespace Oak

theorem letter_inj : ∀ a, a < 26 → ∀ b, b < 26 → letter a = letter b → a = b := by decide +kernel
theorem letter_lower : ∀ a, a < 26 → (letter a).isLower = true := by decide +kernel

theorem varPrefix_zero : varPrefix 0 = [] := by unfold varPrefix; simp
theorem varPrefix_pos {n : Nat} (h : 0 < n) : varPrefix n = letter (n % 26) :: varPrefix (n / 26) := by
  rw [varPrefix]; simp [h]

theorem varPrefix_inj (a b : Nat) (h : varPrefix a = varPrefix b) : a = b := by
  induction a using Nat.strongRecOn generalizing b with
  | _ a ih =>
    by_cases ha : 0 < a <;> by_cases hb : 0 < b
    · rw [varPrefix_pos ha, varPrefix_pos hb] at h
      have h1 := (List.cons.inj h).1
      have h2 := ih (a / 26) (by omega) (b / 26) (List.cons.inj h).2
      have h3 := letter_inj _ (Nat.mod_lt _ (by decide)) _ (Nat.mod_lt _ (by decide)) h1
      omega
    · have : b = 0 := by omega
      subst this
      rw [varPrefix_pos ha, varPrefix_zero] at h
      cases h
    · have : a = 0 := by omega
      subst this
      rw [varPrefix_pos hb, varPrefix_zero] at h
      cases h
    · omega

theorem varPrefix_lower (n : Nat) : ∀ c ∈ varPrefix n, c.isLower = true := by
  induction n using Nat.strongRecOn with
  | _ n ih =>
    by_cases hn : 0 < n
    · rw [varPrefix_pos hn]
      intro c hc
      rcases List.mem_cons.1 hc with rfl | hc
      · exact letter_lower _ (Nat.mod_lt _ (by decide))
      · exact ih _ (by omega) c hc
    · have : n = 0 := by omega
      subst this
      simp [varPrefix_zero]

theorem varPrefix_ne_nil {n : Nat} (h : 0 < n) : varPrefix n ≠ [] := by rw [varPrefix_pos h]; simp

theorem varPrefix_mark : varPrefix 187264 = ['m', 'a', 'r', 'k'] := by
  rw [varPrefix_pos (by decide), varPrefix_pos (by decide), varPrefix_pos (by decide), varPrefix_pos (by decide)]
  simp only [Nat.reduceDiv, Nat.reduceMod, varPrefix_zero]
  decide +kernel

theorem varPrefix_counter : varPrefix 5308018614 = ['c', 'o', 'u', 'n', 't', 'e', 'r'] := by
  rw [varPrefix_pos (by decide), varPrefix_pos (by decide), varPrefix_pos (by decide), varPrefix_pos (by decide), varPrefix_pos (by decide),
    varPrefix_pos (by decide), varPrefix_pos (by decide)]
  simp only [Nat.reduceDiv, Nat.reduceMod, varPrefix_zero]
  decide +kernel

/-- Texts without digits followed by digits are not confused. -/
theorem split_digits {a b c d : List Char} (h : a ++ c = b ++ d) (ha : ∀ x ∈ a, x.isDigit = false) (hb : ∀ x ∈ b, x.isDigit = false)
    (hc : ∀ x ∈ c, x.isDigit = true) (hd : ∀ x ∈ d, x.isDigit = true) : a = b ∧ c = d := by
  induction a generalizing b with
  | nil =>
    cases b with
    | nil => exact ⟨rfl, h⟩
    | cons y b =>
      simp only [List.nil_append] at h
      have := hc y (by rw [h]; simp)
      rw [hb y (by simp)] at this
      cases this
  | cons x a ih =>
    cases b with
    | nil =>
      simp only [List.nil_append] at h
      have := hd x (by rw [← h]; simp)
      rw [ha x (by simp)] at this
      cases this
    | cons y b =>
      simp only [List.cons_append, List.cons.injEq] at h
      obtain ⟨rfl, h⟩ := h
      obtain ⟨rfl, rfl⟩ := ih h (fun x hx => ha x (by simp [hx])) (fun x hx => hb x (by simp [hx]))
      exact ⟨rfl, rfl⟩

theorem repr_digits (n : Nat) : ∀ x ∈ n.repr.toList, x.isDigit = true := by
  rw [Nat.toList_repr]
  intro x hx
  exact Nat.isDigit_of_mem_toDigits (by decide) (by decide) hx

theorem lower_not_digit {c : Char} (h : c.isLower = true) : c.isDigit = false := by
  simp only [Char.isLower, Char.isDigit, Bool.and_eq_true, decide_eq_true_eq, Bool.and_eq_false_iff, decide_eq_false_iff_not] at *
  right
  intro h1
  have h2 := h.1
  have h3 := UInt32.le_trans h2 h1
  revert h3
  decide

/-- The part of an identifier before its number. -/
def Name.stem : Name → List Char
  | .var p _ => varPrefix p
  | .mark _ => ['m', 'a', 'r', 'k']
  | .branchFailed _ => ['b', 'r', 'a', 'n', 'c', 'h', '_', 'f', 'a', 'i', 'l', 'e', 'd', '_']
  | .counter _ => ['c', 'o', 'u', 'n', 't', 'e', 'r']
  | .x => ['x']
  | .isSuccess => ['i', 's', '_', 's', 'u', 'c', 'c', 'e', 's', 's']

/-- The digits of an identifier. -/
def Name.digits : Name → List Char
  | .var _ i => i.repr.toList
  | .mark n | .branchFailed n | .counter n => n.repr.toList
  | .x | .isSuccess => []

theorem Name.toList_text (a : Name) : a.text.toList = a.stem ++ a.digits := by
  cases a <;> simp [Name.text, Name.stem, Name.digits]

theorem Name.stem_plain (a : Name) : ∀ x ∈ a.stem, x.isDigit = false := by
  cases a with
  | var p i => exact fun x hx => lower_not_digit (varPrefix_lower p x hx)
  | _ => simp only [Name.stem]; decide

theorem Name.digits_digits (a : Name) : ∀ x ∈ a.digits, x.isDigit = true := by
  cases a <;> simp only [Name.digits] <;> first | exact repr_digits _ | simp

theorem text_eq {a b : Name} (h : a.text = b.text) : a.stem = b.stem ∧ a.digits = b.digits := by
  have h1 : a.text.toList = b.text.toList := by rw [h]
  rw [a.toList_text, b.toList_text] at h1
  exact split_digits h1 a.stem_plain b.stem_plain a.digits_digits b.digits_digits

theorem repr_toList_inj {m n : Nat} (h : m.repr.toList = n.repr.toList) : m = n :=
  Nat.repr_injective (String.toList_inj.1 h)

theorem repr_toList_ne (n : Nat) : n.repr.toList ≠ [] := by
  rw [Nat.toList_repr]; exact Nat.toDigits_ne_nil

/-- Two identifiers that are written in the same way. -/
def Name.collides (a b : Name) : Prop :=
  ∃ i, a = .var 187264 i ∧ b = .mark i ∨ a = .var 5308018614 i ∧ b = .counter i

theorem varPrefix_no_underscore (p : Nat) : '_' ∉ varPrefix p := by
  intro h
  have := varPrefix_lower p _ h
  revert this
  decide

theorem text_var_var {p i q j : Nat} (h : (Name.var p i).text = (Name.var q j).text) : p = q ∧ i = j := by
  obtain ⟨h1, h2⟩ := text_eq h
  exact ⟨varPrefix_inj _ _ h1, repr_toList_inj h2⟩

theorem text_var_mark {p i n : Nat} : (Name.var p i).text = (Name.mark n).text ↔ p = 187264 ∧ i = n := by
  constructor
  · intro h
    obtain ⟨h1, h2⟩ := text_eq h
    refine ⟨varPrefix_inj _ _ ?_, repr_toList_inj h2⟩
    rw [varPrefix_mark]; exact h1
  · rintro ⟨rfl, rfl⟩
    apply String.toList_inj.1
    rw [Name.toList_text, Name.toList_text]
    simp only [Name.stem, Name.digits, varPrefix_mark]

theorem text_var_counter {p i n : Nat} : (Name.var p i).text = (Name.counter n).text ↔ p = 5308018614 ∧ i = n := by
  constructor
  · intro h
    obtain ⟨h1, h2⟩ := text_eq h
    refine ⟨varPrefix_inj _ _ ?_, repr_toList_inj h2⟩
    rw [varPrefix_counter]; exact h1
  · rintro ⟨rfl, rfl⟩
    apply String.toList_inj.1
    rw [Name.toList_text, Name.toList_text]
    simp only [Name.stem, Name.digits, varPrefix_counter]

theorem text_var_branch {p i n : Nat} : (Name.var p i).text ≠ (Name.branchFailed n).text := by
  intro h
  obtain ⟨h1, _⟩ := text_eq h
  have := varPrefix_no_underscore p
  simp only [Name.stem] at h1
  rw [h1] at this
  simp at this

/-- The texts of two names are the same only for the same name, or in the two families of collisions. -/
theorem text_inj (a b : Name) : a.text = b.text ↔ a = b ∨ a.collides b ∨ b.collides a := by
  constructor
  · intro h
    cases a with
    | var p i =>
      cases b with
      | var q j => obtain ⟨rfl, rfl⟩ := text_var_var h; exact .inl rfl
      | mark n => obtain ⟨rfl, rfl⟩ := text_var_mark.1 h; exact .inr (.inl ⟨_, .inl ⟨rfl, rfl⟩⟩)
      | counter n => obtain ⟨rfl, rfl⟩ := text_var_counter.1 h; exact .inr (.inl ⟨_, .inr ⟨rfl, rfl⟩⟩)
      | branchFailed n => exact absurd h text_var_branch
      | x => exact absurd (text_eq h).2 (repr_toList_ne _)
      | isSuccess => exact absurd (text_eq h).2 (repr_toList_ne _)
    | mark n =>
      cases b with
      | var q j => obtain ⟨rfl, rfl⟩ := text_var_mark.1 h.symm; exact .inr (.inr ⟨_, .inl ⟨rfl, rfl⟩⟩)
      | mark m => rw [repr_toList_inj (text_eq h).2]; exact .inl rfl
      | _ => exact absurd (text_eq h).1 (by simp [Name.stem])
    | counter n =>
      cases b with
      | var q j => obtain ⟨rfl, rfl⟩ := text_var_counter.1 h.symm; exact .inr (.inr ⟨_, .inr ⟨rfl, rfl⟩⟩)
      | counter m => rw [repr_toList_inj (text_eq h).2]; exact .inl rfl
      | _ => exact absurd (text_eq h).1 (by simp [Name.stem])
    | branchFailed n =>
      cases b with
      | var q j => exact absurd h.symm text_var_branch
      | branchFailed m => rw [repr_toList_inj (text_eq h).2]; exact .inl rfl
      | _ => exact absurd (text_eq h).1 (by simp [Name.stem])
    | x =>
      cases b with
      | var q j => exact absurd (text_eq h).2.symm (repr_toList_ne _)
      | x => exact .inl rfl
      | _ => exact absurd (text_eq h).1 (by simp [Name.stem])
    | isSuccess =>
      cases b with
      | var q j => exact absurd (text_eq h).2.symm (repr_toList_ne _)
      | isSuccess => exact .inl rfl
      | _ => exact absurd (text_eq h).1 (by simp [Name.stem])
  · rintro (rfl | ⟨i, ⟨rfl, rfl⟩ | ⟨rfl, rfl⟩⟩ | ⟨i, ⟨rfl, rfl⟩ | ⟨rfl, rfl⟩⟩)
    · rfl
    · exact text_var_mark.2 ⟨rfl, rfl⟩
    · exact text_var_counter.2 ⟨rfl, rfl⟩
    · exact (text_var_mark.2 ⟨rfl, rfl⟩).symm
    · exact (text_var_counter.2 ⟨rfl, rfl⟩).symm

theorem closureText_toList (k : Nat) : (closureText k).toList = "success_continuation_".toList ++ k.repr.toList := String.toList_append ..

theorem closure_stem : "success_continuation_".toList =
    ['s', 'u', 'c', 'c', 'e', 's', 's', '_', 'c', 'o', 'n', 't', 'i', 'n', 'u', 'a', 't', 'i', 'o', 'n', '_'] := by decide +kernel

/-- The names of closures are not confused with the others. -/
theorem closureText_ne (k : Nat) (a : Name) : closureText k ≠ a.text := by
  intro h
  have h1 : (closureText k).toList = a.text.toList := by rw [h]
  rw [a.toList_text] at h1
  have h2 : (closureText k).toList = ['s', 'u', 'c', 'c', 'e', 's', 's', '_', 'c', 'o', 'n', 't', 'i', 'n', 'u', 'a', 't', 'i', 'o', 'n', '_'] ++ k.repr.toList := by
    rw [closureText_toList, closure_stem]
  rw [h2] at h1
  have h3 := (split_digits h1 (by decide) a.stem_plain (repr_digits k) a.digits_digits).1
  cases a with
  | var p i => exact varPrefix_no_underscore p (by simp only [Name.stem] at h3; rw [← h3]; decide)
  | _ => simp [Name.stem] at h3

theorem closureText_inj {k j : Nat} (h : closureText k = closureText j) : k = j := by
  have h1 : (closureText k).toList = (closureText j).toList := by rw [h]
  rw [closureText_toList, closureText_toList] at h1
  exact repr_toList_inj (List.append_cancel_left h1)

/-! ### Sequences of requests -/

/-- Names and closures. -/
inductive Sym where
  | name (a : Name)
  | closure (k : Nat)
deriving DecidableEq

def Sym.text : Sym → String
  | .name a => a.text
  | .closure k => closureText k

def Sym.old (f : NameFactory) : Sym → Prop
  | .name a => f.old a
  | .closure k => k ≤ f.closureUid

/-- The symbolic names given for a request. -/
def NameFactory.give (f : NameFactory) : Request → List Sym
  | .vars n => (List.range n).map fun i => .name (.var f.prefixUid i)
  | .mark => [.name (.mark (f.markUid + 1))]
  | .branchFailed => [.name (.branchFailed (f.branchFailedUid + 1))]
  | .counter => [.name (.counter (f.counterUid + 1))]
  | .closure => [.closure (f.closureUid + 1)]

def NameFactory.giveAll (f : NameFactory) : List Request → List Sym
  | [] => []
  | r :: rs => f.give r ++ (f.serve r).2.giveAll rs

/-- The factory after a request. -/
def NameFactory.next (f : NameFactory) : Request → NameFactory
  | .vars _ => { f with prefixUid := f.prefixUid + 1 }
  | .mark => { f with markUid := f.markUid + 1 }
  | .branchFailed => { f with branchFailedUid := f.branchFailedUid + 1 }
  | .counter => { f with counterUid := f.counterUid + 1 }
  | .closure => { f with closureUid := f.closureUid + 1 }

theorem serve_next (f : NameFactory) (r : Request) : (f.serve r).2 = f.next r := by cases r <;> rfl

theorem serve_give (f : NameFactory) (r : Request) : (f.serve r).1 = (f.give r).map Sym.text := by
  cases r with
  | vars n => simp only [NameFactory.serve, NameFactory.give, NameFactory.freshVarNames, NameFactory.nextVarPrefix, List.map_map]; rfl
  | _ => rfl

theorem serveAll_giveAll (f : NameFactory) (rs : List Request) : f.serveAll rs = (f.giveAll rs).map Sym.text := by
  induction rs generalizing f with
  | nil => rfl
  | cons r rs ih => simp [NameFactory.serveAll, NameFactory.giveAll, serve_give, ih]

theorem serve_le (f : NameFactory) (r : Request) : f.le (f.serve r).2 := by
  rw [serve_next]
  cases r <;> constructor <;> simp [NameFactory.next]

theorem give_fresh {f : NameFactory} {r : Request} {a : Sym} (h : a ∈ f.give r) : ¬ a.old f := by
  cases r <;> simp only [NameFactory.give, List.mem_map, List.mem_singleton] at h
  case vars => obtain ⟨i, _, rfl⟩ := h; simp [Sym.old, NameFactory.old]
  all_goals subst h; simp [Sym.old, NameFactory.old]

theorem give_old {f : NameFactory} {r : Request} {a : Sym} (h : a ∈ f.give r) : a.old (f.serve r).2 := by
  rw [serve_next]
  cases r <;> simp only [NameFactory.give, List.mem_map, List.mem_singleton] at h
  case vars => obtain ⟨i, _, rfl⟩ := h; simp [Sym.old, NameFactory.old, NameFactory.next]
  all_goals subst h; simp [Sym.old, NameFactory.old, NameFactory.next]

theorem give_nodup (f : NameFactory) (r : Request) : (f.give r).Nodup := by
  cases r <;> simp only [NameFactory.give]
  case vars => exact List.Pairwise.map _ (by intro a b h hc; simp at hc; exact h hc) List.nodup_range
  all_goals simp

theorem Sym.old.mono {f g : NameFactory} (h : f.le g) {a : Sym} (ha : a.old f) : a.old g := by
  cases a with
  | name a => exact h.old ha
  | closure k => exact Nat.le_trans ha h.k

theorem giveAll_fresh {f : NameFactory} {rs : List Request} {a : Sym} (h : a ∈ f.giveAll rs) : ¬ a.old f := by
  induction rs generalizing f with
  | nil => simp [NameFactory.giveAll] at h
  | cons r rs ih =>
    simp only [NameFactory.giveAll, List.mem_append] at h
    rcases h with h | h
    · exact give_fresh h
    · exact fun ho => ih h (ho.mono (serve_le f r))

theorem giveAll_nodup (f : NameFactory) (rs : List Request) : (f.giveAll rs).Nodup := by
  induction rs generalizing f with
  | nil => simp [NameFactory.giveAll]
  | cons r rs ih =>
    simp only [NameFactory.giveAll]
    rw [List.nodup_append]
    refine ⟨give_nodup f r, ih _, ?_⟩
    rintro a ha b hb rfl
    exact giveAll_fresh hb (give_old ha)

/-- The prefixes given are below the number of requests. -/
theorem giveAll_bound {f : NameFactory} {rs : List Request} {p i : Nat} (h : Sym.name (.var p i) ∈ f.giveAll rs) :
    p < f.prefixUid + varRequests rs := by
  induction rs generalizing f with
  | nil => simp [NameFactory.giveAll] at h
  | cons r rs ih =>
    simp only [NameFactory.giveAll, List.mem_append] at h
    rcases h with h | h
    · cases r <;> simp [NameFactory.give] at h
      simp only [varRequests]; omega
    · have := ih h
      rw [serve_next] at this
      cases r <;> simp only [varRequests, NameFactory.next] at * <;> omega

/-- Texts of symbols with small prefixes are not confused. -/
theorem sym_text_inj {a b : Sym} (ha : ∀ p i, a = .name (.var p i) → p < 187264) (hb : ∀ p i, b = .name (.var p i) → p < 187264)
    (h : a.text = b.text) : a = b := by
  cases a with
  | name a =>
    cases b with
    | name b =>
      rcases (text_inj a b).1 h with rfl | ⟨i, ⟨rfl, rfl⟩ | ⟨rfl, rfl⟩⟩ | ⟨i, ⟨rfl, rfl⟩ | ⟨rfl, rfl⟩⟩
      · rfl
      · exact absurd (ha _ _ rfl) (by decide)
      · exact absurd (ha _ _ rfl) (by decide)
      · exact absurd (hb _ _ rfl) (by decide)
      · exact absurd (hb _ _ rfl) (by decide)
    | closure k => exact absurd h.symm (closureText_ne k a)
  | closure k =>
    cases b with
    | name b => exact absurd h (closureText_ne k b)
    | closure j => rw [closureText_inj h]

theorem nodup_map_of_inj {α β : Type} {f : α → β} {l : List α} (h : l.Nodup) (hf : ∀ a ∈ l, ∀ b ∈ l, f a = f b → a = b) : (l.map f).Nodup := by
  induction l with
  | nil => simp
  | cons a l ih =>
    simp only [List.map_cons, List.nodup_cons] at *
    refine ⟨?_, ih h.2 fun x hx y hy => hf x (by simp [hx]) y (by simp [hy])⟩
    intro hm
    obtain ⟨b, hb, he⟩ := List.mem_map.1 hm
    have := hf b (by simp [hb]) a (by simp) he
    subst this
    exact h.1 hb

end Oak
