import Verif.Proofs.CalcLex
/-!
The language of a parser that reads factors, powers, products and sums the way the grammar of the calculator does.
-/
set_option linter.constructorNameAsVariable false
set_option autoImplicit false

namespace Oak.Calculator
open Oak Spec

/-- What a rule of the calculator computes: the text, what remains, and the value. -/
abbrev Reader := List Char → List Char → Val → Prop

/-- Operators of products. -/
def isProd (o : Op) : Prop := o = .mul ∨ o = .div

/-- Operators of sums. -/
def isSum (o : Op) : Prop := o = .add ∨ o = .sub

/-- Operators and right operands. -/
inductive Ops (Q : Op → Prop) (P : Reader) : List Char → List Char → List (Op × Val) → Prop where
  | nil {s} : Ops Q P s s []
  | cons {o s s1 s2 rest v vs} : Q o → Reads (.sym o.sym) s s1 → P s1 s2 v → Ops Q P s2 rest vs → Ops Q P s rest ((o, v) :: vs)

/-- No operator with its right operand here. -/
def OpsEnd (Q : Op → Prop) (P : Reader) (s : List Char) : Prop := ∀ o s1 s2 v, Q o → Reads (.sym o.sym) s s1 → ¬ P s1 s2 v

/-- Left operands of powers. -/
inductive Pows (F : Reader) : List Char → List Char → List Val → Prop where
  | nil {s} : Pows F s s []
  | cons {s s1 s2 rest v vs} : F s s1 v → Reads (.sym '^') s1 s2 → Pows F s2 rest vs → Pows F s rest (v :: vs)

/-- No left operand of a power here. -/
def PowsEnd (F : Reader) (s : List Char) : Prop := ∀ s1 s2 v, F s s1 v → ¬ Reads (.sym '^') s1 s2

def numVal (ds : List Char) : Val := .app ["number_expr"] [.app ["to_number"] [.list (ds.map .chr)]]
def varVal (x : List Char) : Val := .app ["variable_expr"] [nameVal x]
def letVal (x : List Char) (v b : Val) : Val := .app ["let_in_expr"] [nameVal x, v, b]
def leftVal (h : Val) (is : List (Op × Val)) : Val := .app ["fold_left"] [h, .list (is.map fun q => .tup [opVal q.1, q.2])]
def rightVal (is : List Val) (l : Val) : Val := .app ["fold_right"] [.list (is.map fun v => .tup [v, opVal .exp]), l]

/-- The parser. -/
structure Parser (F P M E : Reader) : Prop where
  factor : ∀ {s rest v}, F s rest v ↔ (∃ ds, Reads (.num ds) s rest ∧ v = numVal ds) ∨ (∃ x, Reads (.name x) s rest ∧ v = varVal x) ∨
    (∃ x s1 s2 s3 s4 s5 v1 v2, Reads .kwLet s s1 ∧ Reads (.name x) s1 s2 ∧ Reads (.sym '=') s2 s3 ∧ E s3 s4 v1 ∧ Reads .kwIn s4 s5 ∧ E s5 rest v2 ∧ v = letVal x v1 v2) ∨
    (∃ s1 s2, Reads (.sym '(') s s1 ∧ E s1 s2 v ∧ Reads (.sym ')') s2 rest)
  det : ∀ {s r v r' v'}, F s r v → F s r' v' → r = r'
  power : ∀ {s rest v}, P s rest v ↔ ∃ is s1 l, Pows F s s1 is ∧ PowsEnd F s1 ∧ F s1 rest l ∧ v = rightVal is l
  product : ∀ {s rest v}, M s rest v ↔ ∃ h s1 is, P s s1 h ∧ Ops isProd P s1 rest is ∧ OpsEnd isProd P rest ∧ v = leftVal h is
  sum : ∀ {s rest v}, E s rest v ↔ ∃ h s1 is, M s s1 h ∧ Ops isSum M s1 rest is ∧ OpsEnd isSum M rest ∧ v = leftVal h is

/-! ## Lexemes -/

theorem Reads.chars_ne {l s rest} (h : Reads l s rest) : l.chars ≠ [] := by
  obtain ⟨hv, _⟩ := h
  cases l with
  | num ds => exact hv.1
  | name x => exact hv.1
  | _ => simp [Lexeme.chars]

theorem Reads.lt {l s rest} (h : Reads l s rest) : rest.length < s.length := by
  have := h.chars_ne
  obtain ⟨_, m, rfl, _, sps, rfl, _⟩ := h
  have : 0 < l.chars.length := List.length_pos_iff.2 this
  simp only [List.length_append]; omega

theorem Reads.head {l s rest} (h : Reads l s rest) : s.head? = l.chars.head? := by
  have := h.chars_ne
  obtain ⟨_, m, rfl, _⟩ := h
  cases hc : l.chars with
  | nil => exact absurd hc this
  | cons c cs => rfl

theorem lex_le {ls s rest} (h : Lex ls s rest) : rest.length ≤ s.length := by
  induction ls generalizing s with
  | nil => cases h; exact Nat.le_refl _
  | cons l ls ih =>
    obtain ⟨s1, h1, h2⟩ := lex_cons.1 h
    have := h1.lt
    have := ih h2
    omega

/-- The text does not start with the operator. -/
def NoOp (o : Op) (s : List Char) : Prop := ∀ r, ¬ Reads (.sym o.sym) s r

theorem Reads.noOp {l s rest} (h : Reads l s rest) {o : Op} (hl : l.chars.head? ≠ some o.sym) : NoOp o s := by
  intro r hr
  have h1 := hr.head
  rw [h.head] at h1
  exact hl h1

/-! ## Values -/

theorem opVal_inj {a b : Op} (h : opVal a = opVal b) : a = b := by
  cases a <;> cases b <;> first | rfl | (exfalso; revert h; simp [opVal, opName])

theorem left_inv {h : Val} {ws : List Val} {t : Term} (hd : Denotes (.app ["fold_left"] [h, .list ws]) t) :
    (ws = [] ∧ Denotes h t) ∨ ∃ vs o v a b, ws = vs ++ [.tup [opVal o, v]] ∧ Denotes (.app ["fold_left"] [h, .list vs]) a ∧ Denotes v b ∧ t = .bin o a b := by
  generalize hw : Val.app ["fold_left"] [h, .list ws] = w at hd
  cases hd with
  | leftNil hd =>
    simp only [Val.app.injEq, List.cons.injEq, Val.list.injEq, true_and, and_true] at hw
    obtain ⟨rfl, rfl⟩ := hw
    exact .inl ⟨rfl, hd⟩
  | leftSnoc hd hv =>
    simp only [Val.app.injEq, List.cons.injEq, Val.list.injEq, true_and, and_true] at hw
    obtain ⟨rfl, rfl⟩ := hw
    exact .inr ⟨_, _, _, _, _, rfl, hd, hv, rfl⟩
  | _ => simp [nameVal] at hw

theorem right_inv {l : Val} {ws : List Val} {t : Term} (hd : Denotes (.app ["fold_right"] [.list ws, l]) t) :
    (ws = [] ∧ Denotes l t) ∨ ∃ o v vs a b, ws = .tup [v, opVal o] :: vs ∧ Denotes v a ∧ Denotes (.app ["fold_right"] [.list vs, l]) b ∧ t = .bin o a b := by
  generalize hw : Val.app ["fold_right"] [.list ws, l] = w at hd
  cases hd with
  | rightNil hd =>
    simp only [Val.app.injEq, List.cons.injEq, Val.list.injEq, true_and, and_true] at hw
    obtain ⟨rfl, rfl⟩ := hw
    exact .inl ⟨rfl, hd⟩
  | rightCons hv hd =>
    simp only [Val.app.injEq, List.cons.injEq, Val.list.injEq, true_and, and_true] at hw
    obtain ⟨rfl, rfl⟩ := hw
    exact .inr ⟨_, _, _, _, _, rfl, hv, hd, rfl⟩
  | _ => simp [nameVal] at hw

theorem chars_inj {a b : List Char} (h : a.map Val.chr = b.map Val.chr) : a = b :=
  (List.map_inj_right (fun a b (h : Val.chr a = Val.chr b) => by cases h; rfl)).1 h

theorem Denotes.det {v : Val} {t t' : Term} (h : Denotes v t) (h' : Denotes v t') : t = t' := by
  induction h generalizing t' with
  | @number ds =>
    generalize hw : Val.app ["number_expr"] [.app ["to_number"] [.list (ds.map .chr)]] = w at h'
    cases h' with
    | number =>
      simp only [Val.app.injEq, List.cons.injEq, Val.list.injEq, true_and, and_true] at hw
      rw [chars_inj hw]
    | _ => simp [nameVal] at hw
  | @var x =>
    unfold nameVal at h'
    generalize hw : Val.app ["variable_expr"] [.app ["to_string"] [.list (x.map .chr)]] = w at h'
    cases h' with
    | var =>
      simp only [nameVal, Val.app.injEq, List.cons.injEq, Val.list.injEq, true_and, and_true] at hw
      rw [chars_inj hw]
    | _ => simp [nameVal] at hw
  | @letIn x v1 v2 t1 t2 h1 h2 ih1 ih2 =>
    unfold nameVal at h'
    generalize hw : Val.app ["let_in_expr"] [.app ["to_string"] [.list (x.map .chr)], v1, v2] = w at h'
    cases h' with
    | letIn hv hb =>
      simp only [nameVal, Val.app.injEq, List.cons.injEq, Val.list.injEq, true_and, and_true] at hw
      obtain ⟨hx, rfl, rfl⟩ := hw
      rw [chars_inj hx, ih1 hv, ih2 hb]
    | _ => simp [nameVal] at hw
  | leftNil _ ih =>
    rcases left_inv h' with ⟨_, h'⟩ | ⟨vs, _, _, _, _, h, _⟩
    · exact ih h'
    · exact absurd h.symm (by simp)
  | leftSnoc _ _ ih1 ih2 =>
    rcases left_inv h' with ⟨h, h'⟩ | ⟨vs, o, v, a, b, h, h1, h2, rfl⟩
    · exact absurd h (by simp)
    · obtain ⟨rfl, h4⟩ := List.append_inj' h rfl
      simp only [List.cons.injEq, Val.tup.injEq, and_true] at h4
      obtain ⟨h3, rfl⟩ := h4
      rw [opVal_inj h3, ih1 h1, ih2 h2]
  | rightNil _ ih =>
    rcases right_inv h' with ⟨_, h'⟩ | ⟨_, _, vs, _, _, h, _⟩
    · exact ih h'
    · cases h
  | rightCons _ _ ih1 ih2 =>
    rcases right_inv h' with ⟨h, h'⟩ | ⟨o, v, vs, a, b, h, h1, h2, rfl⟩
    · cases h
    · simp only [List.cons.injEq, Val.tup.injEq, and_true] at h
      obtain ⟨⟨rfl, h3⟩, rfl⟩ := h
      rw [opVal_inj h3, ih1 h1, ih2 h2]

theorem left_snoc {h : Val} {is : List (Op × Val)} {o : Op} {v : Val} {a b : Term} (h1 : Denotes (leftVal h is) a) (h2 : Denotes v b) :
    Denotes (leftVal h (is ++ [(o, v)])) (.bin o a b) := by
  have := Denotes.leftSnoc (op := o) h1 h2
  simpa [leftVal] using this

theorem Ops.snoc {Q : Op → Prop} {P : Reader} {s rest : List Char} {is : List (Op × Val)} {o : Op} {v : Val} :
    Ops Q P s rest (is ++ [(o, v)]) ↔ ∃ m m', Ops Q P s m is ∧ Q o ∧ Reads (.sym o.sym) m m' ∧ P m' rest v := by
  induction is generalizing s with
  | nil =>
    constructor
    · intro h
      cases h with
      | cons h1 h2 h3 h4 => cases h4; exact ⟨_, _, .nil, h1, h2, h3⟩
    · rintro ⟨m, m', h0, h1, h2, h3⟩
      cases h0
      exact .cons h1 h2 h3 .nil
  | cons x is ih =>
    constructor
    · intro h
      cases h with
      | cons h1 h2 h3 h4 =>
        obtain ⟨m, m', h5, h6⟩ := ih.1 h4
        exact ⟨m, m', .cons h1 h2 h3 h5, h6⟩
    · rintro ⟨m, m', h0, h6⟩
      cases h0 with
      | cons h1 h2 h3 h4 => exact .cons h1 h2 h3 (ih.2 ⟨m, m', h4, h6⟩)

/-! ## Where the rules stop -/

section
variable {F P M E : Reader} (H : Parser F P M E)
include H

theorem Parser.power_end {s rest v} (h : P s rest v) : NoOp .exp rest := by
  obtain ⟨is, s1, l, _, h1, h2, _⟩ := H.power.1 h
  exact fun r hr => h1 _ _ _ h2 hr

omit H in
theorem ops_last {Q : Op → Prop} {P : Reader} {s rest is} (h : Ops Q P s rest is) : rest = s ∨ ∃ m v, P m rest v := by
  induction h with
  | nil => exact .inl rfl
  | cons _ _ h3 _ ih =>
    rcases ih with rfl | ih
    · exact .inr ⟨_, _, h3⟩
    · exact .inr ih

theorem Parser.product_end {s rest v} (h : M s rest v) : NoOp .exp rest ∧ OpsEnd isProd P rest := by
  obtain ⟨h', s1, is, h1, h2, h3, _⟩ := H.product.1 h
  refine ⟨?_, h3⟩
  rcases ops_last h2 with rfl | ⟨m, v, h4⟩
  · exact H.power_end h1
  · exact H.power_end h4

/-- Nothing can be added to an expression here. -/
def Blocked (P M : Reader) (s : List Char) : Prop := NoOp .exp s ∧ OpsEnd isProd P s ∧ OpsEnd isSum M s

theorem Parser.sum_end {s rest v} (h : E s rest v) : Blocked P M rest := by
  obtain ⟨h', s1, is, h1, h2, h3, _⟩ := H.sum.1 h
  have : NoOp .exp rest ∧ OpsEnd isProd P rest := by
    rcases ops_last h2 with rfl | ⟨m, v, h4⟩
    · exact H.product_end h1
    · exact H.product_end h4
  exact ⟨this.1, this.2, h3⟩

/-! ## Soundness -/

omit H in
/-- What is read is an expression of the language, and expressions that end with the body of a `let` are complete. -/
def Sound (P M : Reader) (R : Reader) (C : Term → List Lexeme → Bool → Prop) (s : List Char) : Prop :=
  ∀ rest v, R s rest v → ∃ t ls o, Denotes v t ∧ Lex ls s rest ∧ C t ls o ∧ (o = true → Blocked P M rest)

theorem Parser.factor_sound {s} (ih : ∀ s', s'.length < s.length → Sound P M E Sum s') : Sound P M F Factor s := by
  intro rest v hf
  rcases H.factor.1 hf with ⟨ds, h1, rfl⟩ | ⟨x, h1, rfl⟩ | ⟨x, s1, s2, s3, s4, s5, v1, v2, h1, h2, h3, h4, h5, h6, rfl⟩ | ⟨s1, s2, h1, h2, h3⟩
  · exact ⟨_, _, _, .number, lex_cons.2 ⟨_, h1, .nil⟩, .num, by simp⟩
  · exact ⟨_, _, _, .var, lex_cons.2 ⟨_, h1, .nil⟩, .var, by simp⟩
  · have l1 := h1.lt; have l2 := h2.lt; have l3 := h3.lt
    obtain ⟨tv, lv, o, hv, hl, hs, _⟩ := ih s3 (by omega) _ _ h4
    have l4 := lex_le hl
    have l5 := h5.lt
    obtain ⟨tb, lb, o', hb, hl', hs', _⟩ := ih s5 (by omega) _ _ h6
    refine ⟨_, _, _, .letIn hv hb, ?_, .letIn hs hs', fun _ => H.sum_end h6⟩
    simp only [List.cons_append, lex_cons, lex_append]
    exact ⟨_, h1, _, h2, _, h3, _, hl, _, h5, hl'⟩
  · have l1 := h1.lt
    obtain ⟨t, lv, o, hd, hl, hs, _⟩ := ih s1 (by omega) _ _ h2
    refine ⟨_, _, _, hd, ?_, .paren hs, by simp⟩
    simp only [List.cons_append, lex_cons, lex_append]
    exact ⟨_, h1, _, hl, _, h3, .nil⟩

theorem Parser.power_sound {s} (ih : ∀ s', s'.length ≤ s.length → Sound P M F Factor s') : Sound P M P Power s := by
  intro rest v hp
  obtain ⟨is, s1, l, h1, h2, h3, rfl⟩ := H.power.1 hp
  clear hp
  induction h1 with
  | nil =>
    obtain ⟨t, ls, o, hd, hl, hf, hb⟩ := ih _ (Nat.le_refl _) _ _ h3
    exact ⟨t, ls, o, .rightNil hd, hl, .one hf, hb⟩
  | cons h4 h5 h6 ih' =>
    obtain ⟨a, la, o, ha, hl, hf, hb⟩ := ih _ (Nat.le_refl _) _ _ h4
    have := lex_le hl
    have := h5.lt
    obtain ⟨b, lb, o', hb1, hl', hf', hb'⟩ := ih' (fun s' hs => ih s' (by omega)) h2 h3
    have : o = false := by
      cases o with
      | false => rfl
      | true => exact absurd h5 ((hb rfl).1 _)
    subst this
    exact ⟨_, _, o', .rightCons ha hb1, lex_append.2 ⟨_, hl, lex_cons.2 ⟨_, h5, hl'⟩⟩, .exp hf hf', hb'⟩

omit H in
/-- Operators grouped to the left. -/
theorem left_sound {Q : Op → Prop} {P M R : Reader} {C D : Term → List Lexeme → Bool → Prop} (one : ∀ {t ls o}, C t ls o → D t ls o)
    (bin : ∀ {op a b la lb o}, Q op → D a la false → C b lb o → D (.bin op a b) (la ++ .sym op.sym :: lb) o) (stop : ∀ {s}, Blocked P M s → OpsEnd Q R s)
    {s s1 h} (h0 : R s s1 h) (ih : ∀ s', s'.length ≤ s.length → Sound P M R C s') (n : Nat) :
    ∀ is rest, is.length = n → Ops Q R s1 rest is → ∃ t ls o, Denotes (leftVal h is) t ∧ Lex ls s rest ∧ D t ls o ∧ (o = true → Blocked P M rest) := by
  induction n with
  | zero =>
    intro is rest hn hops
    obtain rfl := List.length_eq_zero_iff.1 hn
    cases hops
    obtain ⟨t, ls, o, hd, hl, hc, hb⟩ := ih _ (Nat.le_refl _) _ _ h0
    exact ⟨t, ls, o, .leftNil hd, hl, one hc, hb⟩
  | succ n ihn =>
    intro is rest hn hops
    rcases List.eq_nil_or_concat is with rfl | ⟨js, ⟨op, v⟩, h⟩
    · cases hn
    · obtain rfl : is = js ++ [(op, v)] := by simpa using h
      obtain ⟨m, m', h1, h2, h3, h4⟩ := Ops.snoc.1 hops
      obtain ⟨a, la, o, ha, hl, hc, hk⟩ := ihn js m (by simpa using hn) h1
      have := lex_le hl
      have := h3.lt
      obtain ⟨b, lb, o', hb, hl', hc', hk'⟩ := ih m' (by omega) _ _ h4
      have : o = false := by
        cases o with
        | false => rfl
        | true => exact absurd h4 (stop (hk rfl) _ _ _ _ h2 h3)
      subst this
      exact ⟨_, _, o', left_snoc ha hb, lex_append.2 ⟨_, hl, lex_cons.2 ⟨_, h3, hl'⟩⟩, bin h2 hc hc', hk'⟩

theorem Parser.product_sound {s} (ih : ∀ s', s'.length ≤ s.length → Sound P M P Power s') : Sound P M M Product s := by
  intro rest v hp
  obtain ⟨h, s1, is, h1, h2, _, rfl⟩ := H.product.1 hp
  exact left_sound .one .bin (fun h => h.2.1) h1 ih _ is rest rfl h2

theorem Parser.sum_sound {s} (ih : ∀ s', s'.length ≤ s.length → Sound P M M Product s') : Sound P M E Sum s := by
  intro rest v hp
  obtain ⟨h, s1, is, h1, h2, _, rfl⟩ := H.sum.1 hp
  exact left_sound .one .bin (fun h => h.2.2) h1 ih _ is rest rfl h2

theorem Parser.sound : ∀ n s, s.length = n → Sound P M E Sum s := by
  intro n
  induction n using Nat.strongRecOn with
  | _ n ih =>
    rintro s rfl
    have hF : ∀ s', s'.length ≤ s.length → Sound P M F Factor s' := fun s' hs => H.factor_sound fun s'' hs' => ih s''.length (by omega) s'' rfl
    have hP : ∀ s', s'.length ≤ s.length → Sound P M P Power s' := fun s' hs => H.power_sound fun s'' hs' => hF s'' (by omega)
    have hM : ∀ s', s'.length ≤ s.length → Sound P M M Product s' := fun s' hs => H.product_sound fun s'' hs' => hP s'' (by omega)
    exact H.sum_sound hM

/-! ## Completeness -/

omit H in
def CFactor (F : Reader) (t : Term) (ls : List Lexeme) (o : Bool) : Prop :=
  ∀ s rest, (o = true → ∀ op, NoOp op rest) → Lex ls s rest → ∃ v, F s rest v ∧ Denotes v t

omit H in
def CPower (F : Reader) (t : Term) (ls : List Lexeme) (o : Bool) : Prop :=
  ∀ s rest, NoOp .exp rest → (o = true → ∀ op, NoOp op rest) → Lex ls s rest →
    ∃ is m l, Pows F s m is ∧ PowsEnd F m ∧ F m rest l ∧ Denotes (rightVal is l) t

omit H in
def CProduct (P : Reader) (t : Term) (ls : List Lexeme) (o : Bool) : Prop :=
  ∀ s rest, NoOp .exp rest → (o = true → ∀ op, NoOp op rest) → Lex ls s rest → ∃ h s1 is, P s s1 h ∧ Ops isProd P s1 rest is ∧ Denotes (leftVal h is) t

omit H in
def CSum (M : Reader) (t : Term) (ls : List Lexeme) (o : Bool) : Prop :=
  ∀ s rest, NoOp .exp rest → (∀ op, isProd op → NoOp op rest) → (o = true → ∀ op, NoOp op rest) → Lex ls s rest →
    ∃ h s1 is, M s s1 h ∧ Ops isSum M s1 rest is ∧ Denotes (leftVal h is) t

theorem Parser.power_of {t ls o} (h : CPower F t ls o) {s rest} (h1 : NoOp .exp rest) (h2 : o = true → ∀ op, NoOp op rest) (h3 : Lex ls s rest) :
    ∃ v, P s rest v ∧ Denotes v t := by
  obtain ⟨is, m, l, h4, h5, h6, h7⟩ := h s rest h1 h2 h3
  exact ⟨_, H.power.2 ⟨is, m, l, h4, h5, h6, rfl⟩, h7⟩

theorem Parser.product_of {t ls o} (h : CProduct P t ls o) {s rest} (h0 : ∀ op, isProd op → NoOp op rest) (h1 : NoOp .exp rest) (h2 : o = true → ∀ op, NoOp op rest)
    (h3 : Lex ls s rest) : ∃ v, M s rest v ∧ Denotes v t := by
  obtain ⟨v, m, is, h4, h5, h6⟩ := h s rest h1 h2 h3
  exact ⟨_, H.product.2 ⟨v, m, is, h4, h5, fun op s1 _ _ hop hr => absurd hr (h0 op hop s1), rfl⟩, h6⟩

theorem Parser.sum_of {t ls o} (h : CSum M t ls o) {s rest} (h1 : ∀ op, NoOp op rest) (h3 : Lex ls s rest) : ∃ v, E s rest v ∧ Denotes v t := by
  obtain ⟨v, m, is, h4, h5, h6⟩ := h s rest (h1 _) (fun op _ => h1 op) (fun _ => h1) h3
  exact ⟨_, H.sum.2 ⟨v, m, is, h4, h5, fun op s1 _ _ hop hr => absurd hr (h1 op s1), rfl⟩, h6⟩

omit H in
theorem noOp_of {l s rest} (h : Reads l s rest) (hl : ∀ op : Op, l.chars.head? ≠ some op.sym) : ∀ op, NoOp op s := fun op => h.noOp (hl op)

theorem Parser.complete {t ls o} (h : Sum t ls o) : CSum M t ls o := by
  refine Sum.rec (motive_1 := fun t ls o _ => CFactor F t ls o) (motive_2 := fun t ls o _ => CPower F t ls o) (motive_3 := fun t ls o _ => CProduct P t ls o)
    (motive_4 := fun t ls o _ => CSum M t ls o) ?_ ?_ ?_ ?_ ?_ ?_ ?_ ?_ ?_ ?_ h
  · -- numbers
    intro ds s rest _ hl
    obtain ⟨s1, h1, h2⟩ := lex_cons.1 hl
    cases h2
    exact ⟨_, H.factor.2 (.inl ⟨ds, h1, rfl⟩), .number⟩
  · -- names
    intro x s rest _ hl
    obtain ⟨s1, h1, h2⟩ := lex_cons.1 hl
    cases h2
    exact ⟨_, H.factor.2 (.inr (.inl ⟨x, h1, rfl⟩)), .var⟩
  · -- let
    intro x v b lv lb o o' _ _ ihv ihb s rest ho hl
    simp only [List.cons_append, lex_cons, lex_append] at hl
    obtain ⟨s1, h1, s2, h2, s3, h3, s4, hv, s5, h5, hb⟩ := hl
    obtain ⟨v1, hv, dv⟩ := H.sum_of ihv (noOp_of h5 (by intro op; cases op <;> decide)) hv
    obtain ⟨v2, hb, db⟩ := H.sum_of ihb (ho rfl) hb
    exact ⟨_, H.factor.2 (.inr (.inr (.inl ⟨x, s1, s2, s3, s4, s5, v1, v2, h1, h2, h3, hv, h5, hb, rfl⟩))), .letIn dv db⟩
  · -- parentheses
    intro t ls o _ ih s rest _ hl
    simp only [List.cons_append, lex_cons, lex_append] at hl
    obtain ⟨s1, h1, s2, hv, s3, h3, hn⟩ := hl
    cases hn
    obtain ⟨v, hv, dv⟩ := H.sum_of ih (noOp_of h3 (by intro op; cases op <;> decide)) hv
    exact ⟨_, H.factor.2 (.inr (.inr (.inr ⟨s1, s2, h1, hv, h3⟩))), dv⟩
  · -- powers
    intro t ls o _ ih s rest he ho hl
    obtain ⟨v, hf, hd⟩ := ih s rest ho hl
    refine ⟨[], s, v, .nil, fun s1 s2 v' h1 h2 => ?_, hf, .rightNil hd⟩
    obtain rfl := H.det hf h1
    exact he _ h2
  · intro a b la lb o _ _ iha ihb s rest he ho hl
    simp only [lex_cons, lex_append] at hl
    obtain ⟨m, ha, m', hr, hb⟩ := hl
    obtain ⟨v, hf, hd⟩ := iha s m (by simp) ha
    obtain ⟨is, m2, l, h1, h2, h3, h4⟩ := ihb m' rest he ho hb
    exact ⟨v :: is, m2, l, .cons hf hr h1, h2, h3, .rightCons hd h4⟩
  · -- products
    intro t ls o _ ih s rest he ho hl
    obtain ⟨v, hp, hd⟩ := H.power_of ih he ho hl
    exact ⟨v, rest, [], hp, .nil, .leftNil hd⟩
  · intro op a b la lb o hop _ _ iha ihb s rest he ho hl
    simp only [lex_cons, lex_append] at hl
    obtain ⟨m, ha, m', hr, hb⟩ := hl
    obtain ⟨h, s1, is, h1, h2, h3⟩ := iha s m (hr.noOp (by rcases hop with rfl | rfl <;> decide)) (by simp) ha
    obtain ⟨v, hp, hd⟩ := H.power_of ihb he ho hb
    exact ⟨h, s1, is ++ [(op, v)], h1, Ops.snoc.2 ⟨m, m', h2, hop, hr, hp⟩, left_snoc h3 hd⟩
  · -- sums
    intro t ls o _ ih s rest he hpr ho hl
    obtain ⟨v, hp, hd⟩ := H.product_of ih hpr he ho hl
    exact ⟨v, rest, [], hp, .nil, .leftNil hd⟩
  · intro op a b la lb o hop _ _ iha ihb s rest he hpr ho hl
    simp only [lex_cons, lex_append] at hl
    obtain ⟨m, ha, m', hr, hb⟩ := hl
    obtain ⟨h, s1, is, h1, h2, h3⟩ := iha s m (hr.noOp (by rcases hop with rfl | rfl <;> decide))
      (fun q hq => hr.noOp (by rcases hop with rfl | rfl <;> rcases hq with rfl | rfl <;> decide)) (by simp) ha
    obtain ⟨v, hp, hd⟩ := H.product_of ihb hpr he ho hb
    exact ⟨h, s1, is ++ [(op, v)], h1, Ops.snoc.2 ⟨m, m', h2, hop, hr, hp⟩, left_snoc h3 hd⟩

/-- What the parser reads. -/
theorem Parser.reads {s v} (h : E s [] v) : ∃ t, Denotes v t ∧ ∃ ls o, Lex ls s [] ∧ Sum t ls o := by
  obtain ⟨t, ls, o, hd, h1, h2, _⟩ := H.sound _ s rfl _ _ h
  exact ⟨t, hd, ls, o, h1, h2⟩

/-- The language of the parser. -/
theorem Parser.language {s t} : (∃ v, E s [] v ∧ Denotes v t) ↔ ∃ ls o, Lex ls s [] ∧ Sum t ls o := by
  constructor
  · rintro ⟨v, h, hd⟩
    obtain ⟨t', hd', h⟩ := H.reads h
    rw [hd.det hd']; exact h
  · rintro ⟨ls, o, h1, h2⟩
    exact H.sum_of (H.complete h2) (fun op r hr => by have := hr.lt; simp at this) h1

end

end Oak.Calculator
