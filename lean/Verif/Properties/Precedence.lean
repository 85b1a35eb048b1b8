import Verif.Properties.Parsing
import Verif.Properties.Samples
import Verif.Proofs.PrecedenceText
/-!
The template of the tutorial for operators with precedences: C65.
-/
set_option linter.constructorNameAsVariable false
set_option autoImplicit false

namespace Oak
open Spec Precedence

variable {G : Grammar} {T : Nat → Ty} {fs : List (FnRef × Fn)} {ext : Nat → FnRef → PState StrStream Val → Res (PState StrStream Val)} {X : ExtSpec} {ptr : Nat}
  {input : List Char} {tab : List Level} {lvl oper : Nat → String} {opE : Oper → Expr} {openE closeE wordE : Expr} {K : Lexis} {p : Char → Bool}

theorem rule_success (d : Deployed G T fs ext X ptr input) {r : String} (h1 : ∀ vs, Rule G X T (strSpans input) r input [] vs → ∃ v, vs = [v]) {e : Expr} (he : G.find r = some e) {v : Val} :
    Returns ext fs true r ptr input (.success v) ↔ Rule G X T (strSpans input) r input [] [v] := by
  rw [d.returns_iff he]
  constructor
  · rintro ⟨o, L, hp, h⟩
    cases o with
    | fail => cases h
    | ok s' t =>
      simp only [expectedResult, if_true] at h
      split at h
      · rename_i hs'; subst hs'
        cases h
        obtain ⟨w, hw⟩ := h1 _ ⟨e, he, t, L, hp, rfl⟩
        exact ⟨e, he, t, L, hp, by rw [hw]; rfl⟩
      · cases h
  · rintro ⟨e', he', t, L, hp, ht⟩
    rw [he] at he'; cases he'
    exact ⟨_, L, hp, by simp only [expectedResult, if_true, ht, tupleVal]⟩

theorem template_find (t : Template G T tab lvl oper opE openE closeE wordE) : ∃ e, G.find (lvl 0) = some e := by
  cases h : tab[0]? with
  | some lv =>
    obtain ⟨e, he, _⟩ := t.level 0 lv h
    exact ⟨e, he⟩
  | none =>
    have : tab.length = 0 := Nat.le_zero.1 (List.getElem?_eq_none_iff.1 h)
    obtain ⟨a, b, c, d, he, _⟩ := t.atom
    rw [this] at he
    exact ⟨_, he⟩

theorem template_sound (d : Deployed G T fs ext X ptr input) (t : Template G T tab lvl oper opE openE closeE wordE)
    (k : Tokens G X T (strSpans input) tab opE openE closeE wordE K) {vs : List Val} {r : List Char} (h : Rule G X T (strSpans input) (lvl 0) input r vs) :
    ∃ v u, vs = [v] ∧ Denotes v u ∧ Reads tab K 0 u input r :=
  level_sound t k d.fwd input.length tab.length 0 input r vs (Nat.le_refl _) (Nat.zero_add _) h

/-- C65: with any number of levels and any lexical syntax whose tokens are not taken for one another, the parser of the first level of the template succeeds with a value
that is the expression `t` exactly on the texts that are a way to write `t`. -/
theorem C65_tokens (d : Deployed G T fs ext X ptr input) (t : Template G T tab lvl oper opE openE closeE wordE)
    (k : Tokens G X T (strSpans input) tab opE openE closeE wordE K) (u : Term) :
    Reads tab K 0 u input [] ↔ ∃ v, Returns ext fs true (lvl 0) ptr input (.success v) ∧ Denotes v u := by
  obtain ⟨e, he⟩ := template_find t
  have h1 : ∀ vs, Rule G X T (strSpans input) (lvl 0) input [] vs → ∃ v, vs = [v] := fun vs h => by
    obtain ⟨v, _, h, _⟩ := template_sound d t k h
    exact ⟨v, h⟩
  simp only [rule_success d h1 he]
  constructor
  · intro h
    exact (level_complete t k h).1 (Nat.zero_le _) (fun i lv o r _ hi ho h => absurd (k.op_shorter hi ho h) (Nat.not_lt_zero _))
  · rintro ⟨v, h, hd⟩
    obtain ⟨w, u', hw, hd', hr⟩ := template_sound d t k h
    cases hw
    rw [hd.det hd']
    exact hr

/-- C65: what is read after all the operands and operators that can be read is left: the parser returns a partial match, or a success, for every text that begins with an
expression after which there is no operator. -/
theorem C65_prefix (d : Deployed G T fs ext X ptr input) (t : Template G T tab lvl oper opE openE closeE wordE)
    (k : Tokens G X T (strSpans input) tab opE openE closeE wordE K) {u : Term} {rest : List Char} (h : Reads tab K 0 u input rest) (hr : rest ≠ [])
    (hs : ∀ (i : Nat) lv o r, tab[i]? = some lv → o ∈ lv.ops → ¬ K.op o rest r) :
    ∃ v far exp, Returns ext fs true (lvl 0) ptr input (.part v far exp) ∧ Denotes v u := by
  obtain ⟨v, ⟨e, he, t', L, hp, ht⟩, hd⟩ := (level_complete t k h).1 (Nat.zero_le _) (fun i lv o r _ => hs i lv o r)
  exact ⟨v, streamAt ptr input (farthest input L), expectedAt (farthest input L) L, (d.returns_iff he true _).2
    ⟨_, L, hp, by simp only [expectedResult, if_true, ht, tupleVal, if_neg hr]⟩, hd⟩

/-- The template with symbols written as they are, and values that are made of characters of a class. -/
def PlainTemplate (G : Grammar) (T : Nat → Ty) (tab : List Level) (lvl oper : Nat → String) (p : Char → Bool) : Prop :=
  ∃ (opI : Oper → Nat) (a b c d : Nat) (ivs : List Interval), (∀ x, InClass ivs x ↔ p x = true) ∧ T c ≠ .unit ∧ T d ≠ .unit ∧
    Template G T tab lvl oper (fun o => .str (opI o) o.sym) (.str a "(") (.str b ")") (.plus d (.cls c ivs))

/-- C65: with symbols of which none is the beginning of another one, the parser succeeds with the expression `t` exactly on the texts that are a way to write `t`. -/
theorem C65_text (d : Deployed G T fs ext X ptr input) (hc : Clear tab p) (t : PlainTemplate G T tab lvl oper p) (u : Term) :
    Writes tab (Word p) anywhere 0 u input ↔ ∃ v, Returns ext fs true (lvl 0) ptr input (.success v) ∧ Denotes v u := by
  obtain ⟨opI, a, b, c, d', ivs, hivs, hcT, hdT, t⟩ := t
  rw [writes_iff hc]
  exact C65_tokens d t (plain_tokens hc hivs hcT hdT) u

/-- C65: a text is a way to write at most one expression. -/
theorem C65_unambiguous (d : Deployed G T fs ext X ptr input) (hc : Clear tab p) (t : PlainTemplate G T tab lvl oper p) {u u' : Term}
    (h : Writes tab (Word p) anywhere 0 u input) (h' : Writes tab (Word p) anywhere 0 u' input) : u = u' := by
  obtain ⟨v, hv, hd⟩ := (C65_text d hc t u).1 h
  obtain ⟨v', hv', hd'⟩ := (C65_text d hc t u').1 h'
  obtain ⟨opI, a, b, c, d', ivs, hivs, hcT, hdT, t⟩ := t
  obtain ⟨e, he⟩ := template_find t
  have := C09_result_unique d he true hv hv'
  cases this
  exact hd.det hd'

/-- C65: every expression over the table can be written with parentheses only around operators of a level smaller than the one that is wanted, and is read back. -/
theorem C65_round_trip (hc : Clear tab p) (t : PlainTemplate G T tab lvl oper p) {u : Term} (hu : Over tab (Word p) u) :
    ∃ s, Writes tab (Word p) (needed tab) 0 u s ∧ ∀ {fs ext X ptr}, Deployed G T fs ext X ptr s →
      ∃ v, Returns ext fs true (lvl 0) ptr s (.success v) ∧ Denotes v u ∧ ∀ u', Denotes v u' → u' = u := by
  obtain ⟨s, hs⟩ := over_written hu 0
  refine ⟨s, hs, fun d => ?_⟩
  obtain ⟨v, hv, hd⟩ := (C65_text d hc t u).1 hs.anywhere
  exact ⟨v, hv, hd, fun u' h => h.det hd⟩

/-! ## Examples -/

namespace Sample

/-- `+` and `-`, then `*` and `/`, grouped to the left, then `^`, grouped to the right. -/
def tower : List Level := [⟨false, [⟨"+", "plus"⟩, ⟨"-", "minus"⟩]⟩, ⟨false, [⟨"*", "times"⟩, ⟨"/", "over"⟩]⟩, ⟨true, [⟨"^", "power"⟩]⟩]

/-- Names of rules. -/
def towerLvl : Nat → String
  | 0 => "e0"
  | 1 => "e1"
  | 2 => "e2"
  | _ => "e3"

/-- Names of rules. -/
def towerOper : Nat → String
  | 0 => "o0"
  | 1 => "o1"
  | _ => "o2"

/-- `e0 = e1 (o0 e1)* > fold_left ; e1 = e2 (o1 e2)* > fold_left ; e2 = (e3 o2)* e3 > fold_right ; e3 = ["0-9"]+ > leaf / "(" e0 ")" ;
o0 = "+" > plus / "-" > minus ; o1 = "*" > times / "/" > over ; o2 = "^" > power` -/
def towerG : Grammar := ⟨[
  ("e0", .act 6 (.seq 5 [.nt 0 "e1", .star 4 (.seq 3 [.nt 1 "o0", .nt 2 "e1"])]) false ["fold_left"]),
  ("e1", .act 16 (.seq 15 [.nt 10 "e2", .star 14 (.seq 13 [.nt 11 "o1", .nt 12 "e2"])]) false ["fold_left"]),
  ("e2", .act 26 (.seq 25 [.star 23 (.seq 22 [.nt 20 "e3", .nt 21 "o2"]), .nt 24 "e3"]) false ["fold_right"]),
  ("e3", .choice 37 [.act 32 (.plus 31 (.cls 30 [⟨'0', '9'⟩])) false ["leaf"], .seq 36 [.str 33 "(", .nt 34 "e0", .str 35 ")"]]),
  ("o0", .choice 44 [.act 41 (.str 40 "+") false ["plus"], .act 43 (.str 42 "-") false ["minus"]]),
  ("o1", .choice 54 [.act 51 (.str 50 "*") false ["times"], .act 53 (.str 52 "/") false ["over"]]),
  ("o2", .act 61 (.str 60 "^") false ["power"])]⟩

/-- Types of its nodes. -/
def towerT : Nat → Ty
  | 0 | 2 | 6 | 10 | 12 | 16 | 20 | 24 | 26 | 32 | 34 | 37 => .rust "PExpr"
  | 1 | 11 | 21 | 41 | 43 | 44 | 51 | 53 | 54 | 61 => .rust "BinOp"
  | 3 => .tuple [1, 2]
  | 4 => .list 3
  | 5 => .tuple [0, 4]
  | 13 => .tuple [11, 12]
  | 14 => .list 13
  | 15 => .tuple [10, 14]
  | 22 => .tuple [20, 21]
  | 23 => .list 22
  | 25 => .tuple [23, 24]
  | 30 => .atom
  | 31 => .list 30
  | 36 => .tuple [34]
  | _ => .unit

/-- Its generated program. -/
def towerFs : List (FnRef × Fn) := match compileGrammar towerT towerG.rules with | .ok f => f | .error _ => []

theorem tower_generated : Generated towerG towerT towerFs where
  compiled := by rfl
  scopes := by decide +kernel
  coherent := by decide +kernel
  resolved := by decide +kernel

/-- Digits. -/
def digit (c : Char) : Bool := '0' ≤ c && c ≤ '9'

theorem tower_template : PlainTemplate towerG towerT tower towerLvl towerOper digit := by
  refine ⟨fun o => if o.sym = "+" then 40 else if o.sym = "-" then 42 else if o.sym = "*" then 50 else if o.sym = "/" then 52 else 60, 33, 35, 30, 31, [⟨'0', '9'⟩], ?_,
    by decide, by decide, ?_, ?_, ?_⟩
  · intro x
    simp [InClass, digit]
  · intro i lv hi
    match i, hi with
    | 0, hi => cases hi; exact ⟨_, rfl, .left (by decide)⟩
    | 1, hi => cases hi; exact ⟨_, rfl, .left (by decide)⟩
    | 2, hi => cases hi; exact ⟨_, rfl, .right (by decide)⟩
    | i + 3, hi => cases hi
  · intro i lv hi
    match i, hi with
    | 0, hi => cases hi; exact ⟨_, rfl, .many (by decide) (.cons (i := 41) (by decide) (by decide) (.cons (i := 43) (by decide) (by decide) .nil))⟩
    | 1, hi => cases hi; exact ⟨_, rfl, .many (by decide) (.cons (i := 51) (by decide) (by decide) (.cons (i := 53) (by decide) (by decide) .nil))⟩
    | 2, hi => cases hi; exact ⟨_, rfl, .one (i := 61) (by decide) (by decide)⟩
    | i + 3, hi => cases hi
  · exact ⟨_, _, _, _, rfl, by decide⟩

end Sample

theorem clear_of_check {tab : List Level} {p : Char → Bool} (h : tab.zipIdx.all (fun x => x.1.ops.all fun o => (match o.sym.toList with | [] => false | c :: _ => !p c && c != ')') &&
    tab.zipIdx.all fun y => y.1.ops.all fun q => !(o.sym.toList.isPrefixOf q.sym.toList) || (x.2 == y.2 && o == q)) = true) (ho : p '(' = false) (hc : p ')' = false) : Clear tab p where
  symbols i lv o hi hm := by
    simp only [List.all_eq_true, Bool.and_eq_true] at h
    have := (h (lv, i) (List.mem_zipIdx_iff_getElem?.2 hi) o hm).1
    cases hs : o.sym.toList with
    | nil => rw [hs] at this; cases this
    | cons c cs =>
      rw [hs] at this
      simp only [Bool.and_eq_true, Bool.not_eq_true', bne_iff_ne] at this
      exact ⟨c, cs, rfl, this⟩
  opening := ho
  closing := hc
  distinct i j li lj o q hi hoi hj hq hp := by
    simp only [List.all_eq_true, Bool.and_eq_true] at h
    have := (h (li, i) (List.mem_zipIdx_iff_getElem?.2 hi) o hoi).2 (lj, j) (List.mem_zipIdx_iff_getElem?.2 hj) q hq
    rw [List.isPrefixOf_iff_prefix.2 hp] at this
    simp only [Bool.not_true, Bool.false_or, Bool.and_eq_true, beq_iff_eq] at this
    exact this

theorem Sample.tower_clear : Clear Sample.tower Sample.digit := clear_of_check (by decide) (by decide) (by decide)

/-- The text `1-2-3*4^5^6` is a way to write `(1-2)-(3*(4^(5^6)))`, and is read so. -/
example : ∃ v, Returns noFns Sample.towerFs true "e0" 0 "1-2-3*4^5^6".toList (.success v) ∧
    Denotes v (.bin "minus" (.bin "minus" (.leaf [.list [.chr '1']]) (.leaf [.list [.chr '2']]))
      (.bin "times" (.leaf [.list [.chr '3']]) (.bin "power" (.leaf [.list [.chr '4']]) (.bin "power" (.leaf [.list [.chr '5']]) (.leaf [.list [.chr '6']]))))) := by
  rw [show "1-2-3*4^5^6".toList = ['1', '-', '2', '-', '3', '*', '4', '^', '5', '^', '6'] by decide]
  refine (C65_text (Sample.tower_generated.deployed 0 _) Sample.tower_clear Sample.tower_template _).1 ?_
  have w : ∀ c, Sample.digit c = true → ∀ k, Writes Sample.tower (Word Sample.digit) anywhere k (.leaf [.list [.chr c]]) [c] := fun c hc k =>
    .word ⟨List.cons_ne_nil _ _, fun x hx => by rw [List.mem_singleton] at hx; rw [hx]; exact hc, rfl⟩
  have l : ∀ {k i : Nat} {lv o a b sa sb cs s}, k ≤ i → Sample.tower[i]? = some lv → lv.right = false → o ∈ lv.ops → o.sym.toList = cs → sa ++ (cs ++ sb) = s →
      Writes Sample.tower (Word Sample.digit) anywhere i a sa → Writes Sample.tower (Word Sample.digit) anywhere (i + 1) b sb →
      Writes Sample.tower (Word Sample.digit) anywhere k (.bin o.fn a b) s := fun h h1 h2 h3 h4 h5 h6 h7 => by
    rw [← h5, ← h4]; exact .left h h1 h2 h3 h6 h7
  have r : ∀ {k i : Nat} {lv o a b sa sb cs s}, k ≤ i → Sample.tower[i]? = some lv → lv.right = true → o ∈ lv.ops → o.sym.toList = cs → sa ++ (cs ++ sb) = s →
      Writes Sample.tower (Word Sample.digit) anywhere (i + 1) a sa → Writes Sample.tower (Word Sample.digit) anywhere i b sb →
      Writes Sample.tower (Word Sample.digit) anywhere k (.bin o.fn a b) s := fun h h1 h2 h3 h4 h5 h6 h7 => by
    rw [← h5, ← h4]; exact .right h h1 h2 h3 h6 h7
  have e5 := r (k := 2) (i := 2) (o := ⟨"^", "power"⟩) (cs := ['^']) (by decide) rfl rfl (by decide) (by decide) rfl (w '5' rfl _) (w '6' rfl _)
  have e4 := r (k := 2) (i := 2) (o := ⟨"^", "power"⟩) (cs := ['^']) (by decide) rfl rfl (by decide) (by decide) rfl (w '4' rfl _) e5
  have e3 := l (k := 1) (i := 1) (o := ⟨"*", "times"⟩) (cs := ['*']) (by decide) rfl rfl (by decide) (by decide) rfl (w '3' rfl _) e4
  have e1 := l (k := 0) (i := 0) (o := ⟨"-", "minus"⟩) (cs := ['-']) (by decide) rfl rfl (by decide) (by decide) rfl (w '1' rfl _) (w '2' rfl _)
  exact l (k := 0) (i := 0) (o := ⟨"-", "minus"⟩) (cs := ['-']) (by decide) rfl rfl (by decide) (by decide) rfl e1 e3

namespace Sample

/-- Comparisons; the symbol of the first one is the beginning of that of the second one. -/
def less : List Level := [⟨false, [⟨"<", "lt"⟩, ⟨"<=", "le"⟩]⟩]

/-- Names of rules. -/
def lessLvl : Nat → String
  | 0 => "e0"
  | _ => "e1"

/-- `e0 = e1 (o0 e1)* > fold_left ; e1 = ["0-9"]+ > leaf / "(" e0 ")" ; o0 = "<" > lt / "<=" > le` -/
def lessG : Grammar := ⟨[
  ("e0", .act 6 (.seq 5 [.nt 0 "e1", .star 4 (.seq 3 [.nt 1 "o0", .nt 2 "e1"])]) false ["fold_left"]),
  ("e1", .choice 37 [.act 32 (.plus 31 (.cls 30 [⟨'0', '9'⟩])) false ["leaf"], .seq 36 [.str 33 "(", .nt 34 "e0", .str 35 ")"]]),
  ("o0", .choice 44 [.act 41 (.str 40 "<") false ["lt"], .act 43 (.str 42 "<=") false ["le"]])]⟩

/-- Its generated program. -/
def lessFs : List (FnRef × Fn) := match compileGrammar towerT lessG.rules with | .ok f => f | .error _ => []

theorem less_generated : Generated lessG towerT lessFs where
  compiled := by rfl
  scopes := by decide +kernel
  coherent := by decide +kernel
  resolved := by decide +kernel

theorem less_template : PlainTemplate lessG towerT less lessLvl (fun _ => "o0") digit := by
  refine ⟨fun o => if o.sym = "<" then 40 else 42, 33, 35, 30, 31, [⟨'0', '9'⟩], ?_, by decide, by decide, ?_, ?_, ?_⟩
  · intro x
    simp [InClass, digit]
  · intro i lv hi
    match i, hi with
    | 0, hi => cases hi; exact ⟨_, rfl, .left (by decide)⟩
    | i + 1, hi => cases hi
  · intro i lv hi
    match i, hi with
    | 0, hi => cases hi; exact ⟨_, rfl, .many (by decide) (.cons (i := 41) (by decide) (by decide) (.cons (i := 43) (by decide) (by decide) .nil))⟩
    | i + 1, hi => cases hi
  · exact ⟨_, _, _, _, rfl, by decide⟩

end Sample

/-- It stops after `1`. -/
theorem Sample.less_stops : (match Program.parse StrStream.ops noFns ⟨Sample.lessFs⟩ 20 ⟨true, ["e0"]⟩ (StrStream.new 0 ['1', '<', '=', '2']) with
    | .ok (.part _ _ _) => true
    | _ => false) = true := by decide +kernel

/-- C65: the condition on symbols is needed: with the operators `<` and `<=`, in this order, the text `1<=2` is a way to write an expression, but the parser stops after `1`. -/
theorem C65_condition_needed : PlainTemplate Sample.lessG Sample.towerT Sample.less Sample.lessLvl (fun _ => "o0") Sample.digit ∧
    (∃ u, Writes Sample.less (Word Sample.digit) anywhere 0 u "1<=2".toList) ∧ ∀ v, ¬ Returns noFns Sample.lessFs true "e0" 0 "1<=2".toList (.success v) := by
  rw [show "1<=2".toList = ['1', '<', '=', '2'] by decide]
  have hw := Writes.left (tab := Sample.less) (word := Word Sample.digit) (par := anywhere) (k := 0) (i := 0) (o := ⟨"<=", "le"⟩) (sa := ['1']) (sb := ['2']) (Nat.le_refl _) rfl rfl
    (by decide) (.word (vs := [.list [.chr '1']]) ⟨by decide, by decide, rfl⟩) (.word (vs := [.list [.chr '2']]) ⟨by decide, by decide, rfl⟩)
  rw [show (Oper.mk "<=" "le").sym.toList = ['<', '='] by decide] at hw
  refine ⟨Sample.less_template, ⟨_, hw⟩, fun v h => ?_⟩
  have hs := Sample.less_stops
  split at hs
  · rename_i hp
    have := C09_result_unique (Sample.less_generated.deployed 0 _) (e := Sample.lessG.rules[0].2) rfl true h ⟨20, hp⟩
    cases this
  · cases hs

end Oak
