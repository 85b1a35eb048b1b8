import Verif.Proofs.ContextFree
/-!
A checker of the condition LL(1), for grammars without external rules: it is given, for each rule, the characters that may start it, those that may follow it,
and whether it may be empty, and checks that these tables are large enough and that no conflict results.
-/
set_option linter.constructorNameAsVariable false
set_option autoImplicit false

namespace Oak
open Spec

/-- Is the interval included in one of the list? -/
def Interval.within (iv : Interval) (l : List Interval) : Bool := l.any fun x => decide (x.lo ≤ iv.lo) && decide (iv.hi ≤ x.hi)
/-- Is every interval included in one of the second list? -/
def ivsWithin (a b : List Interval) : Bool := a.all (·.within b)
/-- Do the intervals have no character in common? -/
def ivsApart (a b : List Interval) : Bool := a.all fun x => b.all fun y => decide (x.hi < y.lo) || decide (y.hi < x.lo)

theorem ivsWithin_in {a b : List Interval} {c : Char} (h : ivsWithin a b = true) (hc : InClass a c) : InClass b c := by
  obtain ⟨iv, hm, h1, h2⟩ := hc
  have := List.all_eq_true.1 h iv hm
  simp only [Interval.within, List.any_eq_true, Bool.and_eq_true, decide_eq_true_eq] at this
  obtain ⟨x, hx, h3, h4⟩ := this
  exact ⟨x, hx, Char.le_trans h3 h1, Char.le_trans h2 h4⟩

theorem ivsApart_in {a b : List Interval} {c : Char} (h : ivsApart a b = true) (ha : InClass a c) : ¬ InClass b c := by
  rintro ⟨y, hy, h3, h4⟩
  obtain ⟨x, hx, h1, h2⟩ := ha
  have := List.all_eq_true.1 (List.all_eq_true.1 h x hx) y hy
  simp only [Bool.or_eq_true, decide_eq_true_eq] at this
  rcases this with h | h
  · exact absurd (Char.le_trans h3 h2) (Char.not_le.2 h)
  · exact absurd (Char.le_trans h1 h4) (Char.not_le.2 h)

theorem inClass_append {a b : List Interval} {c : Char} : InClass (a ++ b) c ↔ InClass a c ∨ InClass b c := by
  simp only [InClass, List.mem_append]
  constructor
  · rintro ⟨x, h | h, hx⟩
    · exact .inl ⟨x, h, hx⟩
    · exact .inr ⟨x, h, hx⟩
  · rintro (⟨x, h, hx⟩ | ⟨x, h, hx⟩)
    · exact ⟨x, .inl h, hx⟩
    · exact ⟨x, .inr h, hx⟩

/-- What the checker is told about a rule. -/
structure LLRow where
  first : List Interval
  empty : Bool
  follow : List Interval

/-- The tables, one row for each rule. -/
abbrev LLTable := List (String × LLRow)

/-- The row of a rule. -/
def LLTable.row (tab : LLTable) (r : String) : LLRow :=
  match tab.lookup r with
  | some x => x
  | none => ⟨[], false, []⟩

mutual
/-- May the expression be empty, according to the tables? -/
def emptyOf (tab : LLTable) : Expr → Bool
  | .str _ l => l.isEmpty
  | .nt _ r => (tab.row r).empty
  | .seq _ es => emptyAll tab es
  | .choice _ es => emptyAny tab es
  | .star .. | .opt .. | .not .. | .and .. => true
  | .plus _ e | .act _ e _ _ | .asc _ e _ | .span _ e | .range _ e => emptyOf tab e
  | _ => false
def emptyAll (tab : LLTable) : List Expr → Bool
  | [] => true
  | e :: es => emptyOf tab e && emptyAll tab es
def emptyAny (tab : LLTable) : List Expr → Bool
  | [] => false
  | e :: es => emptyOf tab e || emptyAny tab es
end

/-- All the characters. -/
def allChars : List Interval := [⟨Char.ofNat 0, Char.ofNat 0x10FFFF⟩]

mutual
/-- The characters that may start the expression, according to the tables. -/
def firstOf (tab : LLTable) : Expr → List Interval
  | .str _ l => match l.toList with | [] => [] | c :: _ => [⟨c, c⟩]
  | .any _ => allChars
  | .cls _ ivs => ivs
  | .nt _ r => (tab.row r).first
  | .seq _ es => firstSeq tab es
  | .choice _ es => firstAny tab es
  | .star _ e | .plus _ e | .opt _ e | .act _ e _ _ | .asc _ e _ | .span _ e | .range _ e => firstOf tab e
  | _ => []
def firstSeq (tab : LLTable) : List Expr → List Interval
  | [] => []
  | e :: es => firstOf tab e ++ (if emptyOf tab e then firstSeq tab es else [])
def firstAny (tab : LLTable) : List Expr → List Interval
  | [] => []
  | e :: es => firstOf tab e ++ firstAny tab es
end

mutual
/-- The expressions of a rule, with the characters that may follow them. -/
def visits (tab : LLTable) (F : List Interval) : Expr → List (Expr × List Interval)
  | .seq i es => (.seq i es, F) :: visitsSeq tab F es
  | .choice i es => (.choice i es, F) :: visitsAny tab F es
  | .star i e => (.star i e, F) :: visits tab (F ++ firstOf tab e) e
  | .plus i e => (.plus i e, F) :: visits tab (F ++ firstOf tab e) e
  | .opt i e => (.opt i e, F) :: visits tab F e
  | .act i e b f => (.act i e b f, F) :: visits tab F e
  | .asc i e t => (.asc i e t, F) :: visits tab F e
  | .span i e => (.span i e, F) :: visits tab F e
  | .range i e => (.range i e, F) :: visits tab F e
  | e => [(e, F)]
def visitsSeq (tab : LLTable) (F : List Interval) : List Expr → List (Expr × List Interval)
  | [] => []
  | e :: es => visits tab (firstSeq tab es ++ (if emptyAll tab es then F else [])) e ++ visitsSeq tab F es
def visitsAny (tab : LLTable) (F : List Interval) : List Expr → List (Expr × List Interval)
  | [] => []
  | e :: es => visits tab F e ++ visitsAny tab F es
end

/-- No branch conflicts with a later one. -/
def branchesApart (tab : LLTable) (F : List Interval) : List Expr → Bool
  | [] => true
  | e :: es => es.all (fun y => ivsApart (firstOf tab e) (firstOf tab y) && (!emptyOf tab y || ivsApart (firstOf tab e) F)) && branchesApart tab F es

/-- No conflict at an expression. -/
def visitOk (tab : LLTable) : Expr × List Interval → Bool
  | (.nt _ r, F) => ivsWithin F (tab.row r).follow
  | (.choice _ es, F) => branchesApart tab F es
  | (.star _ e, F) | (.plus _ e, F) => ivsApart (firstOf tab e) F
  | (.opt _ e, F) => ivsApart (firstOf tab e) F && !emptyOf tab e
  | (.not .., _) | (.and .., _) | (.ext .., _) => false
  | _ => true

/-- The tables are large enough and show no conflict. -/
def ll1 (tab : LLTable) (G : Grammar) : Bool :=
  G.rules.all fun q => (!emptyOf tab q.2 || (tab.row q.1).empty) && ivsWithin (firstOf tab q.2) (tab.row q.1).first && (visits tab (tab.row q.1).follow q.2).all (visitOk tab)

variable {G : Grammar} {tab : LLTable} {r0 : String}

theorem ll1_rule (h : ll1 tab G = true) {r : String} {e : Expr} (he : G.find r = some e) :
    (emptyOf tab e = true → (tab.row r).empty = true) ∧ ivsWithin (firstOf tab e) (tab.row r).first = true ∧ ∀ v ∈ visits tab (tab.row r).follow e, visitOk tab v = true := by
  have := List.all_eq_true.1 h _ (grammar_find_mem he)
  simp only [Bool.and_eq_true, Bool.or_eq_true, Bool.not_eq_true', List.all_eq_true] at this
  refine ⟨fun h => this.1.1.resolve_left (by simp [h]), this.1.2, this.2⟩

theorem emptyAny_mem {es : List Expr} {e : Expr} (he : e ∈ es) (h : emptyOf tab e = true) : emptyAny tab es = true := by
  induction es with
  | nil => cases he
  | cons x es ih =>
    rw [emptyAny, Bool.or_eq_true]
    rcases List.mem_cons.1 he with rfl | he
    · exact .inl h
    · exact .inr (ih he)

theorem firstAny_mem {es : List Expr} {e : Expr} {c : Char} (he : e ∈ es) (h : InClass (firstOf tab e) c) : InClass (firstAny tab es) c := by
  induction es with
  | nil => cases he
  | cons x es ih =>
    rw [firstAny, inClass_append]
    rcases List.mem_cons.1 he with rfl | he
    · exact .inl h
    · exact .inr (ih he)

theorem noExt_fwd : noExt.Forward := fun _ _ _ _ h => h.elim

/-- The tables are large enough. -/
theorem ll1_derives (h : ll1 tab G = true) {e : Expr} {s s' : List Char} {t : Tree} (hd : Derives G noExt e s s' t) :
    (s' = s → emptyOf tab e = true) ∧ ∀ c s1, s = c :: s1 → s' ≠ s → InClass (firstOf tab e) c := by
  induction hd with
  | @str i l s =>
    constructor
    · intro h
      have : l.toList = [] := by
        have := congrArg List.length h
        simp only [List.length_append] at this
        exact List.length_eq_zero_iff.1 (by omega)
      have : l = "" := String.toList_inj.1 (by simpa using this)
      subst this
      rfl
    · intro c s1 hs hne
      rw [firstOf]
      cases hl : l.toList with
      | nil => rw [hl] at hne; exact absurd rfl hne
      | cons d l' =>
        rw [hl] at hs
        cases hs
        exact ⟨⟨c, c⟩, by simp, Char.le_refl _, Char.le_refl _⟩
  | @any i c s =>
    refine ⟨fun h => absurd (congrArg List.length h) (by simp), ?_⟩
    rintro c' s1 hs -
    cases hs
    refine ⟨_, List.mem_singleton.2 rfl, ?_, ?_⟩
    · exact Nat.zero_le _
    · rw [Char.le_def, UInt32.le_iff_toNat_le]
      have : c.val.toNat < 0x110000 := by
        have := c.valid
        simp only [UInt32.isValidChar, Nat.isValidChar] at this
        omega
      show c.val.toNat ≤ 0x10FFFF
      omega
  | @cls i ivs c s hc =>
    refine ⟨fun h => absurd (congrArg List.length h) (by simp), ?_⟩
    rintro c' s1 hs -
    cases hs
    exact hc
  | ext h => exact h.elim
  | nt hf _ ih =>
    have hr := ll1_rule h hf
    exact ⟨fun h => by rw [emptyOf]; exact hr.1 (ih.1 h), fun c s1 hs hne => by rw [firstOf]; exact ivsWithin_in hr.2.1 (ih.2 c s1 hs hne)⟩
  | seq_nil => exact ⟨fun _ => by rw [emptyOf, emptyAll], fun c s1 hs hne => absurd rfl hne⟩
  | @seq_cons i e es s s1 s' t ts h1 h2 ih1 ih2 =>
    constructor
    · rintro rfl
      have := suffix_antisymm (h1.suffix noExt_fwd) (h2.suffix noExt_fwd)
      subst this
      have := ih2.1 rfl
      rw [emptyOf] at this
      rw [emptyOf, emptyAll, ih1.1 rfl, this]; rfl
    · intro c s2 hs hne
      rw [firstOf, firstSeq, inClass_append]
      by_cases he : s1 = s
      · subst he
        right
        rw [ih1.1 rfl]
        have := ih2.2 c s2 hs hne
        rw [firstOf] at this
        exact this
      · exact .inl (ih1.2 c s2 hs he)
  | choice hk _ ih =>
    exact ⟨fun h => by rw [emptyOf]; exact emptyAny_mem (List.mem_of_getElem? hk) (ih.1 h),
      fun c s1 hs hne => by rw [firstOf]; exact firstAny_mem (List.mem_of_getElem? hk) (ih.2 c s1 hs hne)⟩
  | star_nil => exact ⟨fun _ => by rw [emptyOf], fun c s1 hs hne => absurd rfl hne⟩
  | @star_cons i e s s1 s' t ts h1 h2 ih1 ih2 =>
    refine ⟨fun _ => by rw [emptyOf], fun c s2 hs hne => ?_⟩
    rw [firstOf]
    by_cases he : s1 = s
    · subst he
      have := ih2.2 c s2 hs hne
      rw [firstOf] at this
      exact this
    · exact ih1.2 c s2 hs he
  | @plus i e s s1 s' t ts h1 h2 ih1 ih2 =>
    constructor
    · rintro rfl
      have := suffix_antisymm (h1.suffix noExt_fwd) (h2.suffix noExt_fwd)
      subst this
      rw [emptyOf]
      exact ih1.1 rfl
    · intro c s2 hs hne
      rw [firstOf]
      by_cases he : s1 = s
      · subst he
        have := ih2.2 c s2 hs hne
        rw [firstOf] at this
        exact this
      · exact ih1.2 c s2 hs he
  | opt_none => exact ⟨fun _ => by rw [emptyOf], fun c s1 hs hne => absurd rfl hne⟩
  | opt_some _ ih => exact ⟨fun _ => by rw [emptyOf], fun c s1 hs hne => by rw [firstOf]; exact ih.2 c s1 hs hne⟩
  | not | and => exact ⟨fun _ => by rw [emptyOf], fun c s1 hs hne => absurd rfl hne⟩
  | act _ ih | asc _ ih | span _ ih | range _ ih => exact ⟨fun h => by rw [emptyOf]; exact ih.1 h, fun c s1 hs hne => by rw [firstOf]; exact ih.2 c s1 hs hne⟩

theorem ll1_starts (h : ll1 tab G = true) {e : Expr} {c : Char} (hs : Starts G noExt e c) : InClass (firstOf tab e) c := by
  obtain ⟨s, s', t, hd, hne⟩ := hs
  exact (ll1_derives h hd).2 c s rfl hne

theorem ll1_empty (h : ll1 tab G = true) {e : Expr} (hs : MayBeEmpty G noExt e) : emptyOf tab e = true := by
  obtain ⟨s, t, hd⟩ := hs
  exact (ll1_derives h hd).1 rfl

/-- The checker goes through the expression, with the characters of the list after it. -/
def Visited (G : Grammar) (tab : LLTable) (e : Expr) (F : List Interval) : Prop := ∃ r b, G.find r = some b ∧ (e, F) ∈ visits tab (tab.row r).follow b

theorem visits_self {F : List Interval} {e : Expr} : (e, F) ∈ visits tab F e := by
  cases e <;> simp [visits]

theorem visitsSeq_mem {F : List Interval} {before after : List Expr} {e : Expr} {v : Expr × List Interval}
    (h : v ∈ visits tab (firstSeq tab after ++ (if emptyAll tab after then F else [])) e) : v ∈ visitsSeq tab F (before ++ e :: after) := by
  induction before with
  | nil => rw [List.nil_append, visitsSeq, List.mem_append]; exact .inl h
  | cons x before ih => rw [List.cons_append, visitsSeq, List.mem_append]; exact .inr ih

theorem visitsAny_mem {F : List Interval} {es : List Expr} {e : Expr} {v : Expr × List Interval} (he : e ∈ es) (h : v ∈ visits tab F e) : v ∈ visitsAny tab F es := by
  induction es with
  | nil => cases he
  | cons x es ih =>
    rw [visitsAny, List.mem_append]
    rcases List.mem_cons.1 he with rfl | he
    · exact .inl h
    · exact .inr (ih he)

theorem visitsSeq_trans {es : List Expr} {F F' : List Interval} {e : Expr} {v : Expr × List Interval}
    (ih : ∀ x ∈ es, ∀ {F F' : List Interval} {e : Expr} {v : Expr × List Interval}, (e, F') ∈ visits tab F x → v ∈ visits tab F' e → v ∈ visits tab F x)
    (h : (e, F') ∈ visitsSeq tab F es) (hv : v ∈ visits tab F' e) : v ∈ visitsSeq tab F es := by
  induction es with
  | nil => rw [visitsSeq] at h; cases h
  | cons x es ihl =>
    rw [visitsSeq, List.mem_append] at h ⊢
    rcases h with h | h
    · exact .inl (ih x (by simp) h hv)
    · exact .inr (ihl (fun y hy => ih y (by simp [hy])) h)

theorem visitsAny_trans {es : List Expr} {F F' : List Interval} {e : Expr} {v : Expr × List Interval}
    (ih : ∀ x ∈ es, ∀ {F F' : List Interval} {e : Expr} {v : Expr × List Interval}, (e, F') ∈ visits tab F x → v ∈ visits tab F' e → v ∈ visits tab F x)
    (h : (e, F') ∈ visitsAny tab F es) (hv : v ∈ visits tab F' e) : v ∈ visitsAny tab F es := by
  induction es with
  | nil => rw [visitsAny] at h; cases h
  | cons x es ihl =>
    rw [visitsAny, List.mem_append] at h ⊢
    rcases h with h | h
    · exact .inl (ih x (by simp) h hv)
    · exact .inr (ihl (fun y hy => ih y (by simp [hy])) h)

/-- What is visited below a visited expression is visited. -/
theorem visits_trans (b : Expr) : ∀ {F F' : List Interval} {e : Expr} {v : Expr × List Interval}, (e, F') ∈ visits tab F b → v ∈ visits tab F' e → v ∈ visits tab F b := by
  induction b using Expr.ind with
  | seq i es ih =>
    intro F F' e v h hv
    rw [visits, List.mem_cons] at h
    rcases h with h | h
    · cases h; exact hv
    · rw [visits, List.mem_cons]
      exact .inr (visitsSeq_trans ih h hv)
  | choice i es ih =>
    intro F F' e v h hv
    rw [visits, List.mem_cons] at h
    rcases h with h | h
    · cases h; exact hv
    · rw [visits, List.mem_cons]
      exact .inr (visitsAny_trans ih h hv)
  | star i e ih | plus i e ih | opt i e ih | act i e b f ih | asc i e t ih | span i e ih | range i e ih =>
    intro F F' e v h hv
    rw [visits, List.mem_cons] at h
    rcases h with h | h
    · cases h; exact hv
    · rw [visits, List.mem_cons]
      exact .inr (ih h hv)
  | _ =>
    intro F F' e v h hv
    rw [visits] at h
    · cases List.mem_singleton.1 h; exact hv
    all_goals nofun

theorem Visited.below {e x : Expr} {F F' : List Interval} (h : Visited G tab e F) (hx : (x, F') ∈ visits tab F e) : Visited G tab x F' := by
  obtain ⟨r, b, hb, h⟩ := h
  exact ⟨r, b, hb, visits_trans b h hx⟩

theorem Visited.ok (hl : ll1 tab G = true) {e : Expr} {F : List Interval} (h : Visited G tab e F) : visitOk tab (e, F) = true := by
  obtain ⟨r, b, hb, h⟩ := h
  exact (ll1_rule hl hb).2.2 _ h

theorem Visited.seq {i before e after F} (h : Visited G tab (.seq i (before ++ e :: after)) F) :
    Visited G tab e (firstSeq tab after ++ (if emptyAll tab after then F else [])) :=
  h.below (by rw [visits, List.mem_cons]; exact .inr (visitsSeq_mem visits_self))

theorem Visited.choice {i es e F} (h : Visited G tab (.choice i es) F) (he : e ∈ es) : Visited G tab e F :=
  h.below (by rw [visits, List.mem_cons]; exact .inr (visitsAny_mem he visits_self))

theorem Visited.star {i e F} (h : Visited G tab (.star i e) F) : Visited G tab e (F ++ firstOf tab e) :=
  h.below (by rw [visits, List.mem_cons]; exact .inr visits_self)

theorem Visited.plus {i e F} (h : Visited G tab (.plus i e) F) : Visited G tab e (F ++ firstOf tab e) :=
  h.below (by rw [visits, List.mem_cons]; exact .inr visits_self)

theorem Visited.opt {i e F} (h : Visited G tab (.opt i e) F) : Visited G tab e F :=
  h.below (by rw [visits, List.mem_cons]; exact .inr visits_self)

theorem Visited.act {i e b f F} (h : Visited G tab (.act i e b f) F) : Visited G tab e F :=
  h.below (by rw [visits, List.mem_cons]; exact .inr visits_self)

theorem Visited.asc {i e t F} (h : Visited G tab (.asc i e t) F) : Visited G tab e F :=
  h.below (by rw [visits, List.mem_cons]; exact .inr visits_self)

theorem Visited.span {i e F} (h : Visited G tab (.span i e) F) : Visited G tab e F :=
  h.below (by rw [visits, List.mem_cons]; exact .inr visits_self)

theorem Visited.range {i e F} (h : Visited G tab (.range i e) F) : Visited G tab e F :=
  h.below (by rw [visits, List.mem_cons]; exact .inr visits_self)

/-- What occurs is visited. -/
theorem sub_visited (hl : ll1 tab G = true) {x b : Expr} (hs : Sub x b) : ∀ {F}, Visited G tab b F → ∃ F', Visited G tab x F' := by
  induction hs with
  | refl => exact fun h => ⟨_, h⟩
  | seq he _ ih =>
    intro F h
    obtain ⟨before, after, rfl⟩ := List.append_of_mem he
    exact ih h.seq
  | choice he _ ih => exact fun h => ih (h.choice he)
  | star _ ih => exact fun h => ih h.star
  | plus _ ih => exact fun h => ih h.plus
  | opt _ ih => exact fun h => ih h.opt
  | not _ _ => exact fun h => absurd (h.ok hl) (by simp [visitOk])
  | and _ _ => exact fun h => absurd (h.ok hl) (by simp [visitOk])
  | act _ ih => exact fun h => ih h.act
  | asc _ ih => exact fun h => ih h.asc
  | span _ ih => exact fun h => ih h.span
  | range _ ih => exact fun h => ih h.range

theorem occurs_visited (hl : ll1 tab G = true) {x : Expr} (h : Occurs G x) : ∃ F, Visited G tab x F := by
  obtain ⟨r, b, hb, hs⟩ := h
  exact sub_visited hl hs (F := (tab.row r).follow) ⟨r, b, hb, visits_self⟩

theorem follow_visited (hl : ll1 tab G = true) {e : Expr} {o : Option Char} (h : CanFollow G noExt r0 e o) :
    ∃ F, Visited G tab e F ∧ ∀ c, o = some c → InClass F c := by
  induction h with
  | start h => exact ⟨_, ⟨_, _, h, visits_self⟩, nofun⟩
  | nt _ hf ih =>
    obtain ⟨F, hv, hF⟩ := ih
    have hw := hv.ok hl
    exact ⟨_, ⟨_, _, hf, visits_self⟩, fun c hc => ivsWithin_in hw (hF c hc)⟩
  | seq_next ho hc =>
    obtain ⟨F, hv⟩ := occurs_visited hl ho
    refine ⟨_, hv.seq, ?_⟩
    rintro c' ⟨⟩
    have := ll1_starts hl hc
    rw [firstOf] at this
    exact inClass_append.2 (.inl this)
  | seq_last _ hm ih =>
    obtain ⟨F, hv, hF⟩ := ih
    refine ⟨_, hv.seq, fun c hc => inClass_append.2 (.inr ?_)⟩
    have := ll1_empty hl hm
    rw [emptyOf] at this
    rw [if_pos this]
    exact hF c hc
  | choice _ he ih =>
    obtain ⟨F, hv, hF⟩ := ih
    exact ⟨F, hv.choice he, hF⟩
  | star _ ih =>
    obtain ⟨F, hv, hF⟩ := ih
    exact ⟨_, hv.star, fun c hc => inClass_append.2 (.inl (hF c hc))⟩
  | star_again ho hc =>
    obtain ⟨F, hv⟩ := occurs_visited hl ho
    refine ⟨_, hv.star, ?_⟩
    rintro c' ⟨⟩
    exact inClass_append.2 (.inr (ll1_starts hl hc))
  | plus _ ih =>
    obtain ⟨F, hv, hF⟩ := ih
    exact ⟨_, hv.plus, fun c hc => inClass_append.2 (.inl (hF c hc))⟩
  | plus_again ho hc =>
    obtain ⟨F, hv⟩ := occurs_visited hl ho
    refine ⟨_, hv.plus, ?_⟩
    rintro c' ⟨⟩
    exact inClass_append.2 (.inr (ll1_starts hl hc))
  | opt _ ih =>
    obtain ⟨F, hv, hF⟩ := ih
    exact ⟨F, hv.opt, hF⟩
  | act _ ih =>
    obtain ⟨F, hv, hF⟩ := ih
    exact ⟨F, hv.act, hF⟩
  | asc _ ih =>
    obtain ⟨F, hv, hF⟩ := ih
    exact ⟨F, hv.asc, hF⟩
  | span _ ih =>
    obtain ⟨F, hv, hF⟩ := ih
    exact ⟨F, hv.span, hF⟩
  | range _ ih =>
    obtain ⟨F, hv, hF⟩ := ih
    exact ⟨F, hv.range, hF⟩

theorem branchesApart_at {F : List Interval} {es : List Expr} {j k : Nat} {x y : Expr} (h : branchesApart tab F es = true) (hj : j < k) (hx : es[j]? = some x)
    (hy : es[k]? = some y) : ivsApart (firstOf tab x) (firstOf tab y) = true ∧ (emptyOf tab y = true → ivsApart (firstOf tab x) F = true) := by
  induction es generalizing j k with
  | nil => simp at hx
  | cons e es ih =>
    rw [branchesApart, Bool.and_eq_true, List.all_eq_true] at h
    cases k with
    | zero => omega
    | succ k =>
      simp only [List.getElem?_cons_succ] at hy
      cases j with
      | zero =>
        simp only [List.getElem?_cons_zero, Option.some.injEq] at hx
        subst hx
        have := h.1 y (List.mem_of_getElem? hy)
        simp only [Bool.and_eq_true, Bool.or_eq_true, Bool.not_eq_true'] at this
        exact ⟨this.1, fun he => this.2.resolve_left (by simp [he])⟩
      | succ j => exact ih (j := j) (k := k) h.2 (by omega) (by simpa using hx) hy

/-- The checker is right. -/
theorem ll1_sound (hl : ll1 tab G = true) : LL1 G noExt r0 ∧ NoPredicates G ∧ ∀ i p, ¬ Occurs G (.ext i p) := by
  refine ⟨⟨?_, ?_, ?_, ?_, ?_⟩, ?_, ?_⟩
  · intro i es ho j k x y hj hx hy c hc
    have hfc := ll1_starts hl hc
    constructor
    · intro hy'
      obtain ⟨F, hv⟩ := occurs_visited hl ho
      exact ivsApart_in (branchesApart_at (hv.ok hl) hj hx hy).1 hfc (ll1_starts hl hy')
    · rintro ⟨hm, hf⟩
      obtain ⟨F, hv, hF⟩ := follow_visited hl hf
      exact ivsApart_in ((branchesApart_at (hv.ok hl) hj hx hy).2 (ll1_empty hl hm)) hfc (hF c rfl)
  · intro i e ho c hc hf
    obtain ⟨F, hv, hF⟩ := follow_visited hl hf
    exact ivsApart_in (hv.ok hl) (ll1_starts hl hc) (hF c rfl)
  · intro i e ho c hc hf
    obtain ⟨F, hv, hF⟩ := follow_visited hl hf
    exact ivsApart_in (hv.ok hl) (ll1_starts hl hc) (hF c rfl)
  · intro i e ho c hc hf
    obtain ⟨F, hv, hF⟩ := follow_visited hl hf
    have := hv.ok hl
    rw [visitOk, Bool.and_eq_true] at this
    exact ivsApart_in this.1 (ll1_starts hl hc) (hF c rfl)
  · intro i e ho hm
    obtain ⟨F, hv⟩ := occurs_visited hl ho
    have := hv.ok hl
    rw [visitOk, ll1_empty hl hm] at this
    simp at this
  · intro i e
    constructor <;> intro ho <;> obtain ⟨F, hv⟩ := occurs_visited hl ho <;> exact absurd (hv.ok hl) (by simp [visitOk])
  · intro i p ho
    obtain ⟨F, hv⟩ := occurs_visited hl ho
    exact absurd (hv.ok hl) (by simp [visitOk])

end Oak
