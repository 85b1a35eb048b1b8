import Verif.Corpus.NumeralsShape
import Verif.Spec.Numerals
import Verif.Proofs.PegBasic
import Verif.Proofs.Restyle
/-!
The grammars issue94.rs and stream_span.rs, on every text.
-/
set_option linter.constructorNameAsVariable false
set_option autoImplicit false

namespace Oak.Numerals
open Oak Spec

/-! ## Splitting -/

theorem isPart_underscore : isPart '_' = true := by decide

theorem Split.unique {m us e m' us' e' : List Char} (h : Split m us e) (h' : Split m' us' e') (heq : m ++ us ++ e = m' ++ us' ++ e') : m = m' ∧ us = us' ∧ e = e' := by
  have key : ∀ {m us e}, Split m us e → (m ++ us ++ e).dropWhile isPart = e := by
    intro m us e h
    rw [List.dropWhile_append_of_pos]
    · cases e with
      | nil => rfl
      | cons c e => rw [List.dropWhile_cons_of_neg]; simp [h.stop c rfl]
    · intro c hc
      rcases List.mem_append.1 hc with hc | hc
      · exact h.parts c hc
      · rw [h.underscores c hc]; exact isPart_underscore
  have hm : ∀ {m us e}, Split m us e → ((m ++ us).reverse).dropWhile (fun c => decide (c = '_')) = m.reverse := by
    intro m us e h
    rw [List.reverse_append, List.dropWhile_append_of_pos]
    · cases hr : m.reverse with
      | nil => rfl
      | cons c r =>
        have : m.getLast? = some c := by rw [← List.head?_reverse, hr]; rfl
        rw [List.dropWhile_cons_of_neg]
        intro hc
        have hd := h.last c this
        rw [of_decide_eq_true hc] at hd
        exact absurd hd (by decide)
    · intro c hc
      exact decide_eq_true (h.underscores c (List.mem_reverse.1 hc))
  have he : e = e' := by rw [← key h, heq, key h']
  subst he
  have h1 := List.append_cancel_right heq
  have h2 : m = m' := by
    have := hm h
    rw [h1, hm h'] at this
    exact (List.reverse_inj.1 this).symm
  subst h2
  exact ⟨rfl, List.append_cancel_left h1, rfl⟩

/-! ## Reports -/

theorem farthest_eq {e : List Char} {L : Log} : ∀ {s : List Char}, (s = e ∨ e.length < s.length) → (∀ x ∈ L, x.1 = e ∨ e.length < x.1.length) →
    (s = e ∨ ∃ x ∈ L, x.1 = e) → farthest s L = e := by
  induction L with
  | nil => intro s _ _ h; rcases h with h | ⟨x, hx, _⟩
           · exact h
           · cases hx
  | cons q L ih =>
    intro s h1 h2 h3
    obtain ⟨p, n⟩ := q
    have hp := h2 (p, n) List.mem_cons_self
    simp only at hp
    rw [farthest]
    apply ih
    · split
      · exact hp
      · exact h1
    · exact fun x hx => h2 x (List.mem_cons_of_mem _ hx)
    · rcases h3 with rfl | ⟨x, hx, he⟩
      · left; split
        · rename_i hlt
          rcases hp with rfl | hp
          · omega
          · omega
        · rfl
      · rcases List.mem_cons.1 hx with rfl | hx
        · simp only at he; subst he
          left
          split
          · rfl
          · rename_i hlt
            rcases h1 with h1 | h1
            · exact h1
            · omega
        · exact .inr ⟨x, hx, he⟩

/-! ## issue94.rs -/

/-- The class of digits. -/
def digitDesc : String := classDesc [⟨'0', '9'⟩]

theorem inClass_digit {c : Char} : InClass [⟨'0', '9'⟩] c ↔ isDigit c = true := by
  simp [InClass, isDigit]

/-- One group. -/
def group : Expr := .seq 4 [.star 2 (.nt 1 "underscore"), .nt 3 "digit"]

theorem underscores_peg (s : List Char) : ∃ t, Peg digitsG noExt (.star 2 (.nt 1 "underscore")) s (.ok (s.dropWhile (fun c => decide (c = '_'))) (.rep t))
    [(s.dropWhile (fun c => decide (c = '_')), "_")] := by
  have hu : "_".toList = ['_'] := by decide
  induction s with
  | nil => exact ⟨_, .star_stop (.nt_fail rfl (.str_fail (by rw [hu]; simp)))⟩
  | cons c s ih =>
    by_cases hc : c = '_'
    · subst hc
      obtain ⟨t, ih⟩ := ih
      rw [List.dropWhile_cons_of_pos (by simp)]
      have h1 : Peg digitsG noExt (.str 0 "_") ('_' :: s) (.ok s .leaf) [] := by
        have := Peg.str_ok (G := digitsG) (X := noExt) (i := 0) (lit := "_") (r := s)
        rw [hu] at this
        exact this
      exact ⟨_, Peg.star_more (L1 := []) (.nt_ok rfl h1) ih⟩
    · rw [List.dropWhile_cons_of_neg (by simpa using hc)]
      exact ⟨_, .star_stop (.nt_fail rfl (.str_fail (by rw [hu]; simpa using Ne.symm hc)))⟩

theorem drop_underscores (s : List Char) : ∃ us, s = us ++ s.dropWhile (fun c => decide (c = '_')) ∧ ∀ c ∈ us, c = '_' := by
  induction s with
  | nil => exact ⟨[], rfl, by simp⟩
  | cons c s ih =>
    by_cases hc : c = '_'
    · obtain ⟨us, h1, h2⟩ := ih
      rw [List.dropWhile_cons_of_pos (by simp [hc])]
      refine ⟨c :: us, by rw [List.cons_append, ← h1], ?_⟩
      intro x hx
      rcases List.mem_cons.1 hx with rfl | hx
      · exact hc
      · exact h2 x hx
    · rw [List.dropWhile_cons_of_neg (by simpa using hc)]
      exact ⟨[], rfl, by simp⟩

/-- Digits with underscores, as many as possible. -/
theorem groups_peg {T : Nat → Ty} (H : ∀ i, i < 8 → (T i = .unit ↔ i ∈ digitsUnits)) {sp : SpanSpec} (n : Nat) : ∀ s : List Char, s.length ≤ n →
    ∃ m us e ts L, s = m ++ us ++ e ∧ Split m us e ∧ Peg digitsG noExt (.star 5 group) s (.ok (us ++ e) (.rep ts)) L ∧
      astRep digitsG T sp group ts = (m.filter isDigit).map .chr ∧ (∀ x ∈ L, x.1 = e ∨ e.length < x.1.length) ∧ expectedAt e L = ["_", digitDesc] ∧
      (m = [] → ts = [] ∧ Peg digitsG noExt group s .fail L) := by
  have h3 : T 3 ≠ .unit := fun h => absurd ((H 3 (by decide)).1 h) (by decide)
  have h4 : T 4 ≠ .unit := fun h => absurd ((H 4 (by decide)).1 h) (by decide)
  have h7 : T 7 ≠ .unit := fun h => absurd ((H 7 (by decide)).1 h) (by decide)
  have h2 : T 2 = .unit := (H 2 (by decide)).2 (by decide)
  induction n with
  | zero =>
    intro s hs
    obtain rfl := List.length_eq_zero_iff.1 (Nat.le_zero.1 hs)
    obtain ⟨t, ht⟩ := underscores_peg []
    have hf : Peg digitsG noExt group [] .fail ([([], "_")] ++ [([], digitDesc)]) :=
      .seq_later ht (.seq_fail (.nt_fail rfl .cls_eof))
    exact ⟨[], [], [], [], _, rfl, ⟨by simp, by simp, by simp, by simp⟩, .star_stop hf, by simp [astRep], by simp, by simp [expectedAt], fun _ => ⟨rfl, hf⟩⟩
  | succ n ih =>
    intro s hs
    obtain ⟨t, ht⟩ := underscores_peg s
    obtain ⟨us, hus, hu⟩ := drop_underscores s
    cases hr : s.dropWhile (fun c => decide (c = '_')) with
    | nil =>
      rw [hr] at ht hus
      rw [List.append_nil] at hus
      have hf : Peg digitsG noExt group s .fail ([([], "_")] ++ [([], digitDesc)]) :=
        .seq_later ht (.seq_fail (.nt_fail rfl .cls_eof))
      refine ⟨[], us, [], [], _, by simpa using hus, ⟨by simp, by simp, hu, by simp⟩, ?_, by simp [astRep], by simp, by simp [expectedAt], fun _ => ⟨rfl, hf⟩⟩
      rw [List.append_nil, ← hus]
      exact .star_stop hf
    | cons c r =>
      rw [hr] at ht hus
      have hne : c ≠ '_' := by
        have := List.head?_dropWhile_not (fun c => decide (c = '_')) s
        rw [hr] at this
        simpa using this
      by_cases hd : isDigit c = true
      · have hl : r.length ≤ n := by
          have := congrArg List.length hus
          simp only [List.length_append, List.length_cons] at this
          omega
        obtain ⟨m, us', e, ts, L, hs', hsp, hp, ha, hL, hx, _⟩ := ih r hl
        have hone : Peg digitsG noExt group s (.ok r (.seq [.rep t, .nt (.chr c)])) ([(c :: r, "_")] ++ ([] ++ [])) :=
          .seq_cons ht (.seq_cons (.nt_ok rfl (.cls_ok (inClass_digit.2 hd))) .seq_nil)
        refine ⟨us ++ c :: m, us', e, _, _, ?_, ⟨?_, ?_, hsp.underscores, hsp.stop⟩, .star_more hone hp, ?_, ?_, ?_, by simp⟩
        · rw [hus, hs']; simp
        · intro x hx
          simp only [List.mem_append, List.mem_cons] at hx
          rcases hx with hx | rfl | hx
          · rw [hu x hx]; exact isPart_underscore
          · simp [isPart, hd]
          · exact hsp.parts x hx
        · intro x hx
          cases m with
          | nil => simp at hx; rw [← hx]; exact hd
          | cons y m =>
            apply hsp.last
            rw [← hx]; simp [List.getLast?_cons]
        · have hf : us.filter isDigit = [] := by
            rw [List.filter_eq_nil_iff]
            intro x hx; rw [hu x hx]; decide
          have hG : digitsG.find "digit" = some (.cls 7 [⟨'0', '9'⟩]) := rfl
          rw [List.filter_append, hf, List.filter_cons_of_pos hd, List.nil_append, List.map_cons, ← ha, astRep]
          congr 1
          unfold group
          rw [ast_seq, if_neg h4]
          simp only [astSeq, ast_nt hG, ast_cls, ast_star, if_neg h3, if_neg h7, if_pos h2, List.nil_append, List.append_nil, tupleVal]
        · intro x hx
          have hlen : e.length ≤ r.length := by rw [hs']; simp only [List.length_append]; omega
          simp only [List.append_nil, List.cons_append, List.nil_append, List.mem_cons] at hx
          rcases hx with rfl | hx
          · right; simp only [List.length_cons]; omega
          · exact hL x hx
        · have hlen : e.length ≤ r.length := by rw [hs']; simp only [List.length_append]; omega
          have hne' : c :: r ≠ e := fun h => by have := congrArg List.length h; simp only [List.length_cons] at this; omega
          rw [← hx]
          simp [expectedAt, hne']
      · have hf : Peg digitsG noExt group s .fail ([(c :: r, "_")] ++ [(c :: r, digitDesc)]) :=
          .seq_later ht (.seq_fail (.nt_fail rfl (.cls_fail (fun h => hd (inClass_digit.1 h)))))
        refine ⟨[], us, c :: r, [], _, by simpa using hus, ⟨by simp, by simp, hu, ?_⟩, ?_, by simp [astRep], by simp, by simp [expectedAt], fun _ => ⟨rfl, hf⟩⟩
        · intro x hx
          cases hx
          simp [isPart, hne, hd]
        · rw [← hus]
          exact .star_stop hf

theorem plus_of_star {G : Grammar} {X : ExtSpec} {i : Nat} {e : Expr} {s r : List Char} {ts : List Tree} {L : Log} (h : Peg G X (.star i e) s (.ok r (.rep ts)) L) (hts : ts ≠ []) :
    Peg G X (.plus i e) s (.ok r (.rep ts)) L := by
  cases h with
  | star_stop => exact absurd rfl hts
  | star_more h1 h2 => exact .plus_ok h1 h2

/-! ## stream_span.rs -/

theorem str_one {G : Grammar} {X : ExtSpec} {i : Nat} {l : String} {c : Char} (hl : l.toList = [c]) {s r : List Char} {t : Tree} {L : Log} :
    Peg G X (.str i l) s (.ok r t) L ↔ s = c :: r ∧ t = .leaf ∧ L = [] := by
  constructor
  · intro h
    cases h with
    | str_ok => exact ⟨by rw [hl]; rfl, rfl, rfl⟩
  · rintro ⟨rfl, rfl, rfl⟩
    have := Peg.str_ok (G := G) (X := X) (i := i) (lit := l) (r := r)
    rw [hl] at this
    exact this

/-- `expr` -/
def exprBody : Expr := .act 7 (.span 6 (.seq 5 [.nt 0 "span_a", .any 1, .span 3 (.any 2), .str 4 "b"])) false ["make_expr"]

/-- `expr2` -/
def expr2Body : Expr := .act 14 (.span 13 (.seq 12 [.nt 8 "span_a", .any 9, .nt 10 "inner_expr", .str 11 "b"])) false ["make_expr"]

/-- `expr3` -/
def expr3Body : Expr := .span 26 (.seq 25 [.choice 23 [.str 21 "a", .str 22 "b"], .str 24 "c"])

theorem span_a_find : spansG.find "span_a" = some (.span 20 (.str 19 "a")) := rfl

theorem inner_find : spansG.find "inner_expr" = some (.span 18 (.choice 17 [.any 15, .any 16])) := rfl

theorem expr_ok {s r : List Char} {t : Tree} {L : Log} : Peg spansG noExt exprBody s (.ok r t) L ↔ ∃ c d, s = 'a' :: c :: d :: 'b' :: r ∧ L = [] ∧
    t = .act (.spanned s r (.seq [.nt (.spanned s (c :: d :: 'b' :: r) .leaf), .chr c, .spanned (d :: 'b' :: r) ('b' :: r) (.chr d), .leaf])) := by
  constructor
  · intro h
    cases h with | act_ok h =>
    cases h with | span_ok h =>
    cases h with | seq_cons h1 h =>
    cases h with | seq_cons h2 h =>
    cases h with | seq_cons h3 h =>
    cases h with | seq_cons h4 h =>
    cases h with | seq_nil =>
    cases h1 with | nt_ok hf h1 =>
    cases span_a_find.symm.trans hf
    cases h1 with | span_ok h1 =>
    obtain ⟨rfl, rfl, rfl⟩ := (str_one (by decide : "a".toList = ['a'])).1 h1
    cases h2 with | any_ok =>
    cases h3 with | span_ok h3 =>
    cases h3 with | any_ok =>
    obtain ⟨rfl, rfl, rfl⟩ := (str_one (by decide : "b".toList = ['b'])).1 h4
    exact ⟨_, _, rfl, rfl, rfl⟩
  · rintro ⟨c, d, rfl, rfl, rfl⟩
    exact .act_ok (.span_ok (.seq_cons (L1 := []) (L2 := []) (.nt_ok span_a_find (.span_ok ((str_one (by decide)).2 ⟨rfl, rfl, rfl⟩))) (.seq_cons (L1 := []) (L2 := []) .any_ok
      (.seq_cons (L1 := []) (L2 := []) (.span_ok .any_ok) (.seq_cons (L1 := []) (L2 := []) ((str_one (by decide)).2 ⟨rfl, rfl, rfl⟩) .seq_nil)))))

theorem expr2_ok {s r : List Char} {t : Tree} {L : Log} : Peg spansG noExt expr2Body s (.ok r t) L ↔ ∃ c d, s = 'a' :: c :: d :: 'b' :: r ∧ L = [] ∧
    t = .act (.spanned s r (.seq [.nt (.spanned s (c :: d :: 'b' :: r) .leaf), .chr c, .nt (.spanned (d :: 'b' :: r) ('b' :: r) (.alt 0 (.chr d))), .leaf])) := by
  constructor
  · intro h
    cases h with | act_ok h =>
    cases h with | span_ok h =>
    cases h with | seq_cons h1 h =>
    cases h with | seq_cons h2 h =>
    cases h with | seq_cons h3 h =>
    cases h with | seq_cons h4 h =>
    cases h with | seq_nil =>
    cases h1 with | nt_ok hf h1 =>
    cases span_a_find.symm.trans hf
    cases h1 with | span_ok h1 =>
    obtain ⟨rfl, rfl, rfl⟩ := (str_one (by decide : "a".toList = ['a'])).1 h1
    cases h2 with | any_ok =>
    cases h3 with | nt_ok hf h3 =>
    cases inner_find.symm.trans hf
    cases h3 with | span_ok h3 =>
    obtain ⟨rfl, rfl, rfl⟩ := (str_one (by decide : "b".toList = ['b'])).1 h4
    cases h3 with
    | choice_first h3 =>
      cases h3 with | any_ok => exact ⟨_, _, rfl, rfl, rfl⟩
    | choice_next h3 h5 =>
      cases h3
      cases h5 with
      | choice_first h => cases h
      | choice_next _ h => cases h
  · rintro ⟨c, d, rfl, rfl, rfl⟩
    exact .act_ok (.span_ok (.seq_cons (L1 := []) (L2 := []) (.nt_ok span_a_find (.span_ok ((str_one (by decide)).2 ⟨rfl, rfl, rfl⟩))) (.seq_cons (L1 := []) (L2 := []) .any_ok
      (.seq_cons (L1 := []) (L2 := []) (.nt_ok inner_find (.span_ok (.choice_first .any_ok))) (.seq_cons (L1 := []) (L2 := []) ((str_one (by decide)).2 ⟨rfl, rfl, rfl⟩) .seq_nil)))))

theorem expr3_ok {s r : List Char} : (∃ t L, Peg spansG noExt expr3Body s (.ok r t) L) ↔ s = 'a' :: 'c' :: r ∨ s = 'b' :: 'c' :: r := by
  constructor
  · rintro ⟨t, L, h⟩
    cases h with | span_ok h =>
    cases h with | seq_cons h1 h =>
    cases h with | seq_cons h2 h =>
    cases h with | seq_nil =>
    obtain ⟨rfl, rfl, rfl⟩ := (str_one (by decide : "c".toList = ['c'])).1 h2
    cases h1 with
    | choice_first h1 =>
      obtain ⟨rfl, rfl, rfl⟩ := (str_one (by decide : "a".toList = ['a'])).1 h1
      exact .inl rfl
    | choice_next _ h1 =>
      cases h1 with
      | choice_first h1 =>
        obtain ⟨rfl, rfl, rfl⟩ := (str_one (by decide : "b".toList = ['b'])).1 h1
        exact .inr rfl
      | choice_next _ h1 => cases h1
  · rintro (rfl | rfl)
    · exact ⟨_, _, .span_ok (.seq_cons (.choice_first ((str_one (by decide)).2 ⟨rfl, rfl, rfl⟩)) (.seq_cons ((str_one (by decide)).2 ⟨rfl, rfl, rfl⟩) .seq_nil))⟩
    · exact ⟨_, _, .span_ok (.seq_cons (.choice_next (.str_fail (by rw [show "a".toList = ['a'] from by decide]; simp)) (.choice_first ((str_one (by decide)).2 ⟨rfl, rfl, rfl⟩)))
        (.seq_cons ((str_one (by decide)).2 ⟨rfl, rfl, rfl⟩) .seq_nil))⟩

end Oak.Numerals
