import Verif.Proofs.Numerals
/-!
Rules of combinators.rs, on every text.
-/
set_option linter.constructorNameAsVariable false
set_option autoImplicit false

namespace Oak.Numerals
open Oak Spec

/-- Everything up to a character. -/
theorem until_peg {G : Grammar} {X : ExtSpec} {T : Nat → Ty} {sp : SpanSpec} {i j k n m : Nat} {l : String} {x : Char} (hl : l.toList = [x]) (hj : T j ≠ .unit) (hm : T m ≠ .unit)
    (s : List Char) : ∃ ts L, Peg G X (.star i (.seq j [.not k (.str n l), .any m])) s (.ok (s.dropWhile (fun c => decide (c ≠ x))) (.rep ts)) L ∧
      astRep G T sp (.seq j [.not k (.str n l), .any m]) ts = (s.takeWhile (fun c => decide (c ≠ x))).map .chr ∧ (s.head?.any (fun c => decide (c ≠ x)) = true → ts ≠ []) := by
  induction s with
  | nil => exact ⟨[], _, .star_stop (.seq_later (.not_ok (.str_fail (by rw [hl]; simp))) (.seq_fail .any_fail)), by simp [astRep], by simp⟩
  | cons c s ih =>
    by_cases hc : c = x
    · subst hc
      refine ⟨[], [], ?_, by simp [astRep], by simp⟩
      rw [List.dropWhile_cons_of_neg (by simp)]
      exact .star_stop (.seq_fail (.not_fail ((str_one hl).2 ⟨rfl, rfl, rfl⟩)))
    · obtain ⟨ts, L, h1, h2, _⟩ := ih
      have hd : (c :: s).dropWhile (fun c => decide (c ≠ x)) = s.dropWhile (fun c => decide (c ≠ x)) := List.dropWhile_cons_of_pos (by simpa using hc)
      refine ⟨.seq [.leaf, .chr c] :: ts, ([(c :: s, l)] ++ ([] ++ [])) ++ L, ?_, ?_, by simp⟩
      · rw [hd]
        exact .star_more (.seq_cons (.not_ok (.str_fail (by rw [hl]; simpa using Ne.symm hc))) (.seq_cons .any_ok .seq_nil)) h1
      · rw [List.takeWhile_cons_of_pos (by simpa using hc), List.map_cons, ← h2, astRep, ast_seq, if_neg hj]
        simp only [astSeq, ast_leaf, ast_any, if_neg hm, List.nil_append, List.append_nil, tupleVal]

/-- `predicate` -/
def predicateBody : Expr := .choice 61 [
  .seq 52 [.and 46 (.str 45 "a"), .plus 51 (.seq 50 [.not 48 (.str 47 "b"), .any 49])],
  .seq 60 [.and 54 (.str 53 "b"), .plus 59 (.seq 58 [.not 56 (.str 55 "a"), .any 57])]]

/-- The outcome of `predicate` on each text. -/
theorem predicate_peg {T : Nat → Ty} (H : ∀ i, i < 99 → (T i = .unit ↔ i ∈ combinatorsUnits)) {sp : SpanSpec} (s : List Char) :
    (∃ x y, ((x = 'a' ∧ y = 'b') ∨ (x = 'b' ∧ y = 'a')) ∧ s.head? = some x ∧ ∃ t L, Peg combinatorsG noExt predicateBody s (.ok (s.dropWhile (fun c => decide (c ≠ y))) t) L ∧
      ast combinatorsG T sp predicateBody t = [.list ((s.takeWhile (fun c => decide (c ≠ y))).map .chr)]) ∨
    (s.head? ≠ some 'a' ∧ s.head? ≠ some 'b' ∧ ∃ L, Peg combinatorsG noExt predicateBody s .fail L) := by
  have hn : ∀ i, i < 99 → i ∉ combinatorsUnits → T i ≠ .unit := fun i hi h h' => h ((H i hi).1 h')
  have ha : "a".toList = ['a'] := by decide
  have hb : "b".toList = ['b'] := by decide
  unfold predicateBody
  by_cases h1 : s.head? = some 'a'
  · left
    refine ⟨'a', 'b', .inl ⟨rfl, rfl⟩, h1, ?_⟩
    obtain ⟨c, s', rfl⟩ : ∃ c s', s = c :: s' := by cases s with | nil => cases h1 | cons c s => exact ⟨c, s, rfl⟩
    cases h1
    obtain ⟨ts, L, h2, h3, h4⟩ := until_peg (G := combinatorsG) (X := noExt) (sp := sp) (i := 51) (k := 48) (n := 47) hb (hn 50 (by decide) (by decide)) (hn 49 (by decide) (by decide))
      ('a' :: s')
    refine ⟨_, _, .choice_first (.seq_cons (.and_ok ((str_one ha).2 ⟨rfl, rfl, rfl⟩)) (.seq_cons (plus_of_star h2 (h4 (by simp))) .seq_nil)), ?_⟩
    rw [ast_alt_first, if_neg (hn 61 (by decide) (by decide)), ast_seq, if_neg (hn 52 (by decide) (by decide))]
    simp only [astSeq, ast_leaf, ast_plus, if_neg (hn 51 (by decide) (by decide)), h3, List.nil_append, List.append_nil]
  · have hf : ∃ L, Peg combinatorsG noExt (.seq 52 [.and 46 (.str 45 "a"), .plus 51 (.seq 50 [.not 48 (.str 47 "b"), .any 49])]) s .fail L := by
      refine ⟨_, .seq_fail (.and_fail (.str_fail ?_))⟩
      rw [ha]
      cases s with
      | nil => simp
      | cons c s => simpa using fun h => h1 (by rw [h]; rfl)
    obtain ⟨L1, hf⟩ := hf
    by_cases h2 : s.head? = some 'b'
    · left
      refine ⟨'b', 'a', .inr ⟨rfl, rfl⟩, h2, ?_⟩
      obtain ⟨c, s', rfl⟩ : ∃ c s', s = c :: s' := by cases s with | nil => cases h2 | cons c s => exact ⟨c, s, rfl⟩
      cases h2
      obtain ⟨ts, L, h2, h3, h4⟩ := until_peg (G := combinatorsG) (X := noExt) (sp := sp) (i := 59) (k := 56) (n := 55) ha (hn 58 (by decide) (by decide))
        (hn 57 (by decide) (by decide)) ('b' :: s')
      refine ⟨_, _, .choice_next hf (.choice_first (.seq_cons (.and_ok ((str_one hb).2 ⟨rfl, rfl, rfl⟩)) (.seq_cons (plus_of_star h2 (h4 (by simp))) .seq_nil))), ?_⟩
      rw [ast_alt_next, ast_alt_first, if_neg (hn 61 (by decide) (by decide)), ast_seq, if_neg (hn 60 (by decide) (by decide))]
      simp only [astSeq, ast_leaf, ast_plus, if_neg (hn 59 (by decide) (by decide)), h3, List.nil_append, List.append_nil]
    · right
      refine ⟨h1, h2, _, .choice_fail hf (.choice_fail (.seq_fail (.and_fail (.str_fail ?_))) .choice_nil)⟩
      rw [hb]
      cases s with
      | nil => simp
      | cons c s => simpa using fun h => h2 (by rw [h]; rfl)

/-- Characters of a class, as many as possible. -/
theorem class_peg {G : Grammar} {X : ExtSpec} {T : Nat → Ty} {sp : SpanSpec} {i j : Nat} {ivs : List Interval} (hj : T j ≠ .unit) {w r : List Char} (hw : ∀ c ∈ w, InClass ivs c)
    (hr : ∀ c, r.head? = some c → ¬ InClass ivs c) : ∃ ts L, Peg G X (.star i (.cls j ivs)) (w ++ r) (.ok r (.rep ts)) L ∧
      astRep G T sp (.cls j ivs) ts = w.map .chr ∧ (w ≠ [] → ts ≠ []) := by
  induction w with
  | nil =>
    cases r with
    | nil => exact ⟨[], _, .star_stop .cls_eof, by simp [astRep], by simp⟩
    | cons c r => exact ⟨[], _, .star_stop (.cls_fail (hr c rfl)), by simp [astRep], by simp⟩
  | cons c w ih =>
    obtain ⟨ts, L, h1, h2, _⟩ := ih (fun x hx => hw x (List.mem_cons_of_mem _ hx))
    refine ⟨.chr c :: ts, _, .star_more (.cls_ok (hw c List.mem_cons_self)) h1, ?_, by simp⟩
    rw [List.map_cons, ← h2, astRep, ast_cls, if_neg hj]
    simp only [tupleVal]

theorem class_inv {G : Grammar} {X : ExtSpec} {i j : Nat} {ivs : List Interval} {n : Nat} : ∀ {s r : List Char} {t : Tree} {L : Log}, s.length ≤ n →
    Peg G X (.star i (.cls j ivs)) s (.ok r t) L → ∃ w, s = w ++ r ∧ ∀ c ∈ w, InClass ivs c := by
  induction n with
  | zero =>
    intro s r t L hs h
    obtain rfl := List.length_eq_zero_iff.1 (Nat.le_zero.1 hs)
    cases h with
    | star_stop => exact ⟨[], rfl, by simp⟩
    | star_more h1 _ => cases h1
  | succ n ih =>
    intro s r t L hs h
    cases h with
    | star_stop => exact ⟨[], rfl, by simp⟩
    | star_more h1 h2 =>
      cases h1 with
      | @cls_ok _ _ c _ hc =>
        obtain ⟨w, rfl, hw⟩ := ih (by simpa using hs) h2
        refine ⟨c :: w, rfl, fun x hx => ?_⟩
        rcases List.mem_cons.1 hx with rfl | hx
        · exact hc
        · exact hw x hx

/-- `char_class` -/
def classBody : Expr := .seq 80 [.plus 76 (.cls 75 [⟨'a', 'z'⟩, ⟨'A', 'Z'⟩, ⟨'1', '1'⟩, ⟨'2', '2'⟩, ⟨'_', '_'⟩]),
    .opt 78 (.cls 77 [⟨'\t', '\t'⟩, ⟨' ', ' '⟩]), .cls 79 [⟨'-', '-'⟩]]

theorem char_le_antisymm {a c : Char} (h1 : a ≤ c) (h2 : c ≤ a) : c = a := Char.le_antisymm h2 h1

theorem inClass_letter {c : Char} : InClass [⟨'a', 'z'⟩, ⟨'A', 'Z'⟩, ⟨'1', '1'⟩, ⟨'2', '2'⟩, ⟨'_', '_'⟩] c ↔ isLetter c = true := by
  have h1 : ∀ a : Char, (a ≤ c ∧ c ≤ a) ↔ c = a := fun a => ⟨fun h => char_le_antisymm h.1 h.2, fun h => by subst h; exact ⟨Char.le_refl _, Char.le_refl _⟩⟩
  simp [InClass, isLetter, h1, or_assoc]

theorem inClass_blank {c : Char} : InClass [⟨'\t', '\t'⟩, ⟨' ', ' '⟩] c ↔ c = '\t' ∨ c = ' ' := by
  have h1 : ∀ a : Char, (a ≤ c ∧ c ≤ a) ↔ c = a := fun a => ⟨fun h => char_le_antisymm h.1 h.2, fun h => by subst h; exact ⟨Char.le_refl _, Char.le_refl _⟩⟩
  simp [InClass, h1]

theorem inClass_dash {c : Char} : InClass [⟨'-', '-'⟩] c ↔ c = '-' := by
  have h1 : ∀ a : Char, (a ≤ c ∧ c ≤ a) ↔ c = a := fun a => ⟨fun h => char_le_antisymm h.1 h.2, fun h => by subst h; exact ⟨Char.le_refl _, Char.le_refl _⟩⟩
  simp [InClass, h1]

/-- Full matches of `char_class`. -/
theorem class_full {T : Nat → Ty} (H : ∀ i, i < 99 → (T i = .unit ↔ i ∈ combinatorsUnits)) {sp : SpanSpec} {s : List Char} :
    (∀ t L, Peg combinatorsG noExt classBody s (.ok [] t) L → ∃ w b, w ≠ [] ∧ (∀ c ∈ w, isLetter c = true) ∧ (b = none ∨ b = some '\t' ∨ b = some ' ') ∧
      s = w ++ b.toList ++ ['-']) ∧
    ∀ w b, w ≠ [] → (∀ c ∈ w, isLetter c = true) → (b = none ∨ b = some '\t' ∨ b = some ' ') → s = w ++ b.toList ++ ['-'] →
      ∃ t L, Peg combinatorsG noExt classBody s (.ok [] t) L ∧
        ast combinatorsG T sp classBody t = [.list (w.map .chr), (match b with | none => .none | some c => .some (.chr c)), .chr '-'] := by
  have hn : ∀ i, i < 99 → i ∉ combinatorsUnits → T i ≠ .unit := fun i hi h h' => h ((H i hi).1 h')
  unfold classBody
  constructor
  · intro t L h
    cases h with | seq_cons h1 h =>
    cases h with | seq_cons h2 h =>
    cases h with | seq_cons h3 h =>
    cases h with | seq_nil =>
    cases h3 with | cls_ok hd =>
    obtain rfl := inClass_dash.1 hd
    cases h1 with | plus_ok h0 h1 =>
    cases h0 with | @cls_ok _ _ c _ hc =>
    obtain ⟨w, rfl, hw⟩ := class_inv (Nat.le_refl _) h1
    have hall : ∀ x ∈ c :: w, isLetter x = true := by
      intro x hx
      rcases List.mem_cons.1 hx with rfl | hx
      · exact inClass_letter.1 hc
      · exact inClass_letter.1 (hw x hx)
    cases h2 with
    | opt_none => exact ⟨c :: w, none, by simp, hall, .inl rfl, by simp⟩
    | opt_some h2 =>
      cases h2 with
      | @cls_ok _ _ x _ hx =>
        refine ⟨c :: w, some x, by simp, hall, ?_, by simp⟩
        rcases inClass_blank.1 hx with rfl | rfl
        · exact .inr (.inl rfl)
        · exact .inr (.inr rfl)
  · rintro w b hw0 hw hb rfl
    have hr : ∀ c, (b.toList ++ ['-']).head? = some c → ¬ InClass [⟨'a', 'z'⟩, ⟨'A', 'Z'⟩, ⟨'1', '1'⟩, ⟨'2', '2'⟩, ⟨'_', '_'⟩] c := by
      intro c hc
      rw [inClass_letter]
      rcases hb with rfl | rfl | rfl <;> (cases hc; decide)
    obtain ⟨ts, L, h1, h2, h3⟩ := class_peg (G := combinatorsG) (X := noExt) (sp := sp) (i := 76) (hn 75 (by decide) (by decide)) (fun c hc => inClass_letter.2 (hw c hc)) hr
    have hdash : Peg combinatorsG noExt (.cls 79 [⟨'-', '-'⟩]) ['-'] (.ok [] (.chr '-')) [] := .cls_ok (inClass_dash.2 rfl)
    have hopt : ∃ t L, Peg combinatorsG noExt (.opt 78 (.cls 77 [⟨'\t', '\t'⟩, ⟨' ', ' '⟩])) (b.toList ++ ['-']) (.ok ['-'] t) L ∧
        ast combinatorsG T sp (.opt 78 (.cls 77 [⟨'\t', '\t'⟩, ⟨' ', ' '⟩])) t = [match b with | none => .none | some c => .some (.chr c)] := by
      have hsome : ∀ c, InClass [⟨'\t', '\t'⟩, ⟨' ', ' '⟩] c → ∃ t L, Peg combinatorsG noExt (.opt 78 (.cls 77 [⟨'\t', '\t'⟩, ⟨' ', ' '⟩])) (c :: ['-']) (.ok ['-'] t) L ∧
          ast combinatorsG T sp (.opt 78 (.cls 77 [⟨'\t', '\t'⟩, ⟨' ', ' '⟩])) t = [.some (.chr c)] := by
        intro c hc
        refine ⟨_, _, .opt_some (.cls_ok hc), ?_⟩
        rw [ast_opt, if_neg (hn 78 (by decide) (by decide)), ast_cls, if_neg (hn 77 (by decide) (by decide))]
        rfl
      rcases hb with rfl | rfl | rfl
      · refine ⟨_, _, .opt_none (.cls_fail (fun h => by rcases inClass_blank.1 h with h | h <;> exact absurd h (by decide))), ?_⟩
        rw [ast_opt_none, if_neg (hn 78 (by decide) (by decide))]
      · exact hsome _ (inClass_blank.2 (.inl rfl))
      · exact hsome _ (inClass_blank.2 (.inr rfl))
    obtain ⟨t, L2, h4, h5⟩ := hopt
    rw [List.append_assoc]
    refine ⟨_, _, .seq_cons (plus_of_star h1 (h3 hw0)) (.seq_cons h4 (.seq_cons hdash .seq_nil)), ?_⟩
    rw [ast_seq, if_neg (hn 80 (by decide) (by decide))]
    simp only [astSeq, h5, ast_plus, if_neg (hn 76 (by decide) (by decide)), h2, ast_cls, if_neg (hn 79 (by decide) (by decide)), List.nil_append, List.append_nil,
      List.cons_append]
    cases b <;> rfl

theorem until_stop {x : Char} {w r : List Char} (hw : x ∉ w) (hr : ∀ c, r.head? = some c → c = x) :
    (w ++ r).takeWhile (fun c => decide (c ≠ x)) = w ∧ (w ++ r).dropWhile (fun c => decide (c ≠ x)) = r := by
  induction w with
  | nil =>
    cases r with
    | nil => exact ⟨rfl, rfl⟩
    | cons c r =>
      obtain rfl := hr c rfl
      exact ⟨List.takeWhile_cons_of_neg (by simp), List.dropWhile_cons_of_neg (by simp)⟩
  | cons c w ih =>
    simp only [List.mem_cons, not_or] at hw
    obtain ⟨h1, h2⟩ := ih hw.2
    rw [List.cons_append, List.takeWhile_cons_of_pos (by simpa using Ne.symm hw.1), List.dropWhile_cons_of_pos (by simpa using Ne.symm hw.1), h1, h2]
    exact ⟨rfl, rfl⟩

/-- Everything up to a character, at least one character. -/
theorem until_plus {G : Grammar} {X : ExtSpec} {T : Nat → Ty} {sp : SpanSpec} {i j k n m : Nat} {l : String} {x : Char} (hl : l.toList = [x]) (hj : T j ≠ .unit) (hm : T m ≠ .unit)
    {w r : List Char} (h0 : w ≠ []) (hw : x ∉ w) (hr : ∀ c, r.head? = some c → c = x) :
    ∃ ts L, Peg G X (.plus i (.seq j [.not k (.str n l), .any m])) (w ++ r) (.ok r (.rep ts)) L ∧ astRep G T sp (.seq j [.not k (.str n l), .any m]) ts = w.map .chr := by
  obtain ⟨ts, L, h1, h2, h3⟩ := until_peg (G := G) (X := X) (sp := sp) (i := i) (k := k) (n := n) hl hj hm (w ++ r)
  obtain ⟨k1, k2⟩ := until_stop hw hr
  rw [k1] at h2
  rw [k2] at h1
  refine ⟨ts, L, plus_of_star h1 (h3 ?_), h2⟩
  cases w with
  | nil => exact absurd rfl h0
  | cons c w => simpa using fun h => hw (by simp [h])

theorem until_inv {G : Grammar} {X : ExtSpec} (hX : X.Det) {i j k n m : Nat} {l : String} {x : Char} (hl : l.toList = [x])
    {s r : List Char} {t : Tree} {L : Log} (h : Peg G X (.plus i (.seq j [.not k (.str n l), .any m])) s (.ok r t) L) :
    ∃ w, w ≠ [] ∧ x ∉ w ∧ s = w ++ r ∧ ∀ c, r.head? = some c → c = x := by
  cases h with
  | plus_ok h0 h1 =>
    obtain ⟨ts, L', h2, _, _⟩ := until_peg (G := G) (X := X) (T := fun _ => .atom) (sp := strSpans s) (i := i) (j := j) (k := k) (n := n) (m := m) hl (by simp) (by simp) s
    obtain ⟨ho, _⟩ := (Peg.star_more h0 h1).det hX h2
    cases ho
    refine ⟨s.takeWhile (fun c => decide (c ≠ x)), ?_, ?_, (List.takeWhile_append_dropWhile).symm, ?_⟩
    · cases h0 with | seq_cons hnot hany =>
      cases hany with | seq_cons hany hnil =>
      cases hany with | @any_ok _ c =>
      cases hnot with | not_ok hs =>
      cases hnil
      by_cases hc : c = x
      · subst hc
        obtain ⟨ho, _⟩ := hs.det hX ((str_one hl).2 ⟨rfl, rfl, rfl⟩)
        cases ho
      · rw [List.takeWhile_cons_of_pos (by simpa using hc)]
        exact List.cons_ne_nil _ _
    · intro hx
      have := List.all_takeWhile (p := fun c => decide (c ≠ x)) (l := s)
      simpa using List.all_eq_true.1 this x hx
    · intro c hc
      have h := List.head?_dropWhile_not (p := fun c => decide (c ≠ x)) (l := s)
      rw [hc] at h
      simpa using h

/-- `non_terminal_bis` -/
def bisBody : Expr := .seq 98 [.choice 92 [.seq 88 [.str 86 "b", .any 87], .seq 91 [.str 89 "c", .any 90]], .plus 97 (.seq 96 [.not 94 (.str 93 "d"), .any 95])]

theorem bis_inv {s r : List Char} {t : Tree} {L : Log} (h : Peg combinatorsG noExt bisBody s (.ok r t) L) :
    ∃ k x w, (k = 'b' ∨ k = 'c') ∧ w ≠ [] ∧ 'd' ∉ w ∧ s = k :: x :: w ++ r ∧ ∀ c, r.head? = some c → c = 'd' := by
  have hX : ExtSpec.Det noExt := fun _ _ _ _ _ _ h => h.elim
  unfold bisBody at h
  cases h with | seq_cons h1 h =>
  cases h with | seq_cons h2 h =>
  cases h with | seq_nil =>
  obtain ⟨w, hw0, hw, rfl, hr⟩ := until_inv hX (by decide : "d".toList = ['d']) h2
  cases h1 with
  | choice_first h1 =>
    cases h1 with | seq_cons ha h1 =>
    cases h1 with | seq_cons hb h1 =>
    cases h1 with | seq_nil =>
    cases hb with | @any_ok _ x =>
    obtain ⟨rfl, _, _⟩ := (str_one (by decide : "b".toList = ['b'])).1 ha
    exact ⟨'b', x, w, .inl rfl, hw0, hw, rfl, hr⟩
  | choice_next _ h1 =>
    cases h1 with
    | choice_next _ h1 => cases h1
    | choice_first h1 =>
      cases h1 with | seq_cons ha h1 =>
      cases h1 with | seq_cons hb h1 =>
      cases h1 with | seq_nil =>
      cases hb with | @any_ok _ x =>
      obtain ⟨rfl, _, _⟩ := (str_one (by decide : "c".toList = ['c'])).1 ha
      exact ⟨'c', x, w, .inr rfl, hw0, hw, rfl, hr⟩

theorem bis_peg {T : Nat → Ty} (H : ∀ i, i < 99 → (T i = .unit ↔ i ∈ combinatorsUnits)) {sp : SpanSpec} {k x : Char} {w r : List Char} (hk : k = 'b' ∨ k = 'c') (hw0 : w ≠ [])
    (hw : 'd' ∉ w) (hr : ∀ c, r.head? = some c → c = 'd') :
    ∃ t L, Peg combinatorsG noExt bisBody (k :: x :: w ++ r) (.ok r t) L ∧ ast combinatorsG T sp bisBody t = [.chr x, .list (w.map .chr)] := by
  have hn : ∀ i, i < 99 → i ∉ combinatorsUnits → T i ≠ .unit := fun i hi h h' => h ((H i hi).1 h')
  have hb : "b".toList = ['b'] := by decide
  have hc : "c".toList = ['c'] := by decide
  obtain ⟨ts, L, h1, h2⟩ := until_plus (G := combinatorsG) (X := noExt) (sp := sp) (i := 97) (k := 94) (n := 93) (by decide : "d".toList = ['d'])
    (hn 96 (by decide) (by decide)) (hn 95 (by decide) (by decide)) hw0 hw hr
  have hch : ∃ t L, Peg combinatorsG noExt (.choice 92 [.seq 88 [.str 86 "b", .any 87], .seq 91 [.str 89 "c", .any 90]]) (k :: x :: (w ++ r)) (.ok (w ++ r) t) L ∧
      ast combinatorsG T sp (.choice 92 [.seq 88 [.str 86 "b", .any 87], .seq 91 [.str 89 "c", .any 90]]) t = [.chr x] := by
    rcases hk with rfl | rfl
    · refine ⟨_, _, .choice_first (.seq_cons ((str_one hb).2 ⟨rfl, rfl, rfl⟩) (.seq_cons .any_ok .seq_nil)), ?_⟩
      rw [ast_alt_first, if_neg (hn 92 (by decide) (by decide)), ast_seq, if_neg (hn 88 (by decide) (by decide))]
      simp only [astSeq, ast_leaf, ast_any, if_neg (hn 87 (by decide) (by decide)), List.nil_append, List.append_nil]
    · refine ⟨_, _, .choice_next (.seq_fail (.str_fail (by rw [hb]; simp))) (.choice_first (.seq_cons ((str_one hc).2 ⟨rfl, rfl, rfl⟩) (.seq_cons .any_ok .seq_nil))), ?_⟩
      rw [ast_alt_next, ast_alt_first, if_neg (hn 92 (by decide) (by decide)), ast_seq, if_neg (hn 91 (by decide) (by decide))]
      simp only [astSeq, ast_leaf, ast_any, if_neg (hn 90 (by decide) (by decide)), List.nil_append, List.append_nil]
  obtain ⟨t, L', h3, h4⟩ := hch
  refine ⟨_, _, .seq_cons h3 (.seq_cons h1 .seq_nil), ?_⟩
  rw [bisBody, ast_seq, if_neg (hn 98 (by decide) (by decide))]
  simp only [astSeq, h4, ast_plus, if_neg (hn 97 (by decide) (by decide)), h2, List.append_nil, List.cons_append, List.nil_append]

/-- `non_terminal` -/
def ntBody : Expr := .seq 85 [.str 81 "a", .plus 83 (.nt 82 "non_terminal_bis"), .any 84]

/-- Full matches of `non_terminal`. -/
theorem nt_full {T : Nat → Ty} (H : ∀ i, i < 99 → (T i = .unit ↔ i ∈ combinatorsUnits)) {sp : SpanSpec} {s : List Char} :
    (∀ t L, Peg combinatorsG noExt ntBody s (.ok [] t) L → ∃ k x w, (k = 'b' ∨ k = 'c') ∧ w ≠ [] ∧ 'd' ∉ w ∧ s = 'a' :: k :: x :: w ++ ['d']) ∧
    ∀ k x w, (k = 'b' ∨ k = 'c') → w ≠ [] → 'd' ∉ w → s = 'a' :: k :: x :: w ++ ['d'] →
      ∃ t L, Peg combinatorsG noExt ntBody s (.ok [] t) L ∧ ast combinatorsG T sp ntBody t = [.list [.tup [.chr x, .list (w.map .chr)]], .chr 'd'] := by
  have hn : ∀ i, i < 99 → i ∉ combinatorsUnits → T i ≠ .unit := fun i hi h h' => h ((H i hi).1 h')
  have hfind : combinatorsG.find "non_terminal_bis" = some bisBody := rfl
  unfold ntBody
  constructor
  · intro t L h
    cases h with | seq_cons h1 h =>
    cases h with | seq_cons h2 h =>
    cases h with | seq_cons h3 h =>
    cases h with | seq_nil =>
    cases h3 with | @any_ok _ y =>
    obtain ⟨rfl, _, _⟩ := (str_one (by decide : "a".toList = ['a'])).1 h1
    cases h2 with | plus_ok h0 h2 =>
    cases h0 with | nt_ok hf h0 =>
    rw [hfind] at hf; cases hf
    obtain ⟨k, x, w, hk, hw0, hw, rfl, hr⟩ := bis_inv h0
    cases h2 with
    | star_stop =>
      obtain rfl := hr y rfl
      exact ⟨k, x, w, hk, hw0, hw, rfl⟩
    | star_more h2 _ =>
      cases h2 with | nt_ok hf h2 =>
      rw [hfind] at hf; cases hf
      obtain ⟨k', x', w', hk', _, _, rfl, _⟩ := bis_inv h2
      have := hr k' rfl
      rcases hk' with rfl | rfl <;> exact absurd this (by decide)
  · rintro k x w hk hw0 hw rfl
    obtain ⟨t, L, h1, h2⟩ := bis_peg H (sp := sp) (x := x) (r := ['d']) hk hw0 hw (by simp)
    have hstop : ∃ L, Peg combinatorsG noExt (.nt 82 "non_terminal_bis") ['d'] .fail L :=
      ⟨_, .nt_fail hfind (.seq_fail (.choice_fail (.seq_fail (.str_fail (by decide))) (.choice_fail (.seq_fail (.str_fail (by decide))) .choice_nil)))⟩
    obtain ⟨L', hstop⟩ := hstop
    refine ⟨_, _, .seq_cons ((str_one (by decide : "a".toList = ['a'])).2 ⟨rfl, rfl, rfl⟩) (.seq_cons (.plus_ok (.nt_ok hfind h1) (.star_stop hstop)) (.seq_cons .any_ok .seq_nil)), ?_⟩
    rw [ast_seq, if_neg (hn 85 (by decide) (by decide))]
    simp only [astSeq, ast_leaf, ast_plus, if_neg (hn 83 (by decide) (by decide)), astRep, ast_nt hfind, if_neg (hn 82 (by decide) (by decide)), h2, ast_any,
      if_neg (hn 84 (by decide) (by decide)), tupleVal, List.append_nil, List.cons_append, List.nil_append]

/-- `optional` -/
def optionalBody : Expr := .seq 74 [.opt 63 (.str 62 "a"), .str 64 "b", .opt 72 (.choice 71 [.seq 67 [.str 65 "c", .any 66], .seq 70 [.str 68 "d", .any 69]]), .str 73 "z"]

/-- Full matches of `optional`. -/
theorem optional_full {T : Nat → Ty} (H : ∀ i, i < 99 → (T i = .unit ↔ i ∈ combinatorsUnits)) {sp : SpanSpec} {s : List Char} :
    (∀ t L, Peg combinatorsG noExt optionalBody s (.ok [] t) L → ∃ o, (o = [] ∨ o = ['a']) ∧
      (s = o ++ ['b', 'z'] ∨ ∃ k x, (k = 'c' ∨ k = 'd') ∧ s = o ++ ['b', k, x, 'z'])) ∧
    ∀ o, (o = [] ∨ o = ['a']) → (s = o ++ ['b', 'z'] → ∃ t L, Peg combinatorsG noExt optionalBody s (.ok [] t) L ∧ ast combinatorsG T sp optionalBody t = [.none]) ∧
      ∀ k x, (k = 'c' ∨ k = 'd') → s = o ++ ['b', k, x, 'z'] → ∃ t L, Peg combinatorsG noExt optionalBody s (.ok [] t) L ∧ ast combinatorsG T sp optionalBody t = [.some (.chr x)] := by
  have hn : ∀ i, i < 99 → i ∉ combinatorsUnits → T i ≠ .unit := fun i hi h h' => h ((H i hi).1 h')
  have hu : ∀ i, i < 99 → i ∈ combinatorsUnits → T i = .unit := fun i hi h => (H i hi).2 h
  have ha : "a".toList = ['a'] := by decide
  have hb : "b".toList = ['b'] := by decide
  have hc : "c".toList = ['c'] := by decide
  have hd : "d".toList = ['d'] := by decide
  have hz : "z".toList = ['z'] := by decide
  constructor
  · intro t L h
    unfold optionalBody at h
    cases h with | seq_cons h1 h =>
    cases h with | seq_cons h2 h =>
    cases h with | seq_cons h3 h =>
    cases h with | seq_cons h4 h =>
    cases h with | seq_nil =>
    obtain ⟨rfl, _, _⟩ := (str_one hz).1 h4
    have key : ∀ {s1 : List Char} {t L}, Peg combinatorsG noExt (.opt 72 (.choice 71 [.seq 67 [.str 65 "c", .any 66], .seq 70 [.str 68 "d", .any 69]])) s1 (.ok ['z'] t) L →
        s1 = ['z'] ∨ ∃ k x, (k = 'c' ∨ k = 'd') ∧ s1 = [k, x, 'z'] := by
      intro s1 t L h
      cases h with
      | opt_none => exact .inl rfl
      | opt_some h =>
        right
        cases h with
        | choice_first h =>
          cases h with | seq_cons k1 h =>
          cases h with | seq_cons k2 h =>
          cases h with | seq_nil =>
          cases k2 with | @any_ok _ x =>
          obtain ⟨rfl, _, _⟩ := (str_one hc).1 k1
          exact ⟨'c', x, .inl rfl, rfl⟩
        | choice_next _ h =>
          cases h with
          | choice_next _ h => cases h
          | choice_first h =>
            cases h with | seq_cons k1 h =>
            cases h with | seq_cons k2 h =>
            cases h with | seq_nil =>
            cases k2 with | @any_ok _ x =>
            obtain ⟨rfl, _, _⟩ := (str_one hd).1 k1
            exact ⟨'d', x, .inr rfl, rfl⟩
    obtain ⟨rfl, _, _⟩ := (str_one hb).1 h2
    have ho : ∃ o, (o = [] ∨ o = ['a']) ∧ ∃ r, (r = ['z'] ∨ ∃ k x, (k = 'c' ∨ k = 'd') ∧ r = [k, x, 'z']) ∧ s = o ++ 'b' :: r := by
      cases h1 with
      | opt_none => exact ⟨[], .inl rfl, _, key h3, rfl⟩
      | opt_some h1 =>
        obtain ⟨rfl, _, _⟩ := (str_one ha).1 h1
        exact ⟨['a'], .inr rfl, _, key h3, rfl⟩
    obtain ⟨o, ho, r, hr, rfl⟩ := ho
    refine ⟨o, ho, ?_⟩
    rcases hr with rfl | ⟨k, x, hk, rfl⟩
    · exact .inl rfl
    · exact .inr ⟨k, x, hk, rfl⟩
  · intro o ho
    have hfst : ∀ r, ∃ t L, Peg combinatorsG noExt (.opt 63 (.str 62 "a")) (o ++ 'b' :: r) (.ok ('b' :: r) t) L ∧ ast combinatorsG T sp (.opt 63 (.str 62 "a")) t = [] := by
      intro r
      rcases ho with rfl | rfl
      · refine ⟨_, _, .opt_none (.str_fail (by rw [ha]; simp)), ?_⟩
        rw [ast_opt_none, if_pos (hu 63 (by decide) (by decide))]
      · refine ⟨_, _, .opt_some ((str_one ha).2 ⟨rfl, rfl, rfl⟩), ?_⟩
        rw [ast_opt, if_pos (hu 63 (by decide) (by decide))]
    have hall : ∀ {r t2 L2 v}, Peg combinatorsG noExt (.opt 72 (.choice 71 [.seq 67 [.str 65 "c", .any 66], .seq 70 [.str 68 "d", .any 69]])) r (.ok ['z'] t2) L2 →
        ast combinatorsG T sp (.opt 72 (.choice 71 [.seq 67 [.str 65 "c", .any 66], .seq 70 [.str 68 "d", .any 69]])) t2 = [v] →
        ∃ t L, Peg combinatorsG noExt optionalBody (o ++ 'b' :: r) (.ok [] t) L ∧ ast combinatorsG T sp optionalBody t = [v] := by
      intro r t2 L2 v h1 h2
      obtain ⟨t, L, h3, h4⟩ := hfst r
      refine ⟨_, _, .seq_cons h3 (.seq_cons ((str_one hb).2 ⟨rfl, rfl, rfl⟩) (.seq_cons h1 (.seq_cons ((str_one hz).2 ⟨rfl, rfl, rfl⟩) .seq_nil))), ?_⟩
      rw [optionalBody, ast_seq, if_neg (hn 74 (by decide) (by decide))]
      simp only [astSeq, h4, ast_leaf, h2, List.nil_append, List.append_nil]
    constructor
    · rintro rfl
      refine hall (.opt_none (.choice_fail (.seq_fail (.str_fail (by rw [hc]; simp))) (.choice_fail (.seq_fail (.str_fail (by rw [hd]; simp))) .choice_nil))) ?_
      rw [ast_opt_none, if_neg (hn 72 (by decide) (by decide))]
    · rintro k x hk rfl
      rcases hk with rfl | rfl
      · refine hall (.opt_some (.choice_first (.seq_cons ((str_one hc).2 ⟨rfl, rfl, rfl⟩) (.seq_cons .any_ok .seq_nil)))) ?_
        rw [ast_opt, if_neg (hn 72 (by decide) (by decide)), ast_alt_first, if_neg (hn 71 (by decide) (by decide)), ast_seq, if_neg (hn 67 (by decide) (by decide))]
        simp only [astSeq, ast_leaf, ast_any, if_neg (hn 66 (by decide) (by decide)), List.nil_append, List.append_nil, tupleVal]
      · refine hall (.opt_some (.choice_next (.seq_fail (.str_fail (by rw [hc]; simp))) (.choice_first (.seq_cons ((str_one hd).2 ⟨rfl, rfl, rfl⟩) (.seq_cons .any_ok .seq_nil))))) ?_
        rw [ast_opt, if_neg (hn 72 (by decide) (by decide)), ast_alt_next, ast_alt_first, if_neg (hn 71 (by decide) (by decide)), ast_seq, if_neg (hn 70 (by decide) (by decide))]
        simp only [astSeq, ast_leaf, ast_any, if_neg (hn 69 (by decide) (by decide)), List.nil_append, List.append_nil, tupleVal]

end Oak.Numerals
