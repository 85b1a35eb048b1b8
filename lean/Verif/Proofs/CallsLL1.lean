import Verif.Proofs.LL1Check
import Verif.Proofs.Calls
/-!
When one character of lookahead is enough to choose, actions are called for what is kept only.
-/
set_option linter.constructorNameAsVariable false
set_option autoImplicit false

namespace Oak
open Spec


variable {G : Grammar} {T : Nat → Ty} {sp : SpanSpec} {r0 : String}

/-- A derivation does not depend on what comes after the text it reads. -/
theorem Spec.Derives.rebase {e : Expr} {s s' : List Char} {t : Tree} (h : Derives G noExt e s s' t) :
    ∀ z, ∃ w t', s = w ++ s' ∧ Derives G noExt e (w ++ z) z t' ∧ ((∃ ts, t = .seq ts) → ∃ ts, t' = .seq ts) ∧ ((∃ ts, t = .rep ts) → ∃ ts, t' = .rep ts) := by
  induction h with
  | @str i l s => exact fun z => ⟨l.toList, _, rfl, .str, by simp, by simp⟩
  | @any i c s => exact fun z => ⟨[c], _, rfl, .any, by simp, by simp⟩
  | @cls i ivs c s h => exact fun z => ⟨[c], _, rfl, .cls h, by simp, by simp⟩
  | ext h => exact h.elim
  | seq_nil => exact fun z => ⟨[], _, rfl, .seq_nil, by simp, by simp⟩
  | star_nil => exact fun z => ⟨[], _, rfl, .star_nil, by simp, by simp⟩
  | opt_none => exact fun z => ⟨[], _, rfl, .opt_none, by simp, by simp⟩
  | not => exact fun z => ⟨[], _, rfl, .not, by simp, by simp⟩
  | and => exact fun z => ⟨[], _, rfl, .and, by simp, by simp⟩
  | seq_cons _ _ ih1 ih2 =>
    intro z
    obtain ⟨w2, t2, h2, d2, q2, _⟩ := ih2 z
    obtain ⟨w1, t1, h1, d1, _, _⟩ := ih1 (w2 ++ z)
    obtain ⟨ts, rfl⟩ := q2 ⟨_, rfl⟩
    exact ⟨w1 ++ w2, _, by rw [h1, h2, List.append_assoc], by rw [List.append_assoc]; exact .seq_cons d1 d2, by simp, by simp⟩
  | star_cons _ _ ih1 ih2 =>
    intro z
    obtain ⟨w2, t2, h2, d2, _, q2⟩ := ih2 z
    obtain ⟨w1, t1, h1, d1, _, _⟩ := ih1 (w2 ++ z)
    obtain ⟨ts, rfl⟩ := q2 ⟨_, rfl⟩
    exact ⟨w1 ++ w2, _, by rw [h1, h2, List.append_assoc], by rw [List.append_assoc]; exact .star_cons d1 d2, by simp, by simp⟩
  | plus _ _ ih1 ih2 =>
    intro z
    obtain ⟨w2, t2, h2, d2, _, q2⟩ := ih2 z
    obtain ⟨w1, t1, h1, d1, _, _⟩ := ih1 (w2 ++ z)
    obtain ⟨ts, rfl⟩ := q2 ⟨_, rfl⟩
    exact ⟨w1 ++ w2, _, by rw [h1, h2, List.append_assoc], by rw [List.append_assoc]; exact .plus d1 d2, by simp, by simp⟩
  | nt hf _ ih => intro z; obtain ⟨w, t, h, d, _, _⟩ := ih z; exact ⟨w, _, h, .nt hf d, by simp, by simp⟩
  | choice hk _ ih => intro z; obtain ⟨w, t, h, d, _, _⟩ := ih z; exact ⟨w, _, h, .choice hk d, by simp, by simp⟩
  | opt_some _ ih => intro z; obtain ⟨w, t, h, d, _, _⟩ := ih z; exact ⟨w, _, h, .opt_some d, by simp, by simp⟩
  | act _ ih => intro z; obtain ⟨w, t, h, d, _, _⟩ := ih z; exact ⟨w, _, h, .act d, by simp, by simp⟩
  | asc _ ih => intro z; obtain ⟨w, t, h, d, _, _⟩ := ih z; exact ⟨w, _, h, .asc d, by simp, by simp⟩
  | span _ ih => intro z; obtain ⟨w, t, h, d, _, _⟩ := ih z; exact ⟨w, _, h, .span d, by simp, by simp⟩
  | range _ ih => intro z; obtain ⟨w, t, h, d, _, _⟩ := ih z; exact ⟨w, _, h, .range d, by simp, by simp⟩

theorem starts_intro {e : Expr} {c : Char} {w z : List Char} {t : Tree} (h : Derives G noExt e (c :: w ++ z) z t) : Starts G noExt e c := by
  refine ⟨w ++ z, z, t, h, fun hz => ?_⟩
  have := congrArg List.length hz
  simp only [List.length_cons, List.length_append] at this
  omega

/-- A text of `e` that starts with `c`, whatever comes next. -/
theorem starts_elim {e : Expr} {c : Char} (h : Starts G noExt e c) : ∃ w, ∀ z, ∃ t, Derives G noExt e (c :: w ++ z) z t := by
  obtain ⟨s, s', t, h, hn⟩ := h
  obtain ⟨w0, _, h0, _⟩ := h.rebase []
  cases w0 with
  | nil => exact absurd h0.symm hn
  | cons c' w =>
    have hc : c' = c := by have := congrArg List.head? h0; simpa using this.symm
    subst hc
    refine ⟨w, fun z => ?_⟩
    obtain ⟨w', t', h', d, _⟩ := h.rebase z
    have : w' = c' :: w := List.append_cancel_right (h'.symm.trans h0)
    subst this
    exact ⟨t', d⟩

theorem empty_elim {e : Expr} (h : MayBeEmpty G noExt e) (z : List Char) : ∃ t, Derives G noExt e z z t := by
  obtain ⟨s, t, h⟩ := h
  obtain ⟨w, t', h', d, _⟩ := h.rebase z
  have : w = [] := by
    have := congrArg List.length h'
    simp only [List.length_append] at this
    exact List.length_eq_zero_iff.1 (by omega)
  subst this
  exact ⟨t', d⟩

theorem seq_tree {G X i es s s' t} (h : Derives G X (.seq i es) s s' t) : ∃ ts, t = .seq ts := by cases h <;> exact ⟨_, rfl⟩
theorem star_tree {G X i e s s' t} (h : Derives G X (.star i e) s s' t) : ∃ ts, t = .rep ts := by cases h <;> exact ⟨_, rfl⟩

theorem seq_text (hp : Productive G noExt) {i : Nat} {es : List Expr} (h : ∀ x ∈ es, Occurs G x) : ∃ w, ∀ z, ∃ ts, Derives G noExt (.seq i es) (w ++ z) z (.seq ts) := by
  induction es with
  | nil => exact ⟨[], fun z => ⟨_, .seq_nil⟩⟩
  | cons e es ih =>
    obtain ⟨w2, h2⟩ := ih fun x hx => h x (List.mem_cons_of_mem _ hx)
    obtain ⟨s, s', t, hd⟩ := hp e (h e (by simp))
    obtain ⟨w1, _, h1, _⟩ := hd.rebase []
    refine ⟨w1 ++ w2, fun z => ?_⟩
    obtain ⟨ts, d2⟩ := h2 z
    obtain ⟨w', t', h', d1, _⟩ := hd.rebase (w2 ++ z)
    have : w' = w1 := List.append_cancel_right (h'.symm.trans h1)
    subst this
    exact ⟨_, by rw [List.append_assoc]; exact .seq_cons d1 d2⟩

/-- An expression of the grammar, or the end of a sequence or of a choice, or the iterations of a `+`. -/
inductive Part (G : Grammar) : Expr → Prop where
  | here {e} : Occurs G e → Part G e
  | seq {i es} : (∀ x ∈ es, Occurs G x) → Part G (.seq i es)
  | choice {i es} : (∀ x ∈ es, Occurs G x) → Part G (.choice i es)
  | star {i e} : Occurs G e → Part G (.star i e)

theorem Part.elems {i es} (h : Part G (.seq i es)) : ∀ x ∈ es, Occurs G x := by
  cases h with
  | here h => exact fun x hx => occurs_sub h (.seq hx .refl)
  | seq h => exact h

theorem Part.branches {i es} (h : Part G (.choice i es)) : ∀ x ∈ es, Occurs G x := by
  cases h with
  | here h => exact fun x hx => occurs_sub h (.choice hx .refl)
  | choice h => exact h

theorem Part.again {i e} (h : Part G (.star i e)) : Occurs G e := by
  cases h with
  | here h => exact occurs_sub h (.star .refl)
  | star h => exact h

theorem Part.whole {e} (h : Part G e) (h1 : ∀ i es, e ≠ .seq i es) (h2 : ∀ i es, e ≠ .choice i es) (h3 : ∀ i c, e ≠ .star i c) : Occurs G e := by
  cases h with
  | here h => exact h
  | seq => exact absurd rfl (h1 _ _)
  | choice => exact absurd rfl (h2 _ _)
  | star => exact absurd rfl (h3 _ _)

/-- Nothing is called for an expression which does not start with the next character. -/
theorem calls_silent (hp : Productive G noExt) (hr : ActionsRead G noExt) {e : Expr} {s : List Char} {cs : List Val} (h : UserCalls G noExt T sp e s cs) :
    Part G e → (∀ c s1, s = c :: s1 → ¬ Starts G noExt e c) → cs = [] := by
  have up : ∀ {e e' : Expr} {s : List Char}, (∀ c s1, s = c :: s1 → ¬ Starts G noExt e' c) → (∀ c, Starts G noExt e c → Starts G noExt e' c) → ∀ c s1, s = c :: s1 → ¬ Starts G noExt e c :=
    fun h hi c s1 hs hc => h c s1 hs (hi c hc)
  have via : ∀ {e e' : Expr}, (∀ w z t, Derives G noExt e (w ++ z) z t → ∃ t', Derives G noExt e' (w ++ z) z t') → ∀ c, Starts G noExt e c → Starts G noExt e' c := by
    intro e e' h c hc
    obtain ⟨w, hw⟩ := starts_elim hc
    obtain ⟨t, ht⟩ := hw []
    obtain ⟨t', ht'⟩ := h (c :: w) [] t ht
    exact starts_intro ht'
  have first : ∀ {i : Nat} {e : Expr} {es : List Expr}, (∀ x ∈ es, Occurs G x) → ∀ c, Starts G noExt e c → Starts G noExt (.seq i (e :: es)) c := by
    intro i e es hes c hc
    obtain ⟨w, hw⟩ := starts_elim hc
    obtain ⟨w2, hw2⟩ := seq_text hp (i := i) hes
    obtain ⟨ts, h2⟩ := hw2 []
    obtain ⟨t, h1⟩ := hw (w2 ++ [])
    have := Derives.seq_cons h1 h2
    rw [← List.append_assoc] at this
    exact starts_intro (w := w ++ w2) (z := []) (by simpa using this)
  have stay : ∀ {e : Expr} {s s1 : List Char} {t : Tree} {L : Log}, Peg G noExt e s (.ok s1 t) L → (∀ c s1, s = c :: s1 → ¬ Starts G noExt e c) → s1 = s ∧ MayBeEmpty G noExt e := by
    intro e s s1 t L h hn
    rcases (peg_derives h _ _ rfl).cases_start noExt_fwd with h | ⟨c, s2, hs, hc⟩
    · exact h
    · exact absurd hc (hn c s2 hs)
  induction h with
  | unit | str | any | cls | ext | not | and | seq_nil | choice_nil => exact fun _ _ => rfl
  | nt _ hf _ ih => exact fun _ hn => ih (.here ⟨_, _, hf, .refl⟩) (up hn (via fun w z t h => ⟨_, .nt hf h⟩))
  | seq_fail _ _ _ ih =>
    intro hpart hn
    have := hpart.elems
    exact ih (.here (this _ (by simp))) (up hn (first fun x hx => this x (by simp [hx])))
  | @seq_cons i e es s s1 t L c1 c2 _ hpeg _ _ ih1 ih2 =>
    intro hpart hn
    have hes := hpart.elems
    have hn1 := up hn (first (i := i) (e := e) fun x hx => hes x (by simp [hx]))
    obtain ⟨rfl, hm⟩ := stay hpeg hn1
    rw [ih1 (.here (hes _ (by simp))) hn1, ih2 (.seq fun x hx => hes x (by simp [hx])) (up hn (via fun w z t h => ?_))]
    · rfl
    · obtain ⟨t', ht'⟩ := empty_elim hm (w ++ z)
      obtain ⟨ts, rfl⟩ := seq_tree h
      exact ⟨_, .seq_cons ht' h⟩
  | choice_first _ _ _ ih =>
    intro hpart hn
    exact ih (.here (hpart.branches _ (by simp))) (up hn (via fun w z t h => ⟨_, .choice (k := 0) rfl h⟩))
  | choice_next _ _ _ _ ih1 ih2 =>
    intro hpart hn
    have hes := hpart.branches
    rw [ih1 (.here (hes _ (by simp))) (up hn (via fun w z t h => ⟨_, .choice (k := 0) rfl h⟩)),
      ih2 (.choice fun x hx => hes x (by simp [hx])) (up hn (via fun w z t h => ?_))]
    · rfl
    · cases h with
      | choice hk h => exact ⟨_, .choice (k := _ + 1) (by simpa using hk) h⟩
  | star_stop _ _ _ ih => exact fun hpart hn => ih (.here hpart.again) (up hn (via fun w z t h => ⟨_, .star_cons h .star_nil⟩))
  | star_more _ hpeg _ _ ih1 ih2 =>
    intro hpart hn
    have hn1 := up hn (via fun w z t h => ⟨_, .star_cons h .star_nil⟩)
    obtain ⟨rfl, hm⟩ := stay hpeg hn1
    rw [ih1 (.here hpart.again) hn1, ih2 hpart hn]
    rfl
  | plus _ _ ih =>
    intro hpart hn
    have ho := hpart.whole nofun nofun nofun
    refine ih (.star (occurs_sub ho (.plus .refl))) (up hn ?_)
    intro c hc
    obtain ⟨w, hw⟩ := starts_elim hc
    obtain ⟨t, ht⟩ := hw []
    generalize hz : c :: w ++ [] = z at ht
    cases ht with
    | star_nil => cases hz
    | star_cons h1 h2 =>
      subst hz
      exact starts_intro (.plus h1 h2)
  | opt _ _ ih => exact fun hpart hn => ih (.here (occurs_sub (hpart.whole nofun nofun nofun) (.opt .refl))) (up hn (via fun w z t h => ⟨_, .opt_some h⟩))
  | asc _ _ ih => exact fun hpart hn => ih (.here (occurs_sub (hpart.whole nofun nofun nofun) (.asc .refl))) (up hn (via fun w z t h => ⟨_, .asc h⟩))
  | span _ _ ih => exact fun hpart hn => ih (.here (occurs_sub (hpart.whole nofun nofun nofun) (.span .refl))) (up hn (via fun w z t h => ⟨_, .span h⟩))
  | range _ _ ih => exact fun hpart hn => ih (.here (occurs_sub (hpart.whole nofun nofun nofun) (.range .refl))) (up hn (via fun w z t h => ⟨_, .range h⟩))
  | act_fail _ _ _ ih => exact fun hpart hn => ih (.here (occurs_sub (hpart.whole nofun nofun nofun) (.act .refl))) (up hn (via fun w z t h => ⟨_, .act h⟩))
  | act_ok _ hpeg _ ih =>
    intro hpart hn
    have ho := hpart.whole nofun nofun nofun
    exact absurd (stay hpeg (up hn (via fun w z t h => ⟨_, .act h⟩))).2 (hr _ _ _ _ ho)

/-- As `Place`, with the end of a choice. -/
inductive Spot (G : Grammar) (r0 : String) : Expr → Option Char → Prop where
  | here {e o} : CanFollow G noExt r0 e o → Spot G r0 e o
  | tail {i before es o} : CanFollow G noExt r0 (.seq i (before ++ es)) o → Spot G r0 (.seq i es) o
  | other {i before es o} : CanFollow G noExt r0 (.choice i (before ++ es)) o → Spot G r0 (.choice i es) o
  | more {i e o} : CanFollow G noExt r0 (.plus i e) o → Spot G r0 (.star i e) o

theorem Spot.seq {i es o} (h : Spot G r0 (.seq i es) o) : ∃ before, CanFollow G noExt r0 (.seq i (before ++ es)) o := by
  cases h with
  | here h => exact ⟨[], h⟩
  | tail h => exact ⟨_, h⟩

theorem Spot.choice {i es o} (h : Spot G r0 (.choice i es) o) : ∃ before, CanFollow G noExt r0 (.choice i (before ++ es)) o := by
  cases h with
  | here h => exact ⟨[], h⟩
  | other h => exact ⟨_, h⟩

theorem Spot.whole {e o} (h : Spot G r0 e o) (h1 : ∀ i es, e ≠ .seq i es) (h2 : ∀ i es, e ≠ .choice i es) (h3 : ∀ i c, e ≠ .star i c) : CanFollow G noExt r0 e o := by
  cases h with
  | here h => exact h
  | tail => exact absurd rfl (h1 _ _)
  | other => exact absurd rfl (h2 _ _)
  | more => exact absurd rfl (h3 _ _)

/-- The calls made for a match at its place are those of its tree. -/
theorem calls_exact (hl : LL1 G noExt r0) (hpr : Productive G noExt) (hr : ActionsRead G noExt) {e : Expr} {s s' : List Char} {t : Tree} {L : Log} {cs : List Val}
    (h : UserCalls G noExt T sp e s cs) (hp : Peg G noExt e s (.ok s' t) L) (hs : Spot G r0 e s'.head?) : cs = treeCalls G T sp e t := by
  have hX : noExt.Det := fun _ _ _ _ _ _ h => h.elim
  have no : ∀ {e s L s1 t L'}, Peg G noExt e s .fail L → Peg G noExt e s (.ok s1 t) L' → False := fun a b => by have := (a.det hX b).1; cases this
  have der : ∀ {e s s' t L}, Peg G noExt e s (.ok s' t) L → Derives G noExt e s s' t := fun h => peg_derives h _ _ rfl
  induction h generalizing s' t L with
  | unit hu => rw [treeCalls_unit hu]
  | str | any | cls | not | and | seq_nil => cases hp <;> simp [treeCalls, treeCallsSeq]
  | ext => cases t <;> cases hp <;> contradiction
  | choice_nil => cases hp
  | nt hi hb _ ih =>
    cases hp with
    | nt_ok hb' hp =>
      rw [hb] at hb'; cases hb'
      simp only [treeCalls, Expr.id, hi, if_false, hb]
      exact ih hp (.here (.nt (hs.whole nofun nofun nofun) hb))
  | seq_fail hi hp1 _ ih =>
    cases hp with
    | seq_cons h1 h2 => exact (no hp1 h1).elim
  | @seq_cons i e es s s1 t1 L1 c1 c2 hi hp1 _ _ ih1 ih2 =>
    cases hp with
    | seq_cons h1 h2 =>
      have := (hp1.det hX h1).1
      cases this
      obtain ⟨before, hs⟩ := hs.seq
      have h3 := ih2 h2 (.tail (before := before ++ [e]) (by simpa using hs))
      have hn : CanFollow G noExt r0 e s1.head? := by
        rcases (der h2).cases_start noExt_fwd with ⟨rfl, hm⟩ | ⟨c, s2, rfl, hc⟩
        · exact .seq_last hs hm
        · exact .seq_next hs.occurs hc
      have h4 := ih1 h1 (.here hn)
      simp only [treeCalls, Expr.id, hi, if_false, treeCallsSeq] at h3 ⊢
      rw [h3, h4]
  | choice_first hi hp1 _ ih =>
    cases hp with
    | choice_first h1 =>
      obtain ⟨before, hs⟩ := hs.choice
      simp only [treeCalls, Expr.id, hi, if_false, List.getElem?_cons_zero]
      exact ih h1 (.here (.choice hs (by simp)))
    | choice_next h1 _ => exact (no h1 hp1).elim
  | @choice_next i e es s L1 c1 c2 hi hp1 hu1 _ ih1 ih2 =>
    cases hp with
    | choice_first h1 => exact (no hp1 h1).elim
    | @choice_next _ _ _ _ _ k _ _ _ h1 h2 =>
      obtain ⟨before, hs⟩ := hs.choice
      have h3 := ih2 h2 (.other (before := before ++ [e]) (by simpa using hs))
      have h4 : c1 = [] := by
        refine calls_silent hpr hr hu1 (.here (occurs_sub hs.occurs (.choice (by simp) .refl))) fun c s1 hc hst => ?_
        cases der h2 with
        | @choice _ _ k e' _ _ _ hk hd =>
          obtain ⟨n1, n2⟩ := hl.choice i _ hs.occurs before.length (before.length + 1 + k) e e' (by omega) (by simp)
            (by rw [List.getElem?_append_right (by omega), show before.length + 1 + k - before.length = k + 1 by omega]; simpa using hk) c hst
          rcases hd.cases_start noExt_fwd with ⟨rfl, hm⟩ | ⟨c', s2, hs', hc'⟩
          · exact n2 ⟨hm, by rw [hc] at hs; exact hs⟩
          · rw [hc] at hs'; cases hs'
            exact n1 hc'
      simp only [treeCalls, Expr.id, hi, if_false, List.getElem?_cons_succ] at h3 ⊢
      rw [h4, h3]
      rfl
  | star_stop hi hp1 hu _ =>
    cases hp with
    | star_stop h1 =>
      simp only [treeCalls, treeCallsRep, Expr.id, hi, if_false]
      cases hs with
      | here h => exact calls_silent hpr hr hu (.here (occurs_sub h.occurs (.star .refl))) fun c s1 hc hst => hl.star _ _ h.occurs c hst (by rw [hc] at h; exact h)
      | more h => exact calls_silent hpr hr hu (.here (occurs_sub h.occurs (.plus .refl))) fun c s1 hc hst => hl.plus _ _ h.occurs c hst (by rw [hc] at h; exact h)
    | star_more h1 _ => exact (no hp1 h1).elim
  | @star_more i e s s1 t1 L1 c1 c2 hi hp1 _ _ ih1 ih2 =>
    cases hp with
    | star_stop h1 => exact (no h1 hp1).elim
    | star_more h1 h2 =>
      have := (hp1.det hX h1).1
      cases this
      have h3 := ih2 h2 hs
      have hn : CanFollow G noExt r0 e s1.head? := by
        rcases star_starts noExt_fwd (der h2) with rfl | ⟨c, s2, rfl, hc⟩
        · cases hs with
          | here h => exact .star h
          | more h => exact .plus h
        · cases hs with
          | here h => exact .star_again h.occurs hc
          | more h => exact .plus_again h.occurs hc
      have h4 := ih1 h1 (.here hn)
      simp only [treeCalls, Expr.id, hi, if_false, treeCallsRep] at h3 ⊢
      rw [h3, h4]
  | plus hi _ ih =>
    cases hp with
    | plus_ok h1 h2 =>
      have := ih (.star_more h1 h2) (.more (hs.whole nofun nofun nofun))
      simpa only [treeCalls, Expr.id, hi, if_false] using this
  | opt hi hu ih =>
    have hs := hs.whole nofun nofun nofun
    cases hp with
    | opt_some h1 => simpa only [treeCalls, Expr.id, hi, if_false] using ih h1 (.here (.opt hs))
    | opt_none h1 =>
      simp only [treeCalls]
      exact calls_silent hpr hr hu (.here (occurs_sub hs.occurs (.opt .refl))) fun c s1 hc hst => hl.opt _ _ hs.occurs c hst (by rw [hc] at hs; exact hs)
  | asc hi _ ih => cases hp with | asc_ok h1 => simpa only [treeCalls, Expr.id, hi, if_false] using ih h1 (.here (.asc (hs.whole nofun nofun nofun)))
  | span hi _ ih => cases hp with | span_ok h1 => simpa only [treeCalls, Expr.id, hi, if_false] using ih h1 (.here (.span (hs.whole nofun nofun nofun)))
  | range hi _ ih => cases hp with | range_ok h1 => simpa only [treeCalls, Expr.id, hi, if_false] using ih h1 (.here (.range (hs.whole nofun nofun nofun)))
  | act_fail hi hp1 _ ih => cases hp with | act_ok h1 => exact (no hp1 h1).elim
  | act_ok hi hp1 _ ih =>
    cases hp with
    | act_ok h1 =>
      have := (hp1.det hX h1).1
      cases this
      simp only [treeCalls, Expr.id, hi, if_false]
      rw [ih h1 (.here (.act (hs.whole nofun nofun nofun)))]

/-! ### A checker -/

mutual
/-- Does the expression have a text, if the rules of the list have one? -/
def hasText (l : List String) : Expr → Bool
  | .str .. | .any .. | .star .. | .opt .. | .not .. | .and .. => true
  | .cls _ ivs => ivs.any fun iv => decide (iv.lo ≤ iv.hi)
  | .nt _ r => l.contains r
  | .ext .. => false
  | .seq _ es => allText l es
  | .choice _ es => anyText l es
  | .plus _ e | .act _ e _ _ | .asc _ e _ | .span _ e | .range _ e => hasText l e
def allText (l : List String) : List Expr → Bool
  | [] => true
  | e :: es => hasText l e && allText l es
def anyText (l : List String) : List Expr → Bool
  | [] => false
  | e :: es => hasText l e || anyText l es
end

/-- Each rule of the list has a text if the previous ones have. -/
def rulesText (G : Grammar) (l : List String) : List String → Bool
  | [] => true
  | r :: rs => (match G.find r with | some e => hasText l e | none => false) && rulesText G (r :: l) rs

/-- The expression has a text, and reads something if it is that of an action. -/
def callOk (tab : LLTable) (order : List String) : Expr → Bool
  | .act _ e _ _ => hasText order e && !emptyOf tab e
  | e => hasText order e

/-- The check of the whole grammar, given the rules in an order in which they have texts. -/
def callsOk (tab : LLTable) (order : List String) (G : Grammar) : Bool :=
  rulesText G [] order && G.rules.all fun q => (visits tab (tab.row q.1).follow q.2).all fun v => callOk tab order v.1

/-- The expression has a text. -/
def HasText (G : Grammar) (e : Expr) : Prop := ∃ s s' t, Derives G noExt e s s' t

theorem hasText_sound {l : List String} (hl : ∀ r ∈ l, ∃ e, G.find r = some e ∧ HasText G e) (e : Expr) : hasText l e = true → HasText G e := by
  induction e using Expr.ind with
  | str i l => exact fun _ => ⟨_, [], _, .str⟩
  | any i => exact fun _ => ⟨['a'], [], _, .any⟩
  | cls i ivs =>
    intro h
    simp only [hasText, List.any_eq_true, decide_eq_true_eq] at h
    obtain ⟨iv, hm, h⟩ := h
    exact ⟨[iv.lo], [], _, .cls ⟨iv, hm, Char.le_refl _, h⟩⟩
  | nt i r =>
    intro h
    simp only [hasText, List.contains_iff_mem] at h
    obtain ⟨e, he, s, s', t, hd⟩ := hl r h
    exact ⟨_, _, _, .nt he hd⟩
  | ext => intro h; simp [hasText] at h
  | seq i es ih =>
    intro h
    rw [hasText] at h
    have : ∃ s s' ts, Derives G noExt (.seq i es) s s' (.seq ts) := by
      induction es with
      | nil => exact ⟨[], [], _, .seq_nil⟩
      | cons e es ihl =>
        rw [allText, Bool.and_eq_true] at h
        obtain ⟨s, s', t, h1⟩ := ih e (by simp) h.1
        obtain ⟨z, z', ts, h2⟩ := ihl (fun x hx => ih x (by simp [hx])) h.2
        obtain ⟨w, t', _, h1, _⟩ := h1.rebase z
        exact ⟨_, _, _, .seq_cons h1 h2⟩
    obtain ⟨s, s', ts, h⟩ := this
    exact ⟨s, s', _, h⟩
  | choice i es ih =>
    intro h
    rw [hasText] at h
    have : ∃ (k : Nat) (e : Expr), es[k]? = some e ∧ HasText G e := by
      induction es with
      | nil => simp [anyText] at h
      | cons e es ihl =>
        rw [anyText, Bool.or_eq_true] at h
        rcases h with h | h
        · exact ⟨0, e, rfl, ih e (by simp) h⟩
        · obtain ⟨k, x, hk, hx⟩ := ihl (fun x hx => ih x (by simp [hx])) h
          exact ⟨k + 1, x, by simpa using hk, hx⟩
    obtain ⟨k, e, hk, s, s', t, hd⟩ := this
    exact ⟨_, _, _, .choice hk hd⟩
  | star => exact fun _ => ⟨[], [], _, .star_nil⟩
  | opt => exact fun _ => ⟨[], [], _, .opt_none⟩
  | not => exact fun _ => ⟨[], [], _, .not⟩
  | and => exact fun _ => ⟨[], [], _, .and⟩
  | plus i e ih => intro h; rw [hasText] at h; obtain ⟨s, s', t, h⟩ := ih h; exact ⟨_, _, _, .plus h .star_nil⟩
  | act i e b f ih => intro h; rw [hasText] at h; obtain ⟨s, s', t, h⟩ := ih h; exact ⟨_, _, _, .act h⟩
  | asc i e ty ih => intro h; rw [hasText] at h; obtain ⟨s, s', t, h⟩ := ih h; exact ⟨_, _, _, .asc h⟩
  | span i e ih => intro h; rw [hasText] at h; obtain ⟨s, s', t, h⟩ := ih h; exact ⟨_, _, _, .span h⟩
  | range i e ih => intro h; rw [hasText] at h; obtain ⟨s, s', t, h⟩ := ih h; exact ⟨_, _, _, .range h⟩

theorem rulesText_sound (rs : List String) : ∀ l, (∀ r ∈ l, ∃ e, G.find r = some e ∧ HasText G e) → rulesText G l rs = true → ∀ r ∈ rs, ∃ e, G.find r = some e ∧ HasText G e := by
  induction rs with
  | nil => exact fun _ _ _ r hr => by cases hr
  | cons x rs ih =>
    intro l hl h
    rw [rulesText, Bool.and_eq_true] at h
    have hx : ∃ e, G.find x = some e ∧ HasText G e := by
      cases hf : G.find x with
      | none => rw [hf] at h; simp at h
      | some e => rw [hf] at h; exact ⟨e, rfl, hasText_sound hl e h.1⟩
    intro r hr
    rcases List.mem_cons.1 hr with rfl | hr
    · exact hx
    · refine ih (x :: l) (fun y hy => ?_) h.2 r hr
      rcases List.mem_cons.1 hy with rfl | hy
      · exact hx
      · exact hl y hy

theorem callsOk_sound {tab : LLTable} {order : List String} (hl : ll1 tab G = true) (h : callsOk tab order G = true) : Productive G noExt ∧ ActionsRead G noExt := by
  simp only [callsOk, Bool.and_eq_true, List.all_eq_true] at h
  have hrules := rulesText_sound order [] (fun r hr => by cases hr) h.1
  have hok : ∀ e, Occurs G e → callOk tab order e = true := by
    intro e he
    obtain ⟨F, r, b, hb, hv⟩ := occurs_visited hl he
    exact h.2 _ (grammar_find_mem hb) _ hv
  constructor
  · intro e he
    refine hasText_sound hrules e ?_
    have := hok e he
    cases e
    case act => rw [callOk, Bool.and_eq_true] at this; rw [hasText]; exact this.1
    all_goals exact this
  · intro i e b f he hm
    have := hok _ he
    rw [callOk, ll1_empty hl hm] at this
    simp at this

end Oak
