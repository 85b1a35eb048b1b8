import Verif.Proofs.WorkBound
import Verif.Proofs.CallsLL1
/-!
When one character of lookahead is enough to choose, each character is read at most once.
-/
set_option linter.constructorNameAsVariable false
set_option autoImplicit false

namespace Oak
open Spec
variable {G : Grammar} {r0 : String}

/-- Nothing is read for an expression which does not start with the next character. -/
theorem reads_silent (hp : Productive G noExt) (hnp : NoPredicates G) {e : Expr} {s : List Char} {o : Option (List Char)} {v : Visits} (h : Work G noExt e s o v) :
    Part G e → (∀ c s1, s = c :: s1 → ¬ Starts G noExt e c) → v.reads = 0 := by
  have up : ∀ {e e' : Expr} {s : List Char}, (∀ c s1, s = c :: s1 → ¬ Starts G noExt e' c) → (∀ c, Starts G noExt e c → Starts G noExt e' c) → ∀ c s1, s = c :: s1 → ¬ Starts G noExt e c :=
    fun h hi c s1 hs hc => h c s1 hs (hi c hc)
  have via : ∀ {e e' : Expr}, (∀ w z t, Derives G noExt e (w ++ z) z t → ∃ t', Derives G noExt e' (w ++ z) z t') → ∀ c, Starts G noExt e c → Starts G noExt e' c := by
    intro e e' h c hc
    obtain ⟨w, hw⟩ := starts_elim hc
    obtain ⟨t, ht⟩ := hw []
    obtain ⟨t', ht'⟩ := h (c :: w) [] t ht
    exact starts_intro ht'
  have first : ∀ {i : Nat} {e : Expr} {es : List Expr}, (∀ x ∈ es, Occurs G x) → ∀ c, Starts G noExt e c → Starts G noExt (.seq i (e :: es)) c := by
    intro i e es hes c hc
    obtain ⟨w, hw⟩ := starts_elim hc
    obtain ⟨w2, hw2⟩ := seq_text hp (i := i) hes
    obtain ⟨ts, h2⟩ := hw2 []
    obtain ⟨t, h1⟩ := hw (w2 ++ [])
    have := Derives.seq_cons h1 h2
    rw [← List.append_assoc] at this
    exact starts_intro (w := w ++ w2) (z := []) (by simpa using this)
  have stay : ∀ {e : Expr} {s s1 : List Char} {v : Visits}, Work G noExt e s (some s1) v → (∀ c s1, s = c :: s1 → ¬ Starts G noExt e c) → s1 = s ∧ MayBeEmpty G noExt e := by
    intro e s s1 v h hn
    obtain ⟨o', L, h, ho, _⟩ := work_peg h
    cases o' with
    | fail => cases ho
    | ok s1 t =>
      cases ho
      rcases (peg_derives h _ _ rfl).cases_start noExt_fwd with h | ⟨c, s2, hs, hc⟩
      · exact h
      · exact absurd hc (hn c s2 hs)
  induction h with
  | @str_ok i lit r =>
    intro _ hn
    simp only [Visits.reads]
    cases hl : lit.toList with
    | nil => rfl
    | cons c w =>
      refine absurd ?_ (hn c (w ++ r) (by rw [hl]; rfl))
      refine ⟨w ++ r, r, .leaf, ?_, fun h => by have := congrArg List.length h; simp at this; omega⟩
      have := Derives.str (G := G) (X := noExt) (i := i) (l := lit) (s := r)
      rwa [hl] at this
  | @any_ok i c cs => exact fun _ hn => absurd ⟨cs, cs, _, .any, fun h => by have := congrArg List.length h; simp at this⟩ (hn c cs rfl)
  | @cls_ok i ivs c cs hc => exact fun _ hn => absurd ⟨cs, cs, _, .cls hc, fun h => by have := congrArg List.length h; simp at this⟩ (hn c cs rfl)
  | str_fail | any_fail | cls_fail | cls_eof | seq_nil | choice_nil => exact fun _ _ => rfl
  | ext_ok h | ext_fail h => exact h.elim
  | nt hf _ ih => exact fun _ hn => ih (.here ⟨_, _, hf, .refl⟩) (up hn (via fun w z t h => ⟨_, .nt hf h⟩))
  | seq_fail _ ih =>
    intro hpart hn
    have := hpart.elems
    exact ih (.here (this _ (by simp))) (up hn (first fun x hx => this x (by simp [hx])))
  | @seq_cons i e es s s1 o a b h1 _ ih1 ih2 =>
    intro hpart hn
    have hes := hpart.elems
    have hn1 := up hn (first (i := i) (e := e) fun x hx => hes x (by simp [hx]))
    obtain ⟨rfl, hm⟩ := stay h1 hn1
    rw [Visits.reads, ih1 (.here (hes _ (by simp))) hn1, ih2 (.seq fun x hx => hes x (by simp [hx])) (up hn (via fun w z t h => ?_))]
    obtain ⟨t', ht'⟩ := empty_elim hm (w ++ z)
    obtain ⟨ts, rfl⟩ := seq_tree h
    exact ⟨_, .seq_cons ht' h⟩
  | choice_first _ ih =>
    intro hpart hn
    exact ih (.here (hpart.branches _ (by simp))) (up hn (via fun w z t h => ⟨_, .choice (k := 0) rfl h⟩))
  | choice_next _ _ ih1 ih2 =>
    intro hpart hn
    have hes := hpart.branches
    rw [Visits.reads, ih1 (.here (hes _ (by simp))) (up hn (via fun w z t h => ⟨_, .choice (k := 0) rfl h⟩)),
      ih2 (.choice fun x hx => hes x (by simp [hx])) (up hn (via fun w z t h => ?_))]
    cases h with
    | @choice _ _ k _ _ _ _ hk h => exact ⟨_, .choice (k := k + 1) (by simpa using hk) h⟩
  | star_stop _ ih => exact fun hpart hn => ih (.here hpart.again) (up hn (via fun w z t h => ⟨_, .star_cons h .star_nil⟩))
  | @star_more i e s s1 o a b h1 _ ih1 ih2 =>
    intro hpart hn
    have hn1 := up hn (via (e := e) fun w z t h => ⟨_, .star_cons h .star_nil⟩)
    obtain ⟨rfl, hm⟩ := stay h1 hn1
    rw [Visits.reads, ih1 (.here hpart.again) hn1, ih2 hpart hn]
  | plus_fail _ ih =>
    intro hpart hn
    have hw := hpart.whole nofun nofun nofun
    exact ih (.here (occurs_sub hw (.plus .refl))) (up hn (via fun w z t h => ⟨_, .plus h .star_nil⟩))
  | @plus_ok i e s s1 o a b h1 _ ih1 ih2 =>
    intro hpart hn
    have hw := hpart.whole nofun nofun nofun
    have ho := occurs_sub hw (.plus .refl)
    have hn1 := up hn (via (e := e) fun w z t h => ⟨_, .plus h .star_nil⟩)
    obtain ⟨rfl, hm⟩ := stay h1 hn1
    rw [Visits.reads, ih1 (.here ho) hn1, ih2 (.star ho) (up hn (via fun w z t h => ?_))]
    obtain ⟨t', ht'⟩ := empty_elim hm (w ++ z)
    obtain ⟨ts, rfl⟩ := star_tree h
    exact ⟨_, .plus ht' h⟩
  | opt_some _ ih | opt_none _ ih =>
    intro hpart hn
    exact ih (.here (occurs_sub (hpart.whole nofun nofun nofun) (.opt .refl))) (up hn (via fun w z t h => ⟨_, .opt_some h⟩))
  | not_ok | not_fail => exact fun hpart _ => absurd (hpart.whole nofun nofun nofun) (hnp _ _).1
  | and_ok | and_fail => exact fun hpart _ => absurd (hpart.whole nofun nofun nofun) (hnp _ _).2
  | act _ ih => exact fun hpart hn => ih (.here (occurs_sub (hpart.whole nofun nofun nofun) (.act .refl))) (up hn (via fun w z t h => ⟨_, .act h⟩))
  | asc _ ih => exact fun hpart hn => ih (.here (occurs_sub (hpart.whole nofun nofun nofun) (.asc .refl))) (up hn (via fun w z t h => ⟨_, .asc h⟩))
  | span _ ih => exact fun hpart hn => ih (.here (occurs_sub (hpart.whole nofun nofun nofun) (.span .refl))) (up hn (via fun w z t h => ⟨_, .span h⟩))
  | range _ ih => exact fun hpart hn => ih (.here (occurs_sub (hpart.whole nofun nofun nofun) (.range .refl))) (up hn (via fun w z t h => ⟨_, .range h⟩))

/-- An expression and what may follow it. -/
inductive InSpot (G : Grammar) (r0 : String) : Expr → (Char → Prop) → Prop where
  | here {e} : Occurs G e → InSpot G r0 e fun c => CanFollow G noExt r0 e (some c)
  | tail {i before es} : Occurs G (.seq i (before ++ es)) → InSpot G r0 (.seq i es) fun c => CanFollow G noExt r0 (.seq i (before ++ es)) (some c)
  | other {i before es} : Occurs G (.choice i (before ++ es)) → InSpot G r0 (.choice i es) fun c => CanFollow G noExt r0 (.choice i (before ++ es)) (some c)
  | more {i e} : Occurs G (.plus i e) → InSpot G r0 (.star i e) fun c => CanFollow G noExt r0 (.plus i e) (some c)

theorem InSpot.seq {i es F} (h : InSpot G r0 (.seq i es) F) : ∃ before, Occurs G (.seq i (before ++ es)) ∧ F = fun c => CanFollow G noExt r0 (.seq i (before ++ es)) (some c) := by
  cases h with
  | here h => exact ⟨[], h, rfl⟩
  | tail h => exact ⟨_, h, rfl⟩

theorem InSpot.choice {i es F} (h : InSpot G r0 (.choice i es) F) :
    ∃ before, Occurs G (.choice i (before ++ es)) ∧ F = fun c => CanFollow G noExt r0 (.choice i (before ++ es)) (some c) := by
  cases h with
  | here h => exact ⟨[], h, rfl⟩
  | other h => exact ⟨_, h, rfl⟩

theorem InSpot.star {i e F} (h : InSpot G r0 (.star i e) F) : Occurs G e ∧ (∀ c, F c → CanFollow G noExt r0 e (some c)) ∧ (∀ c, Starts G noExt e c → CanFollow G noExt r0 e (some c)) := by
  cases h with
  | here h => exact ⟨occurs_sub h (.star .refl), fun c => .star, fun c => .star_again h⟩
  | more h => exact ⟨occurs_sub h (.plus .refl), fun c => .plus, fun c => .plus_again h⟩

theorem InSpot.stop {i e F} (hl : LL1 G noExt r0) (h : InSpot G r0 (.star i e) F) : ∀ c, Starts G noExt e c → ¬ F c := by
  cases h with
  | here h => exact hl.star _ _ h
  | more h => exact hl.plus _ _ h

theorem InSpot.whole {e F} (h : InSpot G r0 e F) (h1 : ∀ i es, e ≠ .seq i es) (h2 : ∀ i es, e ≠ .choice i es) (h3 : ∀ i c, e ≠ .star i c) :
    Occurs G e ∧ F = fun c => CanFollow G noExt r0 e (some c) := by
  cases h with
  | here h => exact ⟨h, rfl⟩
  | tail => exact absurd rfl (h1 _ _)
  | other => exact absurd rfl (h2 _ _)
  | more => exact absurd rfl (h3 _ _)

/-- Either what is read is what is matched, or nothing more can be read. -/
def Once (s : List Char) (o : Option (List Char)) (v : Visits) (F : Char → Prop) : Prop :=
  (∃ s', o = some s' ∧ s.length = s'.length + v.reads) ∨ (v.reads ≤ s.length ∧ ∀ c s2, o = some (c :: s2) → ¬ F c)

theorem Once.le {s o v F} (h : Once s o v F) : v.reads ≤ s.length := by
  rcases h with ⟨s', _, h⟩ | ⟨h, _⟩
  · omega
  · exact h

theorem Once.up {s o v F F'} (h : Once s o v F) (hf : ∀ c, F' c → F c) : Once s o v F' :=
  h.imp id fun ⟨h1, h2⟩ => ⟨h1, fun c s2 ho hc => h2 c s2 ho (hf c hc)⟩

theorem reads_once (hl : LL1 G noExt r0) (hp : Productive G noExt) (hnp : NoPredicates G) {e : Expr} {s : List Char} {o : Option (List Char)} {v : Visits}
    (h : Work G noExt e s o v) : ∀ F, InSpot G r0 e F → Once s o v F := by
  -- nothing is read
  have still : ∀ {e : Expr} {s : List Char} {o : Option (List Char)} {v : Visits}, Work G noExt e s o v → v.reads = 0 → ∀ s', o = some s' → s' = s ∧ MayBeEmpty G noExt e := by
    intro e s o v h hz s' ho
    subst ho
    have h1 := moved_reads h
    have hs := work_suffix noExt_fwd h
    have : s' = s := hs.eq_of_length (Nat.le_antisymm hs.length_le (by omega))
    subst this
    obtain ⟨o', L, h, ho, _⟩ := work_peg h
    cases o' with
    | fail => cases ho
    | ok s1 t => cases ho; exact ⟨rfl, _, _, peg_derives h _ _ rfl⟩
  -- something was read
  have begun : ∀ {e : Expr} {s : List Char} {o : Option (List Char)} {v : Visits}, Occurs G e → Work G noExt e s o v → v.reads ≠ 0 → ∃ c s1, s = c :: s1 ∧ Starts G noExt e c := by
    intro e s o v ho h hz
    exact Classical.byContradiction fun hc => hz (reads_silent hp hnp h (.here ho) fun c s1 hs hst => hc ⟨c, s1, hs, hst⟩)
  have leaf0 : ∀ {s : List Char} {F : Char → Prop}, Once s none (.leaf 0) F := .inr ⟨Nat.zero_le _, nofun⟩
  -- two parts, when what is read by the second one is nothing if the first one went too far
  have both : ∀ {s s1 : List Char} {o : Option (List Char)} {m : Bool} {a b : Visits} {F1 F : Char → Prop}, Once s (some s1) a F1 → Once s1 o b F →
      ((∀ c s2, s1 = c :: s2 → ¬ F1 c) → b.reads = 0 ∧ ∀ c s2, o = some (c :: s2) → ¬ F c) → Once s o (.two m a b) F := by
    intro s s1 o m a b F1 F h1 h2 h3
    rcases h1 with ⟨s', hs, h1⟩ | ⟨h1, h4⟩
    · cases hs
      rcases h2 with ⟨s', rfl, h2⟩ | ⟨h2, h5⟩
      · exact .inl ⟨s', rfl, by simp only [Visits.reads]; omega⟩
      · exact .inr ⟨by simp only [Visits.reads]; omega, h5⟩
    · obtain ⟨h5, h6⟩ := h3 fun c s2 hs => h4 c s2 (by rw [hs])
      exact .inr ⟨by simp only [Visits.reads]; omega, h6⟩
  -- the iterations, after an iteration
  have again : ∀ {i : Nat} {e : Expr} {s1 : List Char} {o : Option (List Char)} {b : Visits} {F : Char → Prop}, InSpot G r0 (.star i e) F → Work G noExt (.star i e) s1 o b →
      (∀ c s2, s1 = c :: s2 → ¬ CanFollow G noExt r0 e (some c)) → b.reads = 0 ∧ ∀ c s2, o = some (c :: s2) → ¬ F c := by
    intro i e s1 o b F hw h2 hn
    obtain ⟨ho, hF, hS⟩ := hw.star
    have hz := reads_silent hp hnp h2 (.star ho) fun c s2 hs ⟨z, z', t, hd, hne⟩ => by
      rcases star_starts noExt_fwd hd with h | ⟨c', z1, hc', hst⟩
      · exact hne h
      · cases hc'; exact hn c s2 hs (hS c hst)
    refine ⟨hz, fun c s2 ho hc => ?_⟩
    obtain ⟨hs, _⟩ := still h2 hz _ ho
    exact hn c s2 hs.symm (hF c hc)
  induction h with
  | str_ok => exact fun F _ => .inl ⟨_, rfl, by simp [Visits.reads, Nat.add_comm]⟩
  | any_ok | cls_ok => exact fun F _ => .inl ⟨_, rfl, by simp [Visits.reads]⟩
  | seq_nil => exact fun F _ => .inl ⟨_, rfl, by simp [Visits.reads]⟩
  | str_fail | any_fail | cls_fail | cls_eof | choice_nil => exact fun F _ => leaf0
  | ext_ok h | ext_fail h => exact h.elim
  | nt hf _ ih =>
    intro F hw
    obtain ⟨ho, rfl⟩ := hw.whole nofun nofun nofun
    exact (ih _ (.here ⟨_, _, hf, .refl⟩)).up fun c hc => .nt hc hf
  | seq_fail _ ih =>
    intro F hw
    obtain ⟨before, ho, rfl⟩ := hw.seq
    have := (ih _ (.here (occurs_sub ho (.seq (by simp) .refl)))).le
    exact .inr ⟨this, nofun⟩
  | @seq_cons i e es s s1 o a b h1 h2 ih1 ih2 =>
    intro F hw
    obtain ⟨before, ho, rfl⟩ := hw.seq
    refine both (ih1 _ (.here (occurs_sub ho (.seq (by simp) .refl)))) (ih2 _ (by have := InSpot.tail (r0 := r0) (before := before ++ [e]) (es := es) (by simpa using ho); simpa using this)) fun hn => ?_
    have hz := reads_silent hp hnp h2 (.seq fun x hx => occurs_sub ho (.seq (by simp [hx]) .refl)) fun c s2 hs hst => hn c s2 hs (.seq_next ho hst)
    refine ⟨hz, fun c s2 hso hc => ?_⟩
    obtain ⟨hs, hm⟩ := still h2 hz _ hso
    exact hn c s2 hs.symm (.seq_last hc hm)
  | choice_first _ ih =>
    intro F hw
    obtain ⟨before, ho, rfl⟩ := hw.choice
    exact (ih _ (.here (occurs_sub ho (.choice (by simp) .refl)))).up fun c hc => .choice hc (by simp)
  | @choice_next i e es s o a b h1 h2 ih1 ih2 =>
    intro F hw
    obtain ⟨before, ho, rfl⟩ := hw.choice
    have hoe := occurs_sub ho (.choice (by simp) .refl : Sub e _)
    have k1 := (ih1 _ (.here hoe)).le
    have k2 := ih2 _ (by have := InSpot.other (r0 := r0) (before := before ++ [e]) (es := es) (by simpa using ho); simpa using this)
    by_cases hz : a.reads = 0
    · rcases k2 with ⟨s', rfl, k2⟩ | ⟨k2, k3⟩
      · exact .inl ⟨_, rfl, by simp only [Visits.reads]; omega⟩
      · exact .inr ⟨by simp only [Visits.reads]; omega, k3⟩
    · obtain ⟨c, s1, rfl, hst⟩ := begun hoe h1 hz
      have other : ∀ (k : Nat) y, es[k]? = some y → ¬ Starts G noExt y c ∧ ¬ (MayBeEmpty G noExt y ∧ CanFollow G noExt r0 (.choice i (before ++ e :: es)) (some c)) := by
        intro k y hk
        exact hl.choice i _ ho before.length (before.length + 1 + k) e y (by omega) (by simp)
          (by rw [List.getElem?_append_right (by omega), show before.length + 1 + k - before.length = k + 1 by omega]; simpa using hk) c hst
      have hzb := reads_silent hp hnp h2 (.choice fun x hx => occurs_sub ho (.choice (by simp [hx]) .refl)) fun c' s2 hs ⟨z, z', t, hd, hne⟩ => by
        cases hs
        cases hd with
        | choice hk hd => exact (other _ _ hk).1 ⟨z, z', _, hd, hne⟩
      refine .inr ⟨by simp only [Visits.reads]; omega, fun c' s2 hso hc => ?_⟩
      obtain ⟨hs, z, t, hm⟩ := still h2 hzb _ hso
      cases hs
      cases hm with
      | choice hk hd => exact (other _ _ hk).2 ⟨⟨_, _, hd⟩, hc⟩
  | @star_stop i e s a h1 ih =>
    intro F hw
    obtain ⟨ho, hF, hS⟩ := hw.star
    have k := (ih _ (.here ho)).le
    by_cases hz : a.reads = 0
    · exact .inl ⟨_, rfl, by simp only [Visits.reads]; omega⟩
    · obtain ⟨c, s1, rfl, hst⟩ := begun ho h1 hz
      exact .inr ⟨k, fun c' s2 hs => by cases hs; exact hw.stop hl c hst⟩
  | star_more h1 h2 ih1 ih2 =>
    intro F hw
    exact both (ih1 _ (.here hw.star.1)) (ih2 _ hw) (again hw h2)
  | plus_fail _ ih =>
    intro F hw
    obtain ⟨ho, rfl⟩ := hw.whole nofun nofun nofun
    exact .inr ⟨(ih _ (.here (occurs_sub ho (.plus .refl)))).le, nofun⟩
  | plus_ok h1 h2 ih1 ih2 =>
    intro F hw
    obtain ⟨ho, rfl⟩ := hw.whole nofun nofun nofun
    exact both (ih1 _ (.here (occurs_sub ho (.plus .refl)))) (ih2 _ (.more ho)) (again (.more ho) h2)
  | opt_some _ ih =>
    intro F hw
    obtain ⟨ho, rfl⟩ := hw.whole nofun nofun nofun
    exact (ih _ (.here (occurs_sub ho (.opt .refl)))).up fun c => .opt
  | @opt_none i e s a h1 ih =>
    intro F hw
    obtain ⟨ho, rfl⟩ := hw.whole nofun nofun nofun
    have hoe := occurs_sub ho (.opt .refl : Sub e _)
    have k := (ih _ (.here hoe)).le
    by_cases hz : a.reads = 0
    · exact .inl ⟨_, rfl, by simp only [Visits.reads]; omega⟩
    · obtain ⟨c, s1, rfl, hst⟩ := begun hoe h1 hz
      exact .inr ⟨k, fun c' s2 hs => by cases hs; exact hl.opt _ _ ho c hst⟩
  | not_ok | not_fail => exact fun F hw => absurd (hw.whole nofun nofun nofun).1 (hnp _ _).1
  | and_ok | and_fail => exact fun F hw => absurd (hw.whole nofun nofun nofun).1 (hnp _ _).2
  | act _ ih => intro F hw; obtain ⟨ho, rfl⟩ := hw.whole nofun nofun nofun; exact (ih _ (.here (occurs_sub ho (.act .refl)))).up fun c => .act
  | asc _ ih => intro F hw; obtain ⟨ho, rfl⟩ := hw.whole nofun nofun nofun; exact (ih _ (.here (occurs_sub ho (.asc .refl)))).up fun c => .asc
  | span _ ih => intro F hw; obtain ⟨ho, rfl⟩ := hw.whole nofun nofun nofun; exact (ih _ (.here (occurs_sub ho (.span .refl)))).up fun c => .span
  | range _ ih => intro F hw; obtain ⟨ho, rfl⟩ := hw.whole nofun nofun nofun; exact (ih _ (.here (occurs_sub ho (.range .refl)))).up fun c => .range

end Oak
