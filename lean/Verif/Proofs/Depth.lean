import Verif.Spec.Depth
import Verif.Proofs.RunComplete
import Verif.Proofs.WFTotal
import Verif.Proofs.Main
import Mathlib.Data.List.ProdSigma
import Mathlib.Data.List.Nodup
import Mathlib.Data.List.Infix
import Batteries.Data.List.Perm
/-!
Bounds on the depth of calls (C58).
-/
set_option linter.constructorNameAsVariable false
set_option autoImplicit false

namespace Oak
open Spec

section
variable {G : Grammar} {X : ExtSpec}

/-- Calls made by a called rule are calls. -/
theorem Calls.trans {q q' s' s'' b e s} (h : Calls G X q s' e s) (hb : G.find q = some b) (h' : Calls G X q' s'' b s') : Calls G X q' s'' e s := by
  induction h with
  | here => exact .inside hb h'
  | inside he _ ih => exact .inside he ih
  | seq_head _ ih => exact .seq_head ih
  | seq_tail hp _ ih => exact .seq_tail hp ih
  | choice_head _ ih => exact .choice_head ih
  | choice_tail hp _ ih => exact .choice_tail hp ih
  | star _ ih => exact .star ih
  | star_again hp _ ih => exact .star_again hp ih
  | plus _ ih => exact .plus ih
  | plus_again hp _ ih => exact .plus_again hp ih
  | opt _ ih => exact .opt ih
  | not _ ih => exact .not ih
  | and _ ih => exact .and ih
  | act _ ih => exact .act ih
  | asc _ ih => exact .asc ih
  | span _ ih => exact .span ih
  | range _ ih => exact .range ih

theorem Nested.mem {e s l} (h : Nested G X e s l) : ∀ x ∈ l, Calls G X x.1 x.2 e s ∧ ∃ b, G.find x.1 = some b := by
  induction h with
  | nil => intro x hx; cases hx
  | cons hc hb _ ih =>
    intro x hx
    rcases List.mem_cons.1 hx with rfl | hx
    · exact ⟨hc, _, hb⟩
    · exact ⟨hc.trans hb (ih x hx).1, (ih x hx).2⟩

theorem Nested.nodup (hcyc : ∀ q b s, G.find q = some b → ¬ Calls G X q s b s) {e s l} (h : Nested G X e s l) : l.Nodup := by
  induction h with
  | nil => exact List.nodup_nil
  | cons hc hb hn ih =>
    refine List.nodup_cons.2 ⟨fun hm => ?_, ih⟩
    exact hcyc _ _ _ hb (hn.mem _ hm).1

theorem find_mem_rules {q : String} {b : Expr} (h : G.find q = some b) : q ∈ G.rules.map (·.1) := by
  unfold Grammar.find at h
  cases hf : G.rules.find? (·.1 == q) with
  | none => rw [hf] at h; cases h
  | some x =>
    have h1 := List.mem_of_find?_eq_some hf
    have h2 := List.find?_some hf
    exact List.mem_map.2 ⟨x, h1, by simpa using h2⟩

theorem Nested.length_le (hf : X.Forward) (hcyc : ∀ q b s, G.find q = some b → ¬ Calls G X q s b s) {e s l} (h : Nested G X e s l) :
    l.length ≤ G.rules.length * (s.length + 1) := by
  have hsub : l ⊆ (G.rules.map (·.1)) ×ˢ s.tails := by
    intro x hx
    obtain ⟨hc, b, hb⟩ := h.mem x hx
    obtain ⟨q, s'⟩ := x
    exact List.mem_product.2 ⟨find_mem_rules hb, (List.mem_tails _ _).2 (hc.forward hf)⟩
  have := (List.subperm_of_subset (h.nodup hcyc) hsub).length_le
  rw [List.length_product, List.length_map, List.length_tails] at this
  exact this

/-- Chains of nested calls have at most `k` elements. -/
def Within (G : Grammar) (X : ExtSpec) (e : Expr) (s : List Char) (k : Nat) : Prop := ∀ l, Nested G X e s l → l.length ≤ k

theorem Within.of {e e' : Expr} {s s' : List Char} {k : Nat} (h : Within G X e s k)
    (hc : ∀ q s1, Calls G X q s1 e' s' → Calls G X q s1 e s) : Within G X e' s' k := by
  intro l hl
  cases hl with
  | nil => exact Nat.zero_le _
  | cons h1 h2 h3 => exact h _ (.cons (hc _ _ h1) h2 h3)

theorem Within.nt {i : Nat} {r : String} {b : Expr} {s : List Char} {k : Nat} (h : Within G X (.nt i r) s k) (hb : G.find r = some b) :
    ∃ j, k = j + 1 ∧ Within G X b s j := by
  have h1 := h _ (.cons .here hb .nil)
  simp only [List.length_cons, List.length_nil] at h1
  refine ⟨k - 1, by omega, fun l hl => ?_⟩
  have := h _ (.cons .here hb hl)
  simp only [List.length_cons] at this
  omega

end

section
variable {σ : Type} {ops : StreamOps σ} {V : σ → Prop} {rest : σ → List Char} {input : List Char}
  {ext : Nat → FnRef → PState σ Val → Res (PState σ Val)} {G : Grammar} {T : Nat → Ty} {sp : SpanSpec} {X : ExtSpec}

/-- Expressions considered. -/
structure TermIn (V : σ → Prop) (ext : Nat → FnRef → PState σ Val → Res (PState σ Val)) (G : Grammar) (N : Nat) (e : Expr) : Prop where
  resolved : e.resolved G = true
  shaped : e.shaped = true
  rep : RepOk G e
  ext : ∀ i path, Sub (.ext i path) e → ∀ p n, N ≤ n → ∀ st, OkSt V st → ext n ⟨p, path⟩ st ≠ .timeout

theorem TermIn.of {N : Nat} {e x : Expr} (h : TermIn V ext G N e) (hr : x.resolved G = true) (hsh : x.shaped = true) (hs : ∀ y, Sub y x → Sub y e) :
    TermIn V ext G N x :=
  ⟨hr, hsh, fun i c hc => h.rep i c (hc.imp (hs _) (hs _)), fun i p hp => h.ext i p (hs _ hp)⟩

theorem TermIn.seq_tail {N i : Nat} {e : Expr} {es : List Expr} (h : TermIn V ext G N (.seq i (e :: es))) : TermIn V ext G N (.seq i es) := by
  obtain ⟨h1, h2, h3, h4⟩ := h
  simp only [Expr.resolved, resolvedAll, Bool.and_eq_true] at h1
  simp only [Expr.shaped, shapedAll, Bool.and_eq_true] at h2
  refine ⟨by simpa [Expr.resolved] using h1.2, by simpa [Expr.shaped] using h2.2, ?_, ?_⟩
  · rintro j c (h | h)
    · cases h with
      | seq he h => exact h3 j c (.inl (.seq (List.mem_cons_of_mem _ he) h))
    · cases h with
      | seq he h => exact h3 j c (.inr (.seq (List.mem_cons_of_mem _ he) h))
  · intro j p h
    cases h with
    | seq he h => exact h4 j p (.seq (List.mem_cons_of_mem _ he) h)

theorem TermIn.seq_head {N i : Nat} {e : Expr} {es : List Expr} (h : TermIn V ext G N (.seq i (e :: es))) : TermIn V ext G N e := by
  have h1 := h.resolved
  have h2 := h.shaped
  simp only [Expr.resolved, resolvedAll, Bool.and_eq_true] at h1
  simp only [Expr.shaped, shapedAll, Bool.and_eq_true] at h2
  exact h.of h1.1 h2.1 fun _ h => .seq List.mem_cons_self h

theorem TermIn.choice_tail {N i : Nat} {e : Expr} {es : List Expr} (h : TermIn V ext G N (.choice i (e :: es))) (hne : es ≠ []) :
    TermIn V ext G N (.choice i es) := by
  obtain ⟨h1, h2, h3, h4⟩ := h
  simp only [Expr.resolved, resolvedAll, Bool.and_eq_true] at h1
  simp only [Expr.shaped, shapedAll, Bool.and_eq_true] at h2
  refine ⟨by simpa [Expr.resolved] using h1.2, by simp [Expr.shaped, h2.2.2, hne], ?_, ?_⟩
  · rintro j c (h | h)
    · cases h with
      | choice he h => exact h3 j c (.inl (.choice (List.mem_cons_of_mem _ he) h))
    · cases h with
      | choice he h => exact h3 j c (.inr (.choice (List.mem_cons_of_mem _ he) h))
  · intro j p h
    cases h with
    | choice he h => exact h4 j p (.choice (List.mem_cons_of_mem _ he) h)

theorem TermIn.choice_head {N i : Nat} {e : Expr} {es : List Expr} (h : TermIn V ext G N (.choice i (e :: es))) : TermIn V ext G N e := by
  have h1 := h.resolved
  have h2 := h.shaped
  simp only [Expr.resolved, resolvedAll, Bool.and_eq_true] at h1
  simp only [Expr.shaped, shapedAll, Bool.and_eq_true] at h2
  exact h.of h1.1 h2.2.1 fun _ h => .choice List.mem_cons_self h

theorem TermIn.star_of_plus {N i : Nat} {c : Expr} (h : TermIn V ext G N (.plus i c)) : TermIn V ext G N (.star i c) := by
  obtain ⟨h1, h2, h3, h4⟩ := h
  refine ⟨by simpa [Expr.resolved] using h1, by simpa [Expr.shaped] using h2, ?_, ?_⟩
  · rintro j c' (h | h)
    · cases h with
      | refl => exact h3 i c (.inr .refl)
      | star h => exact h3 j c' (.inl (.plus h))
    · cases h with
      | star h => exact h3 j c' (.inr (.plus h))
  · intro j p h
    cases h with
    | star h => exact h4 j p (.plus h)

/-- With the fuel told, the interpretation of `e` at `s` does not run out of fuel. -/
def DoneIn (ops : StreamOps σ) (V : σ → Prop) (rest : σ → List Char) (ext : Nat → FnRef → PState σ Val → Res (PState σ Val))
    (G : Grammar) (X : ExtSpec) (T : Nat → Ty) (N : Nat) (e : Expr) (s : List Char) : Prop :=
  TermIn V ext G N e → ∀ k, Within G X e s k → ∀ n, 2 * k + s.length + 2 + N ≤ n → ∀ p st, coherent T (G.ruleCard T) p e = true → OkSt V st →
    rest st.cur = s → run ops (runProg ops ext G T n) T n p e st ≠ .timeout

/-- The same for the iterations of a repetition. -/
def DoneLoopIn (ops : StreamOps σ) (V : σ → Prop) (rest : σ → List Char) (ext : Nat → FnRef → PState σ Val → Res (PState σ Val))
    (G : Grammar) (X : ExtSpec) (T : Nat → Ty) (N i : Nat) (e : Expr) (s : List Char) : Prop :=
  TermIn V ext G N (.star i e) → ∀ k, Within G X (.star i e) s k → ∀ n, 2 * k + s.length + 2 + N ≤ n → ∀ f, s.length + 1 ≤ f → ∀ p st c vs,
    coherent T (G.ruleCard T) p e = true →
    OkSt V st → rest st.cur = s → runLoop (run ops (runProg ops ext G T n) T n p e) f c st.cur vs st ≠ .timeout

theorem doneLoopIn_star {N i : Nat} {e : Expr} {s : List Char} (ih : DoneLoopIn ops V rest ext G X T N i e s) : DoneIn ops V rest ext G X T N (.star i e) s := by
  intro ht k hk n hn p st hco hst hs
  simp only [run, runRepeat, mark_spec hst.failed, Res.bind_ok]
  refine Res.bind_ne_timeout (ih ht k hk n hn n (by omega) _ st 0 [] hco hst hs) fun a _ => ?_
  obtain ⟨k, m, vs, st'⟩ := a
  simp only
  split
  · simp
  · exact Res.bind_ne_timeout (restoreFromFailure_ne_timeout _ _) (by simp)

/-- If the match of `e` at `s` has an outcome, then the interpreter terminates on it with the fuel told. -/
theorem run_complete_in (sys : Sys ops V rest input ext G T sp X) (hext : ExtOk V rest ext G X) (hf : X.Forward) (hc : ExtSpec.Consuming X)
    {N : Nat} (hbody : ∀ r b, G.find r = some b → TermIn V ext G N b) {e : Expr} {s : List Char} {o : Out} {L : Log}
    (h : Peg G X e s o L) : DoneIn ops V rest ext G X T N e s ∧ ∀ i c, e = .star i c → DoneLoopIn ops V rest ext G X T N i c s := by
  have hl := sys.lawful
  have shorter : ∀ {e s s1 t L}, Peg G X e s (.ok s1 t) L → s1.length ≤ s.length := fun h => ((Peg.forward hf h).1 _ _ rfl).length_le
  have strict : ∀ {e s s1 t L}, Peg G X e s (.ok s1 t) L → ¬ Nullable G e → s1.length < s.length := by
    intro e s s1 t L h hn
    have hsuf := (Peg.forward hf h).1 _ _ rfl
    rcases Nat.lt_or_ge s1.length s.length with h' | h'
    · exact h'
    · have := hsuf.eq_of_length (Nat.le_antisymm hsuf.length_le h')
      subst this
      exact absurd (h.nullable hf hc _ rfl) hn
  have call : ∀ {i r b s} (he : G.find r = some b), DoneIn ops V rest ext G X T N b s → ∀ k, Within G X (.nt i r) s k →
      ∀ n, 2 * k + s.length + 2 + N ≤ n → ∀ q st, OkSt V st → rest st.cur = s → runProg ops ext G T n ⟨q, [r]⟩ st ≠ .timeout := by
    intro i r e s he ih k hk
    obtain ⟨j, rfl, hj⟩ := hk.nt he
    have h := ih (hbody r e he) j hj
    have base : ∀ n, 2 * j + s.length + 2 + N + 1 ≤ n → ∀ st, OkSt V st → rest st.cur = s → runProg ops ext G T n ⟨false, [r]⟩ st ≠ .timeout := by
      intro n hn st hst hs
      obtain ⟨m, rfl⟩ : ∃ m, n = m + 1 := ⟨n - 1, by omega⟩
      simp only [runProg, he, Bool.false_and, Bool.false_eq_true, if_false]
      exact Res.bind_ne_timeout (h m (by omega) _ st (coherent_false _ _ _) hst hs) fun _ _ => finish_ne_timeout _
    intro n hn q st hst hs
    cases q with
    | false => exact base n (by omega) st hst hs
    | true =>
      obtain ⟨m, rfl⟩ : ∃ m, n = m + 1 := ⟨n - 1, by omega⟩
      simp only [runProg, he]
      split
      · exact base m (by omega) st hst hs
      · exact Res.bind_ne_timeout (h m (by omega) _ st (Grammar.coherent_find sys.coh he) hst hs) fun _ _ => finish_ne_timeout _
  induction h with
  | @str_ok i lit _ | @str_fail i lit _ _ =>
    refine ⟨fun _ _ _ n _ p st _ hst hs => ?_, by rintro _ _ ⟨⟩⟩
    simp only [run]
    by_cases h : lit.toList <+: rest st.cur
    · obtain ⟨r, hr⟩ := h
      obtain ⟨s', h1, h2, h3⟩ := hl.prefix_true (p := lit) (r := r) hst.cur hr.symm
      simp [PState.consumePrefix, h1]
    · simp only [PState.consumePrefix, hl.prefix_false hst.cur h, Res.bind_ok, Bool.false_eq_true, if_false]
      exact terminal_ne_timeout hl hst.far hst.cur
  | any_ok | any_fail =>
    refine ⟨fun _ _ _ n _ p st _ hst hs => ?_, by rintro _ _ ⟨⟩⟩
    simp only [run]
    cases hr : rest st.cur with
    | nil =>
      obtain ⟨s', h1, h2, h3⟩ := hl.next_nil hst.cur hr
      simp only [PState.next, h1, Res.bind_ok]
      exact terminal_ne_timeout hl hst.far h2
    | cons c cs =>
      obtain ⟨s', h1, h2, h3⟩ := hl.next_cons hst.cur hr
      simp [PState.next, h1]
  | cls_ok _ | cls_fail _ | cls_eof =>
    refine ⟨fun _ _ _ n _ p st _ hst hs => ?_, by rintro _ _ ⟨⟩⟩
    simp only [run, mark_spec hst.failed, Res.bind_ok]
    cases hr : rest st.cur with
    | nil =>
      obtain ⟨s', h1, h2, h3⟩ := hl.next_nil hst.cur hr
      simp only [PState.next, h1, Res.bind_ok, Option.filter_none]
      rw [restore_spec (by simpa using hst.data)]
      exact terminal_ne_timeout hl hst.far hst.cur
    | cons c cs =>
      obtain ⟨s', h1, h2, h3⟩ := hl.next_cons hst.cur hr
      simp only [PState.next, h1, Res.bind_ok]
      split
      · simp
      · rw [restore_spec (by simpa using hst.data)]
        exact terminal_ne_timeout hl hst.far hst.cur
  | nt_ok he _ ih | nt_fail he _ ih =>
    refine ⟨fun _ k hk n hn p st _ hst hs => ?_, by rintro _ _ ⟨⟩⟩
    simp only [run]
    exact runCall_ne_timeout fun q => call he ih.1 k hk n hn q st hst hs
  | @ext i path s o L hx =>
    refine ⟨fun ht k _ n hn p st _ hst hs => ?_, by rintro _ _ ⟨⟩⟩
    have hpath : ∀ r, path = [r] → G.find r = none := by
      rintro r rfl
      simpa [Expr.resolved] using ht.resolved
    simp only [run]
    refine runCall_ne_timeout fun q => ?_
    obtain ⟨m, rfl⟩ : ∃ m, n = m + 1 := ⟨n - 1, by omega⟩
    have hrun : runProg ops ext G T (m + 1) ⟨q, path⟩ st = ext m ⟨q, path⟩ st := by
      rcases path with _ | ⟨r, _ | ⟨r', path⟩⟩
      · rfl
      · simp only [runProg, hpath r rfl]
      · rfl
    rw [hrun]
    exact ht.ext i path .refl q m (by omega) st hst
  | seq_nil => exact ⟨fun _ _ _ n _ p st _ hst hs => by simp [run, runSeq], by rintro _ _ ⟨⟩⟩
  | @seq_cons i e es s s1 s2 t ts L1 L2 h1 h2 ih1 ih2 =>
    refine ⟨fun ht k hk n hn p st hco hst hs => ?_, by rintro _ _ ⟨⟩⟩
    simp only [coherent, coherentAll, Bool.and_eq_true] at hco
    simp only [run, runSeq]
    have hnt := ih1.1 ht.seq_head k (hk.of fun _ _ => .seq_head) n hn _ st hco.1 hst hs
    obtain ⟨r, st', he, hr⟩ := run_sound' sys hext n h1 hco.1 ht.seq_head.resolved ht.seq_head.shaped hst hs hnt
    obtain ⟨rfl, q1, q2, q3, q4⟩ := hr
    rw [he]
    simp only [Res.bind_ok]
    have hlen := shorter h1
    have := ih2.1 ht.seq_tail k (hk.of fun _ _ => .seq_tail h1) n (by omega) p st' (by simpa [coherent] using hco.2) ⟨q4.far, q4.cur, q1, q2⟩ q3
    simp only [run] at this
    refine Res.bind_ne_timeout this fun a _ => ?_
    obtain ⟨a, _⟩ := a
    cases a <;> simp
  | @seq_later i e es s s1 t L1 L2 h1 h2 ih1 ih2 =>
    refine ⟨fun ht k hk n hn p st hco hst hs => ?_, by rintro _ _ ⟨⟩⟩
    simp only [coherent, coherentAll, Bool.and_eq_true] at hco
    simp only [run, runSeq]
    have hnt := ih1.1 ht.seq_head k (hk.of fun _ _ => .seq_head) n hn _ st hco.1 hst hs
    obtain ⟨r, st', he, hr⟩ := run_sound' sys hext n h1 hco.1 ht.seq_head.resolved ht.seq_head.shaped hst hs hnt
    obtain ⟨rfl, q1, q2, q3, q4⟩ := hr
    rw [he]
    simp only [Res.bind_ok]
    have hlen := shorter h1
    have := ih2.1 ht.seq_tail k (hk.of fun _ _ => .seq_tail h1) n (by omega) p st' (by simpa [coherent] using hco.2) ⟨q4.far, q4.cur, q1, q2⟩ q3
    simp only [run] at this
    refine Res.bind_ne_timeout this fun a _ => ?_
    obtain ⟨a, _⟩ := a
    cases a <;> simp
  | @seq_fail i e es s L h1 ih1 =>
    refine ⟨fun ht k hk n hn p st hco hst hs => ?_, by rintro _ _ ⟨⟩⟩
    simp only [coherent, coherentAll, Bool.and_eq_true] at hco
    simp only [run, runSeq]
    have hnt := ih1.1 ht.seq_head k (hk.of fun _ _ => .seq_head) n hn _ st hco.1 hst hs
    obtain ⟨r, st', he, hr⟩ := run_sound' sys hext n h1 hco.1 ht.seq_head.resolved ht.seq_head.shaped hst hs hnt
    obtain ⟨rfl, q1, q2, q3⟩ := hr
    rw [he]
    simp
  | choice_nil => exact ⟨fun ht => by have := ht.shaped; simp [Expr.shaped] at this, by rintro _ _ ⟨⟩⟩
  | @choice_first i e es s s1 t L h1 ih1 =>
    refine ⟨fun ht k hk n hn p st hco hst hs => ?_, by rintro _ _ ⟨⟩⟩
    simp only [coherent, coherentAll, Bool.and_eq_true] at hco
    simp only [run, mark_spec hst.failed, Res.bind_ok, runBranches]
    have hnt := ih1.1 ht.choice_head k (hk.of fun _ _ => .choice_head) n hn _ st hco.1.1 hst hs
    obtain ⟨r, st', he, hr⟩ := run_sound' sys hext n h1 hco.1.1 ht.choice_head.resolved ht.choice_head.shaped hst hs hnt
    obtain ⟨rfl, q1, q2, q3, q4⟩ := hr
    rw [he]
    simp
  | @choice_next i e es s s1 k t L1 L2 h1 h2 ih1 ih2 =>
    refine ⟨fun ht k hk n hn p st hco hst hs => ?_, by rintro _ _ ⟨⟩⟩
    have hne : es ≠ [] := by rintro rfl; cases h2
    have hcot := coherent_choice_tail hco
    simp only [coherent, coherentAll, Bool.and_eq_true] at hco
    simp only [run, mark_spec hst.failed, Res.bind_ok, runBranches]
    have hnt := ih1.1 ht.choice_head k (hk.of fun _ _ => .choice_head) n hn _ st hco.1.1 hst hs
    obtain ⟨r, st', he, hr⟩ := run_sound' sys hext n h1 hco.1.1 ht.choice_head.resolved ht.choice_head.shaped hst hs hnt
    obtain ⟨rfl, q1, q2, q3⟩ := hr
    rw [he]
    simp only [Res.bind_ok, restoreFromFailure_spec q1 q2]
    have := ih2.1 (ht.choice_tail hne) k (hk.of fun _ _ => .choice_tail h1) n hn p ⟨st'.far, st'.exp, false, st.cur, none, st'.calls⟩ hcot
      ⟨q3.far, hst.cur, rfl, rfl⟩ hs
    simp only [run, mark_spec, Res.bind_ok] at this
    split
    · simp
    · exact this
  | @choice_fail i e es s L1 L2 h1 h2 ih1 ih2 =>
    refine ⟨fun ht k hk n hn p st hco hst hs => ?_, by rintro _ _ ⟨⟩⟩
    have hcot := fun _ : es ≠ [] => coherent_choice_tail hco
    simp only [coherent, coherentAll, Bool.and_eq_true] at hco
    simp only [run, mark_spec hst.failed, Res.bind_ok, runBranches]
    have hnt := ih1.1 ht.choice_head k (hk.of fun _ _ => .choice_head) n hn _ st hco.1.1 hst hs
    obtain ⟨r, st', he, hr⟩ := run_sound' sys hext n h1 hco.1.1 ht.choice_head.resolved ht.choice_head.shaped hst hs hnt
    obtain ⟨rfl, q1, q2, q3⟩ := hr
    rw [he]
    by_cases hne : es = []
    · subst hne
      simp
    · simp only [Res.bind_ok, restoreFromFailure_spec q1 q2]
      have := ih2.1 (ht.choice_tail hne) k (hk.of fun _ _ => .choice_tail h1) n hn p ⟨st'.far, st'.exp, false, st.cur, none, st'.calls⟩ (hcot hne)
        ⟨q3.far, hst.cur, rfl, rfl⟩ hs
      simp only [run, mark_spec, Res.bind_ok] at this
      split
      · simp
      · exact this
  | @star_stop i e s L h1 ih1 =>
    have key : DoneLoopIn ops V rest ext G X T N i e s := by
      intro ht k hk n hn f hf p st c vs hco hst hs
      obtain ⟨f, rfl⟩ : ∃ m, f = m + 1 := ⟨f - 1, by omega⟩
      simp only [runLoop]
      have hte := ht.of (x := e) (by simpa [Expr.resolved] using ht.resolved) (by simpa [Expr.shaped] using ht.shaped) fun _ => .star
      have hnt := ih1.1 hte k (hk.of fun _ _ => .star) n hn _ st hco hst hs
      obtain ⟨r, st', he, hr⟩ := run_sound' sys hext n h1 hco hte.resolved hte.shaped hst hs hnt
      obtain ⟨rfl, q1, q2, q3⟩ := hr
      rw [he]
      simp [PState.isSuccessful, PState.isFailed, q1]
    exact ⟨doneLoopIn_star key, by rintro _ _ ⟨⟩; exact key⟩
  | @star_more i e s s1 s2 t ts L1 L2 h1 h2 ih1 ih2 =>
    have key : DoneLoopIn ops V rest ext G X T N i e s := by
      intro ht k hk n hn f hf p st c vs hco hst hs
      obtain ⟨f, rfl⟩ : ∃ m, f = m + 1 := ⟨f - 1, by omega⟩
      simp only [runLoop]
      have hte := ht.of (x := e) (by simpa [Expr.resolved] using ht.resolved) (by simpa [Expr.shaped] using ht.shaped) fun _ => .star
      have hnt := ih1.1 hte k (hk.of fun _ _ => .star) n hn _ st hco hst hs
      obtain ⟨r, st', he, hr⟩ := run_sound' sys hext n h1 hco hte.resolved hte.shaped hst hs hnt
      obtain ⟨rfl, q1, q2, q3, q4⟩ := hr
      rw [he]
      simp only [PState.isSuccessful, PState.isFailed, q1, Res.bind_ok, Bool.not_false, if_true, mark_spec q1]
      have hlen := strict h1 (ht.rep i e (.inl .refl))
      exact ih2.2 i e rfl ht k (hk.of fun _ _ => .star_again h1) n (by omega) f (by omega) p st' _ _ hco ⟨q4.far, q4.cur, q1, q2⟩ q3
    exact ⟨doneLoopIn_star key, by rintro _ _ ⟨⟩; exact key⟩
  | @plus_fail i e s L h1 ih1 =>
    refine ⟨fun ht k hk n hn p st hco hst hs => ?_, by rintro _ _ ⟨⟩⟩
    have hte := ht.of (x := e) (by simpa [Expr.resolved] using ht.resolved) (by simpa [Expr.shaped] using ht.shaped) fun _ => .plus
    simp only [coherent] at hco
    simp only [run, runRepeat, mark_spec hst.failed, Res.bind_ok]
    have hnt := ih1.1 hte k (hk.of fun _ _ => .plus) n hn _ st hco hst hs
    obtain ⟨r, st', he, hr⟩ := run_sound' sys hext n h1 hco hte.resolved hte.shaped hst hs hnt
    obtain ⟨rfl, q1, q2, q3⟩ := hr
    obtain ⟨m, hm⟩ : ∃ m, n = m + 1 := ⟨n - 1, by omega⟩
    generalize hb : run ops (runProg ops ext G T n) T n (p && decide (T i ≠ .unit)) e = body at *
    rw [hm]
    simp only [runLoop]
    rw [he]
    simp [PState.isSuccessful, PState.isFailed, q1]
  | @plus_ok i e s s1 s2 t ts L1 L2 h1 h2 ih1 ih2 =>
    refine ⟨fun ht k hk n hn p st hco hst hs => ?_, by rintro _ _ ⟨⟩⟩
    have hte := ht.of (x := e) (by simpa [Expr.resolved] using ht.resolved) (by simpa [Expr.shaped] using ht.shaped) fun _ => .plus
    simp only [coherent] at hco
    simp only [run, runRepeat, mark_spec hst.failed, Res.bind_ok]
    have hnt := ih1.1 hte k (hk.of fun _ _ => .plus) n hn _ st hco hst hs
    obtain ⟨r, st', he, hr⟩ := run_sound' sys hext n h1 hco hte.resolved hte.shaped hst hs hnt
    obtain ⟨rfl, q1, q2, q3, q4⟩ := hr
    obtain ⟨m, hm⟩ : ∃ m, n = m + 1 := ⟨n - 1, by omega⟩
    have hlen := strict h1 (ht.rep i e (.inr .refl))
    have hk := fun c vs => ih2.2 i e rfl ht.star_of_plus k (hk.of fun _ _ => .plus_again h1) n (by omega) m (by omega) _ st' c vs hco
      ⟨q4.far, q4.cur, q1, q2⟩ q3
    generalize hb : run ops (runProg ops ext G T n) T n (p && decide (T i ≠ .unit)) e = body at *
    rw [hm]
    refine Res.bind_ne_timeout ?_ fun a _ => ?_
    · simp only [runLoop]
      rw [he]
      simp only [PState.isSuccessful, PState.isFailed, q1, Res.bind_ok, Bool.not_false, if_true, mark_spec q1]
      exact hk _ _
    · obtain ⟨k, m, vs, st'⟩ := a
      simp only
      split
      · simp
      · exact Res.bind_ne_timeout (restoreFromFailure_ne_timeout _ _) (by simp)
  | @opt_some i e s _ _ _ h1 ih1 | @opt_none i e s _ h1 ih1 =>
    refine ⟨fun ht k hk n hn p st hco hst hs => ?_, by rintro _ _ ⟨⟩⟩
    have hte := ht.of (x := e) (by simpa [Expr.resolved] using ht.resolved) (by simpa [Expr.shaped] using ht.shaped) fun _ => .opt
    simp only [run, runOpt, mark_spec hst.failed, Res.bind_ok]
    refine Res.bind_ne_timeout (ih1.1 hte k (hk.of fun _ _ => .opt) n hn _ st hco hst hs) fun a _ => ?_
    refine Res.bind_ne_timeout ?_ (by simp)
    unfold restoreIf
    split
    · exact restoreFromFailure_ne_timeout _ _
    · simp
  | @not_ok i e s _ h1 ih1 | @not_fail i e s _ _ _ h1 ih1 =>
    refine ⟨fun ht k hk n hn p st hco hst hs => ?_, by rintro _ _ ⟨⟩⟩
    have hte := ht.of (x := e) (by simpa [Expr.resolved] using ht.resolved) (by simpa [Expr.shaped] using ht.shaped) fun _ => .not
    simp only [run, runPred, mark_spec hst.failed, Res.bind_ok]
    refine Res.bind_ne_timeout (ih1.1 hte k (hk.of fun _ _ => .not) n hn _ st hco hst hs) fun a _ => ?_
    refine Res.bind_ne_timeout (restore_ne_timeout _ _) fun b _ => ?_
    split <;> simp
  | @and_ok i e s _ _ _ h1 ih1 | @and_fail i e s _ h1 ih1 =>
    refine ⟨fun ht k hk n hn p st hco hst hs => ?_, by rintro _ _ ⟨⟩⟩
    have hte := ht.of (x := e) (by simpa [Expr.resolved] using ht.resolved) (by simpa [Expr.shaped] using ht.shaped) fun _ => .and
    simp only [run, runPred, mark_spec hst.failed, Res.bind_ok]
    refine Res.bind_ne_timeout (ih1.1 hte k (hk.of fun _ _ => .and) n hn _ st hco hst hs) fun a _ => ?_
    refine Res.bind_ne_timeout (restore_ne_timeout _ _) fun b _ => ?_
    split <;> simp
  | @act_ok i e b f s _ _ _ h1 ih1 | @act_fail i e b f s _ h1 ih1 =>
    refine ⟨fun ht k hk n hn p st hco hst hs => ?_, by rintro _ _ ⟨⟩⟩
    have hte := ht.of (x := e) (by simpa [Expr.resolved] using ht.resolved) (by simpa [Expr.shaped] using ht.shaped) fun _ => .act
    have k1 := ih1.1 hte k (hk.of fun _ _ => .act) n hn
    simp only [coherent] at hco
    simp only [run]
    split
    · rename_i hq
      rw [hq] at hco
      exact Res.bind_ne_timeout (k1 _ st hco hst hs) (by rintro ⟨_ | _, _⟩ _ <;> simp)
    · exact k1 _ st (coherent_false _ _ _) hst hs
  | @asc_ok i e ty s _ _ _ h1 ih1 | @asc_fail i e ty s _ h1 ih1 =>
    refine ⟨fun ht k hk n hn p st hco hst hs => ?_, by rintro _ _ ⟨⟩⟩
    have hte := ht.of (x := e) (by simpa [Expr.resolved] using ht.resolved) (by simpa [Expr.shaped] using ht.shaped) fun _ => .asc
    simp only [run]
    exact ih1.1 hte k (hk.of fun _ _ => .asc) n hn _ st hco hst hs
  | @span_ok i e s _ _ _ h1 ih1 | @span_fail i e s _ h1 ih1 =>
    refine ⟨fun ht k hk n hn p st hco hst hs => ?_, by rintro _ _ ⟨⟩⟩
    have hte := ht.of (x := e) (by simpa [Expr.resolved] using ht.resolved) (by simpa [Expr.shaped] using ht.shaped) fun _ => .span
    have k1 := ih1.1 hte k (hk.of fun _ _ => .span) n hn
    simp only [coherent, Bool.and_eq_true] at hco
    simp only [run]
    split
    · rename_i hq
      rw [hq] at hco
      refine Res.bind_ne_timeout (mark_ne_timeout _) fun m _ => ?_
      refine Res.bind_ne_timeout (k1 _ st hco.1 hst hs) fun a _ => ?_
      obtain ⟨a, st'⟩ := a
      cases a
      · simp
      · exact Res.bind_ne_timeout (mark_ne_timeout _) (by simp)
    · exact k1 _ st (coherent_false _ _ _) hst hs
  | @range_ok i e s _ _ _ h1 ih1 | @range_fail i e s _ h1 ih1 =>
    refine ⟨fun ht k hk n hn p st hco hst hs => ?_, by rintro _ _ ⟨⟩⟩
    have hte := ht.of (x := e) (by simpa [Expr.resolved] using ht.resolved) (by simpa [Expr.shaped] using ht.shaped) fun _ => .range
    have k1 := ih1.1 hte k (hk.of fun _ _ => .range) n hn
    simp only [coherent, Bool.and_eq_true] at hco
    simp only [run]
    split
    · rename_i hq
      rw [hq] at hco
      refine Res.bind_ne_timeout (mark_ne_timeout _) fun m _ => ?_
      refine Res.bind_ne_timeout (k1 _ st hco.1 hst hs) fun a _ => ?_
      obtain ⟨a, st'⟩ := a
      cases a
      · simp
      · exact Res.bind_ne_timeout (mark_ne_timeout _) (by simp)
    · exact k1 _ st (coherent_false _ _ _) hst hs

end
end Oak
