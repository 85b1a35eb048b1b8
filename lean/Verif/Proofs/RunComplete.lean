import Verif.Proofs.RunSound
/-!
The direct-style interpreter terminates whenever the PEG match has an outcome.
-/
set_option linter.constructorNameAsVariable false
set_option autoImplicit false

namespace Oak
open Spec

theorem Res.bind_ne_timeout {α β : Type} {x : Res α} {f : α → Res β} (hx : x ≠ .timeout) (hf : ∀ a, x = .ok a → f a ≠ .timeout) :
    (x >>= f) ≠ .timeout := by
  cases x with
  | ok a => exact hf a rfl
  | panic => simp
  | stuck => simp
  | timeout => exact absurd rfl hx

section
variable {σ : Type} {ops : StreamOps σ} {V : σ → Prop} {rest : σ → List Char} {input : List Char}
  {ext : Nat → FnRef → PState σ Val → Res (PState σ Val)} {G : Grammar} {T : Nat → Ty} {sp : SpanSpec} {X : ExtSpec}

theorem untuple_ne_timeout (n : Nat) (v : Val) : untuple n v ≠ .timeout := by
  unfold untuple
  split
  · simp
  · split
    · split <;> simp
    · simp

theorem extractData_ne_timeout (st : PState σ Val) : (st.extractData : Res (PState σ Val × Val)) ≠ .timeout := by
  unfold PState.extractData
  split
  · split <;> simp
  · simp

theorem assert_ne_timeout (b : Bool) : Res.assert b ≠ .timeout := by cases b <;> simp

theorem mark_ne_timeout (st : PState σ Val) : st.mark ≠ .timeout := by
  unfold PState.mark
  exact Res.bind_ne_timeout (assert_ne_timeout _) (by simp)

theorem restore_ne_timeout (st : PState σ Val) (m : σ) : (st.restore m : Res (PState σ Val)) ≠ .timeout := by
  unfold PState.restore
  exact Res.bind_ne_timeout (assert_ne_timeout _) (by simp)

theorem restoreFromFailure_ne_timeout (st : PState σ Val) (m : σ) :
    (st.restoreFromFailure m : Res (PState σ Val)) ≠ .timeout := by
  unfold PState.restoreFromFailure
  exact Res.bind_ne_timeout (assert_ne_timeout _) (fun _ _ => restore_ne_timeout _ _)

theorem runCall_ne_timeout {fns : FnRef → PState σ Val → Res (PState σ Val)} {p : Bool} {i : Nat} {path : Path} {st : PState σ Val}
    (h : ∀ q, fns ⟨q, path⟩ st ≠ .timeout) : runCall fns T p i path st ≠ .timeout := by
  unfold runCall
  split
  · refine Res.bind_ne_timeout (h true) fun st' _ => ?_
    split
    · exact Res.bind_ne_timeout (extractData_ne_timeout _) fun _ _ => Res.bind_ne_timeout (untuple_ne_timeout _ _) (by simp)
    · simp
  · refine Res.bind_ne_timeout (h false) fun st' _ => ?_
    split <;> simp

theorem finish_ne_timeout (r : Option (List Val) × PState σ Val) : finish r ≠ .timeout := by
  obtain ⟨o, st⟩ := r
  cases o <;> simp [finish]

/-- From some fuel on, the interpretation of `e` at `s` does not run out of fuel. -/
def Done (ops : StreamOps σ) (V : σ → Prop) (rest : σ → List Char) (ext : Nat → FnRef → PState σ Val → Res (PState σ Val))
    (G : Grammar) (T : Nat → Ty) (e : Expr) (s : List Char) : Prop :=
  e.resolved G = true → e.shaped = true → ∃ n0, ∀ n, n0 ≤ n → ∀ p st, coherent T (G.ruleCard T) p e = true → OkSt V st →
    rest st.cur = s → run ops (runProg ops ext G T n) T n p e st ≠ .timeout

/-- The same for the iterations of a repetition. -/
def DoneLoop (ops : StreamOps σ) (V : σ → Prop) (rest : σ → List Char) (ext : Nat → FnRef → PState σ Val → Res (PState σ Val))
    (G : Grammar) (T : Nat → Ty) (e : Expr) (s : List Char) : Prop :=
  e.resolved G = true → e.shaped = true → ∃ n0, ∀ n, n0 ≤ n → ∀ f, n0 ≤ f → ∀ p st k vs, coherent T (G.ruleCard T) p e = true →
    OkSt V st → rest st.cur = s → runLoop (run ops (runProg ops ext G T n) T n p e) f k st.cur vs st ≠ .timeout

theorem coherent_choice_tail {R : String → Nat} {p : Bool} {i : Nat} {e : Expr} {es : List Expr}
    (h : coherent T R p (.choice i (e :: es)) = true) : coherent T R p (.choice i es) = true := by
  simp only [coherent, Bool.and_eq_true] at h ⊢
  have h1 := coherentAll_iff.1 h.1
  have h2 := sameArity_iff.1 h.2
  refine ⟨coherentAll_iff.2 fun e' he => h1 e' (by simp [he]), sameArity_iff.2 fun e' he => ?_⟩
  cases es with
  | nil => cases he
  | cons e2 es => rw [h2 e' (by simp [List.mem_cons.1 he]), arityHead, arityHead, h2 e2 (by simp)]; rfl

theorem doneLoop_star {e : Expr} {s : List Char} (ih : DoneLoop ops V rest ext G T e s) (i : Nat) : Done ops V rest ext G T (.star i e) s := by
  intro hre hsh
  obtain ⟨n0, h⟩ := ih hre hsh
  refine ⟨n0, fun n hn p st hco hst hs => ?_⟩
  simp only [run, runRepeat, mark_spec hst.failed, Res.bind_ok]
  refine Res.bind_ne_timeout (h n hn n hn _ st 0 [] hco hst hs) fun a _ => ?_
  obtain ⟨k, m, vs, st'⟩ := a
  simp only
  split
  · simp
  · exact Res.bind_ne_timeout (restoreFromFailure_ne_timeout _ _) (by simp)

theorem terminal_ne_timeout (hl : LawfulStream ops V rest input) {st1 : PState σ Val} {d : String} (hf : V st1.far) (hc : V st1.cur) :
    ((st1.error ops d : Res (PState σ Val)) >>= fun st => Res.ok ((none : Option (List Val)), (st.failure : PState σ Val))) ≠ .timeout := by
  obtain ⟨st', he, -⟩ := error_spec hl st1 hf hc d
  rw [he]; simp

/-- If the match of `e` at `s` has an outcome, then with enough fuel the interpreter terminates on it. -/
theorem run_complete (sys : Sys ops V rest input ext G T sp X) (hext : ExtOk V rest ext G X) {e : Expr} {s : List Char} {o : Out} {L : Log}
    (h : Peg G X e s o L) : Done ops V rest ext G T e s ∧ ∀ i c, e = .star i c → DoneLoop ops V rest ext G T c s := by
  have hl := sys.lawful
  have call : ∀ {r e s} (he : G.find r = some e), Done ops V rest ext G T e s →
      ∃ n0, ∀ n, n0 ≤ n → ∀ q st, OkSt V st → rest st.cur = s → runProg ops ext G T n ⟨q, [r]⟩ st ≠ .timeout := by
    intro r e s he ih
    obtain ⟨n0, h⟩ := ih (sys.resolved he) (sys.shapedRule he)
    have base : ∀ n, n0 + 1 ≤ n → ∀ st, OkSt V st → rest st.cur = s → runProg ops ext G T n ⟨false, [r]⟩ st ≠ .timeout := by
      intro n hn st hst hs
      obtain ⟨m, rfl⟩ : ∃ m, n = m + 1 := ⟨n - 1, by omega⟩
      simp only [runProg, he, Bool.false_and, Bool.false_eq_true, if_false]
      exact Res.bind_ne_timeout (h m (by omega) _ st (coherent_false _ _ _) hst hs) fun _ _ => finish_ne_timeout _
    refine ⟨n0 + 2, fun n hn q st hst hs => ?_⟩
    cases q with
    | false => exact base n (by omega) st hst hs
    | true =>
      obtain ⟨m, rfl⟩ : ∃ m, n = m + 1 := ⟨n - 1, by omega⟩
      simp only [runProg, he]
      split
      · exact base m (by omega) st hst hs
      · exact Res.bind_ne_timeout (h m (by omega) _ st (Grammar.coherent_find sys.coh he) hst hs) fun _ _ => finish_ne_timeout _
  induction h with
  | @str_ok i lit _ | @str_fail i lit _ _ =>
    refine ⟨fun _ _ => ⟨0, fun n _ p st _ hst hs => ?_⟩, by rintro _ _ ⟨⟩⟩
    simp only [run]
    by_cases h : lit.toList <+: rest st.cur
    · obtain ⟨r, hr⟩ := h
      obtain ⟨s', h1, h2, h3⟩ := hl.prefix_true (p := lit) (r := r) hst.cur hr.symm
      simp [PState.consumePrefix, h1]
    · simp only [PState.consumePrefix, hl.prefix_false hst.cur h, Res.bind_ok, Bool.false_eq_true, if_false]
      exact terminal_ne_timeout hl hst.far hst.cur
  | any_ok | any_fail =>
    refine ⟨fun _ _ => ⟨0, fun n _ p st _ hst hs => ?_⟩, by rintro _ _ ⟨⟩⟩
    simp only [run]
    cases hr : rest st.cur with
    | nil =>
      obtain ⟨s', h1, h2, h3⟩ := hl.next_nil hst.cur hr
      simp only [PState.next, h1, Res.bind_ok]
      exact terminal_ne_timeout hl hst.far h2
    | cons c cs =>
      obtain ⟨s', h1, h2, h3⟩ := hl.next_cons hst.cur hr
      simp [PState.next, h1]
  | cls_ok _ | cls_fail _ | cls_eof =>
    refine ⟨fun _ _ => ⟨0, fun n _ p st _ hst hs => ?_⟩, by rintro _ _ ⟨⟩⟩
    simp only [run, mark_spec hst.failed, Res.bind_ok]
    cases hr : rest st.cur with
    | nil =>
      obtain ⟨s', h1, h2, h3⟩ := hl.next_nil hst.cur hr
      simp only [PState.next, h1, Res.bind_ok, Option.filter_none]
      rw [restore_spec (by simpa using hst.data)]
      exact terminal_ne_timeout hl hst.far hst.cur
    | cons c cs =>
      obtain ⟨s', h1, h2, h3⟩ := hl.next_cons hst.cur hr
      simp only [PState.next, h1, Res.bind_ok]
      split
      · simp
      · rw [restore_spec (by simpa using hst.data)]
        exact terminal_ne_timeout hl hst.far hst.cur
  | nt_ok he _ ih | nt_fail he _ ih =>
    refine ⟨fun _ _ => ?_, by rintro _ _ ⟨⟩⟩
    obtain ⟨n0, h⟩ := call he ih.1
    exact ⟨n0, fun n hn p st _ hst hs => by simp only [run]; exact runCall_ne_timeout fun q => h n hn q st hst hs⟩
  | @ext i path s o L hx =>
    refine ⟨fun hre _ => ?_, by rintro _ _ ⟨⟩⟩
    have hpath : ∀ r, path = [r] → G.find r = none := by
      rintro r rfl
      simpa [Expr.resolved] using hre
    obtain ⟨n1, h1⟩ := hext.complete false path s o L hpath hx
    obtain ⟨n2, h2⟩ := hext.complete true path s o L hpath hx
    refine ⟨n1 + n2 + 1, fun n hn p st _ hst hs => ?_⟩
    simp only [run]
    refine runCall_ne_timeout fun q => ?_
    obtain ⟨m, rfl⟩ : ∃ m, n = m + 1 := ⟨n - 1, by omega⟩
    have hrun : runProg ops ext G T (m + 1) ⟨q, path⟩ st = ext m ⟨q, path⟩ st := by
      rcases path with _ | ⟨r, _ | ⟨r', path⟩⟩
      · rfl
      · simp only [runProg, hpath r rfl]
      · rfl
    rw [hrun]
    cases q
    · exact h1 m (by omega) st hst hs
    · exact h2 m (by omega) st hst hs
  | seq_nil => exact ⟨fun _ _ => ⟨0, fun n _ p st _ hst hs => by simp [run, runSeq]⟩, by rintro _ _ ⟨⟩⟩
  | @seq_cons i e es s s1 s2 t ts L1 L2 h1 h2 ih1 ih2 =>
    refine ⟨fun hre hsh => ?_, by rintro _ _ ⟨⟩⟩
    simp only [Expr.resolved, resolvedAll, Bool.and_eq_true] at hre
    simp only [Expr.shaped, shapedAll, Bool.and_eq_true] at hsh
    obtain ⟨n1, k1⟩ := ih1.1 hre.1 hsh.1
    obtain ⟨n2, k2⟩ := ih2.1 (by simpa [Expr.resolved] using hre.2) (by simpa [Expr.shaped] using hsh.2)
    refine ⟨n1 + n2, fun n hn p st hco hst hs => ?_⟩
    simp only [coherent, coherentAll, Bool.and_eq_true] at hco
    simp only [run, runSeq]
    have hnt := k1 n (by omega) _ st hco.1 hst hs
    obtain ⟨r, st', he, hr⟩ := run_sound' sys hext n h1 hco.1 hre.1 hsh.1 hst hs hnt
    obtain ⟨rfl, q1, q2, q3, q4⟩ := hr
    rw [he]
    simp only [Res.bind_ok]
    have := k2 n (by omega) p st' (by simpa [coherent] using hco.2) ⟨q4.far, q4.cur, q1, q2⟩ q3
    simp only [run] at this
    refine Res.bind_ne_timeout this fun a _ => ?_
    obtain ⟨a, _⟩ := a
    cases a <;> simp
  | @seq_later i e es s s1 t L1 L2 h1 h2 ih1 ih2 =>
    refine ⟨fun hre hsh => ?_, by rintro _ _ ⟨⟩⟩
    simp only [Expr.resolved, resolvedAll, Bool.and_eq_true] at hre
    simp only [Expr.shaped, shapedAll, Bool.and_eq_true] at hsh
    obtain ⟨n1, k1⟩ := ih1.1 hre.1 hsh.1
    obtain ⟨n2, k2⟩ := ih2.1 (by simpa [Expr.resolved] using hre.2) (by simpa [Expr.shaped] using hsh.2)
    refine ⟨n1 + n2, fun n hn p st hco hst hs => ?_⟩
    simp only [coherent, coherentAll, Bool.and_eq_true] at hco
    simp only [run, runSeq]
    have hnt := k1 n (by omega) _ st hco.1 hst hs
    obtain ⟨r, st', he, hr⟩ := run_sound' sys hext n h1 hco.1 hre.1 hsh.1 hst hs hnt
    obtain ⟨rfl, q1, q2, q3, q4⟩ := hr
    rw [he]
    simp only [Res.bind_ok]
    have := k2 n (by omega) p st' (by simpa [coherent] using hco.2) ⟨q4.far, q4.cur, q1, q2⟩ q3
    simp only [run] at this
    refine Res.bind_ne_timeout this fun a _ => ?_
    obtain ⟨a, _⟩ := a
    cases a <;> simp
  | @seq_fail i e es s L h1 ih1 =>
    refine ⟨fun hre hsh => ?_, by rintro _ _ ⟨⟩⟩
    simp only [Expr.resolved, resolvedAll, Bool.and_eq_true] at hre
    simp only [Expr.shaped, shapedAll, Bool.and_eq_true] at hsh
    obtain ⟨n1, k1⟩ := ih1.1 hre.1 hsh.1
    refine ⟨n1, fun n hn p st hco hst hs => ?_⟩
    simp only [coherent, coherentAll, Bool.and_eq_true] at hco
    simp only [run, runSeq]
    have hnt := k1 n (by omega) _ st hco.1 hst hs
    obtain ⟨r, st', he, hr⟩ := run_sound' sys hext n h1 hco.1 hre.1 hsh.1 hst hs hnt
    obtain ⟨rfl, q1, q2, q3⟩ := hr
    rw [he]
    simp
  | choice_nil => exact ⟨fun _ hsh => by simp [Expr.shaped] at hsh, by rintro _ _ ⟨⟩⟩
  | @choice_first i e es s s1 t L h1 ih1 =>
    refine ⟨fun hre hsh => ?_, by rintro _ _ ⟨⟩⟩
    simp only [Expr.resolved, resolvedAll, Bool.and_eq_true] at hre
    simp only [Expr.shaped, shapedAll, Bool.and_eq_true] at hsh
    obtain ⟨n1, k1⟩ := ih1.1 hre.1 hsh.2.1
    refine ⟨n1, fun n hn p st hco hst hs => ?_⟩
    simp only [coherent, coherentAll, Bool.and_eq_true] at hco
    simp only [run, mark_spec hst.failed, Res.bind_ok, runBranches]
    have hnt := k1 n (by omega) _ st hco.1.1 hst hs
    obtain ⟨r, st', he, hr⟩ := run_sound' sys hext n h1 hco.1.1 hre.1 hsh.2.1 hst hs hnt
    obtain ⟨rfl, q1, q2, q3, q4⟩ := hr
    rw [he]
    simp
  | @choice_next i e es s s1 k t L1 L2 h1 h2 ih1 ih2 =>
    refine ⟨fun hre hsh => ?_, by rintro _ _ ⟨⟩⟩
    simp only [Expr.resolved, resolvedAll, Bool.and_eq_true] at hre
    simp only [Expr.shaped, shapedAll, Bool.and_eq_true] at hsh
    obtain ⟨n1, k1⟩ := ih1.1 hre.1 hsh.2.1
    have hne : es ≠ [] := by rintro rfl; cases h2
    obtain ⟨n2, k2⟩ := ih2.1 (by simpa [Expr.resolved] using hre.2) (by simp [Expr.shaped, hsh.2.2, hne])
    refine ⟨n1 + n2, fun n hn p st hco hst hs => ?_⟩
    have hcot := coherent_choice_tail hco
    simp only [coherent, coherentAll, Bool.and_eq_true] at hco
    simp only [run, mark_spec hst.failed, Res.bind_ok, runBranches]
    have hnt := k1 n (by omega) _ st hco.1.1 hst hs
    obtain ⟨r, st', he, hr⟩ := run_sound' sys hext n h1 hco.1.1 hre.1 hsh.2.1 hst hs hnt
    obtain ⟨rfl, q1, q2, q3⟩ := hr
    rw [he]
    simp only [Res.bind_ok, restoreFromFailure_spec q1 q2]
    have := k2 n (by omega) p ⟨st'.far, st'.exp, false, st.cur, none, st'.calls⟩ hcot ⟨q3.far, hst.cur, rfl, rfl⟩ hs
    simp only [run, mark_spec, Res.bind_ok] at this
    split
    · simp
    · exact this
  | @choice_fail i e es s L1 L2 h1 h2 ih1 ih2 =>
    refine ⟨fun hre hsh => ?_, by rintro _ _ ⟨⟩⟩
    simp only [Expr.resolved, resolvedAll, Bool.and_eq_true] at hre
    simp only [Expr.shaped, shapedAll, Bool.and_eq_true] at hsh
    obtain ⟨n1, k1⟩ := ih1.1 hre.1 hsh.2.1
    by_cases hne : es = []
    · subst hne
      refine ⟨n1, fun n hn p st hco hst hs => ?_⟩
      simp only [coherent, coherentAll, Bool.and_eq_true] at hco
      simp only [run, mark_spec hst.failed, Res.bind_ok, runBranches]
      have hnt := k1 n (by omega) _ st hco.1.1 hst hs
      obtain ⟨r, st', he, hr⟩ := run_sound' sys hext n h1 hco.1.1 hre.1 hsh.2.1 hst hs hnt
      obtain ⟨rfl, q1, q2, q3⟩ := hr
      rw [he]
      simp
    · obtain ⟨n2, k2⟩ := ih2.1 (by simpa [Expr.resolved] using hre.2) (by simp [Expr.shaped, hsh.2.2, hne])
      refine ⟨n1 + n2, fun n hn p st hco hst hs => ?_⟩
      have hcot := coherent_choice_tail hco
      simp only [coherent, coherentAll, Bool.and_eq_true] at hco
      simp only [run, mark_spec hst.failed, Res.bind_ok, runBranches]
      have hnt := k1 n (by omega) _ st hco.1.1 hst hs
      obtain ⟨r, st', he, hr⟩ := run_sound' sys hext n h1 hco.1.1 hre.1 hsh.2.1 hst hs hnt
      obtain ⟨rfl, q1, q2, q3⟩ := hr
      rw [he]
      simp only [Res.bind_ok, restoreFromFailure_spec q1 q2]
      have := k2 n (by omega) p ⟨st'.far, st'.exp, false, st.cur, none, st'.calls⟩ hcot ⟨q3.far, hst.cur, rfl, rfl⟩ hs
      simp only [run, mark_spec, Res.bind_ok] at this
      split
      · simp
      · exact this
  | @star_stop i e s L h1 ih1 =>
    have key : DoneLoop ops V rest ext G T e s := by
      intro hre hsh
      obtain ⟨n1, k1⟩ := ih1.1 hre hsh
      refine ⟨n1 + 1, fun n hn f hf p st k vs hco hst hs => ?_⟩
      obtain ⟨f, rfl⟩ : ∃ m, f = m + 1 := ⟨f - 1, by omega⟩
      simp only [runLoop]
      have hnt := k1 n (by omega) _ st hco hst hs
      obtain ⟨r, st', he, hr⟩ := run_sound' sys hext n h1 hco hre hsh hst hs hnt
      obtain ⟨rfl, q1, q2, q3⟩ := hr
      rw [he]
      simp [PState.isSuccessful, PState.isFailed, q1]
    exact ⟨doneLoop_star key i, by rintro _ _ ⟨⟩; exact key⟩
  | @star_more i e s s1 s2 t ts L1 L2 h1 h2 ih1 ih2 =>
    have key : DoneLoop ops V rest ext G T e s := by
      intro hre hsh
      obtain ⟨n1, k1⟩ := ih1.1 hre hsh
      obtain ⟨n2, k2⟩ := ih2.2 i e rfl hre hsh
      refine ⟨n1 + n2 + 1, fun n hn f hf p st k vs hco hst hs => ?_⟩
      obtain ⟨f, rfl⟩ : ∃ m, f = m + 1 := ⟨f - 1, by omega⟩
      simp only [runLoop]
      have hnt := k1 n (by omega) _ st hco hst hs
      obtain ⟨r, st', he, hr⟩ := run_sound' sys hext n h1 hco hre hsh hst hs hnt
      obtain ⟨rfl, q1, q2, q3, q4⟩ := hr
      rw [he]
      simp only [PState.isSuccessful, PState.isFailed, q1, Res.bind_ok, Bool.not_false, if_true, mark_spec q1]
      exact k2 n (by omega) f (by omega) p st' _ _ hco ⟨q4.far, q4.cur, q1, q2⟩ q3
    exact ⟨doneLoop_star key i, by rintro _ _ ⟨⟩; exact key⟩
  | @plus_fail i e s L h1 ih1 =>
    refine ⟨fun hre hsh => ?_, by rintro _ _ ⟨⟩⟩
    simp only [Expr.resolved] at hre
    simp only [Expr.shaped] at hsh
    obtain ⟨n1, k1⟩ := ih1.1 hre hsh
    refine ⟨n1 + 1, fun n hn p st hco hst hs => ?_⟩
    simp only [coherent] at hco
    simp only [run, runRepeat, mark_spec hst.failed, Res.bind_ok]
    have hnt := k1 n (by omega) _ st hco hst hs
    obtain ⟨r, st', he, hr⟩ := run_sound' sys hext n h1 hco hre hsh hst hs hnt
    obtain ⟨rfl, q1, q2, q3⟩ := hr
    obtain ⟨m, hm⟩ : ∃ m, n = m + 1 := ⟨n - 1, by omega⟩
    generalize hb : run ops (runProg ops ext G T n) T n (p && decide (T i ≠ .unit)) e = body at *
    rw [hm]
    simp only [runLoop]
    rw [he]
    simp [PState.isSuccessful, PState.isFailed, q1]
  | @plus_ok i e s s1 s2 t ts L1 L2 h1 h2 ih1 ih2 =>
    refine ⟨fun hre hsh => ?_, by rintro _ _ ⟨⟩⟩
    simp only [Expr.resolved] at hre
    simp only [Expr.shaped] at hsh
    obtain ⟨n1, k1⟩ := ih1.1 hre hsh
    obtain ⟨n2, k2⟩ := ih2.2 i e rfl hre hsh
    refine ⟨n1 + n2 + 1, fun n hn p st hco hst hs => ?_⟩
    simp only [coherent] at hco
    simp only [run, runRepeat, mark_spec hst.failed, Res.bind_ok]
    have hnt := k1 n (by omega) _ st hco hst hs
    obtain ⟨r, st', he, hr⟩ := run_sound' sys hext n h1 hco hre hsh hst hs hnt
    obtain ⟨rfl, q1, q2, q3, q4⟩ := hr
    obtain ⟨m, hm⟩ : ∃ m, n = m + 1 := ⟨n - 1, by omega⟩
    have hk := fun k vs => k2 n (by omega) m (by omega) _ st' k vs hco ⟨q4.far, q4.cur, q1, q2⟩ q3
    generalize hb : run ops (runProg ops ext G T n) T n (p && decide (T i ≠ .unit)) e = body at *
    rw [hm]
    refine Res.bind_ne_timeout ?_ fun a _ => ?_
    · simp only [runLoop]
      rw [he]
      simp only [PState.isSuccessful, PState.isFailed, q1, Res.bind_ok, Bool.not_false, if_true, mark_spec q1]
      exact hk _ _
    · obtain ⟨k, m, vs, st'⟩ := a
      simp only
      split
      · simp
      · exact Res.bind_ne_timeout (restoreFromFailure_ne_timeout _ _) (by simp)
  | @opt_some i e s _ _ _ h1 ih1 | @opt_none i e s _ h1 ih1 =>
    refine ⟨fun hre hsh => ?_, by rintro _ _ ⟨⟩⟩
    obtain ⟨n1, k1⟩ := ih1.1 hre hsh
    refine ⟨n1, fun n hn p st hco hst hs => ?_⟩
    simp only [run, runOpt, mark_spec hst.failed, Res.bind_ok]
    refine Res.bind_ne_timeout (k1 n hn _ st hco hst hs) fun a _ => ?_
    refine Res.bind_ne_timeout ?_ (by simp)
    unfold restoreIf
    split
    · exact restoreFromFailure_ne_timeout _ _
    · simp
  | @not_ok i e s _ h1 ih1 | @not_fail i e s _ _ _ h1 ih1 | @and_ok i e s _ _ _ h1 ih1 | @and_fail i e s _ h1 ih1 =>
    refine ⟨fun hre hsh => ?_, by rintro _ _ ⟨⟩⟩
    obtain ⟨n1, k1⟩ := ih1.1 hre hsh
    refine ⟨n1, fun n hn p st hco hst hs => ?_⟩
    simp only [run, runPred, mark_spec hst.failed, Res.bind_ok]
    refine Res.bind_ne_timeout (k1 n hn _ st hco hst hs) fun a _ => ?_
    refine Res.bind_ne_timeout (restore_ne_timeout _ _) fun b _ => ?_
    split <;> simp
  | @act_ok i e b f s _ _ _ h1 ih1 | @act_fail i e b f s _ h1 ih1 =>
    refine ⟨fun hre hsh => ?_, by rintro _ _ ⟨⟩⟩
    obtain ⟨n1, k1⟩ := ih1.1 hre hsh
    refine ⟨n1, fun n hn p st hco hst hs => ?_⟩
    simp only [coherent] at hco
    simp only [run]
    split
    · rename_i hq
      rw [hq] at hco
      exact Res.bind_ne_timeout (k1 n hn _ st hco hst hs) (by rintro ⟨_ | _, _⟩ _ <;> simp)
    · exact k1 n hn _ st (coherent_false _ _ _) hst hs
  | @asc_ok i e ty s _ _ _ h1 ih1 | @asc_fail i e ty s _ h1 ih1 =>
    refine ⟨fun hre hsh => ?_, by rintro _ _ ⟨⟩⟩
    obtain ⟨n1, k1⟩ := ih1.1 hre hsh
    refine ⟨n1, fun n hn p st hco hst hs => ?_⟩
    simp only [run]
    exact k1 n hn _ st hco hst hs
  | @span_ok i e s _ _ _ h1 ih1 | @span_fail i e s _ h1 ih1 | @range_ok i e s _ _ _ h1 ih1 | @range_fail i e s _ h1 ih1 =>
    refine ⟨fun hre hsh => ?_, by rintro _ _ ⟨⟩⟩
    obtain ⟨n1, k1⟩ := ih1.1 hre hsh
    refine ⟨n1, fun n hn p st hco hst hs => ?_⟩
    simp only [coherent, Bool.and_eq_true] at hco
    simp only [run]
    split
    · rename_i hq
      rw [hq] at hco
      refine Res.bind_ne_timeout (mark_ne_timeout _) fun m _ => ?_
      refine Res.bind_ne_timeout (k1 n hn _ st hco.1 hst hs) fun a _ => ?_
      obtain ⟨a, st'⟩ := a
      cases a
      · simp
      · exact Res.bind_ne_timeout (mark_ne_timeout _) (by simp)
    · exact k1 n hn _ st (coherent_false _ _ _) hst hs

end
end Oak
