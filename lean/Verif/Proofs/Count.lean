import Verif.Spec.Count
import Verif.Proofs.Ghost
import Verif.Proofs.Calls
import Verif.Proofs.Work
/-!
The calls of all functions made by a generated program, bounded by the visits.
-/
set_option linter.constructorNameAsVariable false
set_option autoImplicit false

namespace Oak
open Spec

/-- `Program.count` in direct style. -/
def countProg {σ : Type} (ops : StreamOps σ) (ext : Nat → FnRef → PState σ Val → Res (PState σ Val)) (G : Grammar) (T : Nat → Ty) :
    Nat → FnRef → PState σ Val → Res (PState σ Val)
  | 0, _, _ => .timeout
  | n + 1, f, st =>
    match f.path with
    | [r] => match G.find r with
      | some e =>
        if f.parser && decide (T e.id = .unit) then countProg ops ext G T n ⟨false, [r]⟩ st.tick
        else run ops (countProg ops ext G T n) T n f.parser e st.tick >>= finish
      | none => ext n f st.tick
    | _ => ext n f st.tick

theorem count_correct {σ : Type} (ops : StreamOps σ) (ext : Nat → FnRef → PState σ Val → Res (PState σ Val)) (G : Grammar)
    (T : Nat → Ty) (fs : List (FnRef × Fn)) (h : compileGrammar T G.rules = .ok fs) (hs : (Program.mk fs).scopeOk = true)
    (hco : G.coherent T = true) (n : Nat) (f : FnRef) (st : PState σ Val) :
    Program.count ops ext ⟨fs⟩ n f st = countProg ops ext G T n f st := by
  simp only [Program.scopeOk, List.all_eq_true] at hs
  induction n generalizing f st with
  | zero => rfl
  | succ n ih =>
    have hfns : Program.count ops ext ⟨fs⟩ n = countProg ops ext G T n := by funext f st; exact ih f st
    obtain ⟨p, path⟩ := f
    by_cases hp : ∃ r, path = [r]
    · obtain ⟨r, rfl⟩ := hp
      have hf := compileGrammar_find T G.rules fs h r
      simp only [Program.count, countProg, hfns]
      cases hg : G.find r with
      | none =>
        have : (Grammar.mk G.rules).find r = none := hg
        rw [this] at hf
        cases p <;> simp only [hf]
      | some e =>
        have : (Grammar.mk G.rules).find r = some e := hg
        rw [this] at hf
        obtain ⟨⟨f1, hf1, hc1⟩, ⟨f2, hf2, hc2⟩⟩ := hf
        cases p with
        | false =>
          simp only [hf1, Bool.false_and, Bool.false_eq_true, if_false]
          exact recognizer_correct ops _ T e f1 hc1 (hs _ (program_find_mem hf1)) n _
        | true =>
          simp only [hf2, Bool.true_and, decide_eq_true_eq]
          split
          · rename_i hu
            unfold compileParser at hc2
            rw [if_pos hu] at hc2
            cases hc2
            rw [evalFn_eq, evalEx_stmt]
            simp only [exec, Res.bind_assoc, Res.bind_ok, evalEx, Stmt.binds, restoreRes_nil, Res.bind_ok_right]
          · rename_i hu
            exact parser_correct ops _ T _ r e f2 hc2 hu (Grammar.coherent_find hco hg) (hs _ (program_find_mem hf2)) n _
    · have hp' : ∀ r, path ≠ [r] := fun r hr => hp ⟨r, hr⟩
      have := compileGrammar_path T G.rules fs h p path hp'
      simp only [Program.count, this, countProg]

theorem SameBut.refl {S D : Type} (a : PState S D) : SameBut a a := ⟨a.calls, Nat.le_refl _, rfl⟩

theorem SameBut.tick {S D : Type} {a b : PState S D} (h : SameBut a b) : SameBut a b.tick := by
  obtain ⟨cs, hl, rfl⟩ := h
  exact ⟨_, by simp only [List.length_append]; omega, rfl⟩

theorem BlindExt.quiet {σ : Type} {ext : Nat → FnRef → PState σ Val → Res (PState σ Val)} (hb : BlindExt ext) : QuietExt ext := by
  intro n f st st' h
  have h1 := hb n f st st.calls
  have h2 : ext n f st = (ext n f st >>= fun st' => .ok { st' with calls := st.calls }) := h1
  rw [h] at h2
  simp only [Res.bind_ok, Res.ok.injEq] at h2
  rw [h2]

theorem blind_like {σ : Type} {ext : Nat → FnRef → PState σ Val → Res (PState σ Val)} (hb : BlindExt ext) (n : Nat) (f : FnRef) {a b : PState σ Val} (h : SameBut a b) :
    ResLike SameBut (ext n f a) (ext n f b) := by
  obtain ⟨cs, hl, rfl⟩ := h
  have := hb n f a cs
  have hq := hb.quiet n f a
  rw [this]
  generalize ext n f a = x at hq
  cases x with
  | ok x => exact .ok ⟨cs, by rw [hq x rfl]; exact hl, rfl⟩
  | panic => exact .panic
  | stuck => exact .stuck
  | timeout => exact .timeout

/-- Counting does not change what the program does. -/
theorem countProg_like {σ : Type} (ops : StreamOps σ) {ext : Nat → FnRef → PState σ Val → Res (PState σ Val)} (hb : BlindExt ext) (G : Grammar) (T : Nat → Ty) (n : Nat) :
    ∀ f a b, SameBut a b → ResLike SameBut (runProg ops ext G T n f a) (countProg ops ext G T n f b) := by
  induction n with
  | zero => intros; exact .timeout
  | succ n ih =>
    intro f a b h
    obtain ⟨p, path⟩ := f
    rcases path with _ | ⟨r, _ | ⟨r', path⟩⟩
    · exact blind_like hb n _ h.tick
    · simp only [runProg, countProg]
      cases G.find r with
      | none => exact blind_like hb n _ h.tick
      | some e =>
        dsimp only
        split
        · exact ih _ _ _ h.tick
        · exact (run_like ih n _ _ _ _ h.tick).bind fun _ _ h => finish_like h
    · exact blind_like hb n _ h.tick

section
variable {σ : Type} {ops : StreamOps σ} {V : σ → Prop} {rest : σ → List Char} {input : List Char}
  {ext : Nat → FnRef → PState σ Val → Res (PState σ Val)} {G : Grammar} {T : Nat → Ty} {sp : SpanSpec} {X : ExtSpec}

theorem okSt_calls {st : PState σ Val} (h : OkSt V st) (cs : List Val) : OkSt V { st with calls := cs } := ⟨h.1, h.2, h.3, h.4⟩

/-- What a call returns, but for the ghost record, is what it returns without counting. -/
theorem countProg_ok (hb : BlindExt ext) {n : Nat} {f : FnRef} {st st' : PState σ Val} (h : countProg ops ext G T n f st = .ok st') :
    ∃ st1, runProg ops ext G T n f st = .ok st1 ∧ SameBut st1 st' := by
  have := countProg_like ops hb G T n f st st (.refl st)
  rw [h] at this
  generalize runProg ops ext G T n f st = x at this
  cases this with
  | ok h => exact ⟨_, rfl, h⟩

/-- Functions for which a call is charged to the visits of its rule. -/
structure FnsCost (V : σ → Prop) (rest : σ → List Char) (G : Grammar) (X : ExtSpec) (fns : FnRef → PState σ Val → Res (PState σ Val)) : Prop where
  rule : ∀ p r b st st', G.find r = some b → OkSt V st → fns ⟨p, [r]⟩ st = .ok st' → ∃ o v, Work G X b (rest st.cur) o v ∧ st'.calls.length ≤ st.calls.length + 2 * v.steps + (if p then 2 else 1)
  ext : ∀ p path st st', (∀ r, path = [r] → G.find r = none) → OkSt V st → fns ⟨p, path⟩ st = .ok st' → st'.calls.length ≤ st.calls.length + 1

/-- The cost of what is done from `st` to `st'`. -/
def Costs (rest : σ → List Char) (G : Grammar) (X : ExtSpec) (e : Expr) (st st' : PState σ Val) : Prop :=
  ∃ o v, Work G X e (rest st.cur) o v ∧ st'.calls.length ≤ st.calls.length + 2 * v.steps

theorem Costs.out (hX : X.Det) {e : Expr} {st st' : PState σ Val} (h : Costs rest G X e st st') {o : Out} {L : Log} (hp : Peg G X e (rest st.cur) o L) :
    ∃ v, Work G X e (rest st.cur) o.rest v ∧ st'.calls.length ≤ st.calls.length + 2 * v.steps := by
  obtain ⟨o', v, hw, h⟩ := h
  obtain ⟨v', hv'⟩ := peg_work hp
  have := work_end hX hw hv'
  subst this
  exact ⟨v, hw, h⟩

theorem loop_cost (hX : X.Det) {i : Nat} {p : Bool} {e : Expr} {body : PState σ Val → Res (Option (List Val) × PState σ Val)}
    (hs : ∀ st, OkSt V st → SoundR V rest G T sp X p e st (body st))
    (hb : ∀ st r st', OkSt V st → body st = .ok (r, st') → Costs rest G X e st st') (n : Nat) :
    ∀ k m vs st q, OkSt V st → runLoop body n k m vs st = .ok q → Costs rest G X (.star i e) st q.2.2.2 := by
  induction n with
  | zero => intro k m vs st q _ h; cases h
  | succ n ih =>
    intro k m vs st q hst h
    simp only [runLoop] at h
    obtain ⟨⟨r, st1⟩, h1, h⟩ := Res.bind_eq_ok h
    have c1 := hb _ _ _ hst h1
    obtain ⟨o, L, hp, hr⟩ := sound_ok (hs st hst) h1
    obtain ⟨v, hv, e1⟩ := c1.out hX hp
    cases o with
    | fail =>
      obtain ⟨rfl, h2, h3, _⟩ := hr
      simp only [PState.isSuccessful, PState.isFailed, h2, Bool.not_true, Bool.false_eq_true, if_false] at h
      cases h
      exact ⟨_, _, .star_stop hv, by simp only [Visits.steps]; omega⟩
    | ok s1 t =>
      obtain ⟨rfl, h2, h3, h4, h5⟩ := hr
      simp only [PState.isSuccessful, PState.isFailed, h2, Bool.not_false, if_true] at h
      obtain ⟨s, _, h⟩ := Res.bind_eq_ok h
      obtain ⟨o2, v2, hw, e2⟩ := ih _ _ _ st1 _ ⟨h5.far, h5.cur, h2, h3⟩ h
      rw [h4] at hw
      exact ⟨_, _, .star_more hv hw, by simp only [Visits.steps]; omega⟩

theorem star_cost (hX : X.Det) {i : Nat} {p q : Bool} {e : Expr} {body : PState σ Val → Res (Option (List Val) × PState σ Val)}
    (hs : ∀ st, OkSt V st → SoundR V rest G T sp X p e st (body st))
    (hb : ∀ st r st', OkSt V st → body st = .ok (r, st') → Costs rest G X e st st') (n : Nat)
    (plus : Bool) {st : PState σ Val} {r : Option (List Val)} {st' : PState σ Val} (hst : OkSt V st) (h : runRepeat n plus q body st = .ok (r, st')) :
    Costs rest G X (.star i e) st st' := by
  unfold runRepeat at h
  obtain ⟨m, _, h⟩ := Res.bind_eq_ok h
  obtain ⟨⟨k, m', vs, st1⟩, h1, h⟩ := Res.bind_eq_ok h
  obtain ⟨o, v, hw, e1⟩ := loop_cost (i := i) hX hs hb n _ _ _ _ _ hst h1
  refine ⟨o, v, hw, ?_⟩
  dsimp only at h e1
  split at h
  · cases h; exact e1
  · obtain ⟨st2, h2, h⟩ := Res.bind_eq_ok h
    cases h
    rw [restoreFromFailure_calls h2]; exact e1

/-- A repetition that needs one iteration makes the visits of the one that does not. -/
theorem work_plus {i : Nat} {e : Expr} {s : List Char} {o : Option (List Char)} {v : Visits} (h : Work G X (.star i e) s o v) : ∃ o', Work G X (.plus i e) s o' v := by
  cases h with
  | star_stop h => exact ⟨_, .plus_fail h⟩
  | star_more h1 h2 => exact ⟨_, .plus_ok h1 h2⟩

/-- The calls of functions made by a run are at most two for each visit. -/
theorem run_cost (sys : Sys ops V rest input ext G T sp X) (hX : X.Det) {fns : FnRef → PState σ Val → Res (PState σ Val)}
    (hfns : FnsSound V rest G T sp X fns) (hfc : FnsCost V rest G X fns) (n : Nat) (e : Expr) :
    ∀ (p : Bool) (st : PState σ Val) (r : Option (List Val)) (st' : PState σ Val),
    coherent T (G.ruleCard T) p e = true → e.resolved G = true → e.shaped = true → OkSt V st →
    run ops fns T n p e st = .ok (r, st') → Costs rest G X e st st' := by
  have sound : ∀ p e st, coherent T (G.ruleCard T) p e = true → e.resolved G = true → e.shaped = true → OkSt V st →
      SoundR V rest G T sp X p e st (run ops fns T n p e st) := fun p e st h1 h2 h3 h4 => run_sound sys hfns n e p st h1 h2 h3 h4
  have leaf : ∀ {e : Expr} {p : Bool} {st : PState σ Val} {r : Option (List Val)} {st' : PState σ Val}, coherent T (G.ruleCard T) p e = true → e.resolved G = true →
      e.shaped = true → OkSt V st → run ops fns T n p e st = .ok (r, st') → st'.calls = st.calls → Costs rest G X e st st' := by
    intro e p st r st' h1 h2 h3 h4 h5 h6
    obtain ⟨o, L, hp, _⟩ := sound_ok (sound p e st h1 h2 h3 h4) h5
    obtain ⟨v, hv⟩ := peg_work hp
    exact ⟨_, v, hv, by rw [h6]; omega⟩
  induction e using Expr.ind with
  | str i l =>
    intro p st r st' hco hre hsh hst h
    refine leaf hco hre hsh hst h ?_
    simp only [run] at h
    obtain ⟨⟨b, st1⟩, h1, h⟩ := Res.bind_eq_ok h
    have e1 := prefix_calls h1
    dsimp only at h
    split at h
    · cases h; exact e1
    · rw [terminal_calls h, e1]
  | any i =>
    intro p st r st' hco hre hsh hst h
    refine leaf hco hre hsh hst h ?_
    simp only [run] at h
    obtain ⟨⟨b, st1⟩, h1, h⟩ := Res.bind_eq_ok h
    have e1 := next_calls h1
    cases b with
    | some c => cases h; exact e1
    | none => rw [terminal_calls h, e1]
  | cls i ivs =>
    intro p st r st' hco hre hsh hst h
    refine leaf hco hre hsh hst h ?_
    simp only [run] at h
    obtain ⟨m, _, h⟩ := Res.bind_eq_ok h
    obtain ⟨⟨b, st1⟩, h1, h⟩ := Res.bind_eq_ok h
    have e1 := next_calls h1
    dsimp only at h
    split at h
    · cases h; exact e1
    · obtain ⟨st2, h2, h⟩ := Res.bind_eq_ok h
      rw [terminal_calls h, restore_calls h2, e1]
  | nt i r =>
    intro p st o st' hco hre hsh hst h
    simp only [run] at h
    obtain ⟨st1, h1, h2⟩ := runCall_calls h
    simp only [Expr.resolved, Option.isSome_iff_exists] at hre
    obtain ⟨b, hb⟩ := hre
    obtain ⟨o, v, hw, e1⟩ := hfc.rule _ _ _ _ _ hb hst h1
    exact ⟨o, _, .nt hb hw, by rw [h2]; simp only [Visits.steps]; split at e1 <;> omega⟩
  | ext i path =>
    intro p st o st' hco hre hsh hst h
    obtain ⟨o', L, hp, _⟩ := sound_ok (sound p _ st hco hre hsh hst) h
    obtain ⟨v, hv⟩ := peg_work hp
    refine ⟨_, v, hv, ?_⟩
    simp only [run] at h
    obtain ⟨st1, h1, h2⟩ := runCall_calls h
    have h3 := hfc.ext _ _ _ _ (by rintro r rfl; simpa [Expr.resolved] using hre) hst h1
    have h4 : 1 ≤ v.steps := by cases v <;> simp [Visits.steps]
    rw [h2]; omega
  | seq i es0 ih =>
    intro p st r st' hco hre hsh hst h
    simp only [run] at h
    simp only [coherent, coherentAll_iff] at hco
    simp only [Expr.resolved, resolvedAll_iff] at hre
    simp only [Expr.shaped, shapedAll_iff] at hsh
    have key : ∀ es : List Expr, (∀ e ∈ es, e ∈ es0) → ∀ st r st', OkSt V st → runSeq ops fns T n (p && decide (T i ≠ .unit)) es st = .ok (r, st') →
        Costs rest G X (.seq i es) st st' := by
      intro es
      induction es with
      | nil => intro _ st r st' _ h; simp only [runSeq] at h; cases h; exact ⟨_, _, .seq_nil, by omega⟩
      | cons e es ihes =>
        intro hsub st r st' hst h
        simp only [runSeq] at h
        obtain ⟨⟨o, st1⟩, h1, h⟩ := Res.bind_eq_ok h
        have hmem := hsub e (by simp)
        have c1 := ih e hmem _ _ _ _ (hco e hmem) (hre e hmem) (hsh e hmem) hst h1
        obtain ⟨o', L, hp, hr⟩ := sound_ok (sound _ e st (hco e hmem) (hre e hmem) (hsh e hmem) hst) h1
        obtain ⟨v, hv, e1⟩ := c1.out hX hp
        cases o' with
        | fail =>
          obtain ⟨rfl, _⟩ := hr
          cases h
          exact ⟨_, _, .seq_fail hv, by simp only [Visits.steps]; omega⟩
        | ok s1 t =>
          obtain ⟨rfl, q1, q2, q3, q4⟩ := hr
          obtain ⟨⟨o2, st2⟩, h2, h⟩ := Res.bind_eq_ok h
          obtain ⟨o3, v2, hw, e2⟩ := ihes (fun e he => hsub e (by simp [he])) st1 _ _ ⟨q4.far, q4.cur, q1, q2⟩ h2
          rw [q3] at hw
          exact ⟨_, _, .seq_cons hv hw, by cases o2 <;> cases h <;> simp only [Visits.steps] <;> omega⟩
    exact key es0 (fun _ h => h) st r st' hst h
  | choice i es0 ih =>
    intro p st r st' hco hre hsh hst h
    simp only [run] at h
    obtain ⟨m, hm, h⟩ := Res.bind_eq_ok h
    have hm := mark_ok hm
    simp only [coherent, Bool.and_eq_true, coherentAll_iff] at hco
    replace hco := hco.1
    simp only [Expr.resolved, resolvedAll_iff] at hre
    simp only [Expr.shaped, Bool.and_eq_true, shapedAll_iff] at hsh
    replace hsh := hsh.2
    have key : ∀ es : List Expr, (∀ e ∈ es, e ∈ es0) → ∀ st r st', OkSt V st → m = st.cur → runBranches ops fns T n (p && decide (T i ≠ .unit)) m es st = .ok (r, st') →
        Costs rest G X (.choice i es) st st' := by
      intro es
      induction es with
      | nil => intro _ st r st' _ _ h; simp only [runBranches] at h; cases h; exact ⟨_, _, .choice_nil, by omega⟩
      | cons e es ihes =>
        intro hsub st r st' hst hm h
        simp only [runBranches] at h
        obtain ⟨⟨o, st1⟩, h1, h⟩ := Res.bind_eq_ok h
        have hmem := hsub e (by simp)
        have c1 := ih e hmem _ _ _ _ (hco e hmem) (hre e hmem) (hsh e hmem) hst h1
        obtain ⟨o', L, hp, hr⟩ := sound_ok (sound _ e st (hco e hmem) (hre e hmem) (hsh e hmem) hst) h1
        obtain ⟨v, hv, e1⟩ := c1.out hX hp
        cases o' with
        | ok s1 t =>
          obtain ⟨rfl, q1, q2, q3, q4⟩ := hr
          cases h
          exact ⟨_, _, .choice_first hv, by simp only [Visits.steps]; omega⟩
        | fail =>
          obtain ⟨rfl, q1, q2, q3⟩ := hr
          dsimp only at h
          split at h
          · rename_i hes
            have : es = [] := by simpa using hes
            cases h
            rw [this]
            exact ⟨_, _, .choice_next hv .choice_nil, by simp only [Visits.steps]; omega⟩
          · rw [restoreFromFailure_spec q1 q2] at h
            simp only [Res.bind_ok] at h
            obtain ⟨o3, v2, hw, e2⟩ := ihes (fun e he => hsub e (by simp [he])) ⟨st1.far, st1.exp, false, m, none, st1.calls⟩ r st'
              ⟨q3.far, hm ▸ hst.cur, rfl, rfl⟩ rfl h
            dsimp only at hw e2
            rw [hm] at hw
            exact ⟨_, _, .choice_next hv hw, by simp only [Visits.steps]; omega⟩
    exact key es0 (fun _ h => h) st r st' hst hm h
  | star i e ih =>
    intro p st r st' hco hre hsh hst h
    simp only [run] at h
    simp only [coherent] at hco
    exact star_cost hX (fun st hst => sound _ e st hco hre hsh hst) (fun st r st' hst h => ih _ st r st' hco hre hsh hst h) n false hst h
  | plus i e ih =>
    intro p st r st' hco hre hsh hst h
    simp only [run] at h
    simp only [coherent] at hco
    obtain ⟨o, v, hw, e1⟩ := star_cost (i := i) hX (fun st hst => sound _ e st hco hre hsh hst) (fun st r st' hst h => ih _ st r st' hco hre hsh hst h) n true hst h
    obtain ⟨o', hw'⟩ := work_plus hw
    exact ⟨o', v, hw', e1⟩
  | opt i e ih =>
    intro p st r st' hco hre hsh hst h
    simp only [run, runOpt] at h
    simp only [coherent] at hco
    obtain ⟨m, _, h⟩ := Res.bind_eq_ok h
    obtain ⟨⟨o, st1⟩, h1, h⟩ := Res.bind_eq_ok h
    obtain ⟨st2, h2, h⟩ := Res.bind_eq_ok h
    cases h
    obtain ⟨o, v, hw, e1⟩ := ih _ _ _ _ hco hre hsh hst h1
    rw [← restoreIf_calls h2] at e1
    cases o with
    | none => exact ⟨_, _, .opt_none hw, by simp only [Visits.steps]; omega⟩
    | some s => exact ⟨_, _, .opt_some hw, by simp only [Visits.steps]; omega⟩
  | not i e ih =>
    intro p st r st' hco hre hsh hst h
    simp only [run, runPred] at h
    obtain ⟨m, _, h⟩ := Res.bind_eq_ok h
    obtain ⟨⟨o, st1⟩, h1, h⟩ := Res.bind_eq_ok h
    obtain ⟨st2, h2, h⟩ := Res.bind_eq_ok h
    obtain ⟨o, v, hw, e1⟩ := ih false _ _ _ (coherent_false _ _ _) hre hsh hst h1
    rw [← restore_calls h2] at e1
    have e2 : st'.calls = st2.calls := by
      dsimp only at h
      split at h <;> cases h <;> rfl
    rw [← e2] at e1
    cases o with
    | none => exact ⟨_, _, .not_ok hw, by simp only [Visits.steps]; omega⟩
    | some s => exact ⟨_, _, .not_fail hw, by simp only [Visits.steps]; omega⟩
  | and i e ih =>
    intro p st r st' hco hre hsh hst h
    simp only [run, runPred] at h
    obtain ⟨m, _, h⟩ := Res.bind_eq_ok h
    obtain ⟨⟨o, st1⟩, h1, h⟩ := Res.bind_eq_ok h
    obtain ⟨st2, h2, h⟩ := Res.bind_eq_ok h
    obtain ⟨o, v, hw, e1⟩ := ih false _ _ _ (coherent_false _ _ _) hre hsh hst h1
    rw [← restore_calls h2] at e1
    have e2 : st'.calls = st2.calls := by
      dsimp only at h
      split at h <;> cases h <;> rfl
    rw [← e2] at e1
    cases o with
    | none => exact ⟨_, _, .and_fail hw, by simp only [Visits.steps]; omega⟩
    | some s => exact ⟨_, _, .and_ok hw, by simp only [Visits.steps]; omega⟩
  | asc i e t ih =>
    intro p st r st' hco hre hsh hst h
    simp only [run] at h
    simp only [coherent] at hco
    obtain ⟨o, v, hw, e1⟩ := ih _ _ _ _ hco hre hsh hst h
    exact ⟨_, _, .asc hw, by simp only [Visits.steps]; omega⟩
  | act i e b f ih =>
    intro p st r st' hco hre hsh hst h
    simp only [run] at h
    by_cases hq : (p && decide (T i ≠ .unit)) = true
    · simp only [coherent, hq] at hco
      rw [if_pos hq] at h
      obtain ⟨⟨o, st1⟩, h1, h⟩ := Res.bind_eq_ok h
      obtain ⟨o2, v, hw, e1⟩ := ih _ _ _ _ hco hre hsh hst h1
      cases o with
      | none => cases h; exact ⟨_, _, .act hw, by simp only [Visits.steps]; omega⟩
      | some ws =>
        cases h
        refine ⟨_, _, .act hw, ?_⟩
        have : (actCalls f (decide (T e.id = .unit)) ws).length ≤ 1 := by unfold actCalls; split <;> simp
        simp only [List.length_append, Visits.steps]
        omega
    · rw [if_neg hq] at h
      obtain ⟨o2, v, hw, e1⟩ := ih false _ _ _ (coherent_false _ _ _) hre hsh hst h
      exact ⟨_, _, .act hw, by simp only [Visits.steps]; omega⟩
  | span i e ih =>
    intro p st r st' hco hre hsh hst h
    simp only [run] at h
    by_cases hq : (p && decide (T i ≠ .unit)) = true
    · simp only [coherent, hq, Bool.and_eq_true] at hco
      rw [if_pos hq] at h
      obtain ⟨m, _, h⟩ := Res.bind_eq_ok h
      obtain ⟨⟨o, st1⟩, h1, h⟩ := Res.bind_eq_ok h
      obtain ⟨o2, v, hw, e1⟩ := ih _ _ _ _ hco.1 hre hsh hst h1
      cases o with
      | none => cases h; exact ⟨_, _, .span hw, by simp only [Visits.steps]; omega⟩
      | some ws =>
        obtain ⟨m2, _, h⟩ := Res.bind_eq_ok h
        cases h; exact ⟨_, _, .span hw, by simp only [Visits.steps]; omega⟩
    · rw [if_neg hq] at h
      obtain ⟨o2, v, hw, e1⟩ := ih false _ _ _ (coherent_false _ _ _) hre hsh hst h
      exact ⟨_, _, .span hw, by simp only [Visits.steps]; omega⟩
  | range i e ih =>
    intro p st r st' hco hre hsh hst h
    simp only [run] at h
    by_cases hq : (p && decide (T i ≠ .unit)) = true
    · simp only [coherent, hq, Bool.and_eq_true] at hco
      rw [if_pos hq] at h
      obtain ⟨m, _, h⟩ := Res.bind_eq_ok h
      obtain ⟨⟨o, st1⟩, h1, h⟩ := Res.bind_eq_ok h
      obtain ⟨o2, v, hw, e1⟩ := ih _ _ _ _ hco.1 hre hsh hst h1
      cases o with
      | none => cases h; exact ⟨_, _, .range hw, by simp only [Visits.steps]; omega⟩
      | some ws =>
        obtain ⟨m2, _, h⟩ := Res.bind_eq_ok h
        cases h; exact ⟨_, _, .range hw, by simp only [Visits.steps]; omega⟩
    · rw [if_neg hq] at h
      obtain ⟨o2, v, hw, e1⟩ := ih false _ _ _ (coherent_false _ _ _) hre hsh hst h
      exact ⟨_, _, .range hw, by simp only [Visits.steps]; omega⟩

/-- Functions that count are sound. -/
theorem like_sound {fns fns' : FnRef → PState σ Val → Res (PState σ Val)} (h : FnsSound V rest G T sp X fns)
    (hl : ∀ f a b, SameBut a b → ResLike SameBut (fns f a) (fns' f b)) : FnsSound V rest G T sp X fns' := by
  have key : ∀ {f st} {Q : Out → Log → Prop} {W : Tree → Val → Prop},
      (fns f st = .timeout ∨ ∃ o L st', fns f st = .ok st' ∧ Q o L ∧ FnRes V rest W st L st' o) →
      (fns' f st = .timeout ∨ ∃ o L st', fns' f st = .ok st' ∧ Q o L ∧ FnRes V rest W st L st' o) := by
    intro f st Q W h1
    have h2 := hl f st st (.refl st)
    rcases h1 with h1 | ⟨o, L, st1, h1, hQ, hR⟩
    · rw [h1] at h2
      generalize fns' f st = y at h2
      cases h2
      exact .inl rfl
    · rw [h1] at h2
      generalize fns' f st = y at h2
      cases h2 with
      | ok h3 =>
        obtain ⟨cs, _, rfl⟩ := h3
        refine .inr ⟨o, L, _, rfl, hQ, ?_⟩
        cases o with
        | fail =>
          obtain ⟨h1, h2, h3⟩ := hR
          exact ⟨h1, h2, ⟨h3.far, h3.cur, h3.track⟩⟩
        | ok s t =>
          obtain ⟨h1, h2, h3, h4⟩ := hR
          exact ⟨h1, h2, h3, ⟨h4.far, h4.cur, h4.track⟩⟩
  exact ⟨fun p r e st he hst => key (h.rule p r e st he hst), fun p path st hp hst => key (h.ext p path st hp hst)⟩

theorem countProg_cost (sys : Sys ops V rest input ext G T sp X) (hext : ExtOk V rest ext G X) (hX : X.Det) (hb : BlindExt ext) (n : Nat) :
    FnsCost V rest G X (countProg ops ext G T n) := by
  have ht : ∀ {st : PState σ Val}, OkSt V st → OkSt V st.tick := fun h => okSt_calls h _
  have hlen : ∀ st : PState σ Val, st.tick.calls.length = st.calls.length + 1 := fun st => by simp [PState.tick]
  induction n with
  | zero => exact ⟨fun _ _ _ _ _ _ _ h => (by cases h), fun _ _ _ _ _ _ h => (by cases h)⟩
  | succ n ih =>
    refine ⟨?_, ?_⟩
    · intro p r b st st' he hst h
      simp only [countProg, he] at h
      split at h
      · rename_i hu
        simp only [Bool.and_eq_true] at hu
        obtain ⟨o, v, hw, e1⟩ := ih.rule _ _ _ _ _ he (ht hst) h
        have := hlen st
        exact ⟨o, v, hw, by rw [if_pos hu.1]; simp only [Bool.false_eq_true, if_false] at e1; omega⟩
      · obtain ⟨x, h1, h⟩ := Res.bind_eq_ok h
        obtain ⟨o, v, hw, e1⟩ := run_cost sys hX (like_sound (runProg_sound sys hext n) (countProg_like ops hb G T n)) ih n b p _ _ _
          (by cases p
              · exact coherent_false _ _ _
              · exact Grammar.coherent_find sys.coh he) (sys.resolved he) (sys.shapedRule he) (ht hst) h1
        refine ⟨o, v, hw, ?_⟩
        rw [finish_calls h]
        have := hlen st
        split <;> omega
    · intro p path st st' hpath _ h
      have e1 : countProg ops ext G T (n + 1) ⟨p, path⟩ st = ext n ⟨p, path⟩ st.tick := by
        rcases path with _ | ⟨r, _ | ⟨r', path⟩⟩
        · rfl
        · simp only [countProg, hpath r rfl]
        · rfl
      rw [e1] at h
      rw [hb.quiet _ _ _ _ h, hlen]
      exact Nat.le_refl _

end
end Oak
