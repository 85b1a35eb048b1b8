import Verif.Proofs.RunSound
import Verif.Spec.Calls
import Verif.Spec.WellFormed
/-!
The calls of user functions made by a run.
-/
set_option linter.constructorNameAsVariable false
set_option autoImplicit false

namespace Oak
open Spec

section ops
variable {σ D E : Type} {ops : StreamOps σ} {st : PState σ D}

theorem mark_ok {m : σ} (h : st.mark = .ok m) : m = st.cur := by
  unfold PState.mark at h
  obtain ⟨_, _, h⟩ := Res.bind_eq_ok h
  cases h; rfl

theorem error_calls {d : String} {st' : PState σ D} (h : st.error ops d = .ok st') : st'.calls = st.calls := by
  unfold PState.error at h
  obtain ⟨o, _, h⟩ := Res.bind_eq_ok h
  cases o <;> cases h <;> rfl

theorem next_calls {r : Option Char} {st' : PState σ D} (h : st.next ops = .ok (r, st')) : st'.calls = st.calls := by
  unfold PState.next at h
  obtain ⟨_, _, h⟩ := Res.bind_eq_ok h
  cases h; rfl

theorem prefix_calls {l : String} {r : Bool} {st' : PState σ D} (h : st.consumePrefix ops l = .ok (r, st')) : st'.calls = st.calls := by
  unfold PState.consumePrefix at h
  obtain ⟨_, _, h⟩ := Res.bind_eq_ok h
  cases h; rfl

theorem restore_calls {m : σ} {st' : PState σ E} (h : st.restore m = .ok st') : st'.calls = st.calls := by
  unfold PState.restore at h
  obtain ⟨_, _, h⟩ := Res.bind_eq_ok h
  cases h; rfl

theorem restoreFromFailure_calls {m : σ} {st' : PState σ E} (h : st.restoreFromFailure m = .ok st') : st'.calls = st.calls := by
  unfold PState.restoreFromFailure at h
  obtain ⟨_, _, h⟩ := Res.bind_eq_ok h
  exact restore_calls h

theorem extract_calls {d : D} {st' : PState σ E} (h : st.extractData = .ok (st', d)) : st'.calls = st.calls := by
  unfold PState.extractData at h
  split at h
  · split at h
    · cases h; rfl
    · cases h
  · cases h

end ops

section
variable {σ : Type} {ops : StreamOps σ} {fns : FnRef → PState σ Val → Res (PState σ Val)} {T : Nat → Ty}

/-- A body makes the calls `C`. -/
def Makes (body : PState σ Val → Res (Option (List Val) × PState σ Val)) : Prop :=
  ∀ st r st', body st = .ok (r, st') → st'.calls = st.calls

theorem terminal_calls {st st' : PState σ Val} {d : String} {r : Option (List Val)}
    (h : ((st.error ops d : Res (PState σ Val)) >>= fun st => .ok (none, st.failure)) = .ok (r, st')) : st'.calls = st.calls := by
  obtain ⟨st1, h1, h⟩ := Res.bind_eq_ok h
  cases h
  show st1.calls = _
  exact error_calls h1

theorem runCall_calls {p : Bool} {i : Nat} {path : Path} {st st' : PState σ Val} {r : Option (List Val)}
    (h : runCall fns T p i path st = .ok (r, st')) : ∃ st1, fns ⟨p && decide (T i ≠ .unit), path⟩ st = .ok st1 ∧ st'.calls = st1.calls := by
  unfold runCall at h
  generalize (p && decide (T i ≠ .unit)) = q at *
  cases q with
  | true =>
    simp only [if_true] at h
    obtain ⟨st1, h1, h⟩ := Res.bind_eq_ok h
    refine ⟨st1, h1, ?_⟩
    split at h
    · obtain ⟨⟨st2, d⟩, h2, h⟩ := Res.bind_eq_ok h
      obtain ⟨ws, h3, h⟩ := Res.bind_eq_ok h
      cases h
      exact extract_calls h2
    · cases h; rfl
  | false =>
    simp only [Bool.false_eq_true, if_false] at h
    obtain ⟨st1, h1, h⟩ := Res.bind_eq_ok h
    refine ⟨st1, h1, ?_⟩
    split at h <;> cases h <;> rfl

theorem runLoop_makes {body : PState σ Val → Res (Option (List Val) × PState σ Val)} (hb : Makes body) (n : Nat) :
    ∀ k m vs st q, runLoop body n k m vs st = .ok q → q.2.2.2.calls = st.calls := by
  induction n with
  | zero => intro k m vs st q h; cases h
  | succ n ih =>
    intro k m vs st q h
    simp only [runLoop] at h
    obtain ⟨⟨r, st1⟩, h1, h⟩ := Res.bind_eq_ok h
    have := hb _ _ _ h1
    cases r with
    | some ws =>
      dsimp only at h
      split at h
      · obtain ⟨s, _, h⟩ := Res.bind_eq_ok h
        rw [ih _ _ _ _ _ h, this]
      · cases h; exact this
    | none =>
      dsimp only at h
      split at h
      · obtain ⟨s, _, h⟩ := Res.bind_eq_ok h
        rw [ih _ _ _ _ _ h, this]
      · cases h; exact this

theorem runRepeat_makes {body : PState σ Val → Res (Option (List Val) × PState σ Val)} (hb : Makes body) (n : Nat) (plus p : Bool) :
    Makes (runRepeat n plus p body) := by
  intro st r st' h
  unfold runRepeat at h
  obtain ⟨m, _, h⟩ := Res.bind_eq_ok h
  obtain ⟨⟨k, m', vs, st1⟩, h1, h⟩ := Res.bind_eq_ok h
  have := runLoop_makes hb n _ _ _ _ _ h1
  dsimp only at h this
  split at h
  · cases h; exact this
  · obtain ⟨st2, h2, h⟩ := Res.bind_eq_ok h
    cases h
    rw [restoreFromFailure_calls h2, this]

theorem restoreIf_calls {st st' : PState σ Val} {m : σ} (h : restoreIf st m = .ok st') : st'.calls = st.calls := by
  unfold restoreIf at h
  split at h
  · exact restoreFromFailure_calls h
  · cases h; rfl

theorem runPred_makes {body : PState σ Val → Res (Option (List Val) × PState σ Val)} (hb : Makes body) (neg : Bool) : Makes (runPred neg body) := by
  intro st r st' h
  unfold runPred at h
  obtain ⟨m, _, h⟩ := Res.bind_eq_ok h
  obtain ⟨⟨_, st1⟩, h1, h⟩ := Res.bind_eq_ok h
  obtain ⟨st2, h2, h⟩ := Res.bind_eq_ok h
  have e1 := hb _ _ _ h1
  have e2 := restore_calls h2
  split at h <;> cases h
  · exact e2.trans e1
  · exact e2.trans e1

/-- A recognizer calls no user function. -/
theorem run_false_calls (hf : ∀ path st st', fns ⟨false, path⟩ st = .ok st' → st'.calls = st.calls) (n : Nat) (e : Expr) :
    Makes (run ops fns T n false e) := by
  induction e using Expr.ind with
  | str i l =>
    intro st r st' h
    simp only [run] at h
    obtain ⟨⟨b, st1⟩, h1, h⟩ := Res.bind_eq_ok h
    have e1 := prefix_calls h1
    dsimp only at h
    split at h
    · cases h; exact e1
    · rw [terminal_calls h, e1]
  | any i =>
    intro st r st' h
    simp only [run] at h
    obtain ⟨⟨b, st1⟩, h1, h⟩ := Res.bind_eq_ok h
    have e1 := next_calls h1
    cases b with
    | some c => cases h; exact e1
    | none => rw [terminal_calls h, e1]
  | cls i ivs =>
    intro st r st' h
    simp only [run] at h
    obtain ⟨m, _, h⟩ := Res.bind_eq_ok h
    obtain ⟨⟨b, st1⟩, h1, h⟩ := Res.bind_eq_ok h
    have e1 := next_calls h1
    dsimp only at h
    split at h
    · cases h; exact e1
    · obtain ⟨st2, h2, h⟩ := Res.bind_eq_ok h
      rw [terminal_calls h, restore_calls h2, e1]
  | nt i r | ext i r =>
    intro st r st' h
    simp only [run] at h
    obtain ⟨st1, h1, h2⟩ := runCall_calls h
    rw [h2]
    exact hf _ _ _ h1
  | seq i es ih =>
    intro st r st' h
    simp only [run, Bool.false_and] at h
    induction es generalizing st r st' with
    | nil => simp only [runSeq] at h; cases h; rfl
    | cons e es ihes =>
      simp only [runSeq] at h
      obtain ⟨⟨o, st1⟩, h1, h⟩ := Res.bind_eq_ok h
      have e1 := ih e (by simp) _ _ _ h1
      cases o with
      | none => cases h; exact e1
      | some vs =>
        obtain ⟨⟨o2, st2⟩, h2, h⟩ := Res.bind_eq_ok h
        have e2 := ihes (fun e he => ih e (by simp [he])) _ _ _ h2
        cases o2 <;> cases h <;> exact e2.trans e1
  | choice i es ih =>
    intro st r st' h
    simp only [run, Bool.false_and] at h
    obtain ⟨m, -, hb⟩ := Res.bind_eq_ok h
    clear h
    have h := hb
    clear hb
    induction es generalizing st r with
    | nil => simp only [runBranches] at h; cases h; rfl
    | cons e es ihes =>
      simp only [runBranches] at h
      obtain ⟨⟨o, st1⟩, h1, h⟩ := Res.bind_eq_ok h
      have e1 := ih e (by simp) _ _ _ h1
      cases o with
      | some vs => cases h; exact e1
      | none =>
        dsimp only at h
        split at h
        · cases h; exact e1
        · obtain ⟨st2, h2, h⟩ := Res.bind_eq_ok h
          rw [ihes (fun e he => ih e (by simp [he])) _ _ h, restoreFromFailure_calls h2, e1]
  | star i e ih => simpa only [run, Bool.false_and] using runRepeat_makes ih n false false
  | plus i e ih => simpa only [run, Bool.false_and] using runRepeat_makes ih n true false
  | opt i e ih =>
    intro st r st' h
    simp only [run, Bool.false_and, runOpt] at h
    obtain ⟨m, _, h⟩ := Res.bind_eq_ok h
    obtain ⟨⟨o, st1⟩, h1, h⟩ := Res.bind_eq_ok h
    obtain ⟨st2, h2, h⟩ := Res.bind_eq_ok h
    cases h
    rw [restoreIf_calls h2, ih _ _ _ h1]
  | not i e ih => simpa only [run] using runPred_makes ih true
  | and i e ih => simpa only [run] using runPred_makes ih false
  | asc i e t ih => simpa only [run, Bool.false_and] using ih
  | act i e b f ih | span i e ih | range i e ih =>
    simp only [run, Bool.false_and, Bool.false_eq_true, if_false]
    exact ih
end

section
variable {σ : Type} {ops : StreamOps σ} {V : σ → Prop} {rest : σ → List Char} {input : List Char}
  {ext : Nat → FnRef → PState σ Val → Res (PState σ Val)} {G : Grammar} {T : Nat → Ty} {sp : SpanSpec} {X : ExtSpec}

/-- The functions in scope make the specified calls. -/
structure FnsCalls (V : σ → Prop) (rest : σ → List Char) (G : Grammar) (T : Nat → Ty) (sp : SpanSpec) (X : ExtSpec)
    (fns : FnRef → PState σ Val → Res (PState σ Val)) : Prop where
  recog : ∀ path st st', fns ⟨false, path⟩ st = .ok st' → st'.calls = st.calls
  rule : ∀ r b st st', G.find r = some b → OkSt V st → fns ⟨true, [r]⟩ st = .ok st' →
    ∃ cs, UserCalls G X T sp b (rest st.cur) cs ∧ st'.calls = st.calls ++ cs
  ext : ∀ path st st', (∀ r, path = [r] → G.find r = none) → fns ⟨true, path⟩ st = .ok st' → st'.calls = st.calls

theorem sound_ok {p : Bool} {e : Expr} {st : PState σ Val} {x : Res (Option (List Val) × PState σ Val)} {r : Option (List Val)} {st' : PState σ Val}
    (h : SoundR V rest G T sp X p e st x) (hx : x = .ok (r, st')) : ∃ o L, Peg G X e (rest st.cur) o L ∧ RunRes V rest G T sp p e st L r st' o := by
  rcases h with h | ⟨o, L, r1, st1, h, hp, hr⟩
  · rw [hx] at h; cases h
  · rw [hx] at h; cases h; exact ⟨o, L, hp, hr⟩

/-- The calls made by the iterations of a repetition. -/
theorem loop_calls {i : Nat} {e : Expr} (hi : T i ≠ .unit) {body : PState σ Val → Res (Option (List Val) × PState σ Val)}
    (hs : ∀ st, OkSt V st → SoundR V rest G T sp X true e st (body st))
    (hb : ∀ st r st', OkSt V st → body st = .ok (r, st') → ∃ cs, UserCalls G X T sp e (rest st.cur) cs ∧ st'.calls = st.calls ++ cs) (n : Nat) :
    ∀ k m vs st q, OkSt V st → runLoop body n k m vs st = .ok q →
      ∃ cs, UserCalls G X T sp (.star i e) (rest st.cur) cs ∧ q.2.2.2.calls = st.calls ++ cs := by
  induction n with
  | zero => intro k m vs st q _ h; cases h
  | succ n ih =>
    intro k m vs st q hst h
    simp only [runLoop] at h
    obtain ⟨⟨r, st1⟩, h1, h⟩ := Res.bind_eq_ok h
    obtain ⟨c1, hc1, e1⟩ := hb _ _ _ hst h1
    obtain ⟨o, L, hp, hr⟩ := sound_ok (hs st hst) h1
    cases o with
    | fail =>
      obtain ⟨rfl, h2, h3, _⟩ := hr
      simp only [PState.isSuccessful, PState.isFailed, h2, Bool.not_true, Bool.false_eq_true, if_false] at h
      cases h
      exact ⟨c1, .star_stop hi hp hc1, e1⟩
    | ok s1 t =>
      obtain ⟨rfl, h2, h3, h4, h5⟩ := hr
      simp only [PState.isSuccessful, PState.isFailed, h2, Bool.not_false, if_true] at h
      obtain ⟨s, _, h⟩ := Res.bind_eq_ok h
      obtain ⟨c2, hc2, e2⟩ := ih _ _ _ st1 _ ⟨h5.far, h5.cur, h2, h3⟩ h
      rw [h4] at hc2
      exact ⟨c1 ++ c2, .star_more hi hp hc1 hc2, by rw [e2, e1, List.append_assoc]⟩

theorem repeat_calls {i : Nat} {e : Expr} (hi : T i ≠ .unit) {body : PState σ Val → Res (Option (List Val) × PState σ Val)}
    (hs : ∀ st, OkSt V st → SoundR V rest G T sp X true e st (body st))
    (hb : ∀ st r st', OkSt V st → body st = .ok (r, st') → ∃ cs, UserCalls G X T sp e (rest st.cur) cs ∧ st'.calls = st.calls ++ cs) (n : Nat)
    (plus : Bool) {st : PState σ Val} {r : Option (List Val)} {st' : PState σ Val} (hst : OkSt V st) (h : runRepeat n plus true body st = .ok (r, st')) :
    ∃ cs, UserCalls G X T sp (.star i e) (rest st.cur) cs ∧ st'.calls = st.calls ++ cs := by
  unfold runRepeat at h
  obtain ⟨m, _, h⟩ := Res.bind_eq_ok h
  obtain ⟨⟨k, m', vs, st1⟩, h1, h⟩ := Res.bind_eq_ok h
  obtain ⟨cs, hc, e1⟩ := loop_calls (i := i) hi hs hb n _ _ _ _ _ hst h1
  refine ⟨cs, hc, ?_⟩
  dsimp only at h e1
  split at h
  · cases h; exact e1
  · obtain ⟨st2, h2, h⟩ := Res.bind_eq_ok h
    cases h
    rw [restoreFromFailure_calls h2, e1]

/-- The calls made by a run. -/
theorem run_calls (sys : Sys ops V rest input ext G T sp X) {fns : FnRef → PState σ Val → Res (PState σ Val)}
    (hfns : FnsSound V rest G T sp X fns) (hfc : FnsCalls V rest G T sp X fns) (n : Nat) (e : Expr) :
    ∀ (st : PState σ Val) (r : Option (List Val)) (st' : PState σ Val),
    coherent T (G.ruleCard T) true e = true → e.resolved G = true → e.shaped = true → OkSt V st →
    run ops fns T n true e st = .ok (r, st') → ∃ cs, UserCalls G X T sp e (rest st.cur) cs ∧ st'.calls = st.calls ++ cs := by
  have sound : ∀ e st, coherent T (G.ruleCard T) true e = true → e.resolved G = true → e.shaped = true → OkSt V st →
      SoundR V rest G T sp X true e st (run ops fns T n true e st) := fun e st h1 h2 h3 h4 => run_sound sys hfns n e true st h1 h2 h3 h4
  have quiet := fun e => run_false_calls (ops := ops) (T := T) hfc.recog n e
  induction e using Expr.ind with
  | str i l =>
    intro st r st' _ _ _ _ h
    exact ⟨[], .str, by rw [List.append_nil]; exact quiet (.str i l) _ _ _ (by simpa only [run] using h)⟩
  | any i =>
    intro st r st' _ _ _ _ h
    refine ⟨[], .any, ?_⟩
    rw [List.append_nil]
    simp only [run] at h
    obtain ⟨⟨b, st1⟩, h1, h⟩ := Res.bind_eq_ok h
    have e1 := next_calls h1
    cases b with
    | some c => cases h; exact e1
    | none => rw [terminal_calls h, e1]
  | cls i ivs =>
    intro st r st' _ _ _ _ h
    refine ⟨[], .cls, ?_⟩
    rw [List.append_nil]
    simp only [run] at h
    obtain ⟨m, _, h⟩ := Res.bind_eq_ok h
    obtain ⟨⟨b, st1⟩, h1, h⟩ := Res.bind_eq_ok h
    have e1 := next_calls h1
    dsimp only at h
    split at h
    · cases h; exact e1
    · obtain ⟨st2, h2, h⟩ := Res.bind_eq_ok h
      rw [terminal_calls h, restore_calls h2, e1]
  | nt i r =>
    intro st o st' hco hre hsh hst h
    simp only [run] at h
    obtain ⟨st1, h1, h2⟩ := runCall_calls h
    rw [h2]
    by_cases hi : T i = .unit
    · simp only [hi, ne_eq, not_true_eq_false, decide_false, Bool.and_false] at h1
      exact ⟨[], .unit hi, by rw [List.append_nil]; exact hfc.recog _ _ _ h1⟩
    · simp only [ne_eq, hi, not_false_eq_true, decide_true, Bool.and_true] at h1
      simp only [Expr.resolved, Option.isSome_iff_exists] at hre
      obtain ⟨b, hb⟩ := hre
      obtain ⟨cs, hc, e1⟩ := hfc.rule _ _ _ _ hb hst h1
      exact ⟨cs, .nt hi hb hc, e1⟩
  | ext i path =>
    intro st o st' hco hre hsh hst h
    simp only [run] at h
    obtain ⟨st1, h1, h2⟩ := runCall_calls h
    refine ⟨[], .ext, ?_⟩
    rw [h2, List.append_nil]
    cases hq : (true && decide (T i ≠ .unit)) with
    | false => rw [hq] at h1; exact hfc.recog _ _ _ h1
    | true =>
      rw [hq] at h1
      refine hfc.ext _ _ _ ?_ h1
      rintro r rfl
      simpa [Expr.resolved] using hre
  | seq i es0 ih =>
    intro st r st' hco hre hsh hst h
    by_cases hi : T i = .unit
    · refine ⟨[], .unit hi, ?_⟩
      rw [List.append_nil]
      refine quiet (.seq i es0) st r st' ?_
      simpa only [run, hi, ne_eq, not_true_eq_false, decide_false, Bool.and_false] using h
    · have hq : (true && decide (T i ≠ .unit)) = true := by simp [hi]
      simp only [run, hq] at h
      simp only [coherent, hq, coherentAll_iff] at hco
      simp only [Expr.resolved, resolvedAll_iff] at hre
      simp only [Expr.shaped, shapedAll_iff] at hsh
      have key : ∀ es : List Expr, (∀ e ∈ es, e ∈ es0) → ∀ st r st', OkSt V st → runSeq ops fns T n true es st = .ok (r, st') →
          ∃ cs, UserCalls G X T sp (.seq i es) (rest st.cur) cs ∧ st'.calls = st.calls ++ cs := by
        intro es
        induction es with
        | nil => intro _ st r st' _ h; simp only [runSeq] at h; cases h; exact ⟨[], .seq_nil, by simp⟩
        | cons e es ihes =>
          intro hsub st r st' hst h
          simp only [runSeq] at h
          obtain ⟨⟨o, st1⟩, h1, h⟩ := Res.bind_eq_ok h
          have hmem := hsub e (by simp)
          obtain ⟨c1, hc1, e1⟩ := ih e hmem _ _ _ (hco e hmem) (hre e hmem) (hsh e hmem) hst h1
          obtain ⟨o', L, hp, hr⟩ := sound_ok (sound e st (hco e hmem) (hre e hmem) (hsh e hmem) hst) h1
          cases o' with
          | fail =>
            obtain ⟨rfl, _⟩ := hr
            cases h
            exact ⟨c1, .seq_fail hi hp hc1, e1⟩
          | ok s1 t =>
            obtain ⟨rfl, q1, q2, q3, q4⟩ := hr
            obtain ⟨⟨o2, st2⟩, h2, h⟩ := Res.bind_eq_ok h
            obtain ⟨c2, hc2, e2⟩ := ihes (fun e he => hsub e (by simp [he])) st1 _ _ ⟨q4.far, q4.cur, q1, q2⟩ h2
            rw [q3] at hc2
            exact ⟨c1 ++ c2, .seq_cons hi hp hc1 hc2, by cases o2 <;> cases h <;> rw [e2, e1, List.append_assoc]⟩
      exact key es0 (fun _ h => h) st r st' hst h
  | choice i es0 ih =>
    intro st r st' hco hre hsh hst h
    by_cases hi : T i = .unit
    · refine ⟨[], .unit hi, ?_⟩
      rw [List.append_nil]
      refine quiet (.choice i es0) st r st' ?_
      simpa only [run, hi, ne_eq, not_true_eq_false, decide_false, Bool.and_false] using h
    · have hq : (true && decide (T i ≠ .unit)) = true := by simp [hi]
      simp only [run, hq] at h
      obtain ⟨m, hm, h⟩ := Res.bind_eq_ok h
      have hm := mark_ok hm
      simp only [coherent, hq, Bool.and_eq_true, coherentAll_iff] at hco
      replace hco := hco.1
      simp only [Expr.resolved, resolvedAll_iff] at hre
      simp only [Expr.shaped, Bool.and_eq_true, shapedAll_iff] at hsh
      replace hsh := hsh.2
      have key : ∀ es : List Expr, (∀ e ∈ es, e ∈ es0) → ∀ st r st', OkSt V st → m = st.cur → runBranches ops fns T n true m es st = .ok (r, st') →
          ∃ cs, UserCalls G X T sp (.choice i es) (rest st.cur) cs ∧ st'.calls = st.calls ++ cs := by
        intro es
        induction es with
        | nil => intro _ st r st' _ _ h; simp only [runBranches] at h; cases h; exact ⟨[], .choice_nil, by simp⟩
        | cons e es ihes =>
          intro hsub st r st' hst hm h
          simp only [runBranches] at h
          obtain ⟨⟨o, st1⟩, h1, h⟩ := Res.bind_eq_ok h
          have hmem := hsub e (by simp)
          obtain ⟨c1, hc1, e1⟩ := ih e hmem _ _ _ (hco e hmem) (hre e hmem) (hsh e hmem) hst h1
          obtain ⟨o', L, hp, hr⟩ := sound_ok (sound e st (hco e hmem) (hre e hmem) (hsh e hmem) hst) h1
          cases o' with
          | ok s1 t =>
            obtain ⟨rfl, q1, q2, q3, q4⟩ := hr
            cases h
            exact ⟨c1, .choice_first hi hp hc1, e1⟩
          | fail =>
            obtain ⟨rfl, q1, q2, q3⟩ := hr
            dsimp only at h
            split at h
            · rename_i hes
              have : es = [] := by simpa using hes
              cases h
              rw [this]
              exact ⟨c1 ++ [], .choice_next hi hp hc1 .choice_nil, by simpa using e1⟩
            · rw [restoreFromFailure_spec q1 q2] at h
              simp only [Res.bind_ok] at h
              obtain ⟨c2, hc2, e2⟩ := ihes (fun e he => hsub e (by simp [he])) ⟨st1.far, st1.exp, false, m, none, st1.calls⟩ r st'
                ⟨q3.far, hm ▸ hst.cur, rfl, rfl⟩ rfl h
              dsimp only at hc2 e2
              rw [hm] at hc2
              exact ⟨c1 ++ c2, .choice_next hi hp hc1 hc2, by rw [e2, e1, List.append_assoc]⟩
      exact key es0 (fun _ h => h) st r st' hst hm h
  | star i e ih =>
    intro st r st' hco hre hsh hst h
    by_cases hi : T i = .unit
    · refine ⟨[], .unit hi, ?_⟩
      rw [List.append_nil]
      refine quiet (.star i e) st r st' ?_
      simpa only [run, hi, ne_eq, not_true_eq_false, decide_false, Bool.and_false] using h
    · have hq : (true && decide (T i ≠ .unit)) = true := by simp [hi]
      simp only [run, hq] at h
      simp only [coherent, hq] at hco
      exact repeat_calls hi (fun st hst => sound e st hco hre hsh hst) (fun st r st' hst h => ih st r st' hco hre hsh hst h) n false hst h
  | plus i e ih =>
    intro st r st' hco hre hsh hst h
    by_cases hi : T i = .unit
    · refine ⟨[], .unit hi, ?_⟩
      rw [List.append_nil]
      refine quiet (.plus i e) st r st' ?_
      simpa only [run, hi, ne_eq, not_true_eq_false, decide_false, Bool.and_false] using h
    · have hq : (true && decide (T i ≠ .unit)) = true := by simp [hi]
      simp only [run, hq] at h
      simp only [coherent, hq] at hco
      obtain ⟨cs, hc, e1⟩ := repeat_calls hi (fun st hst => sound e st hco hre hsh hst) (fun st r st' hst h => ih st r st' hco hre hsh hst h) n true hst h
      exact ⟨cs, .plus hi hc, e1⟩
  | opt i e ih =>
    intro st r st' hco hre hsh hst h
    by_cases hi : T i = .unit
    · refine ⟨[], .unit hi, ?_⟩
      rw [List.append_nil]
      refine quiet (.opt i e) st r st' ?_
      simpa only [run, hi, ne_eq, not_true_eq_false, decide_false, Bool.and_false] using h
    · have hq : (true && decide (T i ≠ .unit)) = true := by simp [hi]
      simp only [run, hq, runOpt] at h
      simp only [coherent, hq] at hco
      obtain ⟨m, _, h⟩ := Res.bind_eq_ok h
      obtain ⟨⟨o, st1⟩, h1, h⟩ := Res.bind_eq_ok h
      obtain ⟨st2, h2, h⟩ := Res.bind_eq_ok h
      cases h
      obtain ⟨cs, hc, e1⟩ := ih _ _ _ hco hre hsh hst h1
      exact ⟨cs, .opt hi hc, by rw [restoreIf_calls h2, e1]⟩
  | not i e ih =>
    intro st r st' _ _ _ _ h
    exact ⟨[], .not, by rw [List.append_nil]; exact quiet (.not i e) st r st' (by simpa only [run] using h)⟩
  | and i e ih =>
    intro st r st' _ _ _ _ h
    exact ⟨[], .and, by rw [List.append_nil]; exact quiet (.and i e) st r st' (by simpa only [run] using h)⟩
  | act i e b f ih =>
    intro st r st' hco hre hsh hst h
    by_cases hi : T i = .unit
    · refine ⟨[], .unit hi, ?_⟩
      rw [List.append_nil]
      refine quiet (.act i e b f) st r st' ?_
      simpa only [run, hi, ne_eq, not_true_eq_false, decide_false, Bool.and_false] using h
    · have hq : (true && decide (T i ≠ .unit)) = true := by simp [hi]
      simp only [run, hq, if_true] at h
      simp only [coherent, hq] at hco
      obtain ⟨⟨o, st1⟩, h1, h⟩ := Res.bind_eq_ok h
      obtain ⟨cs, hc, e1⟩ := ih _ _ _ hco hre hsh hst h1
      obtain ⟨o', L, hp, hr⟩ := sound_ok (sound e st hco hre hsh hst) h1
      cases o' with
      | fail =>
        obtain ⟨rfl, _⟩ := hr
        cases h
        exact ⟨cs, .act_fail hi hp hc, e1⟩
      | ok s1 t =>
        obtain ⟨rfl, _⟩ := hr
        cases h
        refine ⟨_, .act_ok hi hp hc, ?_⟩
        show st1.calls ++ _ = _
        rw [e1, List.append_assoc]
        rfl
  | asc i e t ih =>
    intro st r st' hco hre hsh hst h
    by_cases hi : T i = .unit
    · refine ⟨[], .unit hi, ?_⟩
      rw [List.append_nil]
      refine quiet (.asc i e t) st r st' ?_
      simpa only [run, hi, ne_eq, not_true_eq_false, decide_false, Bool.and_false] using h
    · have hq : (true && decide (T i ≠ .unit)) = true := by simp [hi]
      simp only [run, hq] at h
      simp only [coherent, hq] at hco
      obtain ⟨cs, hc, e1⟩ := ih _ _ _ hco hre hsh hst h
      exact ⟨cs, .asc hi hc, e1⟩
  | span i e ih =>
    intro st r st' hco hre hsh hst h
    by_cases hi : T i = .unit
    · refine ⟨[], .unit hi, ?_⟩
      rw [List.append_nil]
      refine quiet (.span i e) st r st' ?_
      simpa only [run, hi, ne_eq, not_true_eq_false, decide_false, Bool.and_false] using h
    · have hq : (true && decide (T i ≠ .unit)) = true := by simp [hi]
      simp only [run, hq, if_true] at h
      simp only [coherent, hq, Bool.and_eq_true] at hco
      obtain ⟨m, _, h⟩ := Res.bind_eq_ok h
      obtain ⟨⟨o, st1⟩, h1, h⟩ := Res.bind_eq_ok h
      obtain ⟨cs, hc, e1⟩ := ih _ _ _ hco.1 hre hsh hst h1
      cases o with
      | none => cases h; exact ⟨cs, .span hi hc, e1⟩
      | some ws =>
        obtain ⟨m2, _, h⟩ := Res.bind_eq_ok h
        cases h; exact ⟨cs, .span hi hc, e1⟩
  | range i e ih =>
    intro st r st' hco hre hsh hst h
    by_cases hi : T i = .unit
    · refine ⟨[], .unit hi, ?_⟩
      rw [List.append_nil]
      refine quiet (.range i e) st r st' ?_
      simpa only [run, hi, ne_eq, not_true_eq_false, decide_false, Bool.and_false] using h
    · have hq : (true && decide (T i ≠ .unit)) = true := by simp [hi]
      simp only [run, hq, if_true] at h
      simp only [coherent, hq, Bool.and_eq_true] at hco
      obtain ⟨m, _, h⟩ := Res.bind_eq_ok h
      obtain ⟨⟨o, st1⟩, h1, h⟩ := Res.bind_eq_ok h
      obtain ⟨cs, hc, e1⟩ := ih _ _ _ hco.1 hre hsh hst h1
      cases o with
      | none => cases h; exact ⟨cs, .range hi hc, e1⟩
      | some ws =>
        obtain ⟨m2, _, h⟩ := Res.bind_eq_ok h
        cases h; exact ⟨cs, .range hi hc, e1⟩

theorem finish_calls {x : Option (List Val) × PState σ Val} {st : PState σ Val} (h : finish x = .ok st) : st.calls = x.2.calls := by
  obtain ⟨_ | _, _⟩ := x <;> cases h <;> rfl

/-- The external functions do not call the user functions of the grammar. -/
def QuietExt (ext : Nat → FnRef → PState σ Val → Res (PState σ Val)) : Prop := ∀ n f st st', ext n f st = .ok st' → st'.calls = st.calls

/-- The calls made by generated functions. -/
theorem runProg_calls (sys : Sys ops V rest input ext G T sp X) (hext : ExtOk V rest ext G X) (hq : QuietExt ext) (n : Nat) :
    FnsCalls V rest G T sp X (runProg ops ext G T n) := by
  have out : ∀ n p path st, (∀ r, path = [r] → G.find r = none) → runProg ops ext G T (n + 1) ⟨p, path⟩ st = ext n ⟨p, path⟩ st := by
    intro n p path st hpath
    rcases path with _ | ⟨r, _ | ⟨r', path⟩⟩
    · rfl
    · simp only [runProg, hpath r rfl]
    · rfl
  induction n with
  | zero => exact ⟨fun _ _ _ h => (by cases h), fun _ _ _ _ _ _ h => (by cases h), fun _ _ _ _ h => (by cases h)⟩
  | succ n ih =>
    refine ⟨?_, ?_, ?_⟩
    · intro path st st' h
      by_cases hp : ∀ r, path = [r] → G.find r = none
      · rw [out n _ _ _ hp] at h
        exact hq _ _ _ _ h
      · have : ∃ r e, path = [r] ∧ G.find r = some e := by
          apply Classical.byContradiction
          intro hno
          apply hp
          intro r hr
          cases hf : G.find r with
          | none => rfl
          | some e => exact absurd ⟨r, e, hr, hf⟩ hno
        obtain ⟨r, e, rfl, he⟩ := this
        simp only [runProg, he, Bool.false_and, Bool.false_eq_true, if_false] at h
        obtain ⟨x, h1, h⟩ := Res.bind_eq_ok h
        rw [finish_calls h]
        exact run_false_calls ih.recog n e _ _ _ h1
    · intro r b st st' hb hst h
      simp only [runProg, hb, Bool.true_and, decide_eq_true_eq] at h
      split at h
      · rename_i hu
        exact ⟨[], .unit hu, by rw [List.append_nil]; exact ih.recog _ _ _ h⟩
      · obtain ⟨x, h1, h⟩ := Res.bind_eq_ok h
        rw [finish_calls h]
        exact run_calls sys (runProg_sound sys hext n) ih n b _ _ _ (Grammar.coherent_find sys.coh hb) (sys.resolved hb) (sys.shapedRule hb) hst h1
    · intro path st st' hpath h
      rw [out n _ _ _ hpath] at h
      exact hq _ _ _ _ h

end

/-! ### The relation -/

section
variable {G : Grammar} {T : Nat → Ty} {sp : SpanSpec} {X : ExtSpec}

theorem Spec.UserCalls.of_unit {e : Expr} {s : List Char} {cs : List Val} (h : UserCalls G X T sp e s cs) (hu : T e.id = .unit) : cs = [] := by
  cases h <;> first | rfl | contradiction

/-- The calls are determined by the expression and the position. -/
theorem Spec.UserCalls.det (hX : X.Det) {e : Expr} {s : List Char} {cs cs' : List Val} (h : UserCalls G X T sp e s cs) (h' : UserCalls G X T sp e s cs') : cs = cs' := by
  have no : ∀ {e s L s1 t L'}, Peg G X e s .fail L → Peg G X e s (.ok s1 t) L' → False := fun a b => by have := (a.det hX b).1; cases this
  induction h generalizing cs' with
  | unit hu => exact (h'.of_unit hu).symm
  | str | any | cls | ext | not | and | seq_nil | choice_nil => cases h' <;> rfl
  | nt hi hb _ ih =>
    cases h' with
    | unit hu => exact absurd hu hi
    | nt _ hb' h' => rw [hb] at hb'; cases hb'; exact ih h'
  | seq_fail hi hp _ ih =>
    cases h' with
    | unit hu => exact absurd hu hi
    | seq_fail _ _ h' => exact ih h'
    | seq_cons _ hp' => exact (no hp hp').elim
  | seq_cons hi hp _ _ ih1 ih2 =>
    cases h' with
    | unit hu => exact absurd hu hi
    | seq_fail _ hp' _ => exact (no hp' hp).elim
    | seq_cons _ hp' a b =>
      have := (hp.det hX hp').1
      cases this
      rw [ih1 a, ih2 b]
  | choice_first hi hp _ ih =>
    cases h' with
    | unit hu => exact absurd hu hi
    | choice_first _ _ h' => exact ih h'
    | choice_next _ hp' => exact (no hp' hp).elim
  | choice_next hi hp _ _ ih1 ih2 =>
    cases h' with
    | unit hu => exact absurd hu hi
    | choice_first _ hp' => exact (no hp hp').elim
    | choice_next _ _ a b => rw [ih1 a, ih2 b]
  | star_stop hi hp _ ih =>
    cases h' with
    | unit hu => exact absurd hu hi
    | star_stop _ _ h' => exact ih h'
    | star_more _ hp' => exact (no hp hp').elim
  | star_more hi hp _ _ ih1 ih2 =>
    cases h' with
    | unit hu => exact absurd hu hi
    | star_stop _ hp' => exact (no hp' hp).elim
    | star_more _ hp' a b =>
      have := (hp.det hX hp').1
      cases this
      rw [ih1 a, ih2 b]
  | plus hi _ ih | opt hi _ ih | asc hi _ ih | span hi _ ih | range hi _ ih => cases h' <;> first | contradiction | (rename_i h'; exact ih h')
  | act_ok hi hp _ ih =>
    cases h' with
    | unit hu => exact absurd hu hi
    | act_ok _ hp' a =>
      have := (hp.det hX hp').1
      cases this
      rw [ih a]
    | act_fail _ hp' => exact (no hp' hp).elim
  | act_fail hi hp _ ih =>
    cases h' with
    | unit hu => exact absurd hu hi
    | act_ok _ hp' => exact (no hp hp').elim
    | act_fail _ _ a => exact ih a

/-- A call comes after a match of the expression of an action. -/
theorem Spec.UserCalls.after (hX : X.Forward) {e : Expr} {s : List Char} {cs : List Val} (h : UserCalls G X T sp e s cs) {c : Val} (hc : c ∈ cs) :
    ∃ i e1 b f s1 s2 t L, (Sub (.act i e1 b f) e ∨ Occurs G (.act i e1 b f)) ∧ T i ≠ .unit ∧ s1 <:+ s ∧ Peg G X e1 s1 (.ok s2 t) L ∧
      c = .app f (ast G T sp e1 t) := by
  have later : ∀ {e s s1 t L}, Peg G X e s (.ok s1 t) L → s1 <:+ s := fun h => (h.forward hX).1 _ _ rfl
  induction h with
  | unit | str | any | cls | ext | not | and | seq_nil | choice_nil => cases hc
  | nt hi hb _ ih =>
    obtain ⟨i, e1, b, f, s1, s2, t, L, h1, h2⟩ := ih hc
    refine ⟨i, e1, b, f, s1, s2, t, L, .inr ?_, h2⟩
    rcases h1 with h1 | h1
    · exact ⟨_, _, hb, h1⟩
    · exact h1
  | seq_fail hi hp _ ih =>
    obtain ⟨i, e1, b, f, s1, s2, t, L, h1, h2⟩ := ih hc
    exact ⟨i, e1, b, f, s1, s2, t, L, h1.imp (.seq (by simp)) id, h2⟩
  | seq_cons hi hp _ _ ih1 ih2 =>
    rcases List.mem_append.1 hc with hc | hc
    · obtain ⟨i, e1, b, f, s1, s2, t, L, h1, h2⟩ := ih1 hc
      exact ⟨i, e1, b, f, s1, s2, t, L, h1.imp (.seq (by simp)) id, h2⟩
    · obtain ⟨i, e1, b, f, s1, s2, t, L, h1, h2, h3, h4⟩ := ih2 hc
      refine ⟨i, e1, b, f, s1, s2, t, L, h1.imp (fun h => ?_) id, h2, h3.trans (later hp), h4⟩
      cases h with
      | seq hm h => exact .seq (by simp [hm]) h
  | choice_first hi hp _ ih =>
    obtain ⟨i, e1, b, f, s1, s2, t, L, h1, h2⟩ := ih hc
    exact ⟨i, e1, b, f, s1, s2, t, L, h1.imp (.choice (by simp)) id, h2⟩
  | choice_next hi hp _ _ ih1 ih2 =>
    rcases List.mem_append.1 hc with hc | hc
    · obtain ⟨i, e1, b, f, s1, s2, t, L, h1, h2⟩ := ih1 hc
      exact ⟨i, e1, b, f, s1, s2, t, L, h1.imp (.choice (by simp)) id, h2⟩
    · obtain ⟨i, e1, b, f, s1, s2, t, L, h1, h2, h3, h4⟩ := ih2 hc
      refine ⟨i, e1, b, f, s1, s2, t, L, h1.imp (fun h => ?_) id, h2, h3, h4⟩
      cases h with
      | choice hm h => exact .choice (by simp [hm]) h
  | star_stop hi hp _ ih =>
    obtain ⟨i, e1, b, f, s1, s2, t, L, h1, h2⟩ := ih hc
    exact ⟨i, e1, b, f, s1, s2, t, L, h1.imp .star id, h2⟩
  | star_more hi hp _ _ ih1 ih2 =>
    rcases List.mem_append.1 hc with hc | hc
    · obtain ⟨i, e1, b, f, s1, s2, t, L, h1, h2⟩ := ih1 hc
      exact ⟨i, e1, b, f, s1, s2, t, L, h1.imp .star id, h2⟩
    · obtain ⟨i, e1, b, f, s1, s2, t, L, h1, h2, h3, h4⟩ := ih2 hc
      exact ⟨i, e1, b, f, s1, s2, t, L, h1, h2, h3.trans (later hp), h4⟩
  | plus hi _ ih =>
    obtain ⟨i, e1, b, f, s1, s2, t, L, h1, h2⟩ := ih hc
    refine ⟨i, e1, b, f, s1, s2, t, L, h1.imp (fun h => ?_) id, h2⟩
    cases h with
    | star h => exact .plus h
  | opt hi _ ih =>
    obtain ⟨i, e1, b, f, s1, s2, t, L, h1, h2⟩ := ih hc
    exact ⟨i, e1, b, f, s1, s2, t, L, h1.imp .opt id, h2⟩
  | asc hi _ ih =>
    obtain ⟨i, e1, b, f, s1, s2, t, L, h1, h2⟩ := ih hc
    exact ⟨i, e1, b, f, s1, s2, t, L, h1.imp .asc id, h2⟩
  | span hi _ ih =>
    obtain ⟨i, e1, b, f, s1, s2, t, L, h1, h2⟩ := ih hc
    exact ⟨i, e1, b, f, s1, s2, t, L, h1.imp .span id, h2⟩
  | range hi _ ih =>
    obtain ⟨i, e1, b, f, s1, s2, t, L, h1, h2⟩ := ih hc
    exact ⟨i, e1, b, f, s1, s2, t, L, h1.imp .range id, h2⟩
  | act_fail hi hp _ ih =>
    obtain ⟨i, e1, b, f, s1, s2, t, L, h1, h2⟩ := ih hc
    exact ⟨i, e1, b, f, s1, s2, t, L, h1.imp .act id, h2⟩
  | @act_ok i e b f s s1 t L cs hi hp _ ih =>
    rcases List.mem_append.1 hc with hc | hc
    · obtain ⟨i, e1, b, f, s1, s2, t, L, h1, h2⟩ := ih hc
      exact ⟨i, e1, b, f, s1, s2, t, L, h1.imp .act id, h2⟩
    · refine ⟨i, e, b, f, s, s1, t, L, .inl .refl, hi, List.suffix_rfl, hp, ?_⟩
      unfold actionCalls at hc
      split at hc
      · cases hc
      · simpa using hc

theorem treeCalls_unit {e : Expr} {t : Tree} (h : T e.id = .unit) : treeCalls G T sp e t = [] := by
  cases t <;> simp [treeCalls, h]

/-- The actions of a match were called, in order. -/
theorem Spec.UserCalls.tree (hX : X.Det) {e : Expr} {s s' : List Char} {t : Tree} {L : Log} {cs : List Val} (h : UserCalls G X T sp e s cs)
    (hp : Peg G X e s (.ok s' t) L) : (treeCalls G T sp e t).Sublist cs := by
  have no : ∀ {e s L s1 t L'}, Peg G X e s .fail L → Peg G X e s (.ok s1 t) L' → False := fun a b => by have := (a.det hX b).1; cases this
  induction h generalizing s' t L with
  | unit hu => rw [treeCalls_unit hu]; exact List.nil_sublist _
  | str | any | cls | not | and | seq_nil => cases hp <;> simp [treeCalls, treeCallsSeq]
  | ext =>
    cases t <;> simp [treeCalls]
  | choice_nil => cases hp
  | nt hi hb _ ih =>
    cases hp with
    | nt_ok hb' hp =>
      rw [hb] at hb'; cases hb'
      simp only [treeCalls, Expr.id, hi, if_false, hb]
      exact ih hp
  | seq_fail hi hp1 _ ih =>
    cases hp with
    | seq_cons h1 h2 => exact (no hp1 h1).elim
  | seq_cons hi hp1 _ _ ih1 ih2 =>
    cases hp with
    | seq_cons h1 h2 =>
      have := (hp1.det hX h1).1
      cases this
      have := ih2 h2
      simp only [treeCalls, Expr.id, hi, if_false, treeCallsSeq] at this ⊢
      exact (ih1 h1).append this
  | choice_first hi hp1 _ ih =>
    cases hp with
    | choice_first h1 =>
      simp only [treeCalls, Expr.id, hi, if_false, List.getElem?_cons_zero]
      exact ih h1
    | choice_next h1 _ => exact (no h1 hp1).elim
  | choice_next hi hp1 _ _ ih1 ih2 =>
    cases hp with
    | choice_first h1 => exact (no hp1 h1).elim
    | choice_next h1 h2 =>
      have := ih2 h2
      simp only [treeCalls, Expr.id, hi, if_false, List.getElem?_cons_succ] at this ⊢
      exact this.trans (List.sublist_append_right _ _)
  | star_stop hi hp1 _ ih =>
    cases hp with
    | star_stop h1 => simp [treeCalls, treeCallsRep]
    | star_more h1 _ => exact (no hp1 h1).elim
  | star_more hi hp1 _ _ ih1 ih2 =>
    cases hp with
    | star_stop h1 => exact (no h1 hp1).elim
    | star_more h1 h2 =>
      have := (hp1.det hX h1).1
      cases this
      have := ih2 h2
      simp only [treeCalls, Expr.id, hi, if_false, treeCallsRep] at this ⊢
      exact (ih1 h1).append this
  | plus hi _ ih =>
    cases hp with
    | plus_ok h1 h2 =>
      have := ih (.star_more h1 h2)
      simpa only [treeCalls, Expr.id, hi, if_false] using this
  | opt hi _ ih =>
    cases hp with
    | opt_some h1 => simpa only [treeCalls, Expr.id, hi, if_false] using ih h1
    | opt_none h1 => simp [treeCalls]
  | asc hi _ ih => cases hp with | asc_ok h1 => simpa only [treeCalls, Expr.id, hi, if_false] using ih h1
  | span hi _ ih => cases hp with | span_ok h1 => simpa only [treeCalls, Expr.id, hi, if_false] using ih h1
  | range hi _ ih => cases hp with | range_ok h1 => simpa only [treeCalls, Expr.id, hi, if_false] using ih h1
  | act_fail hi hp1 _ ih => cases hp with | act_ok h1 => exact (no hp1 h1).elim
  | act_ok hi hp1 _ ih =>
    cases hp with
    | act_ok h1 =>
      have := (hp1.det hX h1).1
      cases this
      simp only [treeCalls, Expr.id, hi, if_false]
      exact (ih h1).append (List.Sublist.refl _)

end
end Oak
