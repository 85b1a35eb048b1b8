import Verif.Proofs.Program
import Verif.Proofs.PegBasic
import Verif.Proofs.Stream
import Verif.Spec.Resolved
import Verif.Spec.External
/-!
The direct-style interpreter implements PEG matching.
-/
set_option linter.constructorNameAsVariable false
set_option autoImplicit false

namespace Oak
open Spec

theorem track_append (f : List Char × List String) (L1 L2 : Log) : track f (L1 ++ L2) = track (track f L1) L2 := by
  simp [track]

/-- The assumptions about a program and its environment: a lawful stream, coherent types, resolved names, and external
functions that behave as the specification `X`. -/
structure Sys {σ : Type} (ops : StreamOps σ) (V : σ → Prop) (rest : σ → List Char) (input : List Char)
    (ext : Nat → FnRef → PState σ Val → Res (PState σ Val)) (G : Grammar) (T : Nat → Ty) (sp : SpanSpec) (X : ExtSpec) : Prop where
  lawful : LawfulStream ops V rest input
  coh : G.coherent T = true
  ar : ∀ r e, G.find r = some e → T e.id ≠ .unit → arity T true e = (T e.id).card
  res : G.resolved = true
  shaped : G.shaped = true
  pos : ∀ a, V a → sp.pos (rest a) = ops.pos a
  span : ∀ a b, V a → V b → sp.span (rest a) (rest b) = ops.span a b

section
variable {σ : Type} {ops : StreamOps σ} {V : σ → Prop} {rest : σ → List Char} {input : List Char}
  {ext : Nat → FnRef → PState σ Val → Res (PState σ Val)} {G : Grammar} {T : Nat → Ty} {sp : SpanSpec} {X : ExtSpec}

theorem After.refl {st : PState σ Val} (hf : V st.far) (hc : V st.cur) : After V rest st st [] := ⟨hf, hc, rfl⟩

theorem After.trans {st st1 st2 : PState σ Val} {L1 L2 : Log} (a : After V rest st st1 L1) (b : After V rest st1 st2 L2) :
    After V rest st st2 (L1 ++ L2) := ⟨b.far, b.cur, by rw [track_append, ← a.track, b.track]⟩

/-- `error` records a failed terminal. -/
theorem error_spec (hl : LawfulStream ops V rest input) (st : PState σ Val) (hf : V st.far) (hc : V st.cur) (d : String) :
    ∃ st', st.error ops d = .ok st' ∧ st'.failed = true ∧ st'.data = st.data ∧ st'.cur = st.cur ∧
      After V rest st st' [(rest st.cur, d)] := by
  simp only [PState.error, hl.cmp_eq hc hf, Res.bind_ok]
  rcases Nat.lt_trichotomy (rest st.far).length (rest st.cur).length with h | h | h
  · rw [Nat.compare_eq_lt.2 h]
    refine ⟨_, rfl, rfl, rfl, rfl, hf, hc, ?_⟩
    have e1 : ¬ (rest st.cur).length < (rest st.far).length := by omega
    have e2 : ¬ (rest st.cur).length = (rest st.far).length := by omega
    simp [track, note, e1, e2]
  · rw [Nat.compare_eq_eq.2 h]
    refine ⟨_, rfl, rfl, rfl, rfl, hf, hc, ?_⟩
    have e1 : ¬ (rest st.cur).length < (rest st.far).length := by omega
    have e2 : (rest st.cur).length = (rest st.far).length := by omega
    simp [track, note, e2]
  · rw [Nat.compare_eq_gt.2 h]
    refine ⟨_, rfl, rfl, rfl, rfl, hc, hc, ?_⟩
    simp [track, note, h]

/-- What a run of an expression gives. -/
def RunRes (V : σ → Prop) (rest : σ → List Char) (G : Grammar) (T : Nat → Ty) (sp : SpanSpec) (p : Bool) (e : Expr) (st : PState σ Val)
    (L : Log) (r : Option (List Val)) (st' : PState σ Val) : Out → Prop
  | .fail => r = none ∧ st'.failed = true ∧ st'.data = none ∧ After V rest st st' L
  | .ok s' t => r = some (if p then ast G T sp e t else []) ∧ st'.failed = false ∧ st'.data = none ∧ rest st'.cur = s' ∧
      After V rest st st' L

/-- The result of a run is a PEG match. -/
def SoundR (V : σ → Prop) (rest : σ → List Char) (G : Grammar) (T : Nat → Ty) (sp : SpanSpec) (X : ExtSpec) (p : Bool) (e : Expr) (st : PState σ Val)
    (x : Res (Option (List Val) × PState σ Val)) : Prop :=
  x = .timeout ∨ ∃ o L r st', x = .ok (r, st') ∧ Peg G X e (rest st.cur) o L ∧ RunRes V rest G T sp p e st L r st' o

theorem mark_spec {st : PState σ Val} (h : st.failed = false) : st.mark = .ok st.cur := by simp [PState.mark, h]

theorem restore_spec {st : PState σ Val} (h : st.data = none) (m : σ) :
    (st.restore m : Res (PState σ Val)) = .ok ⟨st.far, st.exp, false, m, none, st.calls⟩ := by simp [PState.restore, h]

theorem restoreFromFailure_spec {st : PState σ Val} (hf : st.failed = true) (h : st.data = none) (m : σ) :
    (st.restoreFromFailure m : Res (PState σ Val)) = .ok ⟨st.far, st.exp, false, m, none, st.calls⟩ := by
  simp [PState.restoreFromFailure, PState.restore, h, hf]

theorem failure_spec {st : PState σ Val} (hf : st.failed = true) (h : st.data = none) : (st.failure : PState σ Val) = st := by
  obtain ⟨a, b, c, d, e, f⟩ := st
  simp_all [PState.failure]

/-- The error branch of a terminal. -/
theorem terminal_fail (hl : LawfulStream ops V rest input) {p : Bool} {e : Expr} {st st1 : PState σ Val} {d : String}
    (hst : OkSt V st) (h1 : st1.far = st.far ∧ st1.exp = st.exp ∧ st1.data = none ∧ V st1.cur ∧ rest st1.cur = rest st.cur)
    (hp : Peg G X e (rest st.cur) .fail [(rest st.cur, d)]) :
    SoundR V rest G T sp X p e st ((st1.error ops d : Res (PState σ Val)) >>= fun st => .ok (none, st.failure)) := by
  obtain ⟨st', he, hf, hd, hc, ha⟩ := error_spec hl st1 (by rw [h1.1]; exact hst.far) h1.2.2.2.1 d
  rw [he]
  refine .inr ⟨_, _, _, _, rfl, hp, ?_⟩
  rw [h1.2.2.1] at hd
  rw [failure_spec hf hd]
  refine ⟨rfl, hf, hd, ha.far, ha.cur, ?_⟩
  rw [ha.track, h1.1, h1.2.1, h1.2.2.2.2]


/-- The value returned by a generated function. -/
def RuleVal (G : Grammar) (T : Nat → Ty) (sp : SpanSpec) (e : Expr) (p : Bool) (t : Tree) (d : Val) : Prop :=
  d = tupleVal (if p then ast G T sp e t else []) ∧ (p = true → (ast G T sp e t).length = (T e.id).card)

/-- Functions in scope behave as the specification. -/
structure FnsSound (V : σ → Prop) (rest : σ → List Char) (G : Grammar) (T : Nat → Ty) (sp : SpanSpec) (X : ExtSpec)
    (fns : FnRef → PState σ Val → Res (PState σ Val)) : Prop where
  rule : ∀ p r e st, G.find r = some e → OkSt V st → fns ⟨p, [r]⟩ st = .timeout ∨
    ∃ o L st', fns ⟨p, [r]⟩ st = .ok st' ∧ Peg G X e (rest st.cur) o L ∧
      FnRes V rest (RuleVal G T sp e p) st L st' o
  ext : ∀ p path st, (∀ r, path = [r] → G.find r = none) → OkSt V st → fns ⟨p, path⟩ st = .timeout ∨
    ∃ o L st', fns ⟨p, path⟩ st = .ok st' ∧ X path (rest st.cur) o L ∧
      FnRes V rest (fun t d => p = true → t = .ext d) st L st' o

theorem call_sound {fns : FnRef → PState σ Val → Res (PState σ Val)} {p : Bool} {i : Nat} {path : Path} {st : PState σ Val}
    (P : Out → Log → Prop) (Q : Bool → Tree → Val → Prop) (vals : Tree → List Val)
    (h : ∀ q, q = (p && decide (T i ≠ .unit)) → fns ⟨q, path⟩ st = .timeout ∨ ∃ o L st', fns ⟨q, path⟩ st = .ok st' ∧ P o L ∧ FnRes V rest (Q q) st L st' o)
    (hv : ∀ t d, (p && decide (T i ≠ .unit)) = true → Q true t d → untuple (T i).card d = .ok (vals t)) :
    runCall fns T p i path st = .timeout ∨ ∃ o L r st', runCall fns T p i path st = .ok (r, st') ∧ P o L ∧
      match o with
      | .fail => r = none ∧ st'.failed = true ∧ st'.data = none ∧ After V rest st st' L
      | .ok s' t => r = some (if p && decide (T i ≠ .unit) then vals t else []) ∧ st'.failed = false ∧ st'.data = none ∧
          rest st'.cur = s' ∧ After V rest st st' L := by
  unfold runCall
  generalize hq : (p && decide (T i ≠ .unit)) = q at *
  cases q with
  | false =>
    rcases h false rfl with h | ⟨o, L, st', he, hp, hr⟩
    · simp only [Bool.false_eq_true, if_false, h, Res.bind_timeout, true_or]
    · simp only [Bool.false_eq_true, if_false, he, Res.bind_ok]
      right
      cases o with
      | fail =>
        obtain ⟨h1, h2, h3⟩ := hr
        simp only [PState.isSuccessful, PState.isFailed, h1, Bool.not_true, Bool.false_eq_true, if_false]
        rw [failure_spec h1 h2]
        exact ⟨_, _, _, _, rfl, hp, rfl, h1, h2, h3⟩
      | ok s' t =>
        obtain ⟨h1, h2, h3, h4⟩ := hr
        simp only [PState.isSuccessful, PState.isFailed, h1, Bool.not_false, if_true]
        exact ⟨_, _, _, _, rfl, hp, rfl, h1, rfl, h2, h4.far, h4.cur, h4.track⟩
  | true =>
    rcases h true rfl with h | ⟨o, L, st', he, hp, hr⟩
    · simp only [if_true, h, Res.bind_timeout, true_or]
    · simp only [if_true, he, Res.bind_ok]
      right
      cases o with
      | fail =>
        obtain ⟨h1, h2, h3⟩ := hr
        simp only [PState.isSuccessful, PState.isFailed, h1, Bool.not_true, Bool.false_eq_true, if_false]
        rw [failure_spec h1 h2]
        exact ⟨_, _, _, _, rfl, hp, rfl, h1, h2, h3⟩
      | ok s' t =>
        obtain ⟨h1, h2, ⟨d, h3, h3'⟩, h4⟩ := hr
        simp only [PState.isSuccessful, PState.isFailed, h1, Bool.not_false, if_true, PState.extractData, h3, Res.bind_ok,
          hv t d rfl h3']
        exact ⟨_, _, _, _, rfl, hp, rfl, rfl, rfl, h2, h4.far, h4.cur, h4.track⟩

theorem untuple_tupleVal (vs : List Val) : untuple vs.length (tupleVal vs) = .ok vs := by
  unfold untuple
  split
  · rename_i h
    match vs, h with
    | [v], _ => rfl
  · rename_i h
    match vs, h with
    | [], _ => rfl
    | [v], h => exact absurd rfl h
    | v :: w :: vs, _ => simp [tupleVal]

/-- Soundness of the iterations of a repetition. -/
theorem loop_sound {i : Nat} {e : Expr} {p : Bool} {body : PState σ Val → Res (Option (List Val) × PState σ Val)}
    (hbody : ∀ st, OkSt V st → SoundR V rest G T sp X p e st (body st)) (n : Nat) :
    ∀ (k : Nat) (vs : List Val) (st : PState σ Val), OkSt V st → runLoop body n k st.cur vs st = .timeout ∨
      ∃ (ts : List Tree) (s' : List Char) (L : Log) (m' : σ) (ws : List Val) (st' : PState σ Val),
        runLoop body n k st.cur vs st = .ok (k + ts.length, m', vs ++ ws, st') ∧
        Peg G X (.star i e) (rest st.cur) (.ok s' (.rep ts)) L ∧ (p = true → ws = astRep G T sp e ts) ∧
        V m' ∧ rest m' = s' ∧ st'.failed = true ∧ st'.data = none ∧ After V rest st st' L := by
  induction n with
  | zero => intro k vs st hst; exact .inl rfl
  | succ n ih =>
    intro k vs st hst
    simp only [runLoop]
    rcases hbody st hst with h | ⟨o, L, r, st', h, hp, hr⟩
    · simp [h]
    · simp only [h, Res.bind_ok]
      cases o with
      | fail =>
        obtain ⟨rfl, h1, h2, h3⟩ := hr
        simp only [PState.isSuccessful, PState.isFailed, h1, Bool.not_true, Bool.false_eq_true, if_false]
        refine .inr ⟨[], _, _, _, [], _, by simp, .star_stop hp, fun _ => rfl, hst.cur, rfl, h1, h2, h3⟩
      | ok s1 t =>
        obtain ⟨rfl, h1, h2, h3, h4⟩ := hr
        simp only [PState.isSuccessful, PState.isFailed, h1, Bool.not_false, if_true, mark_spec h1, Res.bind_ok]
        rcases ih (k + 1) (vs ++ [tupleVal (if p then ast G T sp e t else [])]) st' ⟨h4.far, h4.cur, h1, h2⟩ with h | ⟨ts, s', L', m', ws, st2, h, hp2, hw, hV, hm, hf, hd, ha⟩
        · exact .inl h
        · refine .inr ⟨t :: ts, s', L ++ L', m', tupleVal (if p then ast G T sp e t else []) :: ws, st2, ?_, .star_more (h3 ▸ hp) hp2, ?_, hV, hm, hf, hd, h4.trans ha⟩
          · rw [h]
            simp only [List.length_cons, List.append_assoc, List.cons_append, List.nil_append, Res.ok.injEq, Prod.mk.injEq, and_true]
            omega
          · rintro rfl
            rw [hw rfl]; rfl

theorem astUnit {e : Expr} {t : Tree} (h : T e.id = .unit) : ast G T sp e t = [] := by
  cases t <;> simp_all [ast]

theorem repeat_sound {i : Nat} {e : Expr} {p q plus : Bool} {body : PState σ Val → Res (Option (List Val) × PState σ Val)}
    (hq : q = (p && decide (T i ≠ .unit)))
    (hbody : ∀ st, OkSt V st → SoundR V rest G T sp X q e st (body st)) (n : Nat) (st : PState σ Val) (hst : OkSt V st) :
    SoundR V rest G T sp X p (if plus then .plus i e else .star i e) st (runRepeat n plus q body st) := by
  unfold runRepeat
  simp only [mark_spec hst.failed, Res.bind_ok]
  rcases loop_sound (i := i) hbody n 0 [] st hst with h | ⟨ts, s', L, m', ws, st', h, hp, hw, hV, hm, hf, hd, ha⟩
  · rw [h]; exact .inl rfl
  · rw [h]
    simp only [Res.bind_ok, List.nil_append, Nat.zero_add]
    have hval : ∀ c, c = Expr.plus i e ∨ c = Expr.star i e →
        some (if q = true then [Val.list ws] else []) = some (if p = true then ast G T sp c (.rep ts) else []) := by
      intro c hc
      have hid : c.id = i := by rcases hc with rfl | rfl <;> rfl
      have hast : T c.id ≠ .unit → ast G T sp c (.rep ts) = [.list (astRep G T sp e ts)] := by
        intro hu
        rcases hc with rfl | rfl <;> simp only [ast, if_neg hu]
      cases p with
      | false => simp_all
      | true =>
        by_cases hu : T i = .unit
        · have : q = false := by simp [hq, hu]
          rw [this, if_pos rfl, astUnit (by rw [hid]; exact hu)]
          rfl
        · have : q = true := by simp [hq, hu]
          rw [hast (by rw [hid]; exact hu), hw this]
          simp [this]
    cases plus with
    | false =>
      simp only [Bool.false_and, Bool.false_eq_true, if_false, restoreFromFailure_spec hf hd, Res.bind_ok]
      exact .inr ⟨_, _, _, _, rfl, hp, hval _ (.inr rfl), rfl, rfl, hm, ha.far, hV, ha.track⟩
    | true =>
      simp only [Bool.true_and, decide_eq_true_eq, if_true]
      cases ts with
      | nil =>
        simp only [List.length_nil, Nat.zero_lt_one, if_true, failure_spec hf hd]
        cases hp with
        | star_stop hp => exact .inr ⟨_, _, _, _, rfl, .plus_fail hp, rfl, hf, hd, ha⟩
      | cons t ts =>
        rw [if_neg (by simp)]
        simp only [restoreFromFailure_spec hf hd, Res.bind_ok]
        cases hp with
        | star_more h1 h2 => exact .inr ⟨_, _, _, _, rfl, .plus_ok h1 h2, hval _ (.inl rfl), rfl, rfl, hm, ha.far, hV, ha.track⟩

theorem runRes_gate {p q : Bool} {e : Expr} {st st' : PState σ Val} {L : Log} {r : Option (List Val)} {s' : List Char} {t : Tree} {vs : List Val}
    (h : r = some (if q then vs else [])) (hq : q = (p && decide (T e.id ≠ .unit)))
    (hv : q = true → T e.id ≠ .unit → ast G T sp e t = vs) (hf : st'.failed = false) (hd : st'.data = none)
    (hs : rest st'.cur = s') (ha : After V rest st st' L) : RunRes V rest G T sp p e st L r st' (.ok s' t) := by
  refine ⟨?_, hf, hd, hs, ha⟩
  rw [h]
  cases p with
  | false => simp at hq; simp [hq]
  | true =>
    by_cases hu' : T e.id = .unit
    · have : q = false := by simp [hq, hu']
      simp [this, astUnit hu']
    · have : q = true := by simp [hq, hu']
      simp [this, hv this hu']

theorem resolvedAll_iff {es : List Expr} : resolvedAll G es = true ↔ ∀ e ∈ es, e.resolved G = true := by
  induction es with
  | nil => simp [resolvedAll]
  | cons e es ih => simp [resolvedAll, ih]

theorem shapedAll_iff {es : List Expr} : shapedAll es = true ↔ ∀ e ∈ es, e.shaped = true := by
  induction es with
  | nil => simp [shapedAll]
  | cons e es ih => simp [shapedAll, ih]

/-- The interpreter is sound for every expression. -/
theorem run_sound (sys : Sys ops V rest input ext G T sp X) {fns : FnRef → PState σ Val → Res (PState σ Val)}
    (hfns : FnsSound V rest G T sp X fns) (n : Nat) (e : Expr) : ∀ (p : Bool) (st : PState σ Val),
    coherent T (G.ruleCard T) p e = true → e.resolved G = true → e.shaped = true → OkSt V st →
    SoundR V rest G T sp X p e st (run ops fns T n p e st) := by
  have hl := sys.lawful
  induction e using Expr.ind with
  | str i l =>
    intro p st hco hre hsh hst
    simp only [run]
    by_cases h : l.toList <+: rest st.cur
    · obtain ⟨r, hr⟩ := h
      obtain ⟨s', h1, h2, h3⟩ := hl.prefix_true (p := l) (r := r) hst.cur hr.symm
      simp only [PState.consumePrefix, h1, Res.bind_ok, if_true]
      refine .inr ⟨.ok r .leaf, [], _, _, rfl, hr ▸ .str_ok, ?_, hst.failed, hst.data, h3, hst.far, h2, rfl⟩
      simp [ast]
    · simp only [PState.consumePrefix, hl.prefix_false hst.cur h, Res.bind_ok, Bool.false_eq_true, if_false]
      exact terminal_fail hl hst ⟨rfl, rfl, hst.data, hst.cur, rfl⟩ (.str_fail h)
  | any i =>
    intro p st hco hre hsh hst
    simp only [run]
    cases hr : rest st.cur with
    | nil =>
      obtain ⟨s', h1, h2, h3⟩ := hl.next_nil hst.cur hr
      simp only [PState.next, h1, Res.bind_ok]
      exact terminal_fail hl hst ⟨rfl, rfl, hst.data, h2, h3.trans hr.symm⟩ (hr ▸ .any_fail)
    | cons c cs =>
      obtain ⟨s', h1, h2, h3⟩ := hl.next_cons hst.cur hr
      simp only [PState.next, h1, Res.bind_ok]
      refine .inr ⟨.ok cs (.chr c), [], _, _, rfl, hr ▸ .any_ok, ?_⟩
      exact runRes_gate rfl rfl (fun _ h => by simp only [ast, if_neg h]) hst.failed hst.data h3 ⟨hst.far, h2, rfl⟩
  | cls i ivs =>
    intro p st hco hre hsh hst
    simp only [run, mark_spec hst.failed, Res.bind_ok]
    cases hr : rest st.cur with
    | nil =>
      obtain ⟨s', h1, h2, h3⟩ := hl.next_nil hst.cur hr
      simp only [PState.next, h1, Res.bind_ok, Option.filter_none]
      rw [restore_spec (by simpa using hst.data)]
      simp only [Res.bind_ok]
      exact terminal_fail hl hst ⟨rfl, rfl, rfl, hst.cur, rfl⟩ (hr ▸ .cls_eof)
    | cons c cs =>
      obtain ⟨s', h1, h2, h3⟩ := hl.next_cons hst.cur hr
      simp only [PState.next, h1, Res.bind_ok]
      by_cases hc : InClass ivs c
      · have : (some c).filter (fun c => ivs.any fun iv => decide (iv.lo ≤ c ∧ c ≤ iv.hi)) = some c := by
          obtain ⟨iv, h1, h2, h3⟩ := hc
          simp only [Option.filter_some, List.any_eq_true, decide_eq_true_eq]
          rw [if_pos ⟨iv, h1, h2, h3⟩]
        rw [this]
        refine .inr ⟨.ok cs (.chr c), [], _, _, rfl, hr ▸ .cls_ok hc, ?_⟩
        exact runRes_gate rfl rfl (fun _ h => by simp only [ast, if_neg h]) hst.failed hst.data h3 ⟨hst.far, h2, rfl⟩
      · have : (some c).filter (fun c => ivs.any fun iv => decide (iv.lo ≤ c ∧ c ≤ iv.hi)) = none := by
          simp only [Option.filter_some, List.any_eq_true, decide_eq_true_eq]
          rw [if_neg (fun ⟨iv, h1, h2, h3⟩ => hc ⟨iv, h1, h2, h3⟩)]
        rw [this]
        simp only
        rw [restore_spec (by simpa using hst.data)]
        simp only [Res.bind_ok]
        exact terminal_fail hl hst ⟨rfl, rfl, rfl, hst.cur, rfl⟩ (hr ▸ .cls_fail hc)
  | nt i r =>
    intro p st hco hre hsh hst
    simp only [Expr.resolved, Option.isSome_iff_exists] at hre
    obtain ⟨e, he⟩ := hre
    simp only [run]
    have hv : ∀ t d, (p && decide (T i ≠ .unit)) = true → RuleVal G T sp e true t d →
        untuple (T i).card d = .ok (ast G T sp e t) := by
      intro t d hq hQ
      obtain ⟨rfl, hlen⟩ := hQ
      have hlen := hlen rfl
      simp only [if_true]
      simp only [coherent, hq, Bool.not_true, Bool.false_or, beq_iff_eq, Grammar.ruleCard, he] at hco
      rw [hco, ← hlen, untuple_tupleVal]
    rcases call_sound (T := T) (i := i) (p := p) (fns := fns) (path := [r]) (st := st) (fun o L => Peg G X e (rest st.cur) o L)
      (RuleVal G T sp e)
      (fun t => ast G T sp e t)
      (fun q _ => hfns.rule q r e st he hst) hv with h | ⟨o, L, r', st', h, hp, hr⟩
    · exact .inl h
    · rw [h]
      cases o with
      | fail => exact .inr ⟨_, _, _, _, rfl, .nt_fail he hp, hr⟩
      | ok s' t =>
        obtain ⟨h1, h2, h3, h4, h5⟩ := hr
        refine .inr ⟨_, _, _, _, rfl, .nt_ok he hp, ?_⟩
        exact runRes_gate h1 rfl (fun _ h => by simp only [ast, if_neg h, he]) h2 h3 h4 h5
  | ext i path =>
    intro p st hco hre hsh hst
    have hpath : ∀ r, path = [r] → G.find r = none := by
      rintro r rfl
      simpa [Expr.resolved] using hre
    simp only [run]
    have hv : ∀ t d, (p && decide (T i ≠ .unit)) = true → (true = true → t = .ext d) →
        untuple (T i).card d = .ok (ast G T sp (.ext i path) t) := by
      intro t d hq hQ
      obtain rfl := hQ rfl
      simp only [coherent, hq, Bool.not_true, Bool.false_or, beq_iff_eq] at hco
      simp only [Bool.and_eq_true, decide_eq_true_eq] at hq
      rw [hco]
      have : T (Expr.ext i path).id ≠ .unit := hq.2
      simp only [ast, if_neg this]
      rfl
    rcases call_sound (T := T) (i := i) (p := p) (fns := fns) (path := path) (st := st) (fun o L => X path (rest st.cur) o L)
      (fun q t d => q = true → t = .ext d) _
      (fun q _ => hfns.ext q path st hpath hst) hv with h | ⟨o, L, r', st', h, hp, hr⟩
    · exact .inl h
    · rw [h]
      cases o with
      | fail => exact .inr ⟨_, _, _, _, rfl, .ext hp, hr⟩
      | ok s' t =>
        obtain ⟨h1, h2, h3, h4, h5⟩ := hr
        exact .inr ⟨_, _, _, _, rfl, .ext hp, runRes_gate h1 rfl (fun _ _ => rfl) h2 h3 h4 h5⟩
  | seq i es ih =>
    intro p st hco hre hsh hst
    simp only [coherent] at hco
    simp only [Expr.resolved] at hre
    simp only [run]
    have hres := resolvedAll_iff.1 hre
    have hshs := shapedAll_iff.1 (by simpa only [Expr.shaped] using hsh)
    have hcoh := coherentAll_iff.1 hco
    have key : ∀ (q : Bool) (es : List Expr), (∀ e ∈ es, ∀ st, OkSt V st → SoundR V rest G T sp X q e st (run ops fns T n q e st)) →
        ∀ st, OkSt V st → runSeq ops fns T n q es st = .timeout ∨
          ∃ o L r st', runSeq ops fns T n q es st = .ok (r, st') ∧ Peg G X (.seq i es) (rest st.cur) o L ∧
          match o with
          | .fail => r = none ∧ st'.failed = true ∧ st'.data = none ∧ After V rest st st' L
          | .ok s' t => (∃ ts, t = .seq ts ∧ r = some (if q then astSeq G T sp es ts else [])) ∧ st'.failed = false ∧
            st'.data = none ∧ rest st'.cur = s' ∧ After V rest st st' L := by
      intro q es
      induction es with
      | nil =>
        intro _ st hst
        exact .inr ⟨_, _, _, _, rfl, .seq_nil, ⟨[], rfl, by cases q <;> rfl⟩, hst.failed, hst.data, rfl, .refl hst.far hst.cur⟩
      | cons e es ihes =>
        intro hes st hst
        simp only [runSeq]
        rcases hes e (by simp) st hst with h | ⟨o, L, r, st', h, hp, hr⟩
        · simp [h]
        · simp only [h, Res.bind_ok]
          cases o with
          | fail =>
            obtain ⟨rfl, h1, h2, h3⟩ := hr
            exact .inr ⟨_, _, _, _, rfl, .seq_fail hp, rfl, h1, h2, h3⟩
          | ok s1 t =>
            obtain ⟨rfl, h1, h2, rfl, h4⟩ := hr
            rcases ihes (fun e he => hes e (by simp [he])) st' ⟨h4.far, h4.cur, h1, h2⟩ with h | ⟨o, L', r, st2, h, hp2, hr⟩
            · simp [h]
            · simp only [h, Res.bind_ok]
              cases o with
              | fail =>
                obtain ⟨rfl, k1, k2, k3⟩ := hr
                exact .inr ⟨_, _, _, _, rfl, .seq_later hp hp2, rfl, k1, k2, h4.trans k3⟩
              | ok s2 t2 =>
                obtain ⟨⟨ts, rfl, rfl⟩, k1, k2, k3, k4⟩ := hr
                refine .inr ⟨_, _, _, _, rfl, .seq_cons hp hp2, ⟨_, rfl, ?_⟩, k1, k2, k3, h4.trans k4⟩
                cases q <;> simp [astSeq]
    rcases key _ es (fun e he st hst => ih e he _ st (hcoh e he) (hres e he) (hshs e he) hst) st hst with h | ⟨o, L, r, st', h, hp, hr⟩
    · exact .inl h
    · rw [h]
      refine .inr ⟨o, L, r, st', rfl, hp, ?_⟩
      cases o with
      | fail => exact hr
      | ok s' t =>
        obtain ⟨⟨ts, rfl, h1⟩, h2, h3, h4, h5⟩ := hr
        exact runRes_gate h1 rfl (fun _ h => by simp only [ast, if_neg h]) h2 h3 h4 h5
  | choice i es ih =>
    intro p st hco hre hsh hst
    simp only [coherent, Bool.and_eq_true] at hco
    simp only [Expr.resolved] at hre
    simp only [run, mark_spec hst.failed, Res.bind_ok]
    have hres := resolvedAll_iff.1 hre
    have hshs := shapedAll_iff.1 (Bool.and_eq_true_iff.1 (by simpa only [Expr.shaped] using hsh)).2
    have hcoh := coherentAll_iff.1 hco.1
    have key : ∀ (q : Bool) (es : List Expr), (∀ e ∈ es, ∀ st, OkSt V st → SoundR V rest G T sp X q e st (run ops fns T n q e st)) →
        es ≠ [] → ∀ st, OkSt V st → runBranches ops fns T n q st.cur es st = .timeout ∨
          ∃ o L r st', runBranches ops fns T n q st.cur es st = .ok (r, st') ∧ Peg G X (.choice i es) (rest st.cur) o L ∧
          match o with
          | .fail => r = none ∧ st'.failed = true ∧ st'.data = none ∧ After V rest st st' L
          | .ok s' t => (∃ k e t', t = .alt k t' ∧ es[k]? = some e ∧ r = some (if q then ast G T sp e t' else [])) ∧ st'.failed = false ∧
            st'.data = none ∧ rest st'.cur = s' ∧ After V rest st st' L := by
      intro q es
      induction es with
      | nil => intro _ h; exact absurd rfl h
      | cons e es ihes =>
        intro hes _ st hst
        simp only [runBranches]
        rcases hes e (by simp) st hst with h | ⟨o, L, r, st', h, hp, hr⟩
        · simp [h]
        · simp only [h, Res.bind_ok]
          cases o with
          | ok s1 t =>
            obtain ⟨rfl, h1, h2, rfl, h4⟩ := hr
            exact .inr ⟨_, _, _, _, rfl, .choice_first hp, ⟨0, e, t, rfl, rfl, rfl⟩, h1, h2, rfl, h4⟩
          | fail =>
            obtain ⟨rfl, h1, h2, h3⟩ := hr
            cases hn : es.isEmpty with
            | true =>
              have : es = [] := by simpa using hn
              subst this
              have hp' := Peg.choice_fail (i := i) hp .choice_nil
              rw [List.append_nil] at hp'
              exact .inr ⟨_, _, _, _, rfl, hp', rfl, h1, h2, h3⟩
            | false =>
              have hne : es ≠ [] := by rintro rfl; simp at hn
              simp only [Bool.false_eq_true, if_false, restoreFromFailure_spec h1 h2, Res.bind_ok]
              rcases ihes (fun e he => hes e (by simp [he])) hne ⟨st'.far, st'.exp, false, st.cur, none, st'.calls⟩ ⟨h3.far, hst.cur, rfl, rfl⟩ with h | ⟨o, L', r, st2, h, hp2, hr⟩
              · exact .inl h
              · rw [h]
                have tr : ∀ {st2 L'}, After V rest ⟨st'.far, st'.exp, false, st.cur, none, st'.calls⟩ st2 L' → After V rest st st2 (L ++ L') := by
                  intro st2 L' ha
                  exact ⟨ha.far, ha.cur, by rw [track_append, ← h3.track, ha.track]⟩
                cases o with
                | fail =>
                  obtain ⟨rfl, k1, k2, k3⟩ := hr
                  exact .inr ⟨_, _, _, _, rfl, .choice_fail hp hp2, rfl, k1, k2, tr k3⟩
                | ok s2 t2 =>
                  obtain ⟨⟨k, e', t', rfl, hk, rfl⟩, k1, k2, k3, k4⟩ := hr
                  exact .inr ⟨_, _, _, _, rfl, .choice_next hp hp2, ⟨k + 1, e', t', rfl, by simpa using hk, rfl⟩, k1, k2, k3, tr k4⟩
    have hne : es ≠ [] := by
      simp only [Expr.shaped, Bool.and_eq_true, Bool.not_eq_true', List.isEmpty_eq_false_iff] at hsh
      exact hsh.1
    rcases key _ es (fun e he st hst => ih e he _ st (hcoh e he) (hres e he) (hshs e he) hst) hne st hst with h | ⟨o, L, r, st', h, hp, hr⟩
    · exact .inl h
    · rw [h]
      refine .inr ⟨o, L, r, st', rfl, hp, ?_⟩
      cases o with
      | fail => exact hr
      | ok s' t =>
        obtain ⟨⟨k, e', t', rfl, hk, h1⟩, h2, h3, h4, h5⟩ := hr
        exact runRes_gate h1 rfl (fun _ h => by simp only [ast, if_neg h, hk]) h2 h3 h4 h5
  | star i e ih =>
    intro p st hco hre hsh hst
    exact repeat_sound (plus := false) rfl (fun st hst => ih _ st hco hre hsh hst) n st hst
  | plus i e ih =>
    intro p st hco hre hsh hst
    exact repeat_sound (plus := true) rfl (fun st hst => ih _ st hco hre hsh hst) n st hst
  | opt i e ih =>
    intro p st hco hre hsh hst
    simp only [run, runOpt, mark_spec hst.failed, Res.bind_ok]
    rcases ih _ st hco hre hsh hst with h | ⟨o, L, r, st', h, hp, hr⟩
    · rw [h]; exact .inl rfl
    · rw [h]
      simp only [Res.bind_ok]
      cases o with
      | fail =>
        obtain ⟨rfl, h1, h2, h3⟩ := hr
        simp only [restoreIf, PState.isFailed, h1, if_true, restoreFromFailure_spec h1 h2, Res.bind_ok]
        refine .inr ⟨_, _, _, _, rfl, .opt_none hp, ?_⟩
        exact runRes_gate rfl rfl (fun _ h => by simp only [ast, if_neg h]) rfl rfl rfl ⟨h3.far, hst.cur, h3.track⟩
      | ok s1 t =>
        obtain ⟨rfl, h1, h2, h3, h4⟩ := hr
        simp only [restoreIf, PState.isFailed, h1, Bool.false_eq_true, if_false, Res.bind_ok]
        refine .inr ⟨_, _, _, _, rfl, .opt_some hp, ?_⟩
        refine runRes_gate rfl rfl (fun hq2 h => ?_) h1 h2 h3 h4
        simp only [ast, if_neg h, hq2, if_true]
  | not i e ih =>
    intro p st hco hre hsh hst
    simp only [run, runPred, mark_spec hst.failed, Res.bind_ok]
    rcases ih _ st hco hre hsh hst with h | ⟨o, L, r, st', h, hp, hr⟩
    · rw [h]; exact .inl rfl
    · rw [h]
      simp only [Res.bind_ok]
      cases o with
      | fail =>
        obtain ⟨rfl, h1, h2, h3⟩ := hr
        simp only [restore_spec h2, Res.bind_ok, PState.isSuccessful, PState.isFailed, h1]
        exact .inr ⟨_, _, _, _, rfl, .not_ok hp, by simp [ast], rfl, rfl, rfl, h3.far, hst.cur, h3.track⟩
      | ok s1 t =>
        obtain ⟨rfl, h1, h2, h3, h4⟩ := hr
        simp only [restore_spec h2, Res.bind_ok, PState.isSuccessful, PState.isFailed, h1]
        exact .inr ⟨_, _, _, _, rfl, .not_fail hp, rfl, rfl, rfl, h4.far, hst.cur, h4.track⟩
  | and i e ih =>
    intro p st hco hre hsh hst
    simp only [run, runPred, mark_spec hst.failed, Res.bind_ok]
    rcases ih _ st hco hre hsh hst with h | ⟨o, L, r, st', h, hp, hr⟩
    · rw [h]; exact .inl rfl
    · rw [h]
      simp only [Res.bind_ok]
      cases o with
      | fail =>
        obtain ⟨rfl, h1, h2, h3⟩ := hr
        simp only [restore_spec h2, Res.bind_ok, PState.isSuccessful, PState.isFailed, h1]
        exact .inr ⟨_, _, _, _, rfl, .and_fail hp, rfl, rfl, rfl, h3.far, hst.cur, h3.track⟩
      | ok s1 t =>
        obtain ⟨rfl, h1, h2, h3, h4⟩ := hr
        simp only [restore_spec h2, Res.bind_ok, PState.isSuccessful, PState.isFailed, h1]
        exact .inr ⟨_, _, _, _, rfl, .and_ok hp, by simp [ast], rfl, rfl, rfl, h4.far, hst.cur, h4.track⟩
  | act i e b f ih =>
    intro p st hco hre hsh hst
    simp only [coherent] at hco
    simp only [Expr.resolved] at hre
    simp only [run]
    by_cases hq : (p && decide (T i ≠ .unit)) = true
    · rw [if_pos hq]
      rw [hq] at hco
      rcases ih true st hco hre hsh hst with h | ⟨o, L, r, st', h, hp, hr⟩
      · rw [h]; exact .inl rfl
      · rw [h]
        simp only [Res.bind_ok]
        cases o with
        | fail =>
          obtain ⟨rfl, h1, h2, h3⟩ := hr
          exact .inr ⟨_, _, _, _, rfl, .act_fail hp, rfl, h1, h2, h3⟩
        | ok s1 t =>
          obtain ⟨rfl, h1, h2, h3, h4⟩ := hr
          refine .inr ⟨_, _, _, _, rfl, .act_ok hp, ?_⟩
          refine runRes_gate (q := true) (by simp only [if_true]; rfl) hq.symm (fun hq2 h => ?_) h1 h2 h3 ⟨h4.far, h4.cur, h4.track⟩
          simp only [ast, if_neg h, actVal]
    · rw [if_neg hq]
      have hq' := (Bool.not_eq_true _).mp hq
      rw [hq'] at hco
      rcases ih false st hco hre hsh hst with h | ⟨o, L, r, st', h, hp, hr⟩
      · rw [h]; exact .inl rfl
      · rw [h]
        cases o with
        | fail =>
          obtain ⟨rfl, h1, h2, h3⟩ := hr
          exact .inr ⟨_, _, _, _, rfl, .act_fail hp, rfl, h1, h2, h3⟩
        | ok s1 t =>
          obtain ⟨rfl, h1, h2, h3, h4⟩ := hr
          exact .inr ⟨_, _, _, _, rfl, .act_ok hp, runRes_gate (q := false) (by simp) hq'.symm (fun _ h => rfl) h1 h2 h3 h4⟩
  | asc i e t ih =>
    intro p st hco hre hsh hst
    simp only [coherent] at hco
    simp only [Expr.resolved] at hre
    simp only [run]
    rcases ih _ st hco hre hsh hst with h | ⟨o, L, r, st', h, hp, hr⟩
    · rw [h]; exact .inl rfl
    · rw [h]
      cases o with
      | fail =>
        obtain ⟨rfl, h1, h2, h3⟩ := hr
        exact .inr ⟨_, _, _, _, rfl, .asc_fail hp, rfl, h1, h2, h3⟩
      | ok s1 t =>
        obtain ⟨rfl, h1, h2, h3, h4⟩ := hr
        exact .inr ⟨_, _, _, _, rfl, .asc_ok hp, runRes_gate rfl rfl (fun _ h => by simp only [ast, if_neg h]) h1 h2 h3 h4⟩
  | span i e ih =>
    intro p st hco hre hsh hst
    simp only [coherent, Bool.and_eq_true] at hco
    simp only [Expr.resolved] at hre
    simp only [run]
    by_cases hq : (p && decide (T i ≠ .unit)) = true
    · rw [if_pos hq]
      rw [hq] at hco
      simp only [mark_spec hst.failed, Res.bind_ok]
      rcases ih true st hco.1 hre hsh hst with h | ⟨o, L, r, st', h, hp, hr⟩
      · rw [h]; exact .inl rfl
      · rw [h]
        simp only [Res.bind_ok]
        cases o with
        | fail =>
          obtain ⟨rfl, h1, h2, h3⟩ := hr
          exact .inr ⟨_, _, _, _, rfl, .span_fail hp, rfl, h1, h2, h3⟩
        | ok s1 t =>
          obtain ⟨rfl, h1, h2, h3, h4⟩ := hr
          simp only [mark_spec h1, Res.bind_ok]
          refine .inr ⟨_, _, _, _, rfl, .span_ok hp, ?_⟩
          refine runRes_gate (q := true) (by simp only [if_true]; rfl) hq.symm (fun hq2 h => ?_) h1 h2 h3 h4
          simp only [ast, if_neg h, ← h3, sys.span _ _ hst.cur h4.cur]
    · rw [if_neg hq]
      have hq' := (Bool.not_eq_true _).mp hq
      rw [hq'] at hco
      rcases ih false st hco.1 hre hsh hst with h | ⟨o, L, r, st', h, hp, hr⟩
      · rw [h]; exact .inl rfl
      · rw [h]
        cases o with
        | fail =>
          obtain ⟨rfl, h1, h2, h3⟩ := hr
          exact .inr ⟨_, _, _, _, rfl, .span_fail hp, rfl, h1, h2, h3⟩
        | ok s1 t =>
          obtain ⟨rfl, h1, h2, h3, h4⟩ := hr
          exact .inr ⟨_, _, _, _, rfl, .span_ok hp, runRes_gate (q := false) (by simp) hq'.symm (fun _ h => rfl) h1 h2 h3 h4⟩
  | range i e ih =>
    intro p st hco hre hsh hst
    simp only [coherent, Bool.and_eq_true] at hco
    simp only [Expr.resolved] at hre
    simp only [run]
    by_cases hq : (p && decide (T i ≠ .unit)) = true
    · rw [if_pos hq]
      rw [hq] at hco
      simp only [mark_spec hst.failed, Res.bind_ok]
      rcases ih true st hco.1 hre hsh hst with h | ⟨o, L, r, st', h, hp, hr⟩
      · rw [h]; exact .inl rfl
      · rw [h]
        simp only [Res.bind_ok]
        cases o with
        | fail =>
          obtain ⟨rfl, h1, h2, h3⟩ := hr
          exact .inr ⟨_, _, _, _, rfl, .range_fail hp, rfl, h1, h2, h3⟩
        | ok s1 t =>
          obtain ⟨rfl, h1, h2, h3, h4⟩ := hr
          simp only [mark_spec h1, Res.bind_ok]
          refine .inr ⟨_, _, _, _, rfl, .range_ok hp, ?_⟩
          refine runRes_gate (q := true) (by simp only [if_true]; rfl) hq.symm (fun hq2 h => ?_) h1 h2 h3 h4
          simp only [ast, if_neg h, ← h3, sys.pos _ hst.cur, sys.pos _ h4.cur]
    · rw [if_neg hq]
      have hq' := (Bool.not_eq_true _).mp hq
      rw [hq'] at hco
      rcases ih false st hco.1 hre hsh hst with h | ⟨o, L, r, st', h, hp, hr⟩
      · rw [h]; exact .inl rfl
      · rw [h]
        cases o with
        | fail =>
          obtain ⟨rfl, h1, h2, h3⟩ := hr
          exact .inr ⟨_, _, _, _, rfl, .range_fail hp, rfl, h1, h2, h3⟩
        | ok s1 t =>
          obtain ⟨rfl, h1, h2, h3, h4⟩ := hr
          exact .inr ⟨_, _, _, _, rfl, .range_ok hp, runRes_gate (q := false) (by simp) hq'.symm (fun _ h => rfl) h1 h2 h3 h4⟩


theorem Sys.resolved (sys : Sys ops V rest input ext G T sp X) {r : String} {e : Expr} (h : G.find r = some e) :
    e.resolved G = true := by
  have := sys.res
  unfold Grammar.resolved at this
  rw [List.all_eq_true] at this
  exact this _ (find_mem h)

theorem Sys.shapedRule (sys : Sys ops V rest input ext G T sp X) {r : String} {e : Expr} (h : G.find r = some e) :
    e.shaped = true := by
  have := sys.shaped
  unfold Grammar.shaped at this
  rw [List.all_eq_true] at this
  exact this _ (find_mem h)

/-- Generated functions implement PEG matching: whatever the fuel, they either need more or return the result of a match. -/
theorem runProg_sound (sys : Sys ops V rest input ext G T sp X) (hext : ExtOk V rest ext G X) (n : Nat) :
    FnsSound V rest G T sp X (runProg ops ext G T n) := by
  induction n with
  | zero => exact ⟨fun _ _ _ _ _ _ => .inl rfl, fun _ _ _ _ _ => .inl rfl⟩
  | succ n ih =>
    constructor
    · intro p r e st he hst
      simp only [runProg, he]
      split
      · rename_i hpu
        simp only [Bool.and_eq_true, decide_eq_true_eq] at hpu
        obtain ⟨rfl, hu⟩ := hpu
        rcases ih.rule false r e st he hst with h | ⟨o, L, st', h, hp, hr⟩
        · exact .inl h
        · refine .inr ⟨o, L, st', h, hp, ?_⟩
          cases o with
          | fail => exact hr
          | ok s' t =>
            obtain ⟨h1, h2, ⟨d, hd, hq, _⟩, h3⟩ := hr
            refine ⟨h1, h2, ⟨d, hd, ?_, fun _ => ?_⟩, h3⟩
            · rw [hq, astUnit hu]; rfl
            · rw [astUnit hu, hu]; rfl
      · rename_i hpu
        have hco : coherent T (G.ruleCard T) p e = true := by
          cases p
          · exact coherent_false _ _ _
          · exact Grammar.coherent_find sys.coh he
        rcases run_sound sys ih n e p st hco (sys.resolved he) (sys.shapedRule he) hst with h | ⟨o, L, r', st', h, hp, hr⟩
        · rw [h]; exact .inl rfl
        · rw [h]
          cases o with
          | fail =>
            obtain ⟨rfl, h1, h2, h3⟩ := hr
            exact .inr ⟨_, _, _, rfl, hp, h1, h2, h3⟩
          | ok s' t =>
            obtain ⟨rfl, h1, h2, h3, h4⟩ := hr
            refine .inr ⟨_, _, _, rfl, hp, rfl, h3, ⟨_, rfl, rfl, ?_⟩, h4.far, h4.cur, h4.track⟩
            rintro rfl
            have hu : T e.id ≠ .unit := by simpa using hpu
            have := run_length ops _ T (G.ruleCard T) n e true st st' _ hco h
            rw [if_pos rfl] at this
            rw [this, sys.ar r e he hu]
    · intro p path st hpath hst
      have hrun : runProg ops ext G T (n + 1) ⟨p, path⟩ st = ext n ⟨p, path⟩ st := by
        rcases path with _ | ⟨r, _ | ⟨r', path⟩⟩
        · rfl
        · simp only [runProg, hpath r rfl]
        · rfl
      rw [hrun]
      exact hext.sound n p path st hpath hst

/-- Together with determinism: if the match is known, the run gives it or needs more fuel. -/
theorem run_sound' (sys : Sys ops V rest input ext G T sp X) (hext : ExtOk V rest ext G X) (n : Nat) {e : Expr} {p : Bool}
    {st : PState σ Val} {s : List Char} {o : Out} {L : Log} (hp : Peg G X e s o L)
    (hco : coherent T (G.ruleCard T) p e = true) (hre : e.resolved G = true) (hsh : e.shaped = true) (hst : OkSt V st)
    (hs : rest st.cur = s) (hnt : run ops (runProg ops ext G T n) T n p e st ≠ .timeout) :
    ∃ r st', run ops (runProg ops ext G T n) T n p e st = .ok (r, st') ∧ RunRes V rest G T sp p e st L r st' o := by
  rcases run_sound sys (runProg_sound sys hext n) n e p st hco hre hsh hst with h | ⟨o', L', r, st', h, hp', hr⟩
  · exact absurd h hnt
  · rw [hs] at hp'
    obtain ⟨rfl, rfl⟩ := hp.det hext.det hp'
    exact ⟨r, st', h, hr⟩

end
end Oak
