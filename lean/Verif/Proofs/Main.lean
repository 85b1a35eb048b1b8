import Verif.Proofs.RunComplete
import Verif.Spec.Result
/-!
The main chain: generated code on string streams implements PEG matching.
-/
set_option linter.constructorNameAsVariable false
set_option autoImplicit false

namespace Oak
open Spec

/-! ### Compilation succeeds only on shaped expressions -/

theorem valueConstructor_ok {comp : Ex → Ex → Ctx → Except String (Ex × Ctx)} {card : Nat} {vec : Bool} {c : Ctx}
    {r : Ex × Name × Ctx} (h : valueConstructor comp card vec c = .ok r) : ∃ S c1 r1, comp S .failure c1 = .ok r1 := by
  unfold valueConstructor at h
  obtain ⟨⟨v, c1⟩, _, h⟩ := except_bind_eq_ok h
  obtain ⟨⟨body, c2⟩, h2, h⟩ := except_bind_eq_ok h
  exact ⟨_, _, _, h2⟩

theorem compile_shaped (T : Nat → Ty) (e : Expr) : ∀ (p : Bool) (S F : Ex) (c : Ctx) (r : Ex × Ctx),
    compile T p e S F c = .ok r → e.shaped = true := by
  induction e using Expr.ind with
  | str i l => intros; rfl
  | any i => intros; rfl
  | nt i r => intros; rfl
  | ext i r => intros; rfl
  | cls i ivs =>
    intro p S F c r h
    simp only [compile] at h
    split at h <;>
    · obtain ⟨⟨v, c1⟩, _, h⟩ := except_bind_eq_ok h
      obtain ⟨cond, hc, h⟩ := except_bind_eq_ok h
      cases ivs with
      | nil => cases hc
      | cons a l => rfl
  | seq i es ih =>
    intro p S F c r h
    simp only [compile] at h
    simp only [Expr.shaped]
    generalize (p && decide (T i ≠ .unit)) = q at *
    induction es generalizing S c r with
    | nil => rfl
    | cons e es ihes =>
      simp only [compileSeq] at h
      obtain ⟨⟨S1, c1⟩, h1, h⟩ := except_bind_eq_ok h
      obtain ⟨⟨S2, c2⟩, h2, h⟩ := except_bind_eq_ok h
      simp only [shapedAll, Bool.and_eq_true]
      exact ⟨ih e (by simp) _ _ _ _ _ h2, ihes (fun e he => ih e (by simp [he])) _ _ _ h1⟩
  | choice i es ih =>
    intro p S F c r h
    simp only [compile] at h
    obtain ⟨⟨brs, c1⟩, h1, h⟩ := except_bind_eq_ok h
    simp only [Expr.shaped, Bool.and_eq_true]
    have key : ∀ (es : List Expr) (q : Bool) (b : Name) (S F : Ex) (sc : Ctx.Scope) (c : Ctx) (r : List Ex × Ctx),
        (∀ e ∈ es, ∀ (p : Bool) (S F : Ex) (c : Ctx) (r : Ex × Ctx), compile T p e S F c = .ok r → e.shaped = true) →
        compileBranches T q es b S F sc c = .ok r → es ≠ [] ∧ shapedAll es = true := by
      intro es
      induction es with
      | nil => intro q b S F sc c r _ h; simp only [compileBranches] at h; cases h
      | cons e es ihes =>
        intro q b S F sc c r hes h
        refine ⟨by simp, ?_⟩
        simp only [compileBranches] at h
        simp only [shapedAll, Bool.and_eq_true]
        split at h
        · rename_i he
          have : es = [] := by simpa using he
          subst this
          obtain ⟨c1, _, h⟩ := except_bind_eq_ok h
          obtain ⟨⟨code, c2⟩, h2, h⟩ := except_bind_eq_ok h
          exact ⟨hes e (by simp) _ _ _ _ _ h2, rfl⟩
        · obtain ⟨⟨code, c1⟩, h1, h⟩ := except_bind_eq_ok h
          obtain ⟨⟨codes, c2⟩, h2, h⟩ := except_bind_eq_ok h
          exact ⟨hes e (by simp) _ _ _ _ _ h1, (ihes _ _ _ _ _ _ _ (fun e he => hes e (by simp [he])) h2).2⟩
    have := key _ _ _ _ _ _ _ _ ih h1
    exact ⟨by simpa using this.1, this.2⟩
  | star i e ih | plus i e ih | opt i e ih =>
    intro p S F c r h
    simp only [compile] at h
    simp only [Expr.shaped]
    split at h
    · obtain ⟨⟨body, v, c1⟩, h1, h⟩ := except_bind_eq_ok h
      obtain ⟨S', c', r', h2⟩ := valueConstructor_ok h1
      exact ih _ _ _ _ _ h2
    · obtain ⟨⟨body, c1⟩, h1, h⟩ := except_bind_eq_ok h
      exact ih _ _ _ _ _ h1
  | not i e ih | and i e ih =>
    intro p S F c r h
    simp only [compile] at h
    simp only [Expr.shaped]
    split at h
    · cases h
    · obtain ⟨⟨body, c1⟩, h1, h⟩ := except_bind_eq_ok h
      exact ih _ _ _ _ _ h1
  | act i e b f ih =>
    intro p S F c r h
    simp only [compile] at h
    simp only [Expr.shaped]
    split at h
    · obtain ⟨⟨v, c1⟩, h1, h⟩ := except_bind_eq_ok h
      obtain ⟨⟨code, c2⟩, h2, h⟩ := except_bind_eq_ok h
      exact ih _ _ _ _ _ h2
    · exact ih _ _ _ _ _ h
  | asc i e t ih =>
    intro p S F c r h
    simp only [compile] at h
    exact ih _ _ _ _ _ h
  | span i e ih | range i e ih =>
    intro p S F c r h
    simp only [compile] at h
    simp only [Expr.shaped]
    split at h
    · obtain ⟨⟨v, c1⟩, h1, h⟩ := except_bind_eq_ok h
      obtain ⟨⟨code, c2⟩, h2, h⟩ := except_bind_eq_ok h
      exact ih _ _ _ _ _ h2
    · exact ih _ _ _ _ _ h

theorem compileRecognizer_shaped {T : Nat → Ty} {e : Expr} {f : Fn} (h : compileRecognizer T e = .ok f) : e.shaped = true := by
  unfold compileRecognizer at h
  obtain ⟨r, h1, _⟩ := except_bind_eq_ok h
  exact compile_shaped T e _ _ _ _ _ h1

theorem compileGrammar_shaped {T : Nat → Ty} {rules : List (String × Expr)} {fs : List (FnRef × Fn)}
    (h : compileGrammar T rules = .ok fs) : ∀ x ∈ rules, x.2.shaped = true := by
  induction rules generalizing fs with
  | nil => intro x hx; cases hx
  | cons x rules ih =>
    obtain ⟨r', e⟩ := x
    simp only [compileGrammar] at h
    obtain ⟨rc, h1, h⟩ := except_bind_eq_ok h
    obtain ⟨pa, h2, h⟩ := except_bind_eq_ok h
    obtain ⟨rest, h3, h⟩ := except_bind_eq_ok h
    intro x hx
    cases hx with
    | head => exact compileRecognizer_shaped h1
    | tail _ hm => exact ih h3 x hm

/-! ### The errors recorded -/

theorem track_eq (f : List Char) (x : List String) (L : Log) (input : List Char) (hf : f <:+ input) (hL : ∀ a ∈ L, a.1 <:+ input) :
    track (f, x) L = (farthest f L, if farthest f L = f then x ++ expectedAt f L else expectedAt (farthest f L) L) ∧
      farthest f L <:+ f := by
  induction L generalizing f x with
  | nil => simp [track, farthest, expectedAt]
  | cons a L ih =>
    obtain ⟨q, d⟩ := a
    have hq : q <:+ input := hL (q, d) (by simp)
    have hL' : ∀ a ∈ L, a.1 <:+ input := fun a ha => hL a (by simp [ha])
    simp only [track, List.foldl_cons, note, farthest]
    have suf : ∀ {f : List Char}, f <:+ input → farthest f L <:+ f := fun hf => (ih _ [] hf hL').2
    rcases Nat.lt_trichotomy q.length f.length with h | h | h
    · simp only [h, if_true]
      have hqf : q <:+ f := List.suffix_of_suffix_length_le hq hf (Nat.le_of_lt h)
      obtain ⟨i1, i2⟩ := ih q [d] hq hL'
      simp only [track] at i1
      refine ⟨?_, i2.trans hqf⟩
      rw [i1]
      have hne : farthest q L ≠ f := by
        intro he
        have := i2.length_le
        rw [he] at this
        omega
      simp only [hne, if_false, Prod.mk.injEq, true_and]
      by_cases h2 : farthest q L = q
      · simp only [h2, if_true, expectedAt, List.filter_cons]
        simp
      · have : ¬ q = farthest q L := fun h => h2 h.symm
        simp only [h2, if_false, expectedAt, List.filter_cons]
        simp [this]
    · have hqf : q = f := (List.suffix_of_suffix_length_le hq hf (Nat.le_of_eq h)).eq_of_length h
      subst hqf
      simp only [Nat.lt_irrefl, if_false, if_true]
      obtain ⟨i1, i2⟩ := ih q (x ++ [d]) hq hL'
      simp only [track] at i1
      refine ⟨?_, i2⟩
      rw [i1]
      by_cases h2 : farthest q L = q
      · simp only [h2, if_true, expectedAt, List.filter_cons]
        simp
      · have : ¬ q = farthest q L := fun h => h2 h.symm
        simp only [h2, if_false, expectedAt, List.filter_cons]
        simp [this]
    · have e1 : ¬ q.length < f.length := by omega
      have e2 : ¬ q.length = f.length := by omega
      simp only [e1, e2, if_false]
      obtain ⟨i1, i2⟩ := ih f x hf hL'
      simp only [track] at i1
      refine ⟨?_, i2⟩
      rw [i1]
      have hne : ¬ q = f := fun h => e2 (by rw [h])
      have hne2 : ¬ q = farthest f L := by
        intro h
        have := i2.length_le
        rw [← h] at this
        omega
      simp only [expectedAt, List.filter_cons, hne, hne2, decide_false]
      simp


/-! ### Programs generated from a grammar -/

theorem Generated.sys {σ : Type} {ops : StreamOps σ} {V : σ → Prop} {rest : σ → List Char} {input : List Char}
    {ext : Nat → FnRef → PState σ Val → Res (PState σ Val)} {G : Grammar} {T : Nat → Ty} {sp : SpanSpec} {X : ExtSpec}
    {fs : List (FnRef × Fn)} (g : Generated G T fs) (hl : LawfulStream ops V rest input)
    (pos : ∀ a, V a → sp.pos (rest a) = ops.pos a) (span : ∀ a b, V a → V b → sp.span (rest a) (rest b) = ops.span a b) :
    Sys ops V rest input ext G T sp X where
  lawful := hl
  coh := g.coherent
  ar := by
    intro r e he hu
    have := compileGrammar_find T G.rules fs g.compiled r
    have he' : (Grammar.mk G.rules).find r = some e := he
    rw [he'] at this
    obtain ⟨_, f, _, hf⟩ := this
    exact parser_arity T _ r e f hf hu (Grammar.coherent_find g.coherent he)
  res := g.resolved
  shaped := by
    unfold Grammar.shaped
    rw [List.all_eq_true]
    exact compileGrammar_shaped g.compiled
  pos := pos
  span := span

theorem strSpans_pos {ptr : Nat} {input : List Char} (a : StrStream) (h : StrStream.At ptr input a) :
    (strSpans input).pos a.rest = a.off := by
  have := StrStream.off_add h
  simp only [strSpans]; omega

theorem strSpans_span {ptr : Nat} {input : List Char} (a b : StrStream) (ha : StrStream.At ptr input a) (hb : StrStream.At ptr input b) :
    (strSpans input).span a.rest b.rest = StrStream.ops.span a b := by
  have h1 := strSpans_pos a ha
  have h2 := strSpans_pos b hb
  simp only [strSpans] at h1 h2
  simp only [strSpans, h1, h2, StrStream.ops, StrStream.span, StrStream.asU32]

theorem at_eq_streamAt {ptr : Nat} {input : List Char} {s : StrStream} (h : StrStream.At ptr input s) :
    s = streamAt ptr input s.rest := by
  have := StrStream.off_add h
  obtain ⟨h1, h2, _⟩ := h
  cases s
  simp only [streamAt, StrStream.mk.injEq] at *
  exact ⟨h1, h2, by omega⟩

section
variable {ext : Nat → FnRef → PState StrStream Val → Res (PState StrStream Val)} {G : Grammar} {T : Nat → Ty} {X : ExtSpec}
  {fs : List (FnRef × Fn)} {ptr : Nat} {input : List Char}

theorem Generated.strSys (g : Generated G T fs) (ptr : Nat) (input : List Char) :
    Sys StrStream.ops (StrStream.At ptr input) StrStream.rest input ext G T (strSpans input) X :=
  g.sys (StrStream.lawful ptr input) strSpans_pos strSpans_span

theorem okSt_new (ptr : Nat) (input : List Char) : OkSt (StrStream.At ptr input) (PState.new (StrStream.new ptr input)) :=
  ⟨.new ptr input, .new ptr input, rfl, rfl⟩

theorem track_new (hX : X.Forward) {e : Expr} {o : Out} {L : Log} (h : Peg G X e input o L) :
    track (input, []) L = (farthest input L, expectedAt (farthest input L) L) := by
  have := (track_eq input [] L input List.suffix_rfl ((h.forward hX).2)).1
  rw [this]
  split
  · rename_i h; rw [h]; simp
  · rfl

/-- The result of a call on a fresh stream, from the state it returns. -/
theorem intoResult_of_fnRes (hX : X.Forward) {p : Bool} {e : Expr} {o : Out} {L : Log} {st' : PState StrStream Val} (hp : Peg G X e input o L)
    (hr : FnRes (StrStream.At ptr input) StrStream.rest (RuleVal G T (strSpans input) e p) (PState.new (StrStream.new ptr input)) L st' o) :
    st'.intoResult StrStream.ops = .ok (expectedResult G T e p ptr input L o) := by
  have htr : ∀ {st'}, After (StrStream.At ptr input) StrStream.rest (PState.new (StrStream.new ptr input)) st' L →
      st'.far = streamAt ptr input (farthest input L) ∧ st'.exp = expectedAt (farthest input L) L := by
    intro st' ha
    have := ha.track
    simp only [PState.new, StrStream.rest_new, track_new hX hp, Prod.mk.injEq] at this
    exact ⟨by rw [at_eq_streamAt ha.far, this.1], this.2⟩
  cases o with
  | fail =>
    obtain ⟨h1, h2, h3⟩ := hr
    obtain ⟨e1, e2⟩ := htr h3
    simp [PState.intoResult, h2, h1, expectedResult, e1, e2]
  | ok s' t =>
    obtain ⟨h1, h2, ⟨d, hd, hv, _⟩, h3⟩ := hr
    obtain ⟨e1, e2⟩ := htr h3
    have hn : StrStream.ops.hasNext st'.cur = !s'.isEmpty := by
      rw [← h2]; exact StrStream.hasNext_eq h3.cur
    simp only [PState.intoResult, hd, hn, expectedResult, e1, e2, hv]
    cases s' <;> simp

/-- Whatever the fuel, the state returned by a generated function is that of a match (or more fuel is needed). -/
theorem Deployed.run_sound (d : Deployed G T fs ext X ptr input) (n : Nat) (p : Bool) (r : String) (e : Expr) (he : G.find r = some e)
    (st : PState StrStream Val) (hst : OkSt (StrStream.At ptr input) st) :
    Program.run StrStream.ops ext ⟨fs⟩ n ⟨p, [r]⟩ st = .timeout ∨
    ∃ o L st', Program.run StrStream.ops ext ⟨fs⟩ n ⟨p, [r]⟩ st = .ok st' ∧ Peg G X e st.cur.rest o L ∧
      FnRes (StrStream.At ptr input) StrStream.rest (RuleVal G T (strSpans input) e p) st L st' o := by
  rw [program_correct StrStream.ops ext G T fs d.gen.compiled d.gen.scopes d.gen.coherent]
  exact (runProg_sound (d.gen.strSys ptr input) d.ext n).rule p r e st he hst

/-- Whatever the fuel, the result of a generated function is the result of a match (or more fuel is needed). -/
theorem Deployed.parse_sound (d : Deployed G T fs ext X ptr input)
    (n : Nat) (p : Bool) (r : String) (e : Expr) (he : G.find r = some e) :
    Program.parse StrStream.ops ext ⟨fs⟩ n ⟨p, [r]⟩ (StrStream.new ptr input) = .timeout ∨
    ∃ o L, Peg G X e input o L ∧ Program.parse StrStream.ops ext ⟨fs⟩ n ⟨p, [r]⟩ (StrStream.new ptr input) =
      .ok (expectedResult G T e p ptr input L o) := by
  unfold Program.parse
  rcases d.run_sound n p r e he _ (okSt_new ptr input) with h | ⟨o, L, st', h, hp, hr⟩
  · rw [h]; exact .inl rfl
  · rw [h]
    have hp : Peg G X e input o L := by simpa [PState.new] using hp
    exact .inr ⟨o, L, hp, intoResult_of_fnRes d.fwd hp hr⟩

theorem runProg_complete {σ : Type} {ops : StreamOps σ} {V : σ → Prop} {rest : σ → List Char} {input : List Char}
    {ext : Nat → FnRef → PState σ Val → Res (PState σ Val)} {sp : SpanSpec}
    (sys : Sys ops V rest input ext G T sp X) (hext : ExtOk V rest ext G X) {r : String} {e : Expr}
    {s : List Char} {o : Out} {L : Log} (he : G.find r = some e) (h : Peg G X e s o L) :
    ∃ n0, ∀ n, n0 ≤ n → ∀ q st, OkSt V st → rest st.cur = s → runProg ops ext G T n ⟨q, [r]⟩ st ≠ .timeout := by
  obtain ⟨n0, h⟩ := (run_complete sys hext h).1 (sys.resolved he) (sys.shapedRule he)
  have base : ∀ n, n0 + 1 ≤ n → ∀ st, OkSt V st → rest st.cur = s → runProg ops ext G T n ⟨false, [r]⟩ st ≠ .timeout := by
    intro n hn st hst hs
    obtain ⟨m, rfl⟩ : ∃ m, n = m + 1 := ⟨n - 1, by omega⟩
    simp only [runProg, he, Bool.false_and, Bool.false_eq_true, if_false]
    exact Res.bind_ne_timeout (h m (by omega) _ st (coherent_false _ _ _) hst hs) fun _ _ => finish_ne_timeout _
  refine ⟨n0 + 2, fun n hn q st hst hs => ?_⟩
  cases q with
  | false => exact base n (by omega) st hst hs
  | true =>
    obtain ⟨m, rfl⟩ : ∃ m, n = m + 1 := ⟨n - 1, by omega⟩
    simp only [runProg, he]
    split
    · exact base m (by omega) st hst hs
    · exact Res.bind_ne_timeout (h m (by omega) _ st (Grammar.coherent_find sys.coh he) hst hs) fun _ _ => finish_ne_timeout _

/-- If the match has an outcome, the generated function returns, with any sufficient fuel. -/
theorem Deployed.run_complete (d : Deployed G T fs ext X ptr input) {r : String} {e : Expr} {s : List Char} {o : Out} {L : Log}
    (he : G.find r = some e) (hp : Peg G X e s o L) :
    ∃ n0, ∀ n, n0 ≤ n → ∀ p st, OkSt (StrStream.At ptr input) st → st.cur.rest = s →
      ∃ st', Program.run StrStream.ops ext ⟨fs⟩ n ⟨p, [r]⟩ st = .ok st' ∧
        FnRes (StrStream.At ptr input) StrStream.rest (RuleVal G T (strSpans input) e p) st L st' o := by
  obtain ⟨n0, h⟩ := runProg_complete (d.gen.strSys (ext := ext) (X := X) ptr input) d.ext he hp
  refine ⟨n0, fun n hn p st hst hs => ?_⟩
  have hnt := h n hn p st hst hs
  rw [← program_correct StrStream.ops ext G T fs d.gen.compiled d.gen.scopes d.gen.coherent] at hnt
  rcases d.run_sound n p r e he st hst with h | ⟨o', L', st', h, hp', hr⟩
  · exact absurd h hnt
  · rw [hs] at hp'
    obtain ⟨rfl, rfl⟩ := hp.det d.ext.det hp'
    exact ⟨st', h, hr⟩

/-- If the match has an outcome, the generated function returns it, with any sufficient fuel. -/
theorem Deployed.parse_complete (d : Deployed G T fs ext X ptr input)
    (p : Bool) (r : String) (e : Expr) (he : G.find r = some e) (o : Out) (L : Log) (hp : Peg G X e input o L) :
    ∃ n0, ∀ n, n0 ≤ n → Program.parse StrStream.ops ext ⟨fs⟩ n ⟨p, [r]⟩ (StrStream.new ptr input) =
      .ok (expectedResult G T e p ptr input L o) := by
  obtain ⟨n0, h⟩ := d.run_complete he hp
  refine ⟨n0, fun n hn => ?_⟩
  obtain ⟨st', h1, h2⟩ := h n hn p _ (okSt_new ptr input) (by simp [PState.new])
  unfold Program.parse
  rw [h1]
  exact intoResult_of_fnRes d.fwd hp h2

theorem noExt_ok (ptr : Nat) (input : List Char) : ExtOk (StrStream.At ptr input) StrStream.rest noFns G noExt where
  sound _ _ _ _ _ _ := .inl rfl
  complete _ _ _ _ _ _ h := h.elim
  det _ _ _ _ _ _ h := h.elim

theorem Generated.deployed (g : Generated G T fs) (ptr : Nat) (input : List Char) : Deployed G T fs noFns noExt ptr input :=
  ⟨g, noExt_ok ptr input, fun _ _ _ _ h => h.elim⟩

end
end Oak
