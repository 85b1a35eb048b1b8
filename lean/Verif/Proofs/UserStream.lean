import Verif.Proofs.Main
import Verif.Spec.UserStream
/-!
Results over the streams of the user.
-/
set_option linter.constructorNameAsVariable false
set_option autoImplicit false

namespace Oak
open Spec

section
variable {S : Type} {G : Grammar} {T : Nat → Ty} {fs : List (FnRef × Fn)} {ops : StreamOps S} {V : S → Prop} {rest : S → List Char}
  {input : List Char} {sp : SpanSpec} {ext : Nat → FnRef → PState S Val → Res (PState S Val)} {X : ExtSpec} {s0 : S}

theorem Streamed.sys (d : Streamed G T fs ops V rest input sp ext X s0) : Sys ops V rest input ext G T sp X :=
  d.gen.sys d.lawful d.pos d.span

theorem Streamed.ok (d : Streamed G T fs ops V rest input sp ext X s0) : OkSt V (PState.new (D := Val) s0) := ⟨d.fresh, d.fresh, rfl, rfl⟩

theorem Streamed.intoResult (d : Streamed G T fs ops V rest input sp ext X s0) {p : Bool} {e : Expr} {o : Out} {L : Log} {st' : PState S Val}
    (hp : Peg G X e input o L) (hr : FnRes V rest (RuleVal G T sp e p) (PState.new s0) L st' o) :
    ∃ res, st'.intoResult ops = .ok res ∧ res.mapStream rest = expectedView G T sp e p input L o ∧ ∀ s, res.stream = some s → V s := by
  have htr : ∀ {st'}, After V rest (PState.new (D := Val) s0) st' L → rest st'.far = farthest input L ∧ st'.exp = expectedAt (farthest input L) L := by
    intro st' ha
    have := ha.track
    simp only [PState.new, d.whole, track_new d.fwd hp, Prod.mk.injEq] at this
    exact this
  cases o with
  | fail =>
    obtain ⟨h1, h2, h3⟩ := hr
    obtain ⟨e1, e2⟩ := htr h3
    refine ⟨.failure st'.far st'.exp, by simp [PState.intoResult, h2, h1], ?_, ?_⟩
    · simp [PResult.mapStream, expectedView, e1, e2]
    · rintro s hs; cases hs; exact h3.far
  | ok s' t =>
    obtain ⟨h1, h2, ⟨v, hd, hv, _⟩, h3⟩ := hr
    obtain ⟨e1, e2⟩ := htr h3
    have hn : ops.hasNext st'.cur = !s'.isEmpty := by
      rw [← h2]; exact d.lawful.hasNext_eq h3.cur
    cases s' with
    | nil =>
      refine ⟨.success v, by simp [PState.intoResult, hd, hn], ?_, ?_⟩
      · simp [PResult.mapStream, expectedView, hv]
      · rintro s ⟨⟩
    | cons c cs =>
      refine ⟨.part v st'.far st'.exp, by simp [PState.intoResult, hd, hn], ?_, ?_⟩
      · simp [PResult.mapStream, expectedView, hv, e1, e2]
      · rintro s hs; cases hs; exact h3.far

/-- Whatever the fuel, the result is the result of a match (or more fuel is needed). -/
theorem Streamed.sound (d : Streamed G T fs ops V rest input sp ext X s0) (n : Nat) (p : Bool) {r : String} {e : Expr} (he : G.find r = some e) :
    Program.parse ops ext ⟨fs⟩ n ⟨p, [r]⟩ s0 = .timeout ∨
    ∃ o L res, Peg G X e input o L ∧ Program.parse ops ext ⟨fs⟩ n ⟨p, [r]⟩ s0 = .ok res ∧
      res.mapStream rest = expectedView G T sp e p input L o ∧ ∀ s, res.stream = some s → V s := by
  unfold Program.parse
  rw [program_correct ops ext G T fs d.gen.compiled d.gen.scopes d.gen.coherent]
  rcases (runProg_sound d.sys d.ext n).rule p r e _ he d.ok with h | ⟨o, L, st', h, hp, hr⟩
  · rw [h]; exact .inl rfl
  · have hp : Peg G X e input o L := by
      rw [← d.whole]; exact hp
    obtain ⟨res, h1, h2, h3⟩ := d.intoResult hp hr
    rw [h]
    exact .inr ⟨o, L, res, hp, h1, h2, h3⟩

/-- If the match has an outcome, the function returns. -/
theorem Streamed.complete (d : Streamed G T fs ops V rest input sp ext X s0) (p : Bool) {r : String} {e : Expr} (he : G.find r = some e)
    {o : Out} {L : Log} (h : Peg G X e input o L) : ∃ n0, ∀ n, n0 ≤ n → ∃ res, Program.parse ops ext ⟨fs⟩ n ⟨p, [r]⟩ s0 = .ok res ∧
      res.mapStream rest = expectedView G T sp e p input L o ∧ ∀ s, res.stream = some s → V s := by
  obtain ⟨n0, hn⟩ := runProg_complete d.sys d.ext he h
  refine ⟨n0, fun n hle => ?_⟩
  have hnt := hn n hle p _ d.ok d.whole
  rw [← program_correct ops ext G T fs d.gen.compiled d.gen.scopes d.gen.coherent] at hnt
  rcases d.sound n p he with h1 | ⟨o', L', res, hp, h1, h2, h3⟩
  · unfold Program.parse at h1
    cases hx : Program.run ops ext ⟨fs⟩ n ⟨p, [r]⟩ (PState.new s0) with
    | timeout => exact absurd hx hnt
    | panic => rw [hx] at h1; cases h1
    | stuck => rw [hx] at h1; cases h1
    | ok st =>
      rw [hx] at h1
      simp only [Res.bind_ok, PState.intoResult] at h1
      split at h1
      · split at h1 <;> cases h1
      · unfold Res.assert at h1; split at h1 <;> cases h1
  · obtain ⟨rfl, rfl⟩ := h.det d.ext.det hp
    exact ⟨res, h1, h2, h3⟩

end
end Oak
