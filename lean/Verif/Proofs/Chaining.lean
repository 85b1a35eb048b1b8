import Verif.Spec.Chaining
import Verif.Proofs.PegOps
import Verif.Proofs.WFTotal
/-!
The analysis of useless chains: termination, meaning of its warnings.
-/
set_option linter.constructorNameAsVariable false
set_option autoImplicit false

namespace Oak
open Spec
variable {G : Grammar} {X : ExtSpec}

theorem Sub.trans {a b c : Expr} (h : Sub a b) (h' : Sub b c) : Sub a c := by
  induction h' with
  | refl => exact h
  | seq he _ ih => exact .seq he ih
  | choice he _ ih => exact .choice he ih
  | star _ ih => exact .star ih
  | plus _ ih => exact .plus ih
  | opt _ ih => exact .opt ih
  | not _ ih => exact .not ih
  | and _ ih => exact .and ih
  | act _ ih => exact .act ih
  | asc _ ih => exact .asc ih
  | span _ ih => exact .span ih
  | range _ ih => exact .range ih

/-! Termination. -/

/-- A computation that returns the same result from some fuel on. -/
def Settles {α : Type} (f : Nat → Res α) : Prop := ∃ n0 x, ∀ n, n0 ≤ n → f n = .ok x

theorem Settles.pure {α : Type} (x : α) : Settles (fun _ => Res.ok x) := ⟨0, x, fun _ _ => rfl⟩

theorem Settles.bind {α β : Type} {f : Nat → Res α} {g : α → Nat → Res β} (hf : Settles f) (hg : ∀ x, Settles (g x)) : Settles (fun n => f n >>= fun x => g x n) := by
  obtain ⟨n0, x, h⟩ := hf
  obtain ⟨n1, y, h'⟩ := hg x
  refine ⟨max n0 n1, y, fun n hn => ?_⟩
  show (f n >>= fun x => g x n) = _
  rw [h n (by omega)]
  exact h' n (by omega)

theorem Settles.congr {α : Type} {f g : Nat → Res α} (h : Settles f) (he : ∀ n, g n = f n) : Settles g := by
  obtain ⟨n0, x, h⟩ := h
  exact ⟨n0, x, fun n hn => (he n).trans (h n hn)⟩

theorem filledAll_mem {es : List Expr} (h : filledAll es = true) : ∀ e ∈ es, e.filled = true := by
  induction es with
  | nil => intro e he; cases he
  | cons x es ih =>
    rw [filledAll, Bool.and_eq_true] at h
    exact List.forall_mem_cons.2 ⟨h.1, ih h.2⟩

theorem innerExpr_settles (V : Nat → String → Res (Op × Bool)) (e : Expr) (hok : e.filled = true) (hV : ∀ q, LeftCalls G q e → Settles (fun n => V n q)) :
    Settles (fun n => innerExpr (V n) e) := by
  induction e using Expr.ind with
  | str i l => exact (Settles.pure (.nothing, false)).congr fun n => by unfold innerExpr; rfl
  | any i => exact (Settles.pure (.nothing, false)).congr fun n => by unfold innerExpr; rfl
  | cls i k => exact (Settles.pure (.nothing, false)).congr fun n => by unfold innerExpr; rfl
  | ext i p => exact (Settles.pure (.nothing, false)).congr fun n => by unfold innerExpr; rfl
  | nt i r => exact ((hV r .nt).bind (g := fun x _ => .ok (x.1, true)) (fun x => .pure _)).congr fun n => by unfold innerExpr; rfl
  | star i c ih => exact (Settles.pure (.zeroOrMore, false)).congr fun n => by unfold innerExpr; rfl
  | plus i c ih => exact (Settles.pure (.oneOrMore, false)).congr fun n => by unfold innerExpr; rfl
  | opt i c ih => exact (Settles.pure (.optional, false)).congr fun n => by unfold innerExpr; rfl
  | not i c ih => exact (Settles.pure (.not, false)).congr fun n => by unfold innerExpr; rfl
  | and i c ih => exact (Settles.pure (.and, false)).congr fun n => by unfold innerExpr; rfl
  | act i c b f ih =>
    exact (ih (by simpa [Expr.filled] using hok) (fun q hq => hV q (.act hq))).congr fun n => by rw [innerExpr]
  | asc i c t ih =>
    exact (ih (by simpa [Expr.filled] using hok) (fun q hq => hV q (.asc hq))).congr fun n => by rw [innerExpr]
  | span i c ih =>
    exact (ih (by simpa [Expr.filled] using hok) (fun q hq => hV q (.span hq))).congr fun n => by rw [innerExpr]
  | range i c ih =>
    exact (ih (by simpa [Expr.filled] using hok) (fun q hq => hV q (.range hq))).congr fun n => by rw [innerExpr]
  | seq i es ih =>
    cases es with
    | nil => simp [Expr.filled] at hok
    | cons e es =>
      have hs := hok
      simp only [Expr.filled, filledAll, Bool.and_eq_true] at hs
      exact (ih e List.mem_cons_self hs.2.1 (fun q hq => hV q (.seq_head hq))).congr fun n => by
        rw [innerExpr]
  | choice i es ih =>
    have hs := hok
    simp only [Expr.filled, Bool.and_eq_true] at hs
    have hall : ∀ e ∈ es, Settles (fun n => innerExpr (V n) e) := fun e he =>
      ih e he (filledAll_mem hs.2 e he) (fun q hq => hV q (.choice he hq))
    have hbr : ∀ (es : List Expr), (∀ e ∈ es, Settles (fun n => innerExpr (V n) e)) → ∀ op c, Settles (fun n => innerBranches (V n) op c es) := by
      intro es
      induction es with
      | nil => intro _ op c; exact (Settles.pure (op, c)).congr fun n => by unfold innerBranches; rfl
      | cons e es ihl =>
        intro h op c
        refine ((h e List.mem_cons_self).bind (g := fun x n => if op ≠ x.1 then .ok (.nothing, false) else innerBranches (V n) op (c || x.2) es) ?_).congr ?_
        · intro x
          by_cases hx : op = x.1
          · exact (ihl (fun e he => h e (List.mem_cons_of_mem _ he)) op (c || x.2)).congr fun n => by simp [hx]
          · exact (Settles.pure (.nothing, false)).congr fun n => by simp [hx]
        · intro n; rw [innerBranches]
    cases es with
    | nil => simp at hs
    | cons e es =>
      refine ((hall e List.mem_cons_self).bind (g := fun x n => innerExpr (V n) e >>= fun y =>
        if x.1 ≠ y.1 then .ok (.nothing, false) else innerBranches (V n) x.1 (x.2 || y.2) es) ?_).congr ?_
      · intro x
        refine (hall e List.mem_cons_self).bind (g := fun y n =>
          if x.1 ≠ y.1 then .ok (.nothing, false) else innerBranches (V n) x.1 (x.2 || y.2) es) ?_
        intro y
        by_cases hx : x.1 = y.1
        · exact (hbr es (fun e he => hall e (List.mem_cons_of_mem _ he)) x.1 (x.2 || y.2)).congr fun n => by simp [hx]
        · exact (Settles.pure (.nothing, false)).congr fun n => by simp [hx]
      · intro n; rw [innerExpr]

theorem sub_left {q : String} {e : Expr} (h : LeftCalls G q e) : ∃ i, Sub (.nt i q) e := by
  induction h with
  | @nt i => exact ⟨i, .refl⟩
  | seq_head _ ih => exact ih.imp fun i h => .seq List.mem_cons_self h
  | seq_tail _ _ ih =>
    obtain ⟨i, h⟩ := ih
    cases h with
    | seq he h => exact ⟨i, .seq (List.mem_cons_of_mem _ he) h⟩
  | choice he _ ih => exact ih.imp fun i h => .choice he h
  | star _ ih => exact ih.imp fun i h => .star h
  | plus _ ih => exact ih.imp fun i h => .plus h
  | opt _ ih => exact ih.imp fun i h => .opt h
  | not _ ih => exact ih.imp fun i h => .not h
  | and _ ih => exact ih.imp fun i h => .and h
  | act _ ih => exact ih.imp fun i h => .act h
  | asc _ ih => exact ih.imp fun i h => .asc h
  | span _ ih => exact ih.imp fun i h => .span h
  | range _ ih => exact ih.imp fun i h => .range h

theorem resolved_sub {e : Expr} (h : e.resolved G = true) {i : Nat} {q : String} (hs : Sub (.nt i q) e) : (G.find q).isSome = true := by
  induction hs with
  | refl => simpa [Expr.resolved] using h
  | seq he _ ih => exact ih (resolvedAll_mem (by simpa [Expr.resolved] using h) _ he)
  | choice he _ ih => exact ih (resolvedAll_mem (by simpa [Expr.resolved] using h) _ he)
  | _ => rename_i ih; exact ih (by simpa [Expr.resolved] using h)

theorem Settles.succ {α : Type} {f g : Nat → Res α} (h : Settles f) (hg : ∀ n, g (n + 1) = f n) : Settles g := by
  obtain ⟨n0, x, h⟩ := h
  refine ⟨n0 + 1, x, fun n hn => ?_⟩
  obtain ⟨m, rfl⟩ : ∃ m, n = m + 1 := ⟨n - 1, by omega⟩
  rw [hg]; exact h m (by omega)

/-- Visits of rules terminate when leftmost calls are well-founded. -/
theorem innerRule_settles (hwf : WellFounded (LeftStep G)) (hres : G.resolved = true) (hok : ∀ r e, G.find r = some e → e.filled = true) (r : String)
    (hr : (G.find r).isSome = true) : Settles (fun n => innerRule G n r) := by
  induction hwf.apply r with
  | intro r _ ih =>
    obtain ⟨e, he⟩ := Option.isSome_iff_exists.1 hr
    have hre : e.resolved G = true := by
      simp only [Grammar.resolved, List.all_eq_true] at hres
      exact hres _ (grammar_find_mem he)
    have := innerExpr_settles (G := G) (innerRule G) e (hok r e he) fun q hq => by
      obtain ⟨i, hs⟩ := sub_left hq
      exact ih q ⟨e, he, hq⟩ (resolved_sub hre hs)
    exact this.succ fun n => by unfold innerRule; rw [he]

theorem chainAll_settles {V : Nat → String → Res (Op × Bool)} {es : List Expr} (h : ∀ e ∈ es, Settles (fun n => chainExpr (V n) e)) :
    Settles (fun n => chainAll (V n) es) := by
  induction es with
  | nil => exact (Settles.pure []).congr fun n => by unfold chainAll; rfl
  | cons e es ih =>
    refine ((h e List.mem_cons_self).bind (g := fun a n => chainAll (V n) es >>= fun b => .ok (a ++ b)) ?_).congr fun n => by rw [chainAll]
    intro a
    exact (ih fun e he => h e (List.mem_cons_of_mem _ he)).bind (g := fun b _ => .ok (a ++ b)) fun b => .pure _

theorem chainExpr_settles (V : Nat → String → Res (Op × Bool)) (e : Expr) (hok : e.filled = true) (hr : e.resolved G = true)
    (hV : ∀ q, (G.find q).isSome = true → Settles (fun n => V n q)) : Settles (fun n => chainExpr (V n) e) := by
  have hinner : ∀ {c : Expr}, c.filled = true → c.resolved G = true → Settles (fun n => innerExpr (V n) c) := fun hc hrc =>
    innerExpr_settles (G := G) V _ hc fun q hq => by
      obtain ⟨i, hs⟩ := sub_left hq
      exact hV q (resolved_sub hrc hs)
  have op : ∀ {c : Expr} (o : Op) (this : Expr), c.filled = true → c.resolved G = true → (c.filled = true → c.resolved G = true → Settles (fun n => chainExpr (V n) c)) →
      Settles (fun n => chainAndVisit o this (innerExpr (V n) c) (chainExpr (V n) c)) := by
    intro c o this hc hrc ih
    refine (hinner hc hrc).bind (g := fun x n => match checkChain o x.1 x.2 with | some (p, r) => .ok [⟨this, p, r⟩] | none => chainExpr (V n) c) ?_
    intro x
    cases hx : checkChain o x.1 x.2 with
    | none => exact ih hc hrc
    | some y => exact .pure _
  induction e using Expr.ind with
  | str i l => exact (Settles.pure []).congr fun n => by unfold chainExpr; rfl
  | any i => exact (Settles.pure []).congr fun n => by unfold chainExpr; rfl
  | cls i k => exact (Settles.pure []).congr fun n => by unfold chainExpr; rfl
  | ext i p => exact (Settles.pure []).congr fun n => by unfold chainExpr; rfl
  | nt i r => exact (Settles.pure []).congr fun n => by unfold chainExpr; rfl
  | seq i es ih =>
    refine (chainAll_settles (V := V) (es := es) fun e he => ih e he ?_ ?_).congr fun n => by rw [chainExpr]
    · simp only [Expr.filled, Bool.and_eq_true] at hok
      exact filledAll_mem hok.2 e he
    · exact resolvedAll_mem (by simpa [Expr.resolved] using hr) e he
  | choice i es ih =>
    refine (chainAll_settles (V := V) (es := es) fun e he => ih e he ?_ ?_).congr fun n => by rw [chainExpr]
    · have := hok
      simp only [Expr.filled, Bool.and_eq_true] at this
      exact filledAll_mem this.2 e he
    · exact resolvedAll_mem (by simpa [Expr.resolved] using hr) e he
  | star i c ih =>
    exact (op .zeroOrMore (.star i c) (by simpa [Expr.filled] using hok) (by simpa [Expr.resolved] using hr) ih).congr
      fun n => by rw [chainExpr]
  | plus i c ih =>
    exact (op .oneOrMore (.plus i c) (by simpa [Expr.filled] using hok) (by simpa [Expr.resolved] using hr) ih).congr
      fun n => by rw [chainExpr]
  | opt i c ih =>
    exact (op .optional (.opt i c) (by simpa [Expr.filled] using hok) (by simpa [Expr.resolved] using hr) ih).congr
      fun n => by rw [chainExpr]
  | not i c ih =>
    exact (op .not (.not i c) (by simpa [Expr.filled] using hok) (by simpa [Expr.resolved] using hr) ih).congr
      fun n => by rw [chainExpr]
  | and i c ih =>
    exact (op .and (.and i c) (by simpa [Expr.filled] using hok) (by simpa [Expr.resolved] using hr) ih).congr
      fun n => by rw [chainExpr]
  | act i c b f ih =>
    exact (ih (by simpa [Expr.filled] using hok) (by simpa [Expr.resolved] using hr)).congr fun n => by rw [chainExpr]
  | asc i c t ih =>
    exact (ih (by simpa [Expr.filled] using hok) (by simpa [Expr.resolved] using hr)).congr fun n => by rw [chainExpr]
  | span i c ih =>
    exact (ih (by simpa [Expr.filled] using hok) (by simpa [Expr.resolved] using hr)).congr fun n => by rw [chainExpr]
  | range i c ih =>
    exact (ih (by simpa [Expr.filled] using hok) (by simpa [Expr.resolved] using hr)).congr fun n => by rw [chainExpr]

/-! Warnings. -/

theorem chainAll_mem {V : String → Res (Op × Bool)} {es : List Expr} {ws : List Warning} (h : chainAll V es = .ok ws) :
    (∀ w ∈ ws, ∃ e ∈ es, ∃ ws', chainExpr V e = .ok ws' ∧ w ∈ ws') ∧ ∀ e ∈ es, ∃ ws', chainExpr V e = .ok ws' ∧ ∀ w ∈ ws', w ∈ ws := by
  induction es generalizing ws with
  | nil => unfold chainAll at h; cases h; exact ⟨(by intro w hw; cases hw), (by intro e he; cases he)⟩
  | cons e es ih =>
    rw [chainAll] at h
    obtain ⟨a, h1, h2⟩ := Res.bind_eq_ok h
    obtain ⟨b, h3, h4⟩ := Res.bind_eq_ok h2
    cases h4
    obtain ⟨k1, k2⟩ := ih h3
    refine ⟨?_, ?_⟩
    · intro w hw
      rcases List.mem_append.1 hw with hw | hw
      · exact ⟨e, List.mem_cons_self, a, h1, hw⟩
      · obtain ⟨e', he', r⟩ := k1 w hw
        exact ⟨e', List.mem_cons_of_mem _ he', r⟩
    · refine List.forall_mem_cons.2 ⟨⟨a, h1, fun w hw => List.mem_append_left _ hw⟩, fun e' he' => ?_⟩
      obtain ⟨ws', r1, r2⟩ := k2 e' he'
      exact ⟨ws', r1, fun w hw => List.mem_append_right _ (r2 w hw)⟩

/-- Where a warning comes from. -/
def FromChain (V : String → Res (Op × Bool)) (w : Warning) : Prop :=
  ∃ outer c inner crossed, rootOp w.this = some (outer, c) ∧ innerExpr V c = .ok (inner, crossed) ∧
    checkChain outer inner crossed = some (w.pattern, w.rewrite)

theorem chainAndVisit_ok {outer : Op} {this : Expr} {inner : Res (Op × Bool)} {visit : Res (List Warning)} {ws : List Warning}
    (h : chainAndVisit outer this inner visit = .ok ws) : ∃ op crossed, inner = .ok (op, crossed) ∧
      ((∃ p r, checkChain outer op crossed = some (p, r) ∧ ws = [⟨this, p, r⟩]) ∨ (checkChain outer op crossed = none ∧ visit = .ok ws)) := by
  unfold chainAndVisit at h
  obtain ⟨⟨op, crossed⟩, h1, h2⟩ := Res.bind_eq_ok h
  refine ⟨op, crossed, h1, ?_⟩
  simp only at h2
  split at h2
  · cases h2; exact .inl ⟨_, _, ‹_›, rfl⟩
  · exact .inr ⟨‹_›, h2⟩

theorem chainExpr_from {V : String → Res (Op × Bool)} (e : Expr) : ∀ {ws}, chainExpr V e = .ok ws → ∀ w ∈ ws, Sub w.this e ∧ FromChain V w := by
  have op : ∀ {e c : Expr} {o : Op} {ws}, rootOp e = some (o, c) → (∀ x, Sub x c → Sub x e) →
      (∀ {ws}, chainExpr V c = .ok ws → ∀ w ∈ ws, Sub w.this c ∧ FromChain V w) →
      chainAndVisit o e (innerExpr V c) (chainExpr V c) = .ok ws → ∀ w ∈ ws, Sub w.this e ∧ FromChain V w := by
    intro e c o ws hroot hsub ih h w hw
    obtain ⟨op, crossed, h1, h2 | h2⟩ := chainAndVisit_ok h
    · obtain ⟨p, r, h3, rfl⟩ := h2
      simp only [List.mem_singleton] at hw
      subst hw
      exact ⟨.refl, o, c, op, crossed, hroot, h1, h3⟩
    · obtain ⟨k1, k2⟩ := ih h2.2 w hw
      exact ⟨hsub _ k1, k2⟩
  induction e using Expr.ind with
  | str i l => intro ws h; unfold chainExpr at h; cases h; intro w hw; cases hw
  | any i => intro ws h; unfold chainExpr at h; cases h; intro w hw; cases hw
  | cls i k => intro ws h; unfold chainExpr at h; cases h; intro w hw; cases hw
  | ext i p => intro ws h; unfold chainExpr at h; cases h; intro w hw; cases hw
  | nt i r => intro ws h; unfold chainExpr at h; cases h; intro w hw; cases hw
  | seq i es ih =>
    intro ws h w hw; rw [chainExpr] at h
    obtain ⟨e, he, ws', h1, h2⟩ := (chainAll_mem h).1 w hw
    obtain ⟨k1, k2⟩ := ih e he h1 w h2
    exact ⟨.seq he k1, k2⟩
  | choice i es ih =>
    intro ws h w hw; rw [chainExpr] at h
    obtain ⟨e, he, ws', h1, h2⟩ := (chainAll_mem h).1 w hw
    obtain ⟨k1, k2⟩ := ih e he h1 w h2
    exact ⟨.choice he k1, k2⟩
  | star i c ih => intro ws h; rw [chainExpr] at h; exact op rfl (fun _ => .star) ih h
  | plus i c ih => intro ws h; rw [chainExpr] at h; exact op rfl (fun _ => .plus) ih h
  | opt i c ih => intro ws h; rw [chainExpr] at h; exact op rfl (fun _ => .opt) ih h
  | not i c ih => intro ws h; rw [chainExpr] at h; exact op rfl (fun _ => .not) ih h
  | and i c ih => intro ws h; rw [chainExpr] at h; exact op rfl (fun _ => .and) ih h
  | act i c b f ih => intro ws h w hw; rw [chainExpr] at h; exact ⟨.act (ih h w hw).1, (ih h w hw).2⟩
  | asc i c t ih => intro ws h w hw; rw [chainExpr] at h; exact ⟨.asc (ih h w hw).1, (ih h w hw).2⟩
  | span i c ih => intro ws h w hw; rw [chainExpr] at h; exact ⟨.span (ih h w hw).1, (ih h w hw).2⟩
  | range i c ih => intro ws h w hw; rw [chainExpr] at h; exact ⟨.range (ih h w hw).1, (ih h w hw).2⟩

/-- Every chain is reported, or is below a reported one. -/
theorem chainExpr_reports {V : String → Res (Op × Bool)} {this : Expr} {outer : Op} {c : Expr}
    (hroot : rootOp this = some (outer, c)) (hck : ∀ inner crossed, innerExpr V c = .ok (inner, crossed) → checkChain outer inner crossed ≠ none) (e : Expr) :
    ∀ {ws}, chainExpr V e = .ok ws → Sub this e → ∃ w ∈ ws, Sub this w.this := by
  have op : ∀ {e c' : Expr} {o : Op} {ws}, rootOp e = some (o, c') → (Sub this e → this = e ∨ Sub this c') →
      (∀ {ws}, chainExpr V c' = .ok ws → Sub this c' → ∃ w ∈ ws, Sub this w.this) →
      chainAndVisit o e (innerExpr V c') (chainExpr V c') = .ok ws → Sub this e → ∃ w ∈ ws, Sub this w.this := by
    intro e c' o ws hr hsub ih h hs
    obtain ⟨op, cr, h1, h2 | h2⟩ := chainAndVisit_ok h
    · obtain ⟨p, r, h3, rfl⟩ := h2
      exact ⟨_, List.mem_singleton_self _, hs⟩
    · rcases hsub hs with rfl | hs'
      · rw [hroot] at hr
        cases hr
        exact absurd h2.1 (hck _ _ h1)
      · exact ih h2.2 hs'
  induction e using Expr.ind with
  | str i l => intro ws h hs; cases hs; simp [rootOp] at hroot
  | any i => intro ws h hs; cases hs; simp [rootOp] at hroot
  | cls i k => intro ws h hs; cases hs; simp [rootOp] at hroot
  | ext i p => intro ws h hs; cases hs; simp [rootOp] at hroot
  | nt i r => intro ws h hs; cases hs; simp [rootOp] at hroot
  | seq i es ih =>
    intro ws h hs; rw [chainExpr] at h
    cases hs with
    | refl => simp [rootOp] at hroot
    | seq he hs =>
      obtain ⟨ws', h1, h2⟩ := (chainAll_mem h).2 _ he
      obtain ⟨w, hw, k⟩ := ih _ he h1 hs
      exact ⟨w, h2 w hw, k⟩
  | choice i es ih =>
    intro ws h hs; rw [chainExpr] at h
    cases hs with
    | refl => simp [rootOp] at hroot
    | choice he hs =>
      obtain ⟨ws', h1, h2⟩ := (chainAll_mem h).2 _ he
      obtain ⟨w, hw, k⟩ := ih _ he h1 hs
      exact ⟨w, h2 w hw, k⟩
  | star i c ih => intro ws h; rw [chainExpr] at h; exact op rfl (fun h => by cases h with | refl => exact .inl rfl | star h => exact .inr h) ih h
  | plus i c ih => intro ws h; rw [chainExpr] at h; exact op rfl (fun h => by cases h with | refl => exact .inl rfl | plus h => exact .inr h) ih h
  | opt i c ih => intro ws h; rw [chainExpr] at h; exact op rfl (fun h => by cases h with | refl => exact .inl rfl | opt h => exact .inr h) ih h
  | not i c ih => intro ws h; rw [chainExpr] at h; exact op rfl (fun h => by cases h with | refl => exact .inl rfl | not h => exact .inr h) ih h
  | and i c ih => intro ws h; rw [chainExpr] at h; exact op rfl (fun h => by cases h with | refl => exact .inl rfl | and h => exact .inr h) ih h
  | act i c b f ih =>
    intro ws h hs; rw [chainExpr] at h
    cases hs with
    | refl => simp [rootOp] at hroot
    | act hs => exact ih h hs
  | asc i c t ih =>
    intro ws h hs; rw [chainExpr] at h
    cases hs with
    | refl => simp [rootOp] at hroot
    | asc hs => exact ih h hs
  | span i c ih =>
    intro ws h hs; rw [chainExpr] at h
    cases hs with
    | refl => simp [rootOp] at hroot
    | span hs => exact ih h hs
  | range i c ih =>
    intro ws h hs; rw [chainExpr] at h
    cases hs with
    | refl => simp [rootOp] at hroot
    | range hs => exact ih h hs

/-- Direct operators are found. -/
theorem Direct.inner {n : Nat} {e : Expr} {op : Op} {x : Expr} (h : Direct G e op x) {y} (hy : innerExpr (innerRule G n) e = .ok y) : y.1 = op := by
  induction h generalizing n y with
  | opt => unfold innerExpr at hy; cases hy; rfl
  | plus => unfold innerExpr at hy; cases hy; rfl
  | star => unfold innerExpr at hy; cases hy; rfl
  | not => unfold innerExpr at hy; cases hy; rfl
  | and => unfold innerExpr at hy; cases hy; rfl
  | nt he _ ih =>
    unfold innerExpr at hy
    obtain ⟨z, h1, h2⟩ := Res.bind_eq_ok hy
    cases h2
    cases n with
    | zero => cases h1
    | succ n =>
      unfold innerRule at h1
      rw [he] at h1
      have h1 : innerExpr (innerRule G n) _ = .ok z := h1
      have h2 := ih h1
      exact h2
  | act _ ih => rw [innerExpr] at hy; exact ih hy
  | asc _ ih => rw [innerExpr] at hy; exact ih hy
  | span _ ih => rw [innerExpr] at hy; exact ih hy
  | range _ ih => rw [innerExpr] at hy; exact ih hy

/-! Equivalences. -/

theorem SameMatches.rfl {a : Expr} : SameMatches G X a a := fun _ => ⟨fun _ => .rfl, .rfl⟩
theorem SameMatches.trans {a b c : Expr} (h : SameMatches G X a b) (h' : SameMatches G X b c) : SameMatches G X a c :=
  fun s => ⟨fun s' => ((h s).1 s').trans ((h' s).1 s'), (h s).2.trans (h' s).2⟩
theorem SameMatches.symm {a b : Expr} (h : SameMatches G X a b) : SameMatches G X b a := fun s => ⟨fun s' => ((h s).1 s').symm, (h s).2.symm⟩

theorem Chain.congr {a b : Expr} (h : SameMatches G X a b) {k s s'} (hc : Chain G X a k s s') : Chain G X b k s s' := by
  induction hc with
  | zero => exact .zero
  | succ hm _ ih => exact .succ (((h _).1 _).1 hm) ih

theorem SameMatches.star {a b : Expr} {i j : Nat} (h : SameMatches G X a b) : SameMatches G X (.star i a) (.star j b) := by
  intro s
  refine ⟨fun s' => ?_, ?_⟩
  · rw [star_matches_iff, star_matches_iff, (h s').2]
    exact and_congr_left fun _ => ⟨fun ⟨k, hk⟩ => ⟨k, Chain.congr h hk⟩, fun ⟨k, hk⟩ => ⟨k, Chain.congr h.symm hk⟩⟩
  · exact ⟨fun h => (star_not_fails h).elim, fun h => (star_not_fails h).elim⟩

theorem SameMatches.plus {a b : Expr} {i j : Nat} (h : SameMatches G X a b) : SameMatches G X (.plus i a) (.plus j b) := by
  intro s
  refine ⟨fun s' => ?_, ?_⟩
  · rw [plus_matches_iff, plus_matches_iff, (h s').2]
    exact and_congr_left fun _ => ⟨fun ⟨k, hk⟩ => ⟨k, Chain.congr h hk⟩, fun ⟨k, hk⟩ => ⟨k, Chain.congr h.symm hk⟩⟩
  · rw [plus_fails_iff, plus_fails_iff, (h s).2]

theorem SameMatches.opt {a b : Expr} {i j : Nat} (h : SameMatches G X a b) : SameMatches G X (.opt i a) (.opt j b) := by
  intro s
  refine ⟨fun s' => ?_, ?_⟩
  · rw [opt_matches_iff, opt_matches_iff, (h s).2, (h s).1]
  · exact ⟨fun h => (opt_not_fails h).elim, fun h => (opt_not_fails h).elim⟩

theorem SameMatches.not {a b : Expr} {i j : Nat} (h : SameMatches G X a b) : SameMatches G X (.not i a) (.not j b) := by
  intro s
  refine ⟨fun s' => ?_, ?_⟩
  · rw [not_matches_iff, not_matches_iff, (h s).2]
  · rw [not_fails_iff, not_fails_iff]; exact exists_congr fun s' => (h s).1 s'

theorem SameMatches.and {a b : Expr} {i j : Nat} (h : SameMatches G X a b) : SameMatches G X (.and i a) (.and j b) := by
  intro s
  refine ⟨fun s' => ?_, ?_⟩
  · rw [and_matches_iff, and_matches_iff]; exact and_congr_right fun _ => exists_congr fun s' => (h s).1 s'
  · rw [and_fails_iff, and_fails_iff, (h s).2]

/-- Applying an operator. -/
def applyOp : Op → Expr → Expr
  | .and, x => .and 0 x
  | .not, x => .not 0 x
  | .optional, x => .opt 0 x
  | .oneOrMore, x => .plus 0 x
  | .zeroOrMore, x => .star 0 x
  | .nothing, x => x

theorem Direct.same {e : Expr} {op : Op} {x : Expr} (h : Direct G e op x) : SameMatches G X e (applyOp op x) := by
  have wrap : ∀ {e e' y : Expr}, SameMatches G X e y → (∀ s s', Matches G X e' s s' ↔ Matches G X e s s') → (∀ s, Fails G X e' s ↔ Fails G X e s) →
      SameMatches G X e' y := fun h h1 h2 => SameMatches.trans (fun s => ⟨h1 s, h2 s⟩) h
  induction h with
  | opt => exact SameMatches.opt .rfl
  | plus => exact SameMatches.plus .rfl
  | star => exact SameMatches.star .rfl
  | not => exact SameMatches.not .rfl
  | and => exact SameMatches.and .rfl
  | nt he _ ih =>
    refine wrap ih (fun s s' => ⟨?_, ?_⟩) (fun s => ⟨?_, ?_⟩)
    · rintro ⟨t, L, hP⟩; cases hP with
      | nt_ok he' hP => rw [he] at he'; cases he'; exact ⟨_, _, hP⟩
    · rintro ⟨t, L, hP⟩; exact ⟨_, _, .nt_ok he hP⟩
    · rintro ⟨L, hP⟩; cases hP with
      | nt_fail he' hP => rw [he] at he'; cases he'; exact ⟨_, hP⟩
    · rintro ⟨L, hP⟩; exact ⟨_, .nt_fail he hP⟩
  | act _ ih =>
    refine wrap ih (fun s s' => ⟨?_, ?_⟩) (fun s => ⟨?_, ?_⟩)
    · rintro ⟨t, L, hP⟩; cases hP; exact ⟨_, _, ‹_›⟩
    · rintro ⟨t, L, hP⟩; exact ⟨_, _, .act_ok hP⟩
    · rintro ⟨L, hP⟩; cases hP; exact ⟨_, ‹_›⟩
    · rintro ⟨L, hP⟩; exact ⟨_, .act_fail hP⟩
  | asc _ ih =>
    refine wrap ih (fun s s' => ⟨?_, ?_⟩) (fun s => ⟨?_, ?_⟩)
    · rintro ⟨t, L, hP⟩; cases hP; exact ⟨_, _, ‹_›⟩
    · rintro ⟨t, L, hP⟩; exact ⟨_, _, .asc_ok hP⟩
    · rintro ⟨L, hP⟩; cases hP; exact ⟨_, ‹_›⟩
    · rintro ⟨L, hP⟩; exact ⟨_, .asc_fail hP⟩
  | span _ ih =>
    refine wrap ih (fun s s' => ⟨?_, ?_⟩) (fun s => ⟨?_, ?_⟩)
    · rintro ⟨t, L, hP⟩; cases hP; exact ⟨_, _, ‹_›⟩
    · rintro ⟨t, L, hP⟩; exact ⟨_, _, .span_ok hP⟩
    · rintro ⟨L, hP⟩; cases hP; exact ⟨_, ‹_›⟩
    · rintro ⟨L, hP⟩; exact ⟨_, .span_fail hP⟩
  | range _ ih =>
    refine wrap ih (fun s s' => ⟨?_, ?_⟩) (fun s => ⟨?_, ?_⟩)
    · rintro ⟨t, L, hP⟩; cases hP; exact ⟨_, _, ‹_›⟩
    · rintro ⟨t, L, hP⟩; exact ⟨_, _, .range_ok hP⟩
    · rintro ⟨L, hP⟩; cases hP; exact ⟨_, ‹_›⟩
    · rintro ⟨L, hP⟩; exact ⟨_, .range_fail hP⟩

theorem Direct.nullable {e : Expr} {x : Expr} {op : Op} (h : Direct G e op x) (ho : op = .zeroOrMore) : Nullable G e := by
  induction h with
  | star => exact .star
  | nt he _ ih => exact .nt he (ih ho)
  | act _ ih => exact .act (ih ho)
  | asc _ ih => exact .asc (ih ho)
  | span _ ih => exact .span (ih ho)
  | range _ ih => exact .range (ih ho)
  | _ => cases ho

theorem not_not_same (x : Expr) : SameMatches G X (.not 0 (.not 0 x)) (.and 0 x) := by
  intro s
  refine ⟨fun s' => ?_, ?_⟩
  · rw [not_matches_iff, not_fails_iff, and_matches_iff]
  · rw [not_fails_iff, and_fails_iff]
    constructor
    · rintro ⟨s', h⟩; exact (not_matches_iff.1 h).2
    · intro h; exact ⟨s, not_matches_iff.2 ⟨rfl, h⟩⟩

theorem and_and_same (x : Expr) : SameMatches G X (.and 0 (.and 0 x)) (.and 0 x) := by
  intro s
  refine ⟨fun s' => ?_, ?_⟩
  · rw [and_matches_iff, and_matches_iff]
    constructor
    · rintro ⟨h, s1, h1⟩; exact ⟨h, (and_matches_iff.1 h1).2⟩
    · rintro ⟨h, h1⟩; exact ⟨h, s, and_matches_iff.2 ⟨rfl, h1⟩⟩
  · rw [and_fails_iff]

theorem not_and_same (x : Expr) : SameMatches G X (.not 0 (.and 0 x)) (.not 0 x) := by
  intro s
  refine ⟨fun s' => ?_, ?_⟩
  · rw [not_matches_iff, not_matches_iff, and_fails_iff]
  · rw [not_fails_iff, not_fails_iff]
    constructor
    · rintro ⟨s1, h1⟩; exact (and_matches_iff.1 h1).2
    · intro h1; exact ⟨s, and_matches_iff.2 ⟨rfl, h1⟩⟩

theorem and_not_same (x : Expr) : SameMatches G X (.and 0 (.not 0 x)) (.not 0 x) := by
  intro s
  refine ⟨fun s' => ?_, ?_⟩
  · rw [and_matches_iff, not_matches_iff]
    constructor
    · rintro ⟨h, s1, h1⟩; exact ⟨h, (not_matches_iff.1 h1).2⟩
    · rintro ⟨h, h1⟩; exact ⟨h, s, not_matches_iff.2 ⟨rfl, h1⟩⟩
  · rw [and_fails_iff]

theorem opt_opt_same (x : Expr) : SameMatches G X (.opt 0 (.opt 0 x)) (.opt 0 x) := by
  intro s
  refine ⟨fun s' => ?_, ?_⟩
  · rw [opt_matches_iff]
    constructor
    · rintro (h | ⟨h, _⟩)
      · exact h
      · exact (opt_not_fails h).elim
    · exact .inl
  · exact ⟨fun h => (opt_not_fails h).elim, fun h => (opt_not_fails h).elim⟩

theorem opt_star_same (x : Expr) : SameMatches G X (.opt 0 (.star 0 x)) (.star 0 x) := by
  intro s
  refine ⟨fun s' => ?_, ?_⟩
  · rw [opt_matches_iff]
    constructor
    · rintro (h | ⟨h, _⟩)
      · exact h
      · exact (star_not_fails h).elim
    · exact .inl
  · exact ⟨fun h => (opt_not_fails h).elim, fun h => (star_not_fails h).elim⟩

theorem opt_plus_same (x : Expr) : SameMatches G X (.opt 0 (.plus 0 x)) (.star 0 x) := by
  intro s
  refine ⟨fun s' => ?_, ?_⟩
  · rw [opt_matches_iff, plus_matches_iff, star_matches_iff, plus_fails_iff]
    constructor
    · rintro (⟨⟨k, hk⟩, h⟩ | ⟨h, rfl⟩)
      · exact ⟨⟨k + 1, hk⟩, h⟩
      · exact ⟨⟨0, .zero⟩, h⟩
    · rintro ⟨⟨k, hk⟩, h⟩
      cases hk with
      | zero => exact .inr ⟨h, rfl⟩
      | succ h1 h2 => exact .inl ⟨⟨_, .succ h1 h2⟩, h⟩
  · exact ⟨fun h => (opt_not_fails h).elim, fun h => (star_not_fails h).elim⟩

theorem plus_plus_same (hX : X.Det) (x : Expr) : SameMatches G X (.plus 0 (.plus 0 x)) (.plus 0 x) := by
  intro s
  refine ⟨fun s' => ?_, ?_⟩
  · constructor
    · intro h
      obtain ⟨⟨k, hk⟩, hf⟩ := plus_matches_iff.1 h
      cases hk with
      | succ h1 h2 =>
        cases h2 with
        | zero => exact h1
        | succ h3 _ =>
          have hf1 := (plus_matches_iff.1 h1).2
          exact (h3.not_fails hX (plus_fails_iff.2 hf1)).elim
    · intro h
      exact plus_matches_iff.2 ⟨⟨0, .succ h .zero⟩, plus_fails_iff.2 (plus_matches_iff.1 h).2⟩
  · rw [plus_fails_iff]

/-- All the rewritings but `(e+)* ~> e+` and `(e*)* ~> e*` are equivalences. -/
theorem checkChain_same (hX : X.Det) {outer inner : Op} {crossed : Bool} {p r : String} (h : checkChain outer inner crossed = some (p, r)) (x : Expr)
    (h1 : p ≠ "(e+)*") (h2 : p ≠ "(e*)*") : ∃ y, described x r = some y ∧ SameMatches G X (applyOp outer (applyOp inner x)) y := by
  unfold checkChain at h
  split at h <;> cases h
  · exact ⟨_, rfl, not_not_same x⟩
  · exact ⟨_, rfl, and_and_same x⟩
  · exact ⟨_, rfl, not_and_same x⟩
  · exact ⟨_, rfl, and_not_same x⟩
  · exact ⟨_, rfl, opt_opt_same x⟩
  · exact ⟨_, rfl, opt_plus_same x⟩
  · exact ⟨_, rfl, opt_star_same x⟩
  · exact ⟨_, rfl, plus_plus_same hX x⟩
  · exact absurd rfl h1
  · exact absurd rfl h2

theorem checkChain_pattern {outer inner : Op} {crossed : Bool} {p r : String} (h : checkChain outer inner crossed = some (p, r)) (x : Expr) :
    described x p = some (applyOp outer (applyOp inner x)) := by
  unfold checkChain at h
  split at h <;> cases h <;> rfl

theorem rootOp_same {e c y : Expr} {op : Op} (h : rootOp e = some (op, c)) (hc : SameMatches G X c y) : SameMatches G X e (applyOp op y) := by
  unfold rootOp at h
  split at h <;> cases h
  · exact hc.opt
  · exact hc.plus
  · exact hc.star
  · exact hc.not
  · exact hc.and

end Oak
