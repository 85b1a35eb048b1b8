import Verif.Proofs.Pipeline
/-!
The bounds of the model do not change the expansion of the macro.
-/
set_option linter.constructorNameAsVariable false
set_option autoImplicit false

namespace Oak
open Typing (RLe)

section
variable {vr vr' : String → WState → Res (WFA × WState)}

theorem visitExpr_mono (h : ∀ r st, RLe (vr r st) (vr' r st)) (e : Expr) : ∀ st, RLe (visitExpr vr e st) (visitExpr vr' e st) := by
  have hseq : ∀ (es : List Expr), (∀ e ∈ es, ∀ st, RLe (visitExpr vr e st) (visitExpr vr' e st)) → ∀ w st, RLe (visitSeq vr w es st) (visitSeq vr' w es st) := by
    intro es
    induction es with
    | nil => intro _ w st; rw [visitSeq, visitSeq]; exact .refl _
    | cons e es ih =>
      intro h w st
      rw [visitSeq, visitSeq]
      exact (h e (by simp) st).bind fun x => ih (fun e he => h e (by simp [he])) _ _
  have hcho : ∀ (this : Expr) (es : List Expr), (∀ e ∈ es, ∀ st, RLe (visitExpr vr e st) (visitExpr vr' e st)) →
      ∀ w st, RLe (visitChoice vr this w es st) (visitChoice vr' this w es st) := by
    intro this es
    induction es with
    | nil => intro _ w st; rw [visitChoice, visitChoice]; exact .refl _
    | cons e es ih =>
      intro h w st
      rw [visitChoice, visitChoice]
      exact (h e (by simp) st).bind fun x => .ite (.refl _) (ih (fun e he => h e (by simp [he])) _ _)
  induction e using Expr.ind with
  | str | any | cls | ext => intro st; rw [visitExpr, visitExpr]; exact .refl _
  | nt i r => intro st; rw [visitExpr, visitExpr]; exact (h r st).bind fun x => .refl _
  | seq i es ih => intro st; rw [visitExpr, visitExpr]; exact (hseq es ih _ _).bind fun x => .refl _
  | choice i es ih => intro st; rw [visitExpr, visitExpr]; exact (hcho _ es ih _ _).bind fun x => .refl _
  | star i e ih | plus i e ih | opt i e ih | not i e ih | and i e ih | act i e b f ih | asc i e t ih | span i e ih | range i e ih =>
    intro st; rw [visitExpr, visitExpr]; exact (ih st).bind fun x => .refl _

theorem enterRule_mono {G : Grammar} {ve ve' : Expr → WState → Res (WFA × WState)} (h : ∀ e st, RLe (ve e st) (ve' e st)) (r : String) (st : WState) :
    RLe (enterRule G ve r st) (enterRule G ve' r st) := by
  unfold enterRule
  refine .ite (.refl _) ?_
  cases G.find r with
  | none => exact .refl _
  | some e => exact (h e _).bind fun x => .refl _

end

theorem visitRule_mono {G : Grammar} {n n' : Nat} (hn : n ≤ n') (r : String) (st : WState) : RLe (visitRule G n r st) (visitRule G n' r st) := by
  induction n generalizing n' r st with
  | zero => exact .inl rfl
  | succ n ih =>
    cases n' with
    | zero => omega
    | succ n' =>
      rw [visitRule, visitRule]
      exact (enterRule_mono (visitExpr_mono fun r st => ih (by omega) r st) r st).bind fun x => .refl _

theorem visitEach_mono {G : Grammar} {n n' : Nat} (hn : n ≤ n') (rs : List (String × Expr)) (st : WState) : RLe (visitEach G n rs st) (visitEach G n' rs st) := by
  induction rs generalizing st with
  | nil => exact .refl _
  | cons r rs ih =>
    rw [visitEach, visitEach]
    exact (visitRule_mono hn r.1 st).bind fun x => .ite (.refl _) (ih _)

theorem visitRules_mono {G : Grammar} {n n' m m' : Nat} (hn : n ≤ n') (hm : m ≤ m') (st : WState) : RLe (visitRules G n m st) (visitRules G n' m' st) := by
  induction m generalizing m' st with
  | zero => exact .inl rfl
  | succ m ih =>
    cases m' with
    | zero => omega
    | succ m' =>
      rw [visitRules, visitRules]
      exact .ite ((visitEach_mono hn _ _).bind fun x => ih (by omega) _) (.refl _)

section
variable {vr vr' : String → Res (Op × Bool)}

theorem innerExpr_mono (h : ∀ r, RLe (vr r) (vr' r)) (e : Expr) : RLe (innerExpr vr e) (innerExpr vr' e) := by
  have hcho : ∀ (es : List Expr), (∀ e ∈ es, RLe (innerExpr vr e) (innerExpr vr' e)) → ∀ op c, RLe (innerBranches vr op c es) (innerBranches vr' op c es) := by
    intro es
    induction es with
    | nil => intro _ op c; rw [innerBranches, innerBranches]; exact .refl _
    | cons e es ih =>
      intro h op c
      rw [innerBranches, innerBranches]
      exact (h e (by simp)).bind fun x => .ite (.refl _) (ih (fun e he => h e (by simp [he])) _ _)
  induction e using Expr.ind with
  | str | any | cls | ext | star | plus | opt | not | and => rw [innerExpr, innerExpr]; exact .refl _
  | nt i r => rw [innerExpr, innerExpr]; exact (h r).bind fun x => .refl _
  | seq i es ih =>
    cases es with
    | nil => rw [innerExpr, innerExpr]; exact .refl _
    | cons e es => rw [innerExpr, innerExpr]; exact ih e (by simp)
  | choice i es ih =>
    cases es with
    | nil => rw [innerExpr, innerExpr]; exact .refl _
    | cons e es =>
      rw [innerExpr, innerExpr]
      exact (ih e (by simp)).bind fun x => (ih e (by simp)).bind fun y => .ite (.refl _) (hcho es (fun e he => ih e (by simp [he])) _ _)
  | act i e b f ih | asc i e t ih | span i e ih | range i e ih => rw [innerExpr, innerExpr]; exact ih

theorem chainAndVisit_mono {o : Op} {this : Expr} {x x' : Res (Op × Bool)} {y y' : Res (List Warning)} (h : RLe x x') (h' : RLe y y') :
    RLe (chainAndVisit o this x y) (chainAndVisit o this x' y') := by
  unfold chainAndVisit
  refine h.bind fun z => ?_
  obtain ⟨op, c⟩ := z
  dsimp only
  cases checkChain o op c with
  | some _ => exact .refl _
  | none => exact h'

theorem chainExpr_mono (h : ∀ r, RLe (vr r) (vr' r)) (e : Expr) : RLe (chainExpr vr e) (chainExpr vr' e) := by
  have hall : ∀ (es : List Expr), (∀ e ∈ es, RLe (chainExpr vr e) (chainExpr vr' e)) → RLe (chainAll vr es) (chainAll vr' es) := by
    intro es
    induction es with
    | nil => intro _; rw [chainAll, chainAll]; exact .refl _
    | cons e es ih =>
      intro h
      rw [chainAll, chainAll]
      exact (h e (by simp)).bind fun x => (ih fun e he => h e (by simp [he])).bind fun y => .refl _
  induction e using Expr.ind with
  | str | any | cls | ext | nt => rw [chainExpr, chainExpr]; exact .refl _
  | seq i es ih | choice i es ih => rw [chainExpr, chainExpr]; exact hall es ih
  | star i e ih | plus i e ih | opt i e ih | not i e ih | and i e ih => rw [chainExpr, chainExpr]; exact chainAndVisit_mono (innerExpr_mono h e) ih
  | act i e b f ih | asc i e t ih | span i e ih | range i e ih => rw [chainExpr, chainExpr]; exact ih

end

theorem innerRule_mono {G : Grammar} {n n' : Nat} (hn : n ≤ n') (r : String) : RLe (innerRule G n r) (innerRule G n' r) := by
  induction n generalizing n' r with
  | zero => exact .inl rfl
  | succ n ih =>
    cases n' with
    | zero => omega
    | succ n' =>
      rw [innerRule, innerRule]
      cases G.find r with
      | none => exact .refl _
      | some e => exact innerExpr_mono (fun r => ih (by omega) r) e

theorem chaining_mono {G : Grammar} {n n' : Nat} (hn : n ≤ n') : RLe (chaining G n) (chaining G n') := by
  unfold chaining
  generalize G.rules.map (·.2) = es
  induction es with
  | nil => rw [chainAll, chainAll]; exact .refl _
  | cons e es ih =>
    rw [chainAll, chainAll]
    exact (chainExpr_mono (fun r => innerRule_mono hn r) e).bind fun x => ih.bind fun y => .refl _

theorem andThen_mono {α β : Type} {x x' : Phase α} {f f' : α → Phase β} (h : RLe x x') (hf : ∀ a, RLe (f a) (f' a)) :
    RLe (Phase.andThen x f) (Phase.andThen x' f') := by
  unfold Phase.andThen
  refine h.bind fun y => ?_
  obtain ⟨p, ms⟩ := y
  cases p with
  | value a => exact (hf a).bind fun z => .refl _
  | fake a => exact (hf a).bind fun z => .refl _
  | nothing => exact .refl _

theorem analysisPhase_mono {n n' m m' : Nat} (hn : n ≤ n') (hm : m ≤ m') (F : FGrammar) : RLe (analysisPhase n m F) (analysisPhase n' m' F) := by
  unfold analysisPhase
  refine andThen_mono (.refl _) fun F => ?_
  unfold analyse
  refine andThen_mono (andThen_mono (andThen_mono (andThen_mono (.refl _) fun _ => .refl _) fun A => ?_) fun A => ?_) fun _ => .refl _
  · unfold wellFormedPhase
    exact (visitRules_mono hn hm _).bind fun _ => .refl _
  · unfold chainPhase
    exact (chaining_mono hn).bind fun _ => .refl _

theorem typeAndCompile_mono {n n' : Nat} (hn : n ≤ n') (k : Nat) (A : AGrammar) (ms : List Msg) : RLe (typeAndCompile n k A ms) (typeAndCompile n' k A ms) := by
  unfold typeAndCompile
  exact (Typing.typeInference_mono hn hn).bind fun _ => .refl _

theorem checkAndCompile_mono {n n' : Nat} (hn : n ≤ n') (k : Nat) (F : FGrammar) : RLe (checkAndCompile n k F) (checkAndCompile n' k F) := by
  unfold checkAndCompile
  refine (analysisPhase_mono hn hn F).bind fun y => ?_
  obtain ⟨p, ms⟩ := y
  cases p with
  | value A => exact typeAndCompile_mono hn k _ ms
  | _ => exact .refl _

theorem oak_mono {n n' : Nat} (hn : n ≤ n') (ts : List Tok) : RLe (oak n ts) (oak n' ts) := by
  unfold oak
  rcases Classical.em (parseBlocks n 0 ts = .timeout) with h | h
  · rw [h]; exact .inl rfl
  · rw [parseBlocks_mono hn h]
    cases parseBlocks n 0 ts with
    | ok x => exact checkAndCompile_mono hn _ _
    | _ => exact .refl _

end Oak
