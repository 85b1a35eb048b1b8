import Verif.Spec.Renaming
import Verif.Proofs.TypingBase
import Verif.Proofs.WFExact
/-!
Grammars that differ by the presentation.
-/
set_option linter.constructorNameAsVariable false
set_option autoImplicit false

namespace Oak
open Spec

variable {ρ : String → String → Prop} {G G' : Grammar} {X : ExtSpec}

/-! ### The relation -/

theorem Likeness.swap {e : Expr} : ∀ {e' : Expr}, Likeness ρ e e' → Likeness (fun a b => ρ b a) e' e := by
  have hl : ∀ {es : List Expr}, (∀ e ∈ es, ∀ {e' : Expr}, Likeness ρ e e' → Likeness (fun a b => ρ b a) e' e) → ∀ {es' : List Expr}, LikenessAll ρ es es' →
      LikenessAll (fun a b => ρ b a) es' es := by
    intro es
    induction es with
    | nil => intro _ es' h; cases h; exact .nil
    | cons e es ih =>
      intro hi es' h
      cases h with
      | cons h1 h2 => exact .cons (hi e List.mem_cons_self h1) (ih (fun x hx => hi x (List.mem_cons_of_mem _ hx)) h2)
  induction e using Expr.ind with
  | str => intro e' h; cases h; exact .str
  | any => intro e' h; cases h; exact .any
  | cls => intro e' h; cases h; exact .cls
  | nt => intro e' h; cases h with | nt h => exact .nt h
  | ext => intro e' h; cases h; exact .ext
  | seq _ _ ih => intro e' h; cases h with | seq h => exact .seq (hl ih h)
  | choice _ _ ih => intro e' h; cases h with | choice h => exact .choice (hl ih h)
  | star _ _ ih => intro e' h; cases h with | star h => exact .star (ih h)
  | plus _ _ ih => intro e' h; cases h with | plus h => exact .plus (ih h)
  | opt _ _ ih => intro e' h; cases h with | opt h => exact .opt (ih h)
  | not _ _ ih => intro e' h; cases h with | not h => exact .not (ih h)
  | and _ _ ih => intro e' h; cases h with | and h => exact .and (ih h)
  | act _ _ _ _ ih => intro e' h; cases h with | act h => exact .act (ih h)
  | asc _ _ _ ih => intro e' h; cases h with | asc h => exact .asc (ih h)
  | span _ _ ih => intro e' h; cases h with | span h => exact .span (ih h)
  | range _ _ ih => intro e' h; cases h with | range h => exact .range (ih h)

theorem Corresponds.swap (h : Corresponds ρ G G') : Corresponds (fun a b => ρ b a) G' G := by
  intro r r' hr
  obtain ⟨b, b', h1, h2, h3⟩ := h r' r hr
  exact ⟨b', b, h2, h1, h3.swap⟩

theorem Corresponds.body (h : Corresponds ρ G G') {r r' : String} {b : Expr} (hr : ρ r r') (hb : G.find r = some b) :
    ∃ b', G'.find r' = some b' ∧ Likeness ρ b b' := by
  obtain ⟨c, c', h1, h2, h3⟩ := h r r' hr
  rw [hb] at h1; cases h1
  exact ⟨c', h2, h3⟩

theorem LikenessAll.get {es es' : List Expr} (h : LikenessAll ρ es es') : ∀ {k : Nat} {e : Expr}, es[k]? = some e → ∃ e', es'[k]? = some e' ∧ Likeness ρ e e' := by
  induction es generalizing es' with
  | nil => intro k e he; simp at he
  | cons a es ih =>
    cases h with
    | cons h1 h2 =>
      intro k e he
      cases k with
      | zero => simp only [List.getElem?_cons_zero, Option.some.injEq] at he; subst he; exact ⟨_, by simp, h1⟩
      | succ k => simp only [List.getElem?_cons_succ] at he ⊢; exact ih h2 he

theorem LikenessAll.mem {es es' : List Expr} (h : LikenessAll ρ es es') {e : Expr} (he : e ∈ es) : ∃ e' ∈ es', Likeness ρ e e' := by
  obtain ⟨k, hk⟩ := List.getElem?_of_mem he
  obtain ⟨e', h1, h2⟩ := h.get hk
  exact ⟨e', List.mem_of_getElem? h1, h2⟩

theorem LikenessAll.swap {es es' : List Expr} (h : LikenessAll ρ es es') : LikenessAll (fun a b => ρ b a) es' es := by
  have := Likeness.swap (Likeness.seq (i := 0) (j := 0) h)
  cases this with | seq h => exact h

theorem LikenessAll.mem' {es es' : List Expr} (h : LikenessAll ρ es es') {e' : Expr} (he : e' ∈ es') : ∃ e ∈ es, Likeness ρ e e' := by
  obtain ⟨e, h1, h2⟩ := h.swap.mem he
  exact ⟨e, h1, h2.swap⟩

theorem LikenessAll.append {pre es es' : List Expr} (h : LikenessAll ρ (pre ++ es) es') : ∃ pre' es'', es' = pre' ++ es'' ∧ LikenessAll ρ pre pre' ∧ LikenessAll ρ es es'' := by
  induction pre generalizing es' with
  | nil => exact ⟨[], es', rfl, .nil, h⟩
  | cons a pre ih =>
    cases h with
    | cons h1 h2 =>
      obtain ⟨p, q, rfl, h3, h4⟩ := ih h2
      exact ⟨_ :: p, q, rfl, .cons h1 h3, h4⟩

/-! ### The language -/

theorem Peg.alike (hc : Corresponds ρ G G') {e : Expr} {s : List Char} {o : Out} {L : Log} (h : Peg G X e s o L) :
    ∀ {e' : Expr}, Likeness ρ e e' → Peg G' X e' s o L := by
  induction h with
  | str_ok => intro e' h; cases h; exact .str_ok
  | str_fail hn => intro e' h; cases h; exact .str_fail hn
  | any_ok => intro e' h; cases h; exact .any_ok
  | any_fail => intro e' h; cases h; exact .any_fail
  | cls_ok hn => intro e' h; cases h; exact .cls_ok hn
  | cls_fail hn => intro e' h; cases h; exact .cls_fail hn
  | cls_eof => intro e' h; cases h; exact .cls_eof
  | nt_ok hf _ ih => intro e' h; cases h with | nt h => obtain ⟨b', h1, h2⟩ := hc.body h hf; exact .nt_ok h1 (ih h2)
  | nt_fail hf _ ih => intro e' h; cases h with | nt h => obtain ⟨b', h1, h2⟩ := hc.body h hf; exact .nt_fail h1 (ih h2)
  | ext hx => intro e' h; cases h; exact .ext hx
  | seq_nil => intro e' h; cases h with | seq h => cases h; exact .seq_nil
  | seq_cons _ _ ih1 ih2 => intro e' h; cases h with | @seq _ j _ _ h => cases h with | cons h1 h2 => exact .seq_cons (ih1 h1) (ih2 (.seq (j := j) h2))
  | seq_fail _ ih1 => intro e' h; cases h with | seq h => cases h with | cons h1 h2 => exact .seq_fail (ih1 h1)
  | seq_later _ _ ih1 ih2 => intro e' h; cases h with | @seq _ j _ _ h => cases h with | cons h1 h2 => exact .seq_later (ih1 h1) (ih2 (.seq (j := j) h2))
  | choice_nil => intro e' h; cases h with | choice h => cases h; exact .choice_nil
  | choice_first _ ih1 => intro e' h; cases h with | choice h => cases h with | cons h1 h2 => exact .choice_first (ih1 h1)
  | choice_next _ _ ih1 ih2 => intro e' h; cases h with | @choice _ j _ _ h => cases h with | cons h1 h2 => exact .choice_next (ih1 h1) (ih2 (.choice (j := j) h2))
  | choice_fail _ _ ih1 ih2 => intro e' h; cases h with | @choice _ j _ _ h => cases h with | cons h1 h2 => exact .choice_fail (ih1 h1) (ih2 (.choice (j := j) h2))
  | star_stop _ ih => intro e' h; cases h with | star h => exact .star_stop (ih h)
  | star_more _ _ ih1 ih2 => intro e' h; cases h with | @star _ j _ _ h => exact .star_more (ih1 h) (ih2 (.star (j := j) h))
  | plus_fail _ ih => intro e' h; cases h with | plus h => exact .plus_fail (ih h)
  | plus_ok _ _ ih1 ih2 => intro e' h; cases h with | @plus _ j _ _ h => exact .plus_ok (ih1 h) (ih2 (.star (j := j) h))
  | opt_some _ ih => intro e' h; cases h with | opt h => exact .opt_some (ih h)
  | opt_none _ ih => intro e' h; cases h with | opt h => exact .opt_none (ih h)
  | not_ok _ ih => intro e' h; cases h with | not h => exact .not_ok (ih h)
  | not_fail _ ih => intro e' h; cases h with | not h => exact .not_fail (ih h)
  | and_ok _ ih => intro e' h; cases h with | and h => exact .and_ok (ih h)
  | and_fail _ ih => intro e' h; cases h with | and h => exact .and_fail (ih h)
  | act_ok _ ih => intro e' h; cases h with | act h => exact .act_ok (ih h)
  | act_fail _ ih => intro e' h; cases h with | act h => exact .act_fail (ih h)
  | asc_ok _ ih => intro e' h; cases h with | asc h => exact .asc_ok (ih h)
  | asc_fail _ ih => intro e' h; cases h with | asc h => exact .asc_fail (ih h)
  | span_ok _ ih => intro e' h; cases h with | span h => exact .span_ok (ih h)
  | span_fail _ ih => intro e' h; cases h with | span h => exact .span_fail (ih h)
  | range_ok _ ih => intro e' h; cases h with | range h => exact .range_ok (ih h)
  | range_fail _ ih => intro e' h; cases h with | range h => exact .range_fail (ih h)

theorem peg_alike (hc : Corresponds ρ G G') {e e' : Expr} {s : List Char} {o : Out} {L : Log} (he : Likeness ρ e e') :
    Peg G X e s o L ↔ Peg G' X e' s o L :=
  ⟨fun h => Peg.alike hc h he, fun h => Peg.alike hc.swap h he.swap⟩

/-! ### The values -/

theorem ast_alike {T T' : Nat → Ty} (hc : Corresponds ρ G G') (ht : TypesAgree ρ G G' T T') (sp : SpanSpec) (n : Nat) :
    (∀ t : Tree, sizeOf t ≤ n → ∀ e e', Likeness ρ e e' → Faces ρ G G' T e e' → ast G T sp e t = ast G' T' sp e' t) ∧
    (∀ ts : List Tree, sizeOf ts ≤ n → ∀ es es', LikenessAll ρ es es' → (∀ (k : Nat) e e', es[k]? = some e → es'[k]? = some e' → Faces ρ G G' T e e') →
      astSeq G T sp es ts = astSeq G' T' sp es' ts) ∧
    (∀ ts : List Tree, sizeOf ts ≤ n → ∀ e e', Likeness ρ e e' → Faces ρ G G' T e e' → astRep G T sp e ts = astRep G' T' sp e' ts) := by
  induction n with
  | zero =>
    refine ⟨fun t h => ?_, fun ts h => ?_, fun ts h => ?_⟩
    · cases t <;> simp at h <;> omega
    · cases ts <;> simp at h <;> omega
    · cases ts <;> simp at h <;> omega
  | succ n ih =>
    obtain ⟨ih1, ih2, ih3⟩ := ih
    refine ⟨?_, ?_, ?_⟩
    · intro t hn e e' ha hf
      have hu := ht e e' hf
      cases t with
      | leaf => simp [ast]
      | chr c => simp [ast, hu]
      | ext v => simp [ast, hu]
      | none => simp [ast, hu]
      | nt t =>
        have hn : sizeOf t ≤ n := by simp at hn; omega
        by_cases h0 : T e.id = .unit
        · simp [ast, h0, hu.1 h0]
        · have h0' : ¬ T' e'.id = .unit := fun h => h0 (hu.2 h)
          cases ha with
          | nt hr =>
            obtain ⟨b, b', h1, h2, h3⟩ := hc _ _ hr
            simp only [ast, if_neg h0, if_neg h0', h1, h2]
            exact ih1 t hn b b' h3 (.body hr h1 h2)
          | _ => simp [ast]
      | seq ts =>
        have hn : sizeOf ts ≤ n := by simp at hn; omega
        by_cases h0 : T e.id = .unit
        · simp [ast, h0, hu.1 h0]
        · have h0' : ¬ T' e'.id = .unit := fun h => h0 (hu.2 h)
          cases ha with
          | seq ha => simp only [ast, if_neg h0, if_neg h0']; exact ih2 ts hn _ _ ha fun k e e' h1 h2 => .seq hf h0 h1 h2
          | _ => simp [ast]
      | alt k t =>
        have hn : sizeOf t ≤ n := by simp at hn; omega
        by_cases h0 : T e.id = .unit
        · simp [ast, h0, hu.1 h0]
        · have h0' : ¬ T' e'.id = .unit := fun h => h0 (hu.2 h)
          cases ha with
          | @choice i j es es' ha =>
            simp only [ast, if_neg h0, if_neg h0']
            cases hk : es[k]? with
            | none =>
              cases hk' : es'[k]? with
              | none => rfl
              | some c' => obtain ⟨c, h1, _⟩ := ha.swap.get hk'; rw [hk] at h1; cases h1
            | some c =>
              obtain ⟨c', h1, h2⟩ := ha.get hk
              rw [h1]
              exact ih1 t hn c c' h2 (.choice hf h0 hk h1)
          | _ => simp [ast]
      | rep ts =>
        have hn : sizeOf ts ≤ n := by simp at hn; omega
        by_cases h0 : T e.id = .unit
        · simp [ast, h0, hu.1 h0]
        · have h0' : ¬ T' e'.id = .unit := fun h => h0 (hu.2 h)
          cases ha with
          | star ha => simp only [ast, if_neg h0, if_neg h0']; rw [ih3 ts hn _ _ ha (.star hf h0)]
          | plus ha => simp only [ast, if_neg h0, if_neg h0']; rw [ih3 ts hn _ _ ha (.plus hf h0)]
          | _ => simp [ast]
      | some t =>
        have hn : sizeOf t ≤ n := by simp at hn; omega
        by_cases h0 : T e.id = .unit
        · simp [ast, h0, hu.1 h0]
        · have h0' : ¬ T' e'.id = .unit := fun h => h0 (hu.2 h)
          cases ha with
          | opt ha => simp only [ast, if_neg h0, if_neg h0']; rw [ih1 t hn _ _ ha (.opt hf h0)]
          | _ => simp [ast]
      | act t =>
        have hn : sizeOf t ≤ n := by simp at hn; omega
        by_cases h0 : T e.id = .unit
        · simp [ast, h0, hu.1 h0]
        · have h0' : ¬ T' e'.id = .unit := fun h => h0 (hu.2 h)
          cases ha with
          | act ha =>
            simp only [ast, if_neg h0, if_neg h0']
            have hfc := Faces.act hf h0
            rw [ih1 t hn _ _ ha hfc]
            have := ht _ _ hfc
            simp only [this]
          | _ => simp [ast]
      | asc t =>
        have hn : sizeOf t ≤ n := by simp at hn; omega
        by_cases h0 : T e.id = .unit
        · simp [ast, h0, hu.1 h0]
        · have h0' : ¬ T' e'.id = .unit := fun h => h0 (hu.2 h)
          cases ha with
          | asc ha => simp only [ast, if_neg h0, if_neg h0']; exact ih1 t hn _ _ ha (.asc hf h0)
          | _ => simp [ast]
      | spanned lo hi t =>
        have hn : sizeOf t ≤ n := by simp at hn; omega
        by_cases h0 : T e.id = .unit
        · simp [ast, h0, hu.1 h0]
        · have h0' : ¬ T' e'.id = .unit := fun h => h0 (hu.2 h)
          cases ha with
          | span ha => simp only [ast, if_neg h0, if_neg h0']; rw [ih1 t hn _ _ ha (.span hf h0)]
          | range ha => simp only [ast, if_neg h0, if_neg h0']; rw [ih1 t hn _ _ ha (.range hf h0)]
          | _ => simp [ast]
    · intro ts hn es es' ha hf
      cases ts with
      | nil => simp [astSeq]
      | cons t ts =>
        have hn1 : sizeOf t ≤ n := by simp at hn; omega
        have hn2 : sizeOf ts ≤ n := by simp at hn; omega
        cases ha with
        | nil => simp [astSeq]
        | cons h1 h2 =>
          rw [astSeq, astSeq, ih1 t hn1 _ _ h1 (hf 0 _ _ (by simp) (by simp)), ih2 ts hn2 _ _ h2 fun k e e' g1 g2 => hf (k + 1) e e' (by simpa using g1) (by simpa using g2)]
    · intro ts hn e e' ha hf
      cases ts with
      | nil => simp [astRep]
      | cons t ts =>
        have hn1 : sizeOf t ≤ n := by simp at hn; omega
        have hn2 : sizeOf ts ≤ n := by simp at hn; omega
        rw [astRep, astRep, ih1 t hn1 _ _ ha hf, ih3 ts hn2 _ _ ha hf]

/-! ### Well-formedness -/

theorem Nullable.alike (hc : Corresponds ρ G G') {e : Expr} (h : Nullable G e) : ∀ {e' : Expr}, Likeness ρ e e' → Nullable G' e' := by
  induction h with
  | str => intro e' h; cases h; exact .str
  | nt hf _ ih => intro e' h; cases h with | nt h => obtain ⟨b', h1, h2⟩ := hc.body h hf; exact .nt h1 (ih h2)
  | seq _ ih => intro e' h; cases h with | seq h => exact .seq fun x hx => by obtain ⟨y, h1, h2⟩ := h.mem' hx; exact ih y h1 h2
  | choice hm _ ih => intro e' h; cases h with | choice h => obtain ⟨y, h1, h2⟩ := h.mem hm; exact .choice h1 (ih h2)
  | star => intro e' h; cases h; exact .star
  | plus _ ih => intro e' h; cases h with | plus h => exact .plus (ih h)
  | opt => intro e' h; cases h; exact .opt
  | not => intro e' h; cases h; exact .not
  | and => intro e' h; cases h; exact .and
  | act _ ih => intro e' h; cases h with | act h => exact .act (ih h)
  | asc _ ih => intro e' h; cases h with | asc h => exact .asc (ih h)
  | span _ ih => intro e' h; cases h with | span h => exact .span (ih h)
  | range _ ih => intro e' h; cases h with | range h => exact .range (ih h)

theorem LeftCalls.alike (hc : Corresponds ρ G G') {q : String} {e : Expr} (h : LeftCalls G q e) : ∀ {e' : Expr}, Likeness ρ e e' → ∃ q', ρ q q' ∧ LeftCalls G' q' e' := by
  induction h with
  | nt => intro e' h; cases h with | nt h => exact ⟨_, h, .nt⟩
  | seq_head _ ih => intro e' h; cases h with | seq h => cases h with | cons h _ => obtain ⟨q', h1, h2⟩ := ih h; exact ⟨q', h1, .seq_head h2⟩
  | seq_tail hn _ ih =>
    intro e' h
    cases h with | @seq _ j _ _ h => cases h with | cons h h' => obtain ⟨q', h1, h2⟩ := ih (.seq (j := j) h'); exact ⟨q', h1, .seq_tail (hn.alike hc h) h2⟩
  | choice hm _ ih =>
    intro e' h
    cases h with | choice h => obtain ⟨y, g1, g2⟩ := h.mem hm; obtain ⟨q', h1, h2⟩ := ih g2; exact ⟨q', h1, .choice g1 h2⟩
  | star _ ih => intro e' h; cases h with | star h => obtain ⟨q', h1, h2⟩ := ih h; exact ⟨q', h1, .star h2⟩
  | plus _ ih => intro e' h; cases h with | plus h => obtain ⟨q', h1, h2⟩ := ih h; exact ⟨q', h1, .plus h2⟩
  | opt _ ih => intro e' h; cases h with | opt h => obtain ⟨q', h1, h2⟩ := ih h; exact ⟨q', h1, .opt h2⟩
  | not _ ih => intro e' h; cases h with | not h => obtain ⟨q', h1, h2⟩ := ih h; exact ⟨q', h1, .not h2⟩
  | and _ ih => intro e' h; cases h with | and h => obtain ⟨q', h1, h2⟩ := ih h; exact ⟨q', h1, .and h2⟩
  | act _ ih => intro e' h; cases h with | act h => obtain ⟨q', h1, h2⟩ := ih h; exact ⟨q', h1, .act h2⟩
  | asc _ ih => intro e' h; cases h with | asc h => obtain ⟨q', h1, h2⟩ := ih h; exact ⟨q', h1, .asc h2⟩
  | span _ ih => intro e' h; cases h with | span h => obtain ⟨q', h1, h2⟩ := ih h; exact ⟨q', h1, .span h2⟩
  | range _ ih => intro e' h; cases h with | range h => obtain ⟨q', h1, h2⟩ := ih h; exact ⟨q', h1, .range h2⟩

theorem Idle.alike (hc : Corresponds ρ G G') {e : Expr} (h : Idle G e) : ∀ {e' : Expr}, Likeness ρ e e' → Idle G' e' := by
  induction h with
  | nt hf _ ih => intro e' h; cases h with | nt h => obtain ⟨b', h1, h2⟩ := hc.body h hf; exact .nt h1 (ih h2)
  | seq _ ih => intro e' h; cases h with | seq h => exact .seq fun x hx => by obtain ⟨y, h1, h2⟩ := h.mem' hx; exact ih y h1 h2
  | choice _ ih => intro e' h; cases h with | choice h => exact .choice fun x hx => by obtain ⟨y, h1, h2⟩ := h.mem' hx; exact ih y h1 h2
  | star _ ih => intro e' h; cases h with | star h => exact .star (ih h)
  | plus _ ih => intro e' h; cases h with | plus h => exact .plus (ih h)
  | opt _ ih => intro e' h; cases h with | opt h => exact .opt (ih h)
  | not => intro e' h; cases h; exact .not
  | and => intro e' h; cases h; exact .and
  | act _ ih => intro e' h; cases h with | act h => exact .act (ih h)
  | asc _ ih => intro e' h; cases h with | asc h => exact .asc (ih h)
  | span _ ih => intro e' h; cases h with | span h => exact .span (ih h)
  | range _ ih => intro e' h; cases h with | range h => exact .range (ih h)


theorem sure_alike (hc : Corresponds ρ G G') :
    (∀ e, SureOk G e → ∀ {e' : Expr}, Likeness ρ e e' → SureOk G' e') ∧ ∀ e, SureFail G e → ∀ {e' : Expr}, Likeness ρ e e' → SureFail G' e' := by
  refine sure_ind ?_ ?_ ?_ ?_ ?_ ?_ ?_ ?_ ?_ ?_ ?_ ?_ ?_ ?_ ?_ ?_ ?_ ?_ ?_ ?_ ?_ ?_ ?_
  · intro i e' h; cases h; exact .str
  · intro i r e hf ih e' h; cases h with | nt h => obtain ⟨b', h1, h2⟩ := hc.body h hf; exact .nt h1 (ih h2)
  · intro i es ih e' h; cases h with | seq h => exact .seq fun x hx => by obtain ⟨y, h1, h2⟩ := h.mem' hx; exact ih y h1 h2
  · intro i es e hm ih e' h; cases h with | choice h => obtain ⟨y, h1, h2⟩ := h.mem hm; exact .choice h1 (ih h2)
  · intro i e e' h; cases h; exact .star
  · intro i e ih e' h; cases h with | plus h => exact .plus (ih h)
  · intro i e e' h; cases h; exact .opt
  · intro i e ih e' h; cases h with | not h => exact .not (ih h)
  · intro i e ih e' h; cases h with | and h => exact .and (ih h)
  · intro i e b f ih e' h; cases h with | act h => exact .act (ih h)
  · intro i e t ih e' h; cases h with | asc h => exact .asc (ih h)
  · intro i e ih e' h; cases h with | span h => exact .span (ih h)
  · intro i e ih e' h; cases h with | range h => exact .range (ih h)
  · intro i r e hf ih e' h; cases h with | nt h => obtain ⟨b', h1, h2⟩ := hc.body h hf; exact .nt h1 (ih h2)
  · intro i es e hm ih e' h; cases h with | seq h => obtain ⟨y, h1, h2⟩ := h.mem hm; exact .seq h1 (ih h2)
  · intro i es ih e' h; cases h with | choice h => exact .choice fun x hx => by obtain ⟨y, h1, h2⟩ := h.mem' hx; exact ih y h1 h2
  · intro i e ih e' h; cases h with | plus h => exact .plus (ih h)
  · intro i e ih e' h; cases h with | not h => exact .not (ih h)
  · intro i e ih e' h; cases h with | and h => exact .and (ih h)
  · intro i e b f ih e' h; cases h with | act h => exact .act (ih h)
  · intro i e t ih e' h; cases h with | asc h => exact .asc (ih h)
  · intro i e ih e' h; cases h with | span h => exact .span (ih h)
  · intro i e ih e' h; cases h with | range h => exact .range (ih h)

theorem Sub.alike {x e : Expr} (h : Sub x e) : ∀ {e' : Expr}, Likeness ρ e e' → ∃ x', Sub x' e' ∧ Likeness ρ x x' := by
  induction h with
  | refl => intro e' h; exact ⟨e', .refl, h⟩
  | seq hm _ ih => intro e' h; cases h with | seq h => obtain ⟨y, h1, h2⟩ := h.mem hm; obtain ⟨x', h3, h4⟩ := ih h2; exact ⟨x', .seq h1 h3, h4⟩
  | choice hm _ ih => intro e' h; cases h with | choice h => obtain ⟨y, h1, h2⟩ := h.mem hm; obtain ⟨x', h3, h4⟩ := ih h2; exact ⟨x', .choice h1 h3, h4⟩
  | star _ ih => intro e' h; cases h with | star h => obtain ⟨x', h3, h4⟩ := ih h; exact ⟨x', .star h3, h4⟩
  | plus _ ih => intro e' h; cases h with | plus h => obtain ⟨x', h3, h4⟩ := ih h; exact ⟨x', .plus h3, h4⟩
  | opt _ ih => intro e' h; cases h with | opt h => obtain ⟨x', h3, h4⟩ := ih h; exact ⟨x', .opt h3, h4⟩
  | not _ ih => intro e' h; cases h with | not h => obtain ⟨x', h3, h4⟩ := ih h; exact ⟨x', .not h3, h4⟩
  | and _ ih => intro e' h; cases h with | and h => obtain ⟨x', h3, h4⟩ := ih h; exact ⟨x', .and h3, h4⟩
  | act _ ih => intro e' h; cases h with | act h => obtain ⟨x', h3, h4⟩ := ih h; exact ⟨x', .act h3, h4⟩
  | asc _ ih => intro e' h; cases h with | asc h => obtain ⟨x', h3, h4⟩ := ih h; exact ⟨x', .asc h3, h4⟩
  | span _ ih => intro e' h; cases h with | span h => obtain ⟨x', h3, h4⟩ := ih h; exact ⟨x', .span h3, h4⟩
  | range _ ih => intro e' h; cases h with | range h => obtain ⟨x', h3, h4⟩ := ih h; exact ⟨x', .range h3, h4⟩

theorem Occurs.alike (hc : Corresponds ρ G G') (hv : Covers ρ G) {x : Expr} (h : Occurs G x) : ∃ x', Occurs G' x' ∧ Likeness ρ x x' := by
  obtain ⟨r, b, hb, hs⟩ := h
  obtain ⟨r', hr⟩ := hv r b hb
  obtain ⟨b', h1, h2⟩ := hc.body hr hb
  obtain ⟨x', h3, h4⟩ := hs.alike h2
  exact ⟨x', ⟨r', b', h1, h3⟩, h4⟩

theorem leftStep_alike (hc : Corresponds ρ G G') {a b b' : String} (hr : ρ b b') (h : LeftStep G a b) : ∃ a', ρ a a' ∧ LeftStep G' a' b' := by
  obtain ⟨e, he, hl⟩ := h
  obtain ⟨e', h1, h2⟩ := hc.body hr he
  obtain ⟨a', h3, h4⟩ := hl.alike hc h2
  exact ⟨a', h3, e', h1, h4⟩

theorem leftGen_alike (hc : Corresponds ρ G G') {a b b' : String} (hr : ρ b b') (h : Relation.TransGen (LeftStep G) a b) :
    ∃ a', ρ a a' ∧ Relation.TransGen (LeftStep G') a' b' := by
  induction h generalizing b' with
  | single h => obtain ⟨a', h1, h2⟩ := leftStep_alike hc hr h; exact ⟨a', h1, .single h2⟩
  | tail _ h ih =>
    obtain ⟨c', h1, h2⟩ := leftStep_alike hc hr h
    obtain ⟨a', h3, h4⟩ := ih h1
    exact ⟨a', h3, .tail h4 h2⟩

theorem LeftRecursive.declared {r : String} (h : LeftRecursive G r) : ∃ b, G.find r = some b := by
  have : ∀ {a b : String}, Relation.TransGen (LeftStep G) a b → ∃ e, G.find b = some e := by
    intro a b h
    cases h with
    | single h => exact ⟨_, h.choose_spec.1⟩
    | tail _ h => exact ⟨_, h.choose_spec.1⟩
  exact this h

/-- Well-formed grammars remain so. -/
theorem WellFormed.alike (hc : Corresponds ρ G G') (hv : Covers ρ G) (hf : ∀ r a b, ρ r a → ρ r b → a = b) (h : WellFormed G') : WellFormed G where
  left r hr := by
    obtain ⟨b, hb⟩ := hr.declared
    obtain ⟨r', h1⟩ := hv r b hb
    obtain ⟨a, h2, h3⟩ := leftGen_alike hc h1 hr
    rw [hf r a r' h2 h1] at h3
    exact h.left r' h3
  repeats i c ho hn := by
    rcases ho with ho | ho
    · obtain ⟨x, h1, h2⟩ := ho.alike hc hv
      cases h2 with | star h2 => exact h.repeats _ _ (.inl h1) (hn.alike hc h2)
    · obtain ⟨x, h1, h2⟩ := ho.alike hc hv
      cases h2 with | plus h2 => exact h.repeats _ _ (.inr h1) (hn.alike hc h2)
  fails e ho hs := by
    obtain ⟨x, h1, h2⟩ := ho.alike hc hv
    exact h.fails x h1 ((sure_alike hc).2 e hs h2)
  idle e ho hs hi := by
    obtain ⟨x, h1, h2⟩ := ho.alike hc hv
    exact h.idle x h1 ((sure_alike hc).1 e hs h2) (hi.alike hc h2)
  branches i pre b post ho hp hs := by
    obtain ⟨x, h1, h2⟩ := ho.alike hc hv
    cases h2 with
    | choice h2 =>
      obtain ⟨p, q, rfl, h3, h4⟩ := h2.append
      cases h4 with
      | @cons _ b' _ q h4 h5 =>
        refine h.branches _ p b' q h1 ?_ ((sure_alike hc).1 b hs h4)
        rintro rfl
        cases h5
        exact hp rfl

/-! ### Ways to relate grammars -/

theorem alike_of_bare {e : Expr} : ∀ {e' : Expr}, (∀ i r, Sub (.nt i r) e → ρ r r) → e.bare = e'.bare → Likeness ρ e e' := by
  have hl : ∀ {es : List Expr}, (∀ e ∈ es, ∀ {e' : Expr}, (∀ i r, Sub (.nt i r) e → ρ r r) → e.bare = e'.bare → Likeness ρ e e') →
      (∀ e ∈ es, ∀ i r, Sub (.nt i r) e → ρ r r) → ∀ {es' : List Expr}, bareAll es = bareAll es' → LikenessAll ρ es es' := by
    intro es
    induction es with
    | nil => intro _ _ es' h; cases es' <;> simp [bareAll] at h; exact .nil
    | cons e es ih =>
      intro hi hr es' h
      cases es' with
      | nil => simp [bareAll] at h
      | cons e' es' =>
        simp only [bareAll, List.cons.injEq] at h
        exact .cons (hi e List.mem_cons_self (hr e List.mem_cons_self) h.1) (ih (fun x hx => hi x (List.mem_cons_of_mem _ hx)) (fun x hx => hr x (List.mem_cons_of_mem _ hx)) h.2)
  induction e using Expr.ind with
  | str => intro e' _ h; cases e' <;> simp [Expr.bare] at h; subst h; exact .str
  | any => intro e' _ h; cases e' <;> simp [Expr.bare] at h; exact .any
  | cls => intro e' _ h; cases e' <;> simp [Expr.bare] at h; subst h; exact .cls
  | nt i r => intro e' hr h; cases e' <;> simp [Expr.bare] at h; subst h; exact .nt (hr i _ .refl)
  | ext => intro e' _ h; cases e' <;> simp [Expr.bare] at h; subst h; exact .ext
  | seq _ _ ih => intro e' hr h; cases e' <;> simp [Expr.bare] at h; exact .seq (hl ih (fun e he i r hs => hr i r (.seq he hs)) h)
  | choice _ _ ih => intro e' hr h; cases e' <;> simp [Expr.bare] at h; exact .choice (hl ih (fun e he i r hs => hr i r (.choice he hs)) h)
  | star _ _ ih => intro e' hr h; cases e' <;> simp [Expr.bare] at h; exact .star (ih (fun i r hs => hr i r (.star hs)) h)
  | plus _ _ ih => intro e' hr h; cases e' <;> simp [Expr.bare] at h; exact .plus (ih (fun i r hs => hr i r (.plus hs)) h)
  | opt _ _ ih => intro e' hr h; cases e' <;> simp [Expr.bare] at h; exact .opt (ih (fun i r hs => hr i r (.opt hs)) h)
  | not _ _ ih => intro e' hr h; cases e' <;> simp [Expr.bare] at h; exact .not (ih (fun i r hs => hr i r (.not hs)) h)
  | and _ _ ih => intro e' hr h; cases e' <;> simp [Expr.bare] at h; exact .and (ih (fun i r hs => hr i r (.and hs)) h)
  | act _ _ _ _ ih =>
    intro e' hr h; cases e' <;> simp [Expr.bare] at h
    obtain ⟨h, rfl, rfl⟩ := h
    exact .act (ih (fun i r hs => hr i r (.act hs)) h)
  | asc _ _ _ ih =>
    intro e' hr h; cases e' <;> simp [Expr.bare] at h
    obtain ⟨h, rfl⟩ := h
    exact .asc (ih (fun i r hs => hr i r (.asc hs)) h)
  | span _ _ ih => intro e' hr h; cases e' <;> simp [Expr.bare] at h; exact .span (ih (fun i r hs => hr i r (.span hs)) h)
  | range _ _ ih => intro e' hr h; cases e' <;> simp [Expr.bare] at h; exact .range (ih (fun i r hs => hr i r (.range hs)) h)

theorem alike_rename {φ : String → String} {e : Expr} : (∀ i r, Sub (.nt i r) e → ρ r (φ r)) → Likeness ρ e (e.rename φ) := by
  have hl : ∀ {es : List Expr}, (∀ e ∈ es, (∀ i r, Sub (.nt i r) e → ρ r (φ r)) → Likeness ρ e (e.rename φ)) →
      (∀ e ∈ es, ∀ i r, Sub (.nt i r) e → ρ r (φ r)) → LikenessAll ρ es (renameAll φ es) := by
    intro es
    induction es with
    | nil => intro _ _; rw [renameAll]; exact .nil
    | cons e es ih =>
      intro hi hr
      rw [renameAll]
      exact .cons (hi e List.mem_cons_self (hr e List.mem_cons_self)) (ih (fun x hx => hi x (List.mem_cons_of_mem _ hx)) (fun x hx => hr x (List.mem_cons_of_mem _ hx)))
  induction e using Expr.ind with
  | str => intro _; exact .str
  | any => intro _; exact .any
  | cls => intro _; exact .cls
  | nt i r => intro h; exact .nt (h i r .refl)
  | ext => intro _; exact .ext
  | seq _ _ ih => intro hr; rw [Expr.rename]; exact .seq (hl ih (fun e he i r hs => hr i r (.seq he hs)))
  | choice _ _ ih => intro hr; rw [Expr.rename]; exact .choice (hl ih (fun e he i r hs => hr i r (.choice he hs)))
  | star _ _ ih => intro hr; exact .star (ih (fun i r hs => hr i r (.star hs)))
  | plus _ _ ih => intro hr; exact .plus (ih (fun i r hs => hr i r (.plus hs)))
  | opt _ _ ih => intro hr; exact .opt (ih (fun i r hs => hr i r (.opt hs)))
  | not _ _ ih => intro hr; exact .not (ih (fun i r hs => hr i r (.not hs)))
  | and _ _ ih => intro hr; exact .and (ih (fun i r hs => hr i r (.and hs)))
  | act _ _ _ _ ih => intro hr; exact .act (ih (fun i r hs => hr i r (.act hs)))
  | asc _ _ _ ih => intro hr; exact .asc (ih (fun i r hs => hr i r (.asc hs)))
  | span _ _ ih => intro hr; exact .span (ih (fun i r hs => hr i r (.span hs)))
  | range _ _ ih => intro hr; exact .range (ih (fun i r hs => hr i r (.range hs)))

/-! ### Looking up rules -/

theorem find_of_mem_nodup {G : Grammar} (hn : (G.rules.map (·.1)).Nodup) {r : String} {b : Expr} (h : (r, b) ∈ G.rules) : G.find r = some b := by
  unfold Grammar.find
  obtain ⟨l⟩ := G
  simp only at hn h ⊢
  induction l with
  | nil => cases h
  | cons x l ih =>
    rw [List.map_cons, List.nodup_cons] at hn
    rcases List.mem_cons.1 h with rfl | h
    · simp
    · have hne : ¬ x.1 = r := by rintro rfl; exact hn.1 (List.mem_map.2 ⟨_, h, rfl⟩)
      rw [List.find?_cons_of_neg (by simpa using hne)]
      exact ih hn.2 h

theorem find_isSome_of_mem {G : Grammar} {r : String} {b : Expr} (h : (r, b) ∈ G.rules) : (G.find r).isSome = true := by
  simp only [Grammar.find, Option.isSome_map, List.find?_isSome]
  exact ⟨_, h, by simp⟩

theorem find_rename {φ : String → String} {G : Grammar} (hφ : ∀ a b, (G.find a).isSome = true → (G.find b).isSome = true → φ a = φ b → a = b)
    {r : String} {b : Expr} (h : G.find r = some b) : (G.rename φ).find (φ r) = some (b.rename φ) := by
  have hr : (G.find r).isSome = true := by rw [h]; rfl
  have hφ' : ∀ x ∈ G.rules, φ x.1 = φ r → x.1 = r := fun x hx he => hφ _ _ (find_isSome_of_mem hx) hr he
  clear hφ hr
  revert h
  unfold Grammar.find Grammar.rename
  obtain ⟨l⟩ := G
  simp only at hφ' ⊢
  induction l with
  | nil => simp
  | cons x l ih =>
    intro h
    rw [List.forall_mem_cons] at hφ'
    rw [List.map_cons]
    by_cases hx : x.1 = r
    · subst hx
      simp only [beq_self_eq_true, List.find?_cons_of_pos, Option.map_some, Option.some.injEq] at h ⊢
      rw [h]
    · have hx' : ¬ φ x.1 = φ r := fun he => hx (hφ'.1 he)
      rw [List.find?_cons_of_neg (by simpa using hx)] at h
      rw [List.find?_cons_of_neg (by simpa using hx')]
      exact ih hφ'.2 h

end Oak
