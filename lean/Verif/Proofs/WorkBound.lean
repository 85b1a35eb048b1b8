import Verif.Proofs.Work
import Verif.Proofs.ContextFree
/-!
The work of a parser is bounded.
-/
set_option linter.constructorNameAsVariable false
set_option autoImplicit false

namespace Oak
open Spec
variable {G : Grammar} {X : ExtSpec}

/-- The visits made before moving, where `T` is counted for what comes after a move. -/
def near (T : Nat) : Visits → Nat
  | .leaf _ => 1
  | .one a => near T a + 1
  | .two m a b => near T a + (if m = true then T else near T b) + 1

/-- The number of visits before moving is bounded. -/
def Bd (G : Grammar) (X : ExtSpec) (L : Nat) (e : Expr) : Prop := ∀ T s o v, Work G X e s o v → near T v ≤ L * (1 + T)

theorem Bd.mono {L L' : Nat} {e : Expr} (h : Bd G X L e) (hl : L ≤ L') : Bd G X L' e :=
  fun T s o v hw => Nat.le_trans (h T s o v hw) (Nat.mul_le_mul_right _ hl)

theorem Bd.leaf {e : Expr} (h : ∀ s o v, Work G X e s o v → ∃ n, v = .leaf n) : Bd G X 1 e := by
  intro T s o v hw
  obtain ⟨n, rfl⟩ := h s o v hw
  simp only [near]; omega

theorem Bd.up {L : Nat} {e c : Expr} (hc : Bd G X L c) (h : ∀ s o v, Work G X e s o v → ∃ o' a, v = .one a ∧ Work G X c s o' a) : Bd G X (L + 1) e := by
  intro T s o v hw
  obtain ⟨o', a, rfl, ha⟩ := h s o v hw
  have := hc T s o' a ha
  simp only [near, Nat.add_mul]; omega

/-- A node with two parts. -/
theorem near_two {T m a b : Nat} {L1 L2 : Nat} {M : Bool} (h1 : a ≤ L1 * (1 + T)) (h2 : M = false → b ≤ L2 * (1 + T)) (hm : m = a + (if M = true then T else b) + 1) :
    m ≤ (L1 + L2 + 1) * (1 + T) := by
  subst hm
  simp only [Nat.add_mul, Nat.one_mul]
  cases M with
  | true => simp only [if_true]; omega
  | false => have := h2 rfl; simp only [Bool.false_eq_true, if_false]; omega

/-- A node whose second part is visited after a move. -/
theorem near_moved {T L : Nat} {M : Bool} {a b : Visits} (h1 : near T a ≤ L * (1 + T)) (hm : M = true) : near T (.two M a b) ≤ (L + 0 + 1) * (1 + T) := by
  subst hm
  simp only [near, if_true, Nat.add_mul, Nat.one_mul]; omega

theorem repOk_star {i : Nat} {c : Expr} (h : RepOk G (.plus i c)) : RepOk G (.star i c) := by
  rintro j c' (k | k)
  · cases k with
    | refl => exact h i c (.inr .refl)
    | star k => exact h j c' (.inl (.plus k))
  · cases k with
    | star k => exact h j c' (.inr (.plus k))

theorem repOk_sub {x e : Expr} (h : RepOk G e) (hs : Sub x e) : RepOk G x := fun i c k => h i c (k.imp (fun k => k.trans hs) (fun k => k.trans hs))

theorem repOk_seq_tail {i : Nat} {e : Expr} {es : List Expr} (h : RepOk G (.seq i (e :: es))) : RepOk G (.seq i es) := by
  rintro j c (k | k)
  · cases k with | seq he k => exact h j c (.inl (.seq (List.mem_cons_of_mem _ he) k))
  · cases k with | seq he k => exact h j c (.inr (.seq (List.mem_cons_of_mem _ he) k))

theorem repOk_choice_tail {i : Nat} {e : Expr} {es : List Expr} (h : RepOk G (.choice i (e :: es))) : RepOk G (.choice i es) := by
  rintro j c (k | k)
  · cases k with | choice he k => exact h j c (.inl (.choice (List.mem_cons_of_mem _ he) k))
  · cases k with | choice he k => exact h j c (.inr (.choice (List.mem_cons_of_mem _ he) k))

/-- An iteration moves. -/
theorem star_moves (hf : X.Forward) (hc : ExtSpec.Consuming X) {i : Nat} {c : Expr} (h : RepOk G (.star i c)) {s s1 : List Char} {a : Visits} (hw : Work G X c s (some s1) a) :
    decide (s1 ≠ s) = true := by
  refine decide_eq_true fun hs => ?_
  subst hs
  exact h i c (.inl .refl) (work_nullable hf hc hw)

/-- The body of a rule is bounded if those of the rules in leftmost position are. -/
theorem bd_left (hf : X.Forward) (hc : ExtSpec.Consuming X) (e : Expr) : RepOk G e → (∀ q b, LeftCalls G q e → G.find q = some b → ∃ L, Bd G X L b) → ∃ L, Bd G X L e := by
  have unary : ∀ {c e : Expr}, RepOk G e → Sub c e → (∀ {q}, LeftCalls G q c → LeftCalls G q e) →
      (RepOk G c → (∀ q b, LeftCalls G q c → G.find q = some b → ∃ L, Bd G X L b) → ∃ L, Bd G X L c) →
      (∀ q b, LeftCalls G q e → G.find q = some b → ∃ L, Bd G X L b) → ∃ L, Bd G X L c := by
    intro c e he hs hl ih hq
    exact ih (repOk_sub he hs) fun q b h hb => hq q b (hl h) hb
  induction e using Expr.ind with
  | str i l => exact fun _ _ => ⟨1, .leaf fun s o v h => by cases h <;> exact ⟨_, rfl⟩⟩
  | any i => exact fun _ _ => ⟨1, .leaf fun s o v h => by cases h <;> exact ⟨_, rfl⟩⟩
  | cls i ivs => exact fun _ _ => ⟨1, .leaf fun s o v h => by cases h <;> exact ⟨_, rfl⟩⟩
  | ext i p => exact fun _ _ => ⟨1, .leaf fun s o v h => by cases h <;> exact ⟨_, rfl⟩⟩
  | nt i r =>
    intro _ hq
    cases hb : G.find r with
    | none => exact ⟨0, fun T s o v h => by cases h with | nt hf' _ => rw [hb] at hf'; cases hf'⟩
    | some b =>
      obtain ⟨L, hL⟩ := hq r b .nt hb
      exact ⟨L + 1, hL.up fun s o v h => by cases h with | nt hf' h => rw [hb] at hf'; cases hf'; exact ⟨_, _, rfl, h⟩⟩
  | seq i es ih =>
    intro hr hq
    induction es with
    | nil => exact ⟨1, .leaf fun s o v h => by cases h; exact ⟨_, rfl⟩⟩
    | cons e es ihl =>
      obtain ⟨L1, h1⟩ := ih e List.mem_cons_self (repOk_sub hr (.seq List.mem_cons_self .refl)) fun q b h hb => hq q b (.seq_head h) hb
      have h2 : ∃ L2, Nullable G e → Bd G X L2 (.seq i es) := by
        rcases Classical.em (Nullable G e) with hn | hn
        · exact (ihl (fun e he => ih e (List.mem_cons_of_mem _ he)) (repOk_seq_tail hr) fun q b h hb => hq q b (.seq_tail hn h) hb).elim fun L h => ⟨L, fun _ => h⟩
        · exact ⟨0, fun h => absurd h hn⟩
      obtain ⟨L2, h2⟩ := h2
      refine ⟨L1 + L2 + 1, fun T s o v hw => ?_⟩
      cases hw with
      | @seq_cons _ _ _ _ s1 _ a b k1 k2 =>
        refine near_two (h1 T _ _ _ k1) (fun hm => ?_) rfl
        have : s1 = s := Classical.byContradiction fun h => by simp [h] at hm
        subst this
        exact h2 (work_nullable hf hc k1) T _ _ _ k2
      | seq_fail k => have := h1 T _ _ _ k; simp only [near, Nat.add_mul, Nat.one_mul]; omega
  | choice i es ih =>
    intro hr hq
    induction es with
    | nil => exact ⟨1, .leaf fun s o v h => by cases h; exact ⟨_, rfl⟩⟩
    | cons e es ihl =>
      obtain ⟨L1, h1⟩ := ih e List.mem_cons_self (repOk_sub hr (.choice List.mem_cons_self .refl)) fun q b h hb => hq q b (.choice List.mem_cons_self h) hb
      obtain ⟨L2, h2⟩ := ihl (fun e he => ih e (List.mem_cons_of_mem _ he)) (repOk_choice_tail hr) fun q b h hb => hq q b (by
        cases h with | choice he h => exact .choice (List.mem_cons_of_mem _ he) h) hb
      refine ⟨L1 + L2 + 1, fun T s o v hw => ?_⟩
      cases hw with
      | choice_first k => have := h1 T _ _ _ k; simp only [near, Nat.add_mul, Nat.one_mul]; omega
      | choice_next k1 k2 => exact near_two (h1 T _ _ _ k1) (fun _ => h2 T _ _ _ k2) rfl
  | star i c ih =>
    intro hr hq
    obtain ⟨L, h⟩ := unary hr (.star .refl) .star ih hq
    refine ⟨L + 0 + 1, fun T s o v hw => ?_⟩
    cases hw with
    | star_stop k => have := h T _ _ _ k; simp only [near, Nat.add_mul, Nat.one_mul]; omega
    | star_more k1 k2 => exact near_moved (h T _ _ _ k1) (star_moves hf hc hr k1)
  | plus i c ih =>
    intro hr hq
    obtain ⟨L, h⟩ := unary hr (.plus .refl) .plus ih hq
    refine ⟨L + 0 + 1, fun T s o v hw => ?_⟩
    cases hw with
    | plus_fail k => have := h T _ _ _ k; simp only [near, Nat.add_mul, Nat.one_mul]; omega
    | plus_ok k1 k2 => exact near_moved (h T _ _ _ k1) (star_moves hf hc (repOk_star hr) k1)
  | opt i c ih =>
    intro hr hq
    obtain ⟨L, h⟩ := unary hr (.opt .refl) .opt ih hq
    exact ⟨L + 1, h.up fun s o v hw => by cases hw <;> exact ⟨_, _, rfl, ‹_›⟩⟩
  | not i c ih =>
    intro hr hq
    obtain ⟨L, h⟩ := unary hr (.not .refl) .not ih hq
    exact ⟨L + 1, h.up fun s o v hw => by cases hw <;> exact ⟨_, _, rfl, ‹_›⟩⟩
  | and i c ih =>
    intro hr hq
    obtain ⟨L, h⟩ := unary hr (.and .refl) .and ih hq
    exact ⟨L + 1, h.up fun s o v hw => by cases hw <;> exact ⟨_, _, rfl, ‹_›⟩⟩
  | act i c b f ih =>
    intro hr hq
    obtain ⟨L, h⟩ := unary hr (.act .refl) .act ih hq
    exact ⟨L + 1, h.up fun s o v hw => by cases hw; exact ⟨_, _, rfl, ‹_›⟩⟩
  | asc i c t ih =>
    intro hr hq
    obtain ⟨L, h⟩ := unary hr (.asc .refl) .asc ih hq
    exact ⟨L + 1, h.up fun s o v hw => by cases hw; exact ⟨_, _, rfl, ‹_›⟩⟩
  | span i c ih =>
    intro hr hq
    obtain ⟨L, h⟩ := unary hr (.span .refl) .span ih hq
    exact ⟨L + 1, h.up fun s o v hw => by cases hw; exact ⟨_, _, rfl, ‹_›⟩⟩
  | range i c ih =>
    intro hr hq
    obtain ⟨L, h⟩ := unary hr (.range .refl) .range ih hq
    exact ⟨L + 1, h.up fun s o v hw => by cases hw; exact ⟨_, _, rfl, ‹_›⟩⟩

/-- A bound for all the rules. -/
theorem bd_rules (hf : X.Forward) (hc : ExtSpec.Consuming X) (ha : Accepted G) : ∃ B, ∀ r e, G.find r = some e → Bd G X B e := by
  obtain ⟨hrep, hwf⟩ := accepted_ok ha
  have each : ∀ r, ∀ e, G.find r = some e → ∃ L, Bd G X L e := by
    intro r
    induction r using hwf.induction with
    | _ r ih => exact fun e he => bd_left hf hc e (hrep r e he) fun q b h hb => ih q ⟨e, he, h⟩ b hb
  have all : ∀ l : List (String × Expr), ∃ B, ∀ r e, (r, e) ∈ l → G.find r = some e → Bd G X B e := by
    intro l
    induction l with
    | nil => exact ⟨0, fun _ _ h => by cases h⟩
    | cons x l ih =>
      obtain ⟨B, hB⟩ := ih
      have hx : ∃ L, G.find x.1 = some x.2 → Bd G X L x.2 := by
        rcases Classical.em (G.find x.1 = some x.2) with h | h
        · exact (each _ _ h).elim fun L k => ⟨L, fun _ => k⟩
        · exact ⟨0, fun k => absurd k h⟩
      obtain ⟨L, hL⟩ := hx
      refine ⟨B + L, fun r e hm he => ?_⟩
      rcases List.mem_cons.1 hm with rfl | hm
      · exact (hL he).mono (by omega)
      · exact (hB r e hm he).mono (by omega)
  obtain ⟨B, hB⟩ := all G.rules
  exact ⟨B, fun r e he => hB r e (grammar_find_mem he) he⟩

/-- The expressions considered: no repetition of what may be empty, and of bounded size. -/
structure Fit (G : Grammar) (N : Nat) (e : Expr) : Prop where
  rep : RepOk G e
  size : sizeOf e ≤ N

/-- The bodies of the rules are of bounded size. -/
theorem fit_rules (ha : Accepted G) : ∃ N, ∀ r e, G.find r = some e → Fit G N e := by
  have all : ∀ l : List (String × Expr), ∃ N, ∀ r e, (r, e) ∈ l → sizeOf e ≤ N := by
    intro l
    induction l with
    | nil => exact ⟨0, fun _ _ h => by cases h⟩
    | cons x l ih =>
      obtain ⟨N, hN⟩ := ih
      refine ⟨N + sizeOf x.2, fun r e hm => ?_⟩
      rcases List.mem_cons.1 hm with rfl | hm
      · simp
      · have := hN r e hm; omega
  obtain ⟨N, hN⟩ := all G.rules
  exact ⟨N, fun r e he => ⟨(accepted_ok ha).1 r e he, hN r e (grammar_find_mem he)⟩⟩

/-- What is visited in expressions of bounded size whose rules have the property `P`... -/
theorem work_sub {N : Nat} (hr : ∀ r e, G.find r = some e → Fit G N e) {e : Expr} {s : List Char} {o : Option (List Char)} {v : Visits} (h : Work G X e s o v) :
    Fit G N e → (∃ n, v = .leaf n) ∨ (∃ e1 o1 a, Fit G N e1 ∧ v = .one a ∧ Work G X e1 s o1 a) ∨
      ∃ e1 e2 s1 s2 o1 o2 m a b, Fit G N e1 ∧ Fit G N e2 ∧ v = .two m a b ∧ Work G X e1 s o1 a ∧ Work G X e2 s1 o2 b ∧
        ((m = false ∧ s1 = s) ∨ (m = true ∧ o1 = some s1 ∧ s1 ≠ s)) ∧ s2 = s1 := by
  have up : ∀ {c e : Expr}, Fit G N e → Sub c e → sizeOf c ≤ sizeOf e → Fit G N c := fun h hs hn => ⟨repOk_sub h.rep hs, Nat.le_trans hn h.size⟩
  have mv : ∀ {s1 s : List Char}, (decide (s1 ≠ s) = false ∧ s1 = s) ∨ (decide (s1 ≠ s) = true ∧ some s1 = some s1 ∧ s1 ≠ s) := by
    intro s1 s
    rcases Classical.em (s1 = s) with h | h
    · exact .inl ⟨by simp [h], h⟩
    · exact .inr ⟨by simp [h], rfl, h⟩
  intro hfit
  cases h with
  | str_ok | str_fail | any_ok | any_fail | cls_ok | cls_fail | cls_eof | ext_ok | ext_fail | seq_nil | choice_nil => exact .inl ⟨_, rfl⟩
  | nt hf h => exact .inr (.inl ⟨_, _, _, hr _ _ hf, rfl, h⟩)
  | seq_cons h1 h2 =>
    exact .inr (.inr ⟨_, _, _, _, _, _, _, _, _, up hfit (.seq (by simp) .refl) (by simp; omega), ⟨repOk_seq_tail hfit.rep, by have := hfit.size; simp at this ⊢; omega⟩, rfl, h1, h2, mv, rfl⟩)
  | seq_fail h => exact .inr (.inl ⟨_, _, _, up hfit (.seq (by simp) .refl) (by simp; omega), rfl, h⟩)
  | choice_first h => exact .inr (.inl ⟨_, _, _, up hfit (.choice (by simp) .refl) (by simp; omega), rfl, h⟩)
  | choice_next h1 h2 =>
    exact .inr (.inr ⟨_, _, _, _, _, _, _, _, _, up hfit (.choice (by simp) .refl) (by simp; omega), ⟨repOk_choice_tail hfit.rep, by have := hfit.size; simp at this ⊢; omega⟩, rfl, h1, h2,
      .inl ⟨rfl, rfl⟩, rfl⟩)
  | star_stop h => exact .inr (.inl ⟨_, _, _, up hfit (.star .refl) (by simp), rfl, h⟩)
  | star_more h1 h2 => exact .inr (.inr ⟨_, _, _, _, _, _, _, _, _, up hfit (.star .refl) (by simp), hfit, rfl, h1, h2, mv, rfl⟩)
  | plus_fail h => exact .inr (.inl ⟨_, _, _, up hfit (.plus .refl) (by simp), rfl, h⟩)
  | plus_ok h1 h2 =>
    exact .inr (.inr ⟨_, _, _, _, _, _, _, _, _, up hfit (.plus .refl) (by simp), ⟨repOk_star hfit.rep, by have := hfit.size; simp at this ⊢; omega⟩, rfl, h1, h2, mv, rfl⟩)
  | opt_some h | opt_none h => exact .inr (.inl ⟨_, _, _, up hfit (.opt .refl) (by simp), rfl, h⟩)
  | not_ok h | not_fail h => exact .inr (.inl ⟨_, _, _, up hfit (.not .refl) (by simp), rfl, h⟩)
  | and_ok h | and_fail h => exact .inr (.inl ⟨_, _, _, up hfit (.and .refl) (by simp), rfl, h⟩)
  | act h => exact .inr (.inl ⟨_, _, _, up hfit (.act .refl) (by simp; omega), rfl, h⟩)
  | asc h => exact .inr (.inl ⟨_, _, _, up hfit (.asc .refl) (by simp; omega), rfl, h⟩)
  | span h => exact .inr (.inl ⟨_, _, _, up hfit (.span .refl) (by simp), rfl, h⟩)
  | range h => exact .inr (.inl ⟨_, _, _, up hfit (.range .refl) (by simp), rfl, h⟩)

/-- A bound for all the expressions of bounded size. -/
theorem bd_fit (hf : X.Forward) (hc : ExtSpec.Consuming X) {B : Nat} (hB : ∀ r e, G.find r = some e → Bd G X B e) (n : Nat) : ∀ e, sizeOf e = n → RepOk G e →
    Bd G X (n * (B + 2)) e := by
  induction n using Nat.strongRecOn with
  | _ n ih =>
    have unary : ∀ {c e : Expr}, sizeOf e = n → RepOk G e → Sub c e → sizeOf c < sizeOf e → (∀ s o v, Work G X e s o v → ∃ o' a, v = .one a ∧ Work G X c s o' a) →
        Bd G X (n * (B + 2)) e := by
      intro c e he hr hs hn h
      refine ((ih (sizeOf c) (by omega) c rfl (repOk_sub hr hs)).up h).mono ?_
      have : (sizeOf c + 1) * (B + 2) ≤ n * (B + 2) := Nat.mul_le_mul_right _ (by omega)
      rw [Nat.add_mul] at this; omega
    have leaf : ∀ {e : Expr}, sizeOf e = n → 1 ≤ sizeOf e → (∀ s o v, Work G X e s o v → ∃ n, v = .leaf n) → Bd G X (n * (B + 2)) e := by
      intro e he h1 h
      refine (Bd.leaf h).mono ?_
      have : 1 * (B + 2) ≤ n * (B + 2) := Nat.mul_le_mul_right _ (by omega)
      omega
    have sum : ∀ {a b : Nat}, a + b + 1 ≤ n → a * (B + 2) + b * (B + 2) + 1 ≤ n * (B + 2) := by
      intro a b h
      have : (a + b + 1) * (B + 2) ≤ n * (B + 2) := Nat.mul_le_mul_right _ h
      rw [Nat.add_mul, Nat.add_mul] at this; omega
    intro e he hr
    cases e with
    | str i l => exact leaf he (by simp <;> omega) fun s o v h => by cases h <;> exact ⟨_, rfl⟩
    | any i => exact leaf he (by simp <;> omega) fun s o v h => by cases h <;> exact ⟨_, rfl⟩
    | cls i ivs => exact leaf he (by simp <;> omega) fun s o v h => by cases h <;> exact ⟨_, rfl⟩
    | ext i p => exact leaf he (by simp <;> omega) fun s o v h => by cases h <;> exact ⟨_, rfl⟩
    | nt i r =>
      cases hb : G.find r with
      | none => exact fun T s o v h => by cases h with | nt hf' _ => rw [hb] at hf'; cases hf'
      | some b =>
        have h := (hB r b hb).up (e := .nt i r) fun s o v h => by cases h with | nt hf' h => rw [hb] at hf'; cases hf'; exact ⟨_, _, rfl, h⟩
        refine h.mono ?_
        have : 1 * (B + 2) ≤ n * (B + 2) := Nat.mul_le_mul_right _ (by simp at he; omega)
        omega
    | seq i es =>
      cases es with
      | nil => exact leaf he (by simp <;> omega) fun s o v h => by cases h; exact ⟨_, rfl⟩
      | cons c es =>
        have h1 := ih (sizeOf c) (by simp at he; omega) c rfl (repOk_sub hr (.seq (by simp) .refl))
        have h2 := ih (sizeOf (Expr.seq i es)) (by simp at he ⊢; omega) (.seq i es) rfl (repOk_seq_tail hr)
        have hs := sum (a := sizeOf c) (b := sizeOf (Expr.seq i es)) (by simp at he ⊢; omega)
        intro T s o v hw
        refine Nat.le_trans ?_ (Nat.mul_le_mul_right (1 + T) hs)
        cases hw with
        | seq_cons k1 k2 => exact near_two (h1 T _ _ _ k1) (fun _ => h2 T _ _ _ k2) rfl
        | seq_fail k => have := h1 T _ _ _ k; simp only [near, Nat.add_mul, Nat.one_mul] at this ⊢; omega
    | choice i es =>
      cases es with
      | nil => exact leaf he (by simp <;> omega) fun s o v h => by cases h; exact ⟨_, rfl⟩
      | cons c es =>
        have h1 := ih (sizeOf c) (by simp at he; omega) c rfl (repOk_sub hr (.choice (by simp) .refl))
        have h2 := ih (sizeOf (Expr.choice i es)) (by simp at he ⊢; omega) (.choice i es) rfl (repOk_choice_tail hr)
        have hs := sum (a := sizeOf c) (b := sizeOf (Expr.choice i es)) (by simp at he ⊢; omega)
        intro T s o v hw
        refine Nat.le_trans ?_ (Nat.mul_le_mul_right (1 + T) hs)
        cases hw with
        | choice_next k1 k2 => exact near_two (h1 T _ _ _ k1) (fun _ => h2 T _ _ _ k2) rfl
        | choice_first k => have := h1 T _ _ _ k; simp only [near, Nat.add_mul, Nat.one_mul] at this ⊢; omega
    | star i c =>
      have h1 := ih (sizeOf c) (by simp at he; omega) c rfl (repOk_sub hr (.star .refl))
      have hs := sum (a := sizeOf c) (b := 0) (by simp at he ⊢; omega)
      rw [Nat.zero_mul] at hs
      intro T s o v hw
      refine Nat.le_trans ?_ (Nat.mul_le_mul_right (1 + T) hs)
      cases hw with
      | star_stop k => have := h1 T _ _ _ k; simp only [near, Nat.add_mul, Nat.one_mul, Nat.zero_mul, Nat.add_zero] at this ⊢; omega
      | star_more k1 k2 => exact near_moved (h1 T _ _ _ k1) (star_moves hf hc hr k1)
    | plus i c =>
      have h1 := ih (sizeOf c) (by simp at he; omega) c rfl (repOk_sub hr (.plus .refl))
      have hs := sum (a := sizeOf c) (b := 0) (by simp at he ⊢; omega)
      rw [Nat.zero_mul] at hs
      intro T s o v hw
      refine Nat.le_trans ?_ (Nat.mul_le_mul_right (1 + T) hs)
      cases hw with
      | plus_fail k => have := h1 T _ _ _ k; simp only [near, Nat.add_mul, Nat.one_mul, Nat.zero_mul, Nat.add_zero] at this ⊢; omega
      | plus_ok k1 k2 => exact near_moved (h1 T _ _ _ k1) (star_moves hf hc (repOk_star hr) k1)
    | opt i c => exact unary he hr (.opt .refl) (by simp; omega) fun s o v hw => by cases hw <;> exact ⟨_, _, rfl, ‹_›⟩
    | not i c => exact unary he hr (.not .refl) (by simp; omega) fun s o v hw => by cases hw <;> exact ⟨_, _, rfl, ‹_›⟩
    | and i c => exact unary he hr (.and .refl) (by simp; omega) fun s o v hw => by cases hw <;> exact ⟨_, _, rfl, ‹_›⟩
    | act i c b f => exact unary he hr (.act .refl) (by simp; omega) fun s o v hw => by cases hw; exact ⟨_, _, rfl, ‹_›⟩
    | asc i c t => exact unary he hr (.asc .refl) (by simp; omega) fun s o v hw => by cases hw; exact ⟨_, _, rfl, ‹_›⟩
    | span i c => exact unary he hr (.span .refl) (by simp; omega) fun s o v hw => by cases hw; exact ⟨_, _, rfl, ‹_›⟩
    | range i c => exact unary he hr (.range .refl) (by simp; omega) fun s o v hw => by cases hw; exact ⟨_, _, rfl, ‹_›⟩

/-- One bound for everything that is visited from a rule. -/
theorem bounds (hf : X.Forward) (hc : ExtSpec.Consuming X) (ha : Accepted G) : ∃ N L, (∀ r e, G.find r = some e → Fit G N e) ∧ ∀ e, Fit G N e → Bd G X L e := by
  obtain ⟨B, hB⟩ := bd_rules hf hc ha
  obtain ⟨N, hN⟩ := fit_rules ha
  exact ⟨N, N * (B + 2), hN, fun e he => (bd_fit hf hc hB _ e rfl he.rep).mono (Nat.mul_le_mul_right _ he.size)⟩

/-! ### With the characters read -/

/-- Reading less than a character means that there was no move. -/
theorem moved_reads {e : Expr} {s s' : List Char} {v : Visits} (h : Work G X e s (some s') v) : s.length ≤ s'.length + v.reads := by
  generalize ho : some s' = o at h
  induction h generalizing s' with
  | str_ok => cases ho; simp [Visits.reads, Nat.add_comm]
  | any_ok | cls_ok => cases ho; simp [Visits.reads]
  | ext_ok h => cases ho; simp only [Visits.reads]; omega
  | seq_nil => cases ho; simp [Visits.reads]
  | seq_cons _ _ ih1 ih2 | star_more _ _ ih1 ih2 | plus_ok _ _ ih1 ih2 =>
    subst ho
    have a := ih1 rfl
    have b := ih2 rfl
    simp only [Visits.reads]; omega
  | choice_next _ _ _ ih2 => subst ho; have := ih2 rfl; simp only [Visits.reads]; omega
  | choice_first _ ih | opt_some _ ih => cases ho; exact ih rfl
  | nt _ _ ih | act _ ih | asc _ ih | span _ ih | range _ ih => subst ho; exact ih rfl
  | star_stop | opt_none | not_ok | and_ok => cases ho; simp
  | _ => cases ho

theorem work_moved (hf : X.Forward) {e : Expr} {s s' : List Char} {v : Visits} (h : Work G X e s (some s') v) (hne : s' ≠ s) : s'.length < s.length := by
  have hs := work_suffix hf h
  rcases Nat.lt_or_ge s'.length s.length with k | k
  · exact k
  · exact absurd (hs.eq_of_length (Nat.le_antisymm hs.length_le k)) hne

/-- What is visited without reading is near; then each character read allows a bounded number of visits. -/
theorem steps_reads (hf : X.Forward) {N L : Nat} (hr : ∀ r e, G.find r = some e → Fit G N e) (hL : ∀ e, Fit G N e → Bd G X L e) :
    ∀ (v : Visits) (e : Expr) (s : List Char) (o : Option (List Char)), Fit G N e → Work G X e s o v →
      (v.reads = 0 → v.steps = near 0 v) ∧ (v.reads ≠ 0 → v.steps + (1 + L) * L ≤ (1 + L) * near 0 v + 2 * ((1 + L) * L) * v.reads) := by
  have nearL : ∀ {v : Visits} {e s o}, Fit G N e → Work G X e s o v → near 0 v ≤ L := by
    intro v e s o hfit h
    have := hL e hfit 0 s o v h
    simpa using this
  have nearpos : ∀ v, 1 ≤ near 0 v := by intro v; cases v <;> simp [near]
  intro v
  induction v with
  | leaf n =>
    intro e s o hfit h
    refine ⟨fun _ => rfl, fun hn => ?_⟩
    have h1 := nearL hfit h
    simp only [Visits.steps, Visits.reads, near] at h1 hn ⊢
    have h2 : 2 * ((1 + L) * L) * 1 ≤ 2 * ((1 + L) * L) * n := Nat.mul_le_mul_left _ (by omega)
    omega
  | one a ih =>
    intro e s o hfit h
    rcases work_sub hr h hfit with ⟨n, hv⟩ | ⟨e1, o1, a', hf1, hv, h1⟩ | ⟨_, _, _, _, _, _, _, _, _, _, _, hv, _⟩
    · cases hv
    · cases hv
      obtain ⟨i1, i2⟩ := ih _ _ _ hf1 h1
      simp only [Visits.steps, Visits.reads, near]
      refine ⟨fun hz => by rw [i1 hz], fun hz => ?_⟩
      have := i2 hz
      rw [Nat.mul_add]; omega
    · cases hv
  | two m a b iha ihb =>
    intro e s o hfit h
    rcases work_sub hr h hfit with ⟨n, hv⟩ | ⟨e1, o1, a', hf1, hv, h1⟩ | ⟨e1, e2, s1, s2, o1, o2, m', a', b', f1, f2, hv, h1, h2, hm, rfl⟩
    · cases hv
    · cases hv
    · cases hv
      obtain ⟨a1, a2⟩ := iha _ _ _ f1 h1
      obtain ⟨b1, b2⟩ := ihb _ _ _ f2 h2
      have na := nearL f1 h1
      have nb := nearL f2 h2
      have hW : ∀ x y, (1 + L) * (x + y) = (1 + L) * x + (1 + L) * y := Nat.mul_add _
      have hK : ∀ x y, 2 * ((1 + L) * L) * (x + y) = 2 * ((1 + L) * L) * x + 2 * ((1 + L) * L) * y := Nat.mul_add _
      have hnb : near 0 b ≤ (1 + L) * near 0 b := Nat.le_mul_of_pos_left _ (by omega)
      have hna : near 0 a ≤ (1 + L) * near 0 a := Nat.le_mul_of_pos_left _ (by omega)
      have hnbL : (1 + L) * near 0 b ≤ (1 + L) * L := Nat.mul_le_mul_left _ nb
      rcases hm with ⟨rfl, rfl⟩ | ⟨rfl, rfl, hne⟩
      · simp only [Visits.steps, Visits.reads, near, Bool.false_eq_true, if_false]
        refine ⟨fun hz => by rw [a1 (by omega), b1 (by omega)], fun hz => ?_⟩
        rw [hW, hW, hK]
        by_cases ha : a.reads = 0
        · have := a1 ha
          have := b2 (by omega)
          rw [ha]; omega
        · have := a2 ha
          by_cases hb : b.reads = 0
          · have := b1 hb
            rw [hb]; omega
          · have := b2 hb
            omega
      · have hra : a.reads ≠ 0 := by
          have k1 := moved_reads h1
          have k2 := work_moved hf h1 hne
          omega
        simp only [Visits.steps, Visits.reads, near, if_true, Nat.add_zero]
        refine ⟨fun hz => absurd (by omega) hra, fun _ => ?_⟩
        rw [hW, hK]
        have := a2 hra
        by_cases hb : b.reads = 0
        · have := b1 hb
          rw [hb]; omega
        · have := b2 hb
          omega

/-! ### With the length of the text -/

/-- The bound, for texts of a given length. -/
def reach (L : Nat) : Nat → Nat
  | 0 => L
  | n + 1 => L * (1 + reach L n)

theorem reach_mono {L : Nat} (hL : 1 ≤ L) {m n : Nat} (h : m ≤ n) : reach L m ≤ reach L n := by
  induction h with
  | refl => exact Nat.le_refl _
  | @step k _ ih =>
    refine Nat.le_trans ih ?_
    rw [reach]
    calc reach L k ≤ 1 * (1 + reach L k) := by omega
      _ ≤ _ := Nat.mul_le_mul_right _ hL

theorem reach_pow {L : Nat} (hL : 1 ≤ L) (n : Nat) : reach L n ≤ (2 * L) ^ (n + 1) := by
  induction n with
  | zero => simp [reach]; omega
  | succ n ih =>
    rw [reach, Nat.pow_succ]
    have h1 : 1 ≤ (2 * L) ^ (n + 1) := Nat.one_le_pow _ _ (by omega)
    calc L * (1 + reach L n) ≤ L * ((2 * L) ^ (n + 1) + (2 * L) ^ (n + 1)) := Nat.mul_le_mul_left _ (by omega)
      _ = (2 * L) ^ (n + 1) * (2 * L) := by rw [← Nat.two_mul, Nat.mul_left_comm, Nat.mul_comm ((2 * L) ^ (n + 1)), Nat.mul_assoc]

theorem steps_reach (hf : X.Forward) {N L : Nat} (hr : ∀ r e, G.find r = some e → Fit G N e) (hL : ∀ e, Fit G N e → Bd G X L e) (h1 : 1 ≤ L) (n : Nat) :
    ∀ e s o v, s.length = n → Fit G N e → Work G X e s o v → v.steps ≤ reach L n := by
  induction n using Nat.strongRecOn with
  | _ n ih =>
    intro e s o v hs hfit h
    -- the frontier
    have front : ∀ (T : Nat), (∀ e s1 o v, s1.length < n → Fit G N e → Work G X e s1 o v → v.steps ≤ T) →
        ∀ (v : Visits) (e : Expr) (o : Option (List Char)), Fit G N e → Work G X e s o v → v.steps ≤ near T v := by
      intro T hT v
      induction v with
      | leaf n => intro _ _ _ _; exact Nat.le_refl _
      | one a iha =>
        intro e o hfit h
        rcases work_sub hr h hfit with ⟨n, hv⟩ | ⟨e1, o1, a', hf1, hv, h1⟩ | ⟨_, _, _, _, _, _, _, _, _, _, _, hv, _⟩
        · cases hv
        · cases hv; exact Nat.succ_le_succ (iha _ _ hf1 h1)
        · cases hv
      | two m a b iha ihb =>
        intro e o hfit h
        rcases work_sub hr h hfit with ⟨n, hv⟩ | ⟨e1, o1, a', hf1, hv, h1⟩ | ⟨e1, e2, s1, s2, o1, o2, m', a', b', f1, f2, hv, h1, h2, hm, rfl⟩
        · cases hv
        · cases hv
        · cases hv
          have k1 := iha _ _ f1 h1
          rcases hm with ⟨rfl, rfl⟩ | ⟨rfl, rfl, hne⟩
          · have k2 := ihb _ _ f2 h2
            simp only [Visits.steps, near, Bool.false_eq_true, if_false]; omega
          · have k2 := hT _ _ _ _ (by have := work_moved hf h1 hne; omega) f2 h2
            simp only [Visits.steps, near, if_true]; omega
    cases n with
    | zero =>
      have := front 0 (fun _ _ _ _ h => by omega) v e o hfit h
      refine Nat.le_trans this ?_
      simpa [reach] using hL e hfit 0 s o v h
    | succ n =>
      have := front (reach L n) (fun e s1 o v hlt hfit h => Nat.le_trans (ih s1.length hlt e s1 o v rfl hfit h) (reach_mono h1 (by omega))) v e o hfit h
      exact Nat.le_trans this (hL e hfit _ s o v h)

end Oak
