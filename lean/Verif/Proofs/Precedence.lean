import Verif.Proofs.PegVals
import Verif.Spec.Precedence
/-!
The template of operators with precedences reads what `Spec/Precedence.lean` describes.
-/
set_option linter.constructorNameAsVariable false
set_option autoImplicit false

namespace Oak.Precedence
open Oak Spec

variable {G : Grammar} {X : ExtSpec} {T : Nat → Ty} {sp : SpanSpec} {tab : List Level} {lvl oper : Nat → String} {opE : Oper → Expr} {openE closeE wordE : Expr} {K : Lexis}

/-- What the rule of a level reads. -/
def Rule (G : Grammar) (X : ExtSpec) (T : Nat → Ty) (sp : SpanSpec) (q : String) (s r : List Char) (vs : List Val) : Prop := ∃ b, G.find q = some b ∧ Yields G X T sp b s r vs

theorem nt_val {i q s r vs} (hi : T i ≠ .unit) : Yields G X T sp (.nt i q) s r vs ↔ Rule G X T sp q s r vs := by
  constructor
  · rintro h
    obtain ⟨t, L, hp, rfl⟩ := h
    have hp' := hp
    cases hp' with
    | nt_ok hb h2 =>
      obtain ⟨ws, h3, h4⟩ := (yields_nt (T := T) (sp := sp) (i := i) hb).1 ⟨_, _, hp, rfl⟩
      rw [if_neg hi] at h4
      rw [h4]
      exact ⟨_, hb, h3⟩
  · rintro ⟨b, hb, h⟩
    exact (yields_nt hb).2 ⟨_, h, by rw [if_neg hi]⟩

theorem nt_fails {i q b s} (hb : G.find q = some b) (h : Fails G X b s) : Fails G X (.nt i q) s := by
  obtain ⟨L, h⟩ := h
  exact ⟨_, .nt_fail hb h⟩

theorem act_fails {i e bx f s} (h : Fails G X e s) : Fails G X (.act i e bx f) s := by
  obtain ⟨L, h⟩ := h
  exact ⟨_, .act_fail h⟩

theorem yields_shorter (hf : X.Forward) {e s r vs} (h : Yields G X T sp e s r vs) : r.length ≤ s.length := by
  obtain ⟨t, L, h, _⟩ := h
  exact ((Peg.forward hf h).1 _ _ rfl).length_le

/-! ## Operators -/

/-- No operator of level `k` or more here. -/
def Stop (tab : List Level) (K : Lexis) (k : Nat) (s : List Char) : Prop :=
  ∀ (i : Nat) lv o r, k ≤ i → tab[i]? = some lv → o ∈ lv.ops → ¬ K.op o s r

theorem Stop.mono {k j s} (h : Stop tab K k s) (hk : k ≤ j) : Stop tab K j s := fun i lv o r hi => h i lv o r (Nat.le_trans hk hi)

theorem branches_read {os es} (hb : Branches T opE os es) {s r vs} (H : ∀ o ∈ os, ∀ s r vs, Yields G X T sp (opE o) s r vs ↔ K.op o s r ∧ vs = [])
    (h : YieldsAlt G X T sp es s r vs) : ∃ o ∈ os, K.op o s r ∧ vs = [.app [o.fn] []] := by
  induction hb with
  | nil => exact h.elim
  | @cons i o os es hi hv hb ih =>
    rcases h with h | ⟨_, h⟩
    · rw [yields_act hv] at h
      obtain ⟨ws, h, rfl⟩ := h
      obtain ⟨h', rfl⟩ := (H o List.mem_cons_self _ _ _).1 h
      exact ⟨o, List.mem_cons_self, h', by rw [if_neg hi]⟩
    · obtain ⟨p, hp, h⟩ := ih (fun o ho => H o (List.mem_cons_of_mem _ ho)) h
      exact ⟨p, List.mem_cons_of_mem _ hp, h⟩

theorem branches_yield {os es} (hb : Branches T opE os es) {s r} (H : ∀ o ∈ os, ∀ s r vs, Yields G X T sp (opE o) s r vs ↔ K.op o s r ∧ vs = [])
    (HF : ∀ o ∈ os, ∀ s, (∀ r, ¬ K.op o s r) → Fails G X (opE o) s) {p : Oper} (hp : p ∈ os) (hr : K.op p s r) (hu : ∀ o ∈ os, ∀ q, K.op o s q → o = p) :
    YieldsAlt G X T sp es s r [.app [p.fn] []] := by
  induction hb with
  | nil => cases hp
  | @cons i o os es hi hv hb ih =>
    by_cases ho : o = p
    · subst ho
      exact .inl ((yields_act hv).2 ⟨[], (H o List.mem_cons_self _ _ _).2 ⟨hr, rfl⟩, by rw [if_neg hi]⟩)
    · rcases List.mem_cons.1 hp with h | h
      · exact absurd h.symm ho
      · refine .inr ⟨act_fails (HF o List.mem_cons_self _ fun q hq => ho (hu o List.mem_cons_self q hq)), ?_⟩
        exact ih (fun o ho => H o (List.mem_cons_of_mem _ ho)) (fun o ho => HF o (List.mem_cons_of_mem _ ho)) h (fun o ho => hu o (List.mem_cons_of_mem _ ho))

theorem branches_fail {os es} (hb : Branches T opE os es) {s : List Char} (HF : ∀ o ∈ os, ∀ s, (∀ r, ¬ K.op o s r) → Fails G X (opE o) s)
    (h : ∀ o ∈ os, ∀ r, ¬ K.op o s r) : ∀ e ∈ es, Fails G X e s := by
  induction hb with
  | nil => intro e he; cases he
  | @cons i o os es hi hv hb ih =>
    intro e he
    rcases List.mem_cons.1 he with rfl | he
    · exact act_fails (HF o List.mem_cons_self _ (h o List.mem_cons_self))
    · exact ih (fun o ho => HF o (List.mem_cons_of_mem _ ho)) (fun o ho => h o (List.mem_cons_of_mem _ ho)) e he

section
variable (t : Template G T tab lvl oper opE openE closeE wordE) (k : Tokens G X T sp tab opE openE closeE wordE K)
include t k

theorem oper_read {i : Nat} {lv s r vs} (hi : tab[i]? = some lv) (h : Rule G X T sp (oper i) s r vs) : ∃ o ∈ lv.ops, K.op o s r ∧ vs = [.app [o.fn] []] := by
  obtain ⟨b, hb, h⟩ := h
  obtain ⟨e, he, hr⟩ := t.opers i lv hi
  rw [hb] at he; cases he
  have H : ∀ o ∈ lv.ops, ∀ s r vs, Yields G X T sp (opE o) s r vs ↔ K.op o s r ∧ vs = [] := fun o ho => k.op hi ho
  generalize lv.ops = os at hr H
  cases hr with
  | @one j o hj hv =>
    rw [yields_act hv] at h
    obtain ⟨ws, h, rfl⟩ := h
    obtain ⟨h', rfl⟩ := (H o List.mem_cons_self _ _ _).1 h
    exact ⟨o, List.mem_cons_self, h', by rw [if_neg hj]⟩
  | @many j _ es hj hbs =>
    rw [yields_choice] at h
    obtain ⟨ws, h, rfl⟩ := h
    rw [if_neg hj]
    exact branches_read hbs H h

theorem oper_yield {i : Nat} {lv s r p} (hi : tab[i]? = some lv) (hp : p ∈ lv.ops) (h : K.op p s r) : Rule G X T sp (oper i) s r [.app [p.fn] []] := by
  obtain ⟨e, he, hr⟩ := t.opers i lv hi
  refine ⟨e, he, ?_⟩
  have H : ∀ o ∈ lv.ops, ∀ s r vs, Yields G X T sp (opE o) s r vs ↔ K.op o s r ∧ vs = [] := fun o ho => k.op hi ho
  have HF : ∀ o ∈ lv.ops, ∀ s, (∀ r, ¬ K.op o s r) → Fails G X (opE o) s := fun o ho => k.op_fails hi ho
  have hu : ∀ o ∈ lv.ops, ∀ q, K.op o s q → o = p := fun o ho q hq => (k.exclusive hi ho hi hp hq h).2
  generalize lv.ops = os at hr H HF hu hp
  cases hr with
  | @one j o hj hv =>
    rw [List.mem_singleton] at hp; subst hp
    exact (yields_act hv).2 ⟨[], (H _ List.mem_cons_self _ _ _).2 ⟨h, rfl⟩, by rw [if_neg hj]⟩
  | @many j _ es hj hbs =>
    exact yields_choice.2 ⟨_, branches_yield hbs H HF hp h hu, by rw [if_neg hj]⟩

theorem oper_fail {i j : Nat} {lv s} (hi : tab[i]? = some lv) (h : ∀ o ∈ lv.ops, ∀ r, ¬ K.op o s r) : Fails G X (.nt j (oper i)) s := by
  obtain ⟨e, he, hr⟩ := t.opers i lv hi
  refine nt_fails he ?_
  have HF : ∀ o ∈ lv.ops, ∀ s, (∀ r, ¬ K.op o s r) → Fails G X (opE o) s := fun o ho => k.op_fails hi ho
  generalize lv.ops = os at hr HF h
  cases hr with
  | @one j o hj hv => exact act_fails (HF o List.mem_cons_self _ (h o List.mem_cons_self))
  | @many j _ es hj hbs => exact choice_fails_iff.2 (branches_fail hbs HF h)

/-! ## Soundness -/

theorem level_sound (hf : X.Forward) : ∀ (m j i : Nat) (s r : List Char) (vs : List Val), s.length ≤ m → i + j = tab.length → Rule G X T sp (lvl i) s r vs →
    ∃ v u, vs = [v] ∧ Denotes v u ∧ Reads tab K i u s r := by
  intro m
  induction m using Nat.strongRecOn with
  | ind m ihm =>
    intro j
    induction j with
    | zero =>
      intro i s r vs hs hi h
      obtain ⟨a, b, c, d, he, hT⟩ := t.atom
      rw [Nat.add_zero] at hi; subst hi
      obtain ⟨e, he', h⟩ := h
      rw [he] at he'; cases he'
      simp only [List.mem_cons, List.not_mem_nil, or_false, forall_eq_or_imp, forall_eq] at hT
      obtain ⟨ha, hb, hc, hd⟩ := hT
      have hv : isVariant ["leaf"] = false := by decide
      simp only [yields_choice, YieldsAlt, yields_act hv, yields_seq, YieldsSeq, if_neg ha, if_neg hb, if_neg hc, nt_val hd, k.opening, k.closing, k.word] at h
      obtain ⟨_, h, rfl⟩ := h
      rcases h with ⟨ws, hw, rfl⟩ | ⟨_, h | h⟩
      · exact ⟨_, _, rfl, .leaf, .word hw⟩
      · obtain ⟨ws, ⟨s1, _, _, ⟨h1, rfl⟩, ⟨s2, v1, _, h2, ⟨s3, _, _, ⟨h3, rfl⟩, ⟨rfl, rfl⟩, rfl⟩, rfl⟩, rfl⟩, rfl⟩ := h
        have hlt := k.opening_shorter h1
        obtain ⟨v, u, rfl, hd, hr⟩ := ihm s1.length (by omega) tab.length 0 s1 s2 _ (Nat.le_refl _) (by omega) h2
        exact ⟨v, u, rfl, hd, .paren h1 hr h3⟩
      · exact h.2.elim
    | succ j ihj =>
      intro i s r vs hs hi h
      have hlt : i < tab.length := by omega
      obtain ⟨lv, hlv⟩ : ∃ lv, tab[i]? = some lv := ⟨_, List.getElem?_eq_getElem hlt⟩
      obtain ⟨e, he, hr⟩ := t.level i lv hlv
      obtain ⟨e', he', h⟩ := h
      rw [he] at he'; cases he'
      have next : ∀ {s r vs}, s.length ≤ m → Rule G X T sp (lvl (i + 1)) s r vs → ∃ v u, vs = [v] ∧ Denotes v u ∧ Reads tab K (i + 1) u s r :=
        fun hs h => ihj (i + 1) _ _ _ hs (by omega) h
      have rlen : ∀ {q s r vs}, Rule G X T sp q s r vs → r.length ≤ s.length := fun ⟨_, _, h⟩ => yields_shorter hf h
      generalize hR : lv.right = R at hr
      cases hr with
      | @left a b c d e f g hT =>
        simp only [List.mem_cons, List.not_mem_nil, or_false, forall_eq_or_imp, forall_eq] at hT
        obtain ⟨ha, hb, hc, hd, he', hf', hg⟩ := hT
        have hv : isVariant ["fold_left"] = false := by decide
        simp only [yields_act hv, yields_seq, YieldsSeq, yields_star, if_neg ha, if_neg hb, if_neg hd, nt_val hc] at h
        obtain ⟨_, ⟨_, ⟨s1, v1, _, h1, ⟨s2, _, _, ⟨ws, ⟨h2, _⟩, rfl⟩, ⟨rfl, rfl⟩, rfl⟩, rfl⟩, rfl⟩, rfl⟩ := h
        obtain ⟨v, u, rfl, hd1, hr1⟩ := next hs h1
        have hs1 := rlen h1
        suffices hmain : ∀ {s1 r ws}, YieldsMany G X T sp (.seq e [.nt f (oper i), .nt g (lvl (i + 1))]) s1 r ws → s1.length ≤ m → ∀ {vs0 a},
            Denotes (.app ["fold_left"] [v, .list vs0]) a → Reads tab K i a s s1 →
            ∃ u, Denotes (.app ["fold_left"] [v, .list (vs0 ++ ws)]) u ∧ Reads tab K i u s r by
          have hr1' : Reads tab K i u s s1 := by
            cases hr1 with
            | word h => exact .word h
            | paren h1 h2 h3 => exact .paren h1 h2 h3
            | left h1 h2 h3 h4 h5 h6 h7 => exact .left (by omega) h2 h3 h4 h5 h6 h7
            | right h1 h2 h3 h4 h5 h6 h7 => exact .right (by omega) h2 h3 h4 h5 h6 h7
          obtain ⟨u', hu', hr'⟩ := hmain h2 (by omega) (.leftNil hd1) hr1'
          exact ⟨_, u', rfl, hu', hr'⟩
        intro s1 r ws h2
        induction h2 with
        | nil => intro _ vs0 a hd0 hr0; exact ⟨a, by rw [List.append_nil]; exact hd0, hr0⟩
        | @cons s1 s2 r vs ws h3 h4 ih =>
          intro hs1 vs0 a hd0 hr0
          simp only [yields_seq, YieldsSeq, if_neg he', nt_val hf', nt_val hg] at h3
          obtain ⟨_, ⟨s3, v3, _, h3, ⟨s4, v4, _, h5, ⟨rfl, rfl⟩, rfl⟩, rfl⟩, rfl⟩ := h3
          obtain ⟨o, ho, hop, rfl⟩ := oper_read t k hlv h3
          have := k.op_shorter hlv ho hop
          obtain ⟨w, b, rfl, hdb, hrb⟩ := next (by omega) h5
          have := rlen h5
          obtain ⟨u, hu, hr⟩ := ih (by omega) (.leftSnoc (f := o.fn) hd0 hdb) (.left (Nat.le_refl _) hlv hR ho hr0 hop hrb)
          refine ⟨u, ?_, hr⟩
          rw [List.append_assoc] at hu
          exact hu
      | @right a b c d e f g hT =>
        simp only [List.mem_cons, List.not_mem_nil, or_false, forall_eq_or_imp, forall_eq] at hT
        obtain ⟨ha, hb, hc, hd, he', hf', hg⟩ := hT
        have hv : isVariant ["fold_right"] = false := by decide
        simp only [yields_act hv, yields_seq, YieldsSeq, yields_star, if_neg ha, if_neg hb, if_neg hc, nt_val hg] at h
        obtain ⟨_, ⟨_, ⟨s1, _, _, ⟨ws, ⟨h2, _⟩, rfl⟩, ⟨s2, v1, _, h1, ⟨rfl, rfl⟩, rfl⟩, rfl⟩, rfl⟩, rfl⟩ := h
        suffices hmain : ∀ {s s1 ws}, YieldsMany G X T sp (.seq d [.nt e (lvl (i + 1)), .nt f (oper i)]) s s1 ws → s.length ≤ m → Rule G X T sp (lvl (i + 1)) s1 r v1 →
            ∃ v u, v1 = [v] ∧ Denotes (.app ["fold_right"] [.list ws, v]) u ∧ Reads tab K i u s r by
          obtain ⟨v, u, rfl, hd, hr⟩ := hmain h2 hs h1
          exact ⟨_, u, rfl, hd, hr⟩
        intro s s1 ws h2
        induction h2 with
        | nil =>
          intro hs h1
          obtain ⟨v, u, rfl, hd1, hr1⟩ := next hs h1
          refine ⟨v, u, rfl, .rightNil hd1, ?_⟩
          cases hr1 with
          | word h => exact .word h
          | paren h1 h2 h3 => exact .paren h1 h2 h3
          | left h1 h2 h3 h4 h5 h6 h7 => exact .left (by omega) h2 h3 h4 h5 h6 h7
          | right h1 h2 h3 h4 h5 h6 h7 => exact .right (by omega) h2 h3 h4 h5 h6 h7
        | @cons s s1 r vs ws h3 h4 ih =>
          intro hs h1
          simp only [yields_seq, YieldsSeq, if_neg hd, nt_val he', nt_val hf'] at h3
          obtain ⟨_, ⟨s3, v3, _, h3, ⟨s4, v4, _, h5, ⟨rfl, rfl⟩, rfl⟩, rfl⟩, rfl⟩ := h3
          obtain ⟨w, a, rfl, hda, hra⟩ := next hs h3
          have := rlen h3
          obtain ⟨o, ho, hop, rfl⟩ := oper_read t k hlv h5
          have := k.op_shorter hlv ho hop
          obtain ⟨v, u, rfl, hd, hr⟩ := ih (by omega) h1
          exact ⟨v, _, rfl, .rightCons (f := o.fn) hda hd, .right (Nat.le_refl _) hlv hR ho hra hop hr⟩

/-! ## Completeness -/

omit t k in
theorem many_snoc {e : Expr} {s s1 r : List Char} {vs ws : List Val} (h : YieldsMany G X T sp e s s1 ws) (h' : Yields G X T sp e s1 r vs) :
    YieldsMany G X T sp e s r (ws ++ [tupleVal vs]) := by
  induction h with
  | nil => exact .cons h' .nil
  | cons h1 _ ih => exact .cons h1 (ih h')

omit t k in
theorem pair_fails_first {i : Nat} {a b : Expr} {s : List Char} (h : Fails G X a s) : Fails G X (.seq i [a, b]) s := by
  obtain ⟨L, h⟩ := h
  exact ⟨_, .seq_fail h⟩

omit t k in
theorem pair_fails_second {i : Nat} {a b : Expr} {s s1 : List Char} {vs : List Val} (h : Yields G X T sp a s s1 vs) (h' : Fails G X b s1) : Fails G X (.seq i [a, b]) s := by
  obtain ⟨t, L, h, _⟩ := h
  obtain ⟨L', h'⟩ := h'
  exact ⟨_, .seq_later h (.seq_fail h')⟩

/-- The rule of level `i` reads `u`. -/
def ReadsA (G : Grammar) (X : ExtSpec) (T : Nat → Ty) (sp : SpanSpec) (lvl : Nat → String) (i : Nat) (u : Term) (s r : List Char) : Prop :=
  ∃ v, Rule G X T sp (lvl i) s r [v] ∧ Denotes v u

/-- A chain of operands of level `i + 1`, the last operator at the top. -/
def ReadsB (G : Grammar) (X : ExtSpec) (T : Nat → Ty) (sp : SpanSpec) (lvl oper : Nat → String) (i : Nat) (u : Term) (s r : List Char) : Prop :=
  ∀ e f g, T e ≠ .unit → T f ≠ .unit → T g ≠ .unit →
    ∃ s1 h ws, Rule G X T sp (lvl (i + 1)) s s1 [h] ∧ YieldsMany G X T sp (.seq e [.nt f (oper i), .nt g (lvl (i + 1))]) s1 r ws ∧ Denotes (.app ["fold_left"] [h, .list ws]) u

/-- A chain of operands of level `i + 1`, the first operator at the top. -/
def ReadsC (G : Grammar) (X : ExtSpec) (T : Nat → Ty) (sp : SpanSpec) (lvl oper : Nat → String) (i : Nat) (u : Term) (s r : List Char) : Prop :=
  ∀ e f g, T e ≠ .unit → T f ≠ .unit → T g ≠ .unit →
    ∃ s1 v ws, YieldsMany G X T sp (.seq e [.nt f (lvl (i + 1)), .nt g (oper i)]) s s1 ws ∧ Rule G X T sp (lvl (i + 1)) s1 r [v] ∧ Denotes (.app ["fold_right"] [.list ws, v]) u

omit t k in
theorem ReadsA.toB {i : Nat} {u : Term} {s r : List Char} (h : ReadsA G X T sp lvl (i + 1) u s r) : ReadsB G X T sp lvl oper i u s r := by
  intro e f g _ _ _
  obtain ⟨v, h, hd⟩ := h
  exact ⟨r, v, [], h, .nil, .leftNil hd⟩

omit t k in
theorem ReadsA.toC {i : Nat} {u : Term} {s r : List Char} (h : ReadsA G X T sp lvl (i + 1) u s r) : ReadsC G X T sp lvl oper i u s r := by
  intro e f g _ _ _
  obtain ⟨v, h, hd⟩ := h
  exact ⟨s, v, [], .nil, h, .rightNil hd⟩

theorem ReadsB.toA {i : Nat} {lv : Level} {u : Term} {s r : List Char} (hi : tab[i]? = some lv) (hR : lv.right = false) (hs : Stop tab K i r)
    (h : ReadsB G X T sp lvl oper i u s r) : ReadsA G X T sp lvl i u s r := by
  obtain ⟨e, he, hr⟩ := t.level i lv hi
  rw [hR] at hr
  cases hr with
  | @left a b c d e f g hT =>
    simp only [List.mem_cons, List.not_mem_nil, or_false, forall_eq_or_imp, forall_eq] at hT
    obtain ⟨ha, hb, hc, hd, he', hf', hg⟩ := hT
    obtain ⟨s1, v, ws, h1, h2, h3⟩ := h e f g he' hf' hg
    refine ⟨_, ⟨_, he, ?_⟩, h3⟩
    have hv : isVariant ["fold_left"] = false := by decide
    simp only [yields_act hv, yields_seq, YieldsSeq, yields_star, if_neg ha, if_neg hb, if_neg hd, nt_val hc]
    refine ⟨_, ⟨_, ⟨s1, _, _, h1, ⟨r, _, _, ⟨ws, ⟨h2, ?_⟩, rfl⟩, ⟨rfl, rfl⟩, rfl⟩, rfl⟩, rfl⟩, rfl⟩
    exact pair_fails_first (oper_fail t k hi fun o ho q => hs i lv o q (Nat.le_refl _) hi ho)

theorem ReadsC.toA {i : Nat} {lv : Level} {u : Term} {s r : List Char} (hi : tab[i]? = some lv) (hR : lv.right = true) (hs : Stop tab K i r)
    (h : ReadsC G X T sp lvl oper i u s r) : ReadsA G X T sp lvl i u s r := by
  obtain ⟨e, he, hr⟩ := t.level i lv hi
  rw [hR] at hr
  cases hr with
  | @right a b c d e f g hT =>
    simp only [List.mem_cons, List.not_mem_nil, or_false, forall_eq_or_imp, forall_eq] at hT
    obtain ⟨ha, hb, hc, hd, he', hf', hg⟩ := hT
    obtain ⟨s1, v, ws, h2, h1, h3⟩ := h d e f hd he' hf'
    refine ⟨_, ⟨_, he, ?_⟩, h3⟩
    have hv : isVariant ["fold_right"] = false := by decide
    simp only [yields_act hv, yields_seq, YieldsSeq, yields_star, if_neg ha, if_neg hb, if_neg hc, nt_val hg]
    refine ⟨_, ⟨_, ⟨s1, _, _, ⟨ws, ⟨h2, ?_⟩, rfl⟩, ⟨r, _, _, h1, ⟨rfl, rfl⟩, rfl⟩, rfl⟩, rfl⟩, rfl⟩
    exact pair_fails_second ((nt_val he').2 h1) (oper_fail t k hi fun o ho q => hs i lv o q (Nat.le_refl _) hi ho)

/-- What is proved of each reading. -/
def Good (G : Grammar) (X : ExtSpec) (T : Nat → Ty) (sp : SpanSpec) (tab : List Level) (K : Lexis) (lvl oper : Nat → String) (i : Nat) (u : Term) (s r : List Char) : Prop :=
  (i ≤ tab.length → Stop tab K i r → ReadsA G X T sp lvl i u s r) ∧
  (∀ lv, tab[i]? = some lv → lv.right = false → Stop tab K (i + 1) r → ReadsB G X T sp lvl oper i u s r) ∧
  (∀ lv, tab[i]? = some lv → lv.right = true → Stop tab K i r → ReadsC G X T sp lvl oper i u s r)

theorem Good.down {i : Nat} {u : Term} {s r : List Char} (hi : i < tab.length) (h : Good G X T sp tab K lvl oper (i + 1) u s r) : Good G X T sp tab K lvl oper i u s r := by
  have hA := h.1 hi
  have hB : Stop tab K (i + 1) r → ReadsB G X T sp lvl oper i u s r := fun hs => (hA hs).toB
  have hC : Stop tab K i r → ReadsC G X T sp lvl oper i u s r := fun hs => (hA (hs.mono (Nat.le_succ i))).toC
  refine ⟨fun _ hs => ?_, fun lv _ _ hs => hB hs, fun lv _ _ hs => hC hs⟩
  obtain ⟨lv, hlv⟩ : ∃ lv, tab[i]? = some lv := ⟨_, List.getElem?_eq_getElem hi⟩
  cases hR : lv.right with
  | false => exact ReadsB.toA t k hlv hR hs (hB (hs.mono (Nat.le_succ i)))
  | true => exact ReadsC.toA t k hlv hR hs (hC hs)

theorem Good.lower {i j : Nat} {u : Term} {s r : List Char} (hi : i ≤ tab.length) (hj : j ≤ i) (h : Good G X T sp tab K lvl oper i u s r) :
    Good G X T sp tab K lvl oper j u s r := by
  induction i with
  | zero => rw [Nat.le_zero.1 hj]; exact h
  | succ i ih =>
    by_cases hji : j = i + 1
    · rw [hji]; exact h
    · exact ih (by omega) (by omega) (Good.down t k hi h)

omit t k in
theorem lt_of_level {i : Nat} {lv : Level} (h : tab[i]? = some lv) : i < tab.length := (List.getElem?_eq_some_iff.1 h).1

theorem atom_good {i : Nat} {u : Term} {s r : List Char} (h : ReadsA G X T sp lvl tab.length u s r) : Good G X T sp tab K lvl oper i u s r := by
  by_cases hi : i ≤ tab.length
  · refine Good.lower t k (Nat.le_refl _) hi ⟨fun _ _ => h, fun lv hlv => ?_, fun lv hlv => ?_⟩
    · exact absurd (lt_of_level hlv) (Nat.lt_irrefl _)
    · exact absurd (lt_of_level hlv) (Nat.lt_irrefl _)
  · exact ⟨fun h => absurd h hi, fun lv hlv => absurd (lt_of_level hlv) (by omega), fun lv hlv => absurd (lt_of_level hlv) (by omega)⟩

theorem level_complete {i : Nat} {u : Term} {s r : List Char} (h : Reads tab K i u s r) : Good G X T sp tab K lvl oper i u s r := by
  obtain ⟨a, b, c, d, he, hT⟩ := t.atom
  simp only [List.mem_cons, List.not_mem_nil, or_false, forall_eq_or_imp, forall_eq] at hT
  obtain ⟨ha, hb, hc, hd⟩ := hT
  have hv : isVariant ["leaf"] = false := by decide
  induction h with
  | word h =>
    refine atom_good t k ⟨_, ⟨_, he, ?_⟩, .leaf⟩
    simp only [yields_choice, YieldsAlt, yields_act hv, if_neg ha, if_neg hb, k.word]
    exact ⟨_, .inl ⟨_, h, rfl⟩, rfl⟩
  | @paren j u s s1 s2 r h1 h2 h3 ih =>
    obtain ⟨v, h4, h5⟩ := ih.1 (Nat.zero_le _) (fun i lv o q _ hi ho hop => k.op_not_closing hi ho hop h3)
    refine atom_good t k ⟨v, ⟨_, he, ?_⟩, h5⟩
    simp only [yields_choice, YieldsAlt, yields_seq, YieldsSeq, if_neg ha, if_neg hc, nt_val hd, k.opening, k.closing]
    refine ⟨_, .inr ⟨act_fails (k.word_fails _ fun vs q => k.opening_not_word h1), .inl ⟨_, ⟨s1, _, _, ⟨h1, rfl⟩, ⟨s2, _, _, h4, ⟨r, _, _, ⟨h3, rfl⟩, ⟨rfl, rfl⟩, rfl⟩, rfl⟩, rfl⟩, rfl⟩⟩, rfl⟩
  | @left j i lv o a b s s1 s2 r hj hi hR ho h1 h2 h3 ih1 ih2 =>
    have hn := lt_of_level hi
    have hs1 : Stop tab K (i + 1) s1 := fun i' lv' o' q hi' hlv' ho' hop => by
      have := (k.exclusive hi ho hlv' ho' h2 hop).1
      omega
    have hB : Stop tab K (i + 1) r → ReadsB G X T sp lvl oper i (.bin o.fn a b) s r := by
      intro hs e f g he hf hg
      obtain ⟨s', w, ws, h4, h5, h6⟩ := ih1.2.1 lv hi hR hs1 e f g he hf hg
      obtain ⟨v, h7, h8⟩ := ih2.1 hn hs
      refine ⟨s', w, ws ++ [.tup [.app [o.fn] [], v]], h4, ?_, .leftSnoc h6 h8⟩
      have := many_snoc h5 (r := r) (vs := [.app [o.fn] [], v]) (by
        simp only [yields_seq, YieldsSeq, if_neg he, nt_val hf, nt_val hg]
        exact ⟨_, ⟨s2, _, _, oper_yield t k hi ho h2, ⟨r, _, _, h7, ⟨rfl, rfl⟩, rfl⟩, rfl⟩, rfl⟩)
      exact this
    refine Good.lower t k (Nat.le_of_lt hn) hj ⟨fun _ hs => ReadsB.toA t k hi hR hs (hB (hs.mono (Nat.le_succ _))), fun _ _ _ hs => hB hs, fun lv' hlv' hR' => ?_⟩
    rw [hi] at hlv'; cases hlv'
    rw [hR] at hR'; cases hR'
  | @right j i lv o a b s s1 s2 r hj hi hR ho h1 h2 h3 ih1 ih2 =>
    have hn := lt_of_level hi
    have hs1 : Stop tab K (i + 1) s1 := fun i' lv' o' q hi' hlv' ho' hop => by
      have := (k.exclusive hi ho hlv' ho' h2 hop).1
      omega
    have hC : Stop tab K i r → ReadsC G X T sp lvl oper i (.bin o.fn a b) s r := by
      intro hs e f g he hf hg
      obtain ⟨v, h7, h8⟩ := ih1.1 hn hs1
      obtain ⟨s', w, ws, h4, h5, h6⟩ := ih2.2.2 lv hi hR hs e f g he hf hg
      refine ⟨s', w, .tup [v, .app [o.fn] []] :: ws, ?_, h5, .rightCons h8 h6⟩
      refine .cons (vs := [v, .app [o.fn] []]) (s1 := s2) ?_ h4
      simp only [yields_seq, YieldsSeq, if_neg he, nt_val hf, nt_val hg]
      exact ⟨_, ⟨s1, _, _, h7, ⟨s2, _, _, oper_yield t k hi ho h2, ⟨rfl, rfl⟩, rfl⟩, rfl⟩, rfl⟩
    refine Good.lower t k (Nat.le_of_lt hn) hj ⟨fun _ hs => ReadsC.toA t k hi hR hs (hC hs), fun lv' hlv' hR' => ?_, fun _ _ _ hs => hC hs⟩
    rw [hi] at hlv'; cases hlv'
    rw [hR] at hR'; cases hR'

end

/-! ## Values -/

theorem left_inv {h : Val} {ws : List Val} {t : Term} (hd : Denotes (.app ["fold_left"] [h, .list ws]) t) :
    (ws = [] ∧ Denotes h t) ∨ ∃ vs f v a b, ws = vs ++ [.tup [.app [f] [], v]] ∧ Denotes (.app ["fold_left"] [h, .list vs]) a ∧ Denotes v b ∧ t = .bin f a b := by
  generalize hw : Val.app ["fold_left"] [h, .list ws] = w at hd
  cases hd with
  | leftNil hd =>
    simp only [Val.app.injEq, List.cons.injEq, Val.list.injEq, true_and, and_true] at hw
    obtain ⟨rfl, rfl⟩ := hw
    exact .inl ⟨rfl, hd⟩
  | leftSnoc hd hv =>
    simp only [Val.app.injEq, List.cons.injEq, Val.list.injEq, true_and, and_true] at hw
    obtain ⟨rfl, rfl⟩ := hw
    exact .inr ⟨_, _, _, _, _, rfl, hd, hv, rfl⟩
  | _ => simp at hw

theorem right_inv {l : Val} {ws : List Val} {t : Term} (hd : Denotes (.app ["fold_right"] [.list ws, l]) t) :
    (ws = [] ∧ Denotes l t) ∨ ∃ f v vs a b, ws = .tup [v, .app [f] []] :: vs ∧ Denotes v a ∧ Denotes (.app ["fold_right"] [.list vs, l]) b ∧ t = .bin f a b := by
  generalize hw : Val.app ["fold_right"] [.list ws, l] = w at hd
  cases hd with
  | rightNil hd =>
    simp only [Val.app.injEq, List.cons.injEq, Val.list.injEq, true_and, and_true] at hw
    obtain ⟨rfl, rfl⟩ := hw
    exact .inl ⟨rfl, hd⟩
  | rightCons hv hd =>
    simp only [Val.app.injEq, List.cons.injEq, Val.list.injEq, true_and, and_true] at hw
    obtain ⟨rfl, rfl⟩ := hw
    exact .inr ⟨_, _, _, _, _, rfl, hv, hd, rfl⟩
  | _ => simp at hw

theorem Denotes.det {v : Val} {t t' : Term} (h : Denotes v t) (h' : Denotes v t') : t = t' := by
  induction h generalizing t' with
  | @leaf vs =>
    generalize hw : Val.app ["leaf"] vs = w at h'
    cases h' with
    | leaf => simp only [Val.app.injEq, true_and] at hw; rw [hw]
    | _ => simp at hw
  | leftNil _ ih =>
    rcases left_inv h' with ⟨_, h'⟩ | ⟨vs, f, v, a, b, h1, _⟩
    · exact ih h'
    · simp at h1
  | leftSnoc _ _ ih1 ih2 =>
    rcases left_inv h' with ⟨h1, _⟩ | ⟨vs, f, v, a, b, h1, h2, h3, rfl⟩
    · simp at h1
    · have h4 := List.append_inj' h1 rfl
      obtain ⟨rfl, h5⟩ := h4
      simp only [List.cons.injEq, Val.tup.injEq, Val.app.injEq, and_true] at h5
      obtain ⟨rfl, rfl⟩ := h5
      rw [ih1 h2, ih2 h3]
  | rightNil _ ih =>
    rcases right_inv h' with ⟨_, h'⟩ | ⟨f, v, vs, a, b, h1, _⟩
    · exact ih h'
    · simp at h1
  | rightCons _ _ ih1 ih2 =>
    rcases right_inv h' with ⟨h1, _⟩ | ⟨f, v, vs, a, b, h1, h2, h3, rfl⟩
    · simp at h1
    · simp only [List.cons.injEq, Val.tup.injEq, Val.app.injEq, and_true] at h1
      obtain ⟨⟨rfl, rfl⟩, rfl⟩ := h1
      rw [ih1 h2, ih2 h3]

end Oak.Precedence
