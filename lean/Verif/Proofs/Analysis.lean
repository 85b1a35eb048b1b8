import Verif.Spec.Analysis
import Verif.Properties.Chaining
/-!
Proofs about the analysis phase.
-/
set_option linter.constructorNameAsVariable false
set_option autoImplicit false

namespace Oak
open Spec

/-! Duplicates. -/

section
variable {α : Type} {name : α → String}

theorem any_iff {items : List (String × α)} {n : String} : (items.any fun y => y.1 == n) = true ↔ n ∈ items.map (·.1) := by
  simp [List.any_eq_true]

theorem populate_spec (xs : List α) : ∀ (pre : List (String × α)) (dups : List String), (pre.map (·.1)).Nodup →
    ∃ ks ds, populate name pre dups xs = (pre ++ ks, dups ++ ds) ∧ ((pre ++ ks).map (·.1)).Nodup ∧ (ks.map (·.2)).Sublist xs ∧
      (∀ k ∈ ks, k.1 = name k.2) ∧ (∀ x ∈ xs, name x ∈ (pre ++ ks).map (·.1)) ∧ ks.length + ds.length = xs.length ∧
      (∀ d ∈ ds, d ∈ xs.map name) ∧
      (∀ n, n ∉ pre.map (·.1) → ks.find? (fun k => k.1 == n) = (xs.find? fun x => name x == n).map fun x => (name x, x)) := by
  induction xs with
  | nil => intro pre dups h; exact ⟨[], [], by simp [populate], by simpa using h, .slnil, by simp, by simp, rfl, by simp, by simp⟩
  | cons x xs ih =>
    intro pre dups h
    unfold populate
    by_cases hx : name x ∈ pre.map (·.1)
    · rw [if_pos (any_iff.2 hx)]
      obtain ⟨ks, ds, h1, h2, h3, h4, h5, h6, h7, h8⟩ := ih pre (dups ++ [name x]) h
      refine ⟨ks, name x :: ds, by rw [h1]; simp, h2, h3.cons _, h4, ?_, by simp; omega, ?_, ?_⟩
      · refine List.forall_mem_cons.2 ⟨?_, h5⟩
        rw [List.map_append]; exact List.mem_append_left _ hx
      · refine List.forall_mem_cons.2 ⟨by simp, fun d hd => ?_⟩
        rw [List.map_cons]; exact List.mem_cons_of_mem _ (h7 d hd)
      · intro n hn
        have : name x ≠ n := fun h => hn (h ▸ hx)
        rw [h8 n hn, List.find?_cons, beq_eq_false_iff_ne.2 this]
    · rw [if_neg (fun h => hx (any_iff.1 h))]
      have hnd : ((pre ++ [(name x, x)]).map (·.1)).Nodup := by
        rw [List.map_append, List.nodup_append]
        refine ⟨h, by simp, ?_⟩
        intro a ha b hb
        simp only [List.map_cons, List.map_nil, List.mem_singleton] at hb
        subst hb
        intro hab; exact hx (hab ▸ ha)
      obtain ⟨ks, ds, h1, h2, h3, h4, h5, h6, h7, h8⟩ := ih _ dups hnd
      refine ⟨(name x, x) :: ks, ds, by rw [h1]; simp, by simpa using h2, h3.cons_cons x, List.forall_mem_cons.2 ⟨rfl, h4⟩, ?_, by simp; omega, ?_, ?_⟩
      · refine List.forall_mem_cons.2 ⟨by simp, fun y hy => by simpa using h5 y hy⟩
      · intro d hd
        rw [List.map_cons]; exact List.mem_cons_of_mem _ (h7 d hd)
      · intro n hn
        rw [List.find?_cons, List.find?_cons]
        by_cases hxn : name x = n
        · simp [hxn]
        · rw [beq_eq_false_iff_ne.2 hxn]
          simp only
          refine h8 n ?_
          rw [List.map_append, List.mem_append]
          rintro (h | h)
          · exact hn h
          · simp only [List.map_cons, List.map_nil, List.mem_singleton] at h
            exact hxn h.symm

theorem sublist_nodup_names {items : List (String × α)} {xs : List α} (hs : (items.map (·.2)).Sublist xs) (hn : ∀ y ∈ items, y.1 = name y.2)
    (hnd : (items.map (·.1)).Nodup) (hl : items.length = xs.length) : (xs.map name).Nodup := by
  have := hs.eq_of_length (by simpa using hl)
  rw [← this, List.map_map]
  have : items.map (name ∘ (·.2)) = items.map (·.1) := List.map_congr_left fun y hy => (hn y hy).symm
  rw [this]; exact hnd

theorem nodup_no_dups (xs : List α) : ∀ (pre : List (String × α)) (dups : List String), (xs.map name).Nodup → (∀ x ∈ xs, name x ∉ pre.map (·.1)) →
    populate name pre dups xs = (pre ++ xs.map fun x => (name x, x), dups) := by
  induction xs with
  | nil => intro pre dups _ _; simp [populate]
  | cons x xs ih =>
    intro pre dups h hd
    rw [List.map_cons, List.nodup_cons] at h
    rw [List.forall_mem_cons] at hd
    unfold populate
    rw [if_neg (fun h => hd.1 (any_iff.1 h)), ih _ _ h.2]
    · simp
    · intro y hy
      rw [List.map_append, List.mem_append]
      rintro (h' | h')
      · exact hd.2 y hy h'
      · simp only [List.map_cons, List.map_nil, List.mem_singleton] at h'
        exact h.1 (h' ▸ List.mem_map_of_mem hy)

end

/-! Resolution. -/

theorem resolveAll_eq (names : List String) (es : List Expr) : resolveAll names es = es.map (resolveExpr names) := by
  induction es with
  | nil => rfl
  | cons e es ih => rw [resolveAll, ih]; rfl

theorem writtenAll_eq (es : List Expr) : writtenAll es = es.map Expr.written := by
  induction es with
  | nil => rfl
  | cons e es ih => rw [writtenAll, ih]; rfl

theorem resolve_written (names : List String) (e : Expr) : (resolveExpr names e).written = e.written := by
  induction e using Expr.ind with
  | ext i p =>
    unfold resolveExpr
    split
    · split <;> rfl
    · rfl
  | seq i es ih => simp only [resolveExpr, Expr.written, resolveAll_eq, writtenAll_eq, List.map_map]; congr 1; exact List.map_congr_left ih
  | choice i es ih => simp only [resolveExpr, Expr.written, resolveAll_eq, writtenAll_eq, List.map_map]; congr 1; exact List.map_congr_left ih
  | _ => simp_all [resolveExpr, Expr.written]

theorem unresolved_written {e : Expr} (h : e.Unresolved) : e.written = e := by
  induction e using Expr.ind with
  | nt i r => exact absurd .refl (h i r)
  | seq i es ih =>
    rw [Expr.written, writtenAll_eq]; congr 1
    conv => rhs; rw [← List.map_id es]
    exact List.map_congr_left fun e he => ih e he fun j r hs => h j r (.seq he hs)
  | choice i es ih =>
    rw [Expr.written, writtenAll_eq]; congr 1
    conv => rhs; rw [← List.map_id es]
    exact List.map_congr_left fun e he => ih e he fun j r hs => h j r (.choice he hs)
  | star i e ih => rw [Expr.written, ih fun j r hs => h j r (.star hs)]
  | plus i e ih => rw [Expr.written, ih fun j r hs => h j r (.plus hs)]
  | opt i e ih => rw [Expr.written, ih fun j r hs => h j r (.opt hs)]
  | not i e ih => rw [Expr.written, ih fun j r hs => h j r (.not hs)]
  | and i e ih => rw [Expr.written, ih fun j r hs => h j r (.and hs)]
  | act i e b f ih => rw [Expr.written, ih fun j r hs => h j r (.act hs)]
  | asc i e t ih => rw [Expr.written, ih fun j r hs => h j r (.asc hs)]
  | span i e ih => rw [Expr.written, ih fun j r hs => h j r (.span hs)]
  | range i e ih => rw [Expr.written, ih fun j r hs => h j r (.range hs)]
  | _ => rw [Expr.written]

theorem resolvedAll_of {G : Grammar} {es : List Expr} (h : ∀ e ∈ es, e.resolved G = true) : resolvedAll G es = true := by
  induction es with
  | nil => rfl
  | cons e es ih =>
    rw [List.forall_mem_cons] at h
    rw [resolvedAll, h.1, ih h.2]; rfl

theorem find_isSome_iff {G : Grammar} {r : String} : (G.find r).isSome = true ↔ r ∈ G.rules.map (·.1) := by
  simp [Grammar.find, List.find?_isSome]

theorem resolve_resolved {G : Grammar} {names : List String} (hG : ∀ r, (G.find r).isSome = true ↔ r ∈ names) (e : Expr) (h : e.Unresolved) :
    (resolveExpr names e).resolved G = true := by
  induction e using Expr.ind with
  | nt i r => exact absurd .refl (h i r)
  | ext i p =>
    unfold resolveExpr
    split
    · split
      · rename_i hc
        exact (hG _).2 (List.contains_iff_mem.1 hc)
      · rename_i r hc
        rw [Expr.resolved, ← Option.not_isSome, Bool.not_eq_true', Bool.eq_false_iff, Ne, hG]
        exact fun h => hc (List.contains_iff_mem.2 h)
    · rename_i h1
      unfold Expr.resolved
      split <;> simp_all
  | seq i es ih =>
    rw [resolveExpr, Expr.resolved, resolveAll_eq]
    refine resolvedAll_of fun e he => ?_
    obtain ⟨x, hx, rfl⟩ := List.mem_map.1 he
    exact ih x hx fun j r hs => h j r (.seq hx hs)
  | choice i es ih =>
    rw [resolveExpr, Expr.resolved, resolveAll_eq]
    refine resolvedAll_of fun e he => ?_
    obtain ⟨x, hx, rfl⟩ := List.mem_map.1 he
    exact ih x hx fun j r hs => h j r (.choice hx hs)
  | star i e ih => exact ih fun j r hs => h j r (.star hs)
  | plus i e ih => exact ih fun j r hs => h j r (.plus hs)
  | opt i e ih => exact ih fun j r hs => h j r (.opt hs)
  | not i e ih => exact ih fun j r hs => h j r (.not hs)
  | and i e ih => exact ih fun j r hs => h j r (.and hs)
  | act i e b f ih => exact ih fun j r hs => h j r (.act hs)
  | asc i e t ih => exact ih fun j r hs => h j r (.asc hs)
  | span i e ih => exact ih fun j r hs => h j r (.span hs)
  | range i e ih => exact ih fun j r hs => h j r (.range hs)
  | _ => rfl

theorem shapedAll_of {es : List Expr} (h : ∀ e ∈ es, e.shaped = true) : shapedAll es = true := by
  induction es with
  | nil => rfl
  | cons e es ih => rw [List.forall_mem_cons] at h; rw [shapedAll, h.1, ih h.2]; rfl

theorem filledAll_of {es : List Expr} (h : ∀ e ∈ es, e.filled = true) : filledAll es = true := by
  induction es with
  | nil => rfl
  | cons e es ih => rw [List.forall_mem_cons] at h; rw [filledAll, h.1, ih h.2]; rfl

theorem shapedAll_all {es : List Expr} (h : shapedAll es = true) : ∀ e ∈ es, e.shaped = true := by
  induction es with
  | nil => intro e he; cases he
  | cons x es ih =>
    rw [shapedAll, Bool.and_eq_true] at h
    exact List.forall_mem_cons.2 ⟨h.1, ih h.2⟩

theorem filledAll_all {es : List Expr} (h : filledAll es = true) : ∀ e ∈ es, e.filled = true := by
  induction es with
  | nil => intro e he; cases he
  | cons x es ih =>
    rw [filledAll, Bool.and_eq_true] at h
    exact List.forall_mem_cons.2 ⟨h.1, ih h.2⟩

theorem resolve_shaped (names : List String) (e : Expr) (h : e.shaped = true) : (resolveExpr names e).shaped = true := by
  induction e using Expr.ind with
  | ext i p => unfold resolveExpr; split <;> (try split) <;> rfl
  | seq i es ih =>
    rw [Expr.shaped] at h
    rw [resolveExpr, Expr.shaped, resolveAll_eq]
    refine shapedAll_of fun e he => ?_
    obtain ⟨x, hx, rfl⟩ := List.mem_map.1 he
    exact ih x hx (shapedAll_all h x hx)
  | choice i es ih =>
    rw [Expr.shaped, Bool.and_eq_true] at h
    rw [resolveExpr, Expr.shaped, resolveAll_eq, Bool.and_eq_true]
    refine ⟨by simpa using h.1, shapedAll_of fun e he => ?_⟩
    obtain ⟨x, hx, rfl⟩ := List.mem_map.1 he
    exact ih x hx (shapedAll_all h.2 x hx)
  | _ => simp_all [resolveExpr, Expr.shaped]

theorem resolve_filled (names : List String) (e : Expr) (h : e.filled = true) : (resolveExpr names e).filled = true := by
  induction e using Expr.ind with
  | ext i p => unfold resolveExpr; split <;> (try split) <;> rfl
  | seq i es ih =>
    rw [Expr.filled, Bool.and_eq_true] at h
    rw [resolveExpr, Expr.filled, resolveAll_eq, Bool.and_eq_true]
    refine ⟨by simpa using h.1, filledAll_of fun e he => ?_⟩
    obtain ⟨x, hx, rfl⟩ := List.mem_map.1 he
    exact ih x hx (filledAll_all h.2 x hx)
  | choice i es ih =>
    rw [Expr.filled, Bool.and_eq_true] at h
    rw [resolveExpr, Expr.filled, resolveAll_eq, Bool.and_eq_true]
    refine ⟨by simpa using h.1, filledAll_of fun e he => ?_⟩
    obtain ⟨x, hx, rfl⟩ := List.mem_map.1 he
    exact ih x hx (filledAll_all h.2 x hx)
  | _ => simp_all [resolveExpr, Expr.filled]

/-! Phases. -/

variable {α β : Type}

/-- A phase that gives a `Value` exactly when it emits no error. -/
def Honest (x : Phase α) : Prop := ∀ p ms, x = .ok (p, ms) → ((∃ a, p = .value a) ↔ ∀ msg ∈ ms, msg.isError = false)

theorem andThen_ok {x : Phase α} {f : α → Phase β} {q ms} (h : Phase.andThen x f = .ok (q, ms)) :
    (∃ a ms1 ms2, x = .ok (.value a, ms1) ∧ f a = .ok (q, ms2) ∧ ms = ms1 ++ ms2) ∨
    (∃ a ms1 ms2 q', x = .ok (.fake a, ms1) ∧ f a = .ok (q', ms2) ∧ q = q'.demote ∧ ms = ms1 ++ ms2) ∨
    (x = .ok (.nothing, ms) ∧ q = .nothing) := by
  unfold Phase.andThen at h
  obtain ⟨⟨p, ms1⟩, h1, h2⟩ := Res.bind_eq_ok h
  simp only at h2
  cases p with
  | value a =>
    obtain ⟨⟨q', ms2⟩, h3, h4⟩ := Res.bind_eq_ok h2
    cases h4
    exact .inl ⟨a, ms1, ms2, h1, h3, rfl⟩
  | fake a =>
    obtain ⟨⟨q', ms2⟩, h3, h4⟩ := Res.bind_eq_ok h2
    cases h4
    exact .inr (.inl ⟨a, ms1, ms2, q', h1, h3, rfl, rfl⟩)
  | nothing => cases h2; exact .inr (.inr ⟨h1, rfl⟩)

theorem demote_not_value {q : Partial β} {b : β} : q.demote ≠ .value b := by
  intro h; cases q <;> cases h

theorem andThen_value {x : Phase α} {f : α → Phase β} {b : β} {ms} (h : Phase.andThen x f = .ok (.value b, ms)) :
    ∃ a ms1 ms2, x = .ok (.value a, ms1) ∧ f a = .ok (.value b, ms2) ∧ ms = ms1 ++ ms2 := by
  rcases andThen_ok h with h | ⟨a, ms1, ms2, q', _, _, h3, _⟩ | ⟨_, h⟩
  · exact h
  · exact absurd h3.symm demote_not_value
  · cases h

theorem Honest.andThen {x : Phase α} {f : α → Phase β} (hx : Honest x) (hf : ∀ a, Honest (f a)) : Honest (Phase.andThen x f) := by
  intro q ms h
  rcases andThen_ok h with ⟨a, ms1, ms2, h1, h2, rfl⟩ | ⟨a, ms1, ms2, q', h1, h2, rfl, rfl⟩ | ⟨h1, rfl⟩
  · have k1 := (hx _ _ h1).1 ⟨a, rfl⟩
    rw [hf a _ _ h2]
    simp only [List.mem_append]
    exact ⟨fun k2 m hm => hm.elim (k1 m) (k2 m), fun k2 m hm => k2 m (.inr hm)⟩
  · refine ⟨fun ⟨b, hb⟩ => absurd hb demote_not_value, fun k => ?_⟩
    obtain ⟨b, hb⟩ := (hx _ _ h1).2 fun m hm => k m (List.mem_append_left _ hm)
    cases hb
  · refine ⟨fun ⟨b, hb⟩ => (by cases hb), fun k => ?_⟩
    obtain ⟨b, hb⟩ := (hx _ _ h1).2 k
    cases hb

theorem dup_honest {name : α → String} {xs : List α} (f : List (String × α) → β) (msg : String → Msg) (hmsg : ∀ s, (msg s).isError = true) :
    Honest (.ok ((duplicates name xs).1.map f, (duplicates name xs).2.map msg)) := by
  rintro p ms h
  cases h
  unfold duplicates
  cases hd : (populate name [] [] xs).2 with
  | nil => simp [hd, Partial.map]
  | cons d ds => simp [hd, Partial.map, hmsg]

theorem atLeastOneRule_honest (F : FGrammar) : Honest (atLeastOneRule F) := by
  intro p ms h
  unfold atLeastOneRule at h
  split at h <;> cases h <;> simp [Msg.isError]

theorem mergeAttrs_msgs (as : List Path) : ∀ lvl, ∀ m ∈ (mergeAttrs lvl as).2, m.isError = false := by
  induction as with
  | nil => intro lvl m hm; cases hm
  | cons a as ih =>
    intro lvl m hm
    unfold mergeAttrs at hm
    split at hm
    · simp_all
    · rename_i h; cases h; exact ih _ m hm
    · rename_i h; cases h; exact ih _ m hm
    · rename_i h
      cases h
      rcases List.mem_cons.1 hm with rfl | hm
      · rfl
      · exact ih _ m hm

theorem analyse_honest (n m : Nat) (F : FGrammar) : Honest (analyse n m F) := by
  unfold analyse
  refine ((((Honest.andThen ?_ fun A => ?_).andThen fun A => ?_).andThen fun A => ?_).andThen fun A => ?_).andThen fun A => ?_
  · exact dup_honest _ _ fun _ => rfl
  · exact dup_honest _ _ fun _ => rfl
  · intro p ms h; cases h; simp
  · intro p ms h
    unfold wellFormedPhase at h
    obtain ⟨st, h1, h2⟩ := Res.bind_eq_ok h
    cases h2
    have := wellFormedness_diags h1
    cases hw : st.wellFormed with
    | true =>
      rw [hw] at this
      have : st.diags = [] := by
        cases hd : st.diags with
        | nil => rfl
        | cons d ds => exact absurd (this.2 (by simp [hd])) (by simp)
      simp [this]
    | false =>
      have := this.1 hw
      cases hd : st.diags with
      | nil => exact absurd hd this
      | cons d ds => simp [Msg.isError]
  · intro p ms h
    unfold chainPhase at h
    obtain ⟨ws, h1, h2⟩ := Res.bind_eq_ok h
    cases h2
    simp [Msg.isError]
  · intro p ms h
    cases h
    exact ⟨fun _ => mergeAttrs_msgs _ _, fun _ => ⟨_, rfl⟩⟩

theorem analysisPhase_honest (n m : Nat) (F : FGrammar) : Honest (analysisPhase n m F) :=
  (atLeastOneRule_honest F).andThen fun F => analyse_honest n m F

theorem resolved_ext_sub {G : Grammar} {e : Expr} (h : e.resolved G = true) {i : Nat} {q : String} (hs : Sub (.ext i [q]) e) : (G.find q).isNone = true := by
  induction hs with
  | refl => simpa [Expr.resolved] using h
  | seq he _ ih => exact ih (resolvedAll_mem (by simpa [Expr.resolved] using h) _ he)
  | choice he _ ih => exact ih (resolvedAll_mem (by simpa [Expr.resolved] using h) _ he)
  | _ => rename_i ih; exact ih (by simpa [Expr.resolved] using h)

/-- A computation with two bounds that returns the same result from some bounds on. -/
def Ends (x : Nat → Nat → Phase α) (P : α → Prop) : Prop :=
  ∃ N y, (∀ n m, N ≤ n → N ≤ m → x n m = .ok y) ∧ ∀ a, y.1 = .value a ∨ y.1 = .fake a → P a

theorem Ends.andThen {x : Nat → Nat → Phase α} {P : α → Prop} {f : Nat → Nat → α → Phase β} {Q : β → Prop} (hx : Ends x P)
    (hf : ∀ a, P a → Ends (fun n m => f n m a) Q) : Ends (fun n m => Phase.andThen (x n m) (f n m)) Q := by
  obtain ⟨N, ⟨p, ms⟩, h1, h2⟩ := hx
  cases p with
  | nothing =>
    refine ⟨N, (.nothing, ms), fun n m hn hm => ?_, by simp⟩
    simp only [Phase.andThen, h1 n m hn hm, Res.bind_ok]
  | value a =>
    obtain ⟨N', ⟨q, ms2⟩, k1, k2⟩ := hf a (h2 a (.inl rfl))
    refine ⟨max N N', (q, ms ++ ms2), fun n m hn hm => ?_, k2⟩
    simp only [Phase.andThen, h1 n m (by omega) (by omega), Res.bind_ok, k1 n m (by omega) (by omega)]
  | fake a =>
    obtain ⟨N', ⟨q, ms2⟩, k1, k2⟩ := hf a (h2 a (.inr rfl))
    refine ⟨max N N', (q.demote, ms ++ ms2), fun n m hn hm => ?_, fun b hb => ?_⟩
    · simp only [Phase.andThen, h1 n m (by omega) (by omega), Res.bind_ok, k1 n m (by omega) (by omega)]
    · refine k2 b ?_
      cases q <;> simp_all [Partial.demote]

theorem Ends.const {y : Partial α × List Msg} {P : α → Prop} (h : ∀ a, y.1 = .value a ∨ y.1 = .fake a → P a) : Ends (fun _ _ => .ok y) P :=
  ⟨0, y, fun _ _ _ _ => rfl, h⟩

/-- Rules that can be analysed. -/
structure Clean (rules : List (String × Expr)) : Prop where
  shaped : ∀ r ∈ rules, r.2.shaped = true
  filled : ∀ r ∈ rules, r.2.filled = true
  nodup : (rules.map (·.1)).Nodup

theorem resolve_clean {G : Grammar} (h : Clean G.rules) : Clean (resolveGrammar G).rules where
  shaped := by
    intro r hr
    obtain ⟨x, hx, rfl⟩ := List.mem_map.1 hr
    exact resolve_shaped _ _ (h.shaped x hx)
  filled := by
    intro r hr
    obtain ⟨x, hx, rfl⟩ := List.mem_map.1 hr
    exact resolve_filled _ _ (h.filled x hx)
  nodup := by
    have : (resolveGrammar G).rules.map (·.1) = G.rules.map (·.1) := by simp [resolveGrammar, List.map_map, Function.comp_def]
    rw [this]; exact h.nodup

theorem resolveGrammar_resolved {G : Grammar} (h : ∀ r ∈ G.rules, r.2.Unresolved) : (resolveGrammar G).resolved = true := by
  have hn : (resolveGrammar G).rules.map (·.1) = G.rules.map (·.1) := by simp [resolveGrammar, List.map_map, Function.comp_def]
  have hf : ∀ r, ((resolveGrammar G).find r).isSome = true ↔ r ∈ G.rules.map (·.1) := fun r => by rw [find_isSome_iff, hn]
  refine List.all_eq_true.2 fun x hx => ?_
  obtain ⟨y, hy, rfl⟩ := List.mem_map.1 hx
  exact resolve_resolved hf _ (h y hy)

theorem ruleDuplicate_ends {F : FGrammar} (hF : F.Built) :
    Ends (fun _ _ => ruleDuplicate .new F.rules) (fun A => Clean A.grammar.rules ∧ ∀ r ∈ A.grammar.rules, r.2.Unresolved) := by
  refine Ends.const fun A hA => ?_
  obtain ⟨ks, ds, h1, h2, h3, h4, _⟩ := populate_spec (name := Prod.fst) F.rules [] [] (by simp)
  simp only [List.nil_append] at h1 h2
  have hA' : A.grammar.rules = ks.map (·.2) := by
    unfold duplicates at hA
    rw [h1] at hA
    cases ds <;> simp [Partial.map] at hA <;> rw [← hA]
  have hmem : ∀ r ∈ A.grammar.rules, r ∈ F.rules := fun r hr => h3.subset (hA' ▸ hr)
  refine ⟨⟨fun r hr => hF.shaped r (hmem r hr), fun r hr => hF.filled r (hmem r hr), ?_⟩, fun r hr => hF.unresolved r (hmem r hr)⟩
  rw [hA', List.map_map]
  have : ks.map ((·.1) ∘ (·.2)) = ks.map (·.1) := List.map_congr_left fun y hy => (h4 y hy).symm
  rw [this]; exact h2

theorem functionsDuplicate_grammar {A B : AGrammar} {items : List Item} {p ms} (h : functionsDuplicate A items = .ok (p, ms))
    (hB : p = .value B ∨ p = .fake B) : B.grammar = A.grammar := by
  unfold functionsDuplicate at h
  simp only at h
  cases hd : (duplicates RustFn.name (splitFns items).1).1 with
  | value items => rw [hd] at h; cases h; rcases hB with hB | hB <;> cases hB; rfl
  | fake items => rw [hd] at h; cases h; rcases hB with hB | hB <;> cases hB; rfl
  | nothing => rw [hd] at h; cases h; rcases hB with hB | hB <;> cases hB

theorem analyse_ends {F : FGrammar} (hF : F.Built) : Ends (fun n m => analyse n m F) (fun _ => True) := by
  unfold analyse
  refine (((((ruleDuplicate_ends hF).andThen (Q := fun A => Clean A.grammar.rules ∧ ∀ r ∈ A.grammar.rules, r.2.Unresolved) (f := fun _ _ A => functionsDuplicate A F.items) fun A hA => ?_).andThen
    (Q := fun A => Clean A.grammar.rules ∧ A.grammar.resolved = true) (f := fun _ _ A => resolvePhase A) fun A hA => ?_).andThen
    (Q := fun A => Clean A.grammar.rules ∧ A.grammar.resolved = true ∧ Accepted A.grammar) (f := fun n m A => wellFormedPhase n m A) fun A hA => ?_).andThen
    (Q := fun _ => True) (f := fun n _ A => chainPhase n A) fun A hA => ?_).andThen (f := fun _ _ A => attributesPhase F.attrs A) fun A hA => ?_
  · cases h : functionsDuplicate A F.items with
    | ok y => exact Ends.const fun B hB => by rw [functionsDuplicate_grammar (p := y.1) (ms := y.2) h hB]; exact hA
    | _ => cases h
  · refine Ends.const fun B hB => ?_
    rcases hB with hB | hB <;> cases hB
    exact ⟨resolve_clean hA.1, resolveGrammar_resolved hA.2⟩
  · have hsh : A.grammar.shaped = true := List.all_eq_true.2 hA.1.shaped
    obtain ⟨st, hst⟩ := wellFormedness_total hA.2 hsh (Nat.lt_succ_self A.grammar.rules.length) (Nat.le_refl (3 * A.grammar.rules.length + 2))
    refine ⟨3 * A.grammar.rules.length + 2, (if st.wellFormed then .value A else .nothing, st.diags.reverse.map .wellFormed), fun n m hn hm => ?_, fun B hB => ?_⟩
    · obtain ⟨st', h'⟩ := wellFormedness_total (n := n) (m := m) hA.2 hsh (by omega) (by omega)
      rw [wellFormedness_det h' hst] at h'
      simp only [wellFormedPhase, h', Res.bind_ok]
    · cases hw : st.wellFormed with
      | true =>
        simp only [hw] at hB
        rcases hB with hB | hB <;> cases hB
        exact ⟨hA.1, hA.2, _, _, st, hst, hw⟩
      | false =>
        simp only [hw] at hB
        rcases hB with hB | hB <;> cases hB
  · obtain ⟨n0, ws, h⟩ := C24_terminates hA.2.2 hA.2.1 (List.all_eq_true.2 hA.1.filled) hA.1.nodup
    refine ⟨n0, (.value A, ws.map .chain), fun n m hn _ => ?_, fun _ _ => trivial⟩
    simp only [chainPhase, h n hn, Res.bind_ok]
  · exact Ends.const fun _ _ => trivial

end Oak
