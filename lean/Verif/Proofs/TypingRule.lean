import Verif.Proofs.TypingSurf
/-!
The surface inference of rules.
-/
set_option linter.constructorNameAsVariable false
set_option autoImplicit false

namespace Oak
namespace Typing

section
variable {A : AGrammar} {k : Nat} {path : List String}

/-- The condition of `Grammar.NoSeenRec` for a given rank. -/
def Strict (G : Grammar) (rank : String → Nat) : Prop := ∀ r b s, G.find r = some b → s ∈ b.seenCalls → rank s < rank r

/-- The condition of `Grammar.DirectRec` for a given rank. -/
def Ranked (G : Grammar) (rank : String → Nat) : Prop := ∀ r b s, G.find r = some b → s ∈ b.seenCalls → s = r ∨ rank s < rank r

theorem entryPoint_ok {C D N : Prop} {s : TState} (h : SInv A k C D N path s) {i : Nat} {rs : RecSet} (hi : s.types i = .rec_ rs) :
    ∃ x p, RecSet.entryPoint rs = .ok x ∧ p ∈ rs ∧ x ∈ p.path := by
  obtain ⟨h1, h2⟩ := h.recs i rs hi
  cases rs with
  | nil => exact absurd rfl h1
  | cons p rs =>
    obtain ⟨h3, _⟩ := h2 p (by simp)
    obtain ⟨kind, path'⟩ := p
    cases path' with
    | nil => exact absurd rfl h3
    | cons x xs => exact ⟨x, ⟨kind, x :: xs⟩, rfl, by simp, by simp⟩

theorem firstType_post {G : Grammar} {T : Nat → IType} (xs : List String) (hx : ∀ x ∈ xs, ∃ b, G.find x = some b) :
    ∃ t, firstType G T xs = .ok t ∧ (∀ rs, t ≠ .rec_ rs) ∧
      (t = .invisible ∨ ∃ x ∈ xs, ∃ b, G.find x = some b ∧ T b.id = t) := by
  induction xs with
  | nil => exact ⟨_, rfl, by simp, .inl rfl⟩
  | cons x xs ih =>
    rw [List.forall_mem_cons] at hx
    obtain ⟨b, hb⟩ := hx.1
    unfold firstType
    rw [hb]
    dsimp only
    split
    · obtain ⟨t, h1, h2, h3⟩ := ih hx.2
      refine ⟨t, h1, h2, h3.imp id ?_⟩
      rintro ⟨y, hy, h⟩
      exact ⟨y, by simp [hy], h⟩
    · rename_i h
      exact ⟨_, rfl, h, .inr ⟨x, by simp, b, hb, rfl⟩⟩

/-- Reducing a recursive type. -/
theorem reduceRec_post {G : Grammar} {T : Nat → IType} {rs : RecSet} (h : RecOk G path T (.rec_ rs)) :
    ∃ t, reduceRec G T (.rec_ rs) = .ok t ∧ (∀ rs, t ≠ .rec_ rs) ∧
      (t = .invisible ∨ ∃ p ∈ rs, ∃ x ∈ p.path, ∃ b, G.find x = some b ∧ T b.id = t) := by
  unfold reduceRec
  dsimp only
  split
  · exact ⟨_, rfl, by simp, .inl rfl⟩
  · obtain ⟨t, h1, h2, h3⟩ := firstType_post (G := G) (T := T) (rs.flatMap RecPath.path) (by
      intro x hx
      obtain ⟨p, hp, hx⟩ := List.mem_flatMap.1 hx
      obtain ⟨b, hb, _⟩ := ((h rs rfl).2 p hp).2 x hx
      exact ⟨b, hb⟩)
    refine ⟨t, h1, h2, h3.imp id ?_⟩
    rintro ⟨x, hx, h⟩
    obtain ⟨p, hp, hx⟩ := List.mem_flatMap.1 hx
    exact ⟨p, hp, x, hx, h⟩

/-- The rules of recursive types: the rule being visited, if the recursion is direct; none, if no recursion is seen. -/
def RuleW (D N : Prop) (path : List String) (y : String) : Prop := (D → path.head? = some y) ∧ ¬ N

/-- The result of the visit of a rule. -/
def RuleQ (A : AGrammar) (k : Nat) (C D N : Prop) (path : List String) (r : String) (s : TState) (x : IType × TState) : Prop :=
  (x.1 = .infer ∧ ¬ D ∧ path ≠ []) ∨
    (x.1 ≠ .infer ∧ Good A k C D N path [] s x.2 ∧ RecOk A.grammar path x.2.types x.1 ∧ RecIn (RuleW D N path) x.1 ∧
    (∀ j ∈ x.1.refs, (x.2.types j).settled = true) ∧ x.1 ≠ .regular (.tuple []) ∧
    (r ∉ path → ∀ b, A.grammar.find r = some b → x.2.types b.id ≠ .infer) ∧
    (N → r ∉ path ∧ ∃ b, A.grammar.find r = some b ∧ x.1 = x.2.types b.id))

theorem takeWhile_sub {x r : String} (h : x ∈ path.takeWhile fun y => y != r) : x ∈ path := (List.takeWhile_sublist _).subset h

/-- The expressions of a body belong to its rule. -/
theorem AGrammar_own (H : A.Ready k) {r : String} {b : Expr} (hb : A.grammar.find r = some b) {j : Nat} (hj : j ∈ b.zone) {r' : String} {b' : Expr}
    (hb' : A.grammar.find r' = some b') (hj' : j ∈ b'.zone) : r' = r := H.disjoint hb' hb (zone_indices _ _ hj') (zone_indices _ _ hj)

theorem body_id_inj (H : A.Ready k) {r : String} {b : Expr} (hb : A.grammar.find r = some b) {r' : String} {b' : Expr}
    (hb' : A.grammar.find r' = some b') (h : b'.id = b.id) : r' = r :=
  AGrammar_own H hb (id_mem_zone b) hb' (h ▸ id_mem_zone b')

/-- The end of the visit of the rule `r`: its type replaces the type of its body, which was the same or a recursive type. -/
theorem Good.close (H : A.Ready k) {C D N : Prop} {r : String} {b : Expr} {s s1 : TState} {t : IType} (hb : A.grammar.find r = some b) (hr : r ∉ path)
    (hT : s.types b.id = .infer) (hg : Good A k C D N (r :: path) b.zone s s1) (hz : ∀ j ∈ b.zone, s1.types j ≠ .infer)
    (hdoc : N → s1.error = false → ∀ y, ZSub b y → NodeDoc A k s1.types y) (ht : t ≠ .infer)
    (hd : D → ∀ rs, t ≠ .rec_ rs) (hrefs : ∀ j ∈ t.refs, (s1.types j).settled = true)
    (hrec : RecOk A.grammar (r :: path) s1.types t) (hpos : t ≠ .regular (.tuple []))
    (hs : s1.types b.id = t ∨ ∃ rs, s1.types b.id = .rec_ rs) : Good A k C D N path [] s (s1.set b.id t) ∧ RecOk A.grammar path (s1.set b.id t).types t := by
  have ho := Occurs.body hb
  have hlt : b.id < k := H.lt ho _ (id_mem_indices b)
  have hne : ∀ j, j ≠ b.id → (s1.set b.id t).types j = s1.types j := fun j hj => by simp [TState.set, hj]
  have heq : (s1.set b.id t).types b.id = t := by simp [TState.set]
  have hbi : s1.types b.id ≠ .infer := by
    rcases hs with h | ⟨rs, h⟩ <;> rw [h]
    · exact ht
    · simp
  have hmono : ∀ j, s1.types j ≠ .infer → (s1.set b.id t).types j ≠ .infer := fun j hj => by
    by_cases h : j = b.id
    · rw [h, heq]; exact ht
    · rwa [hne j h]
  have hback : ∀ j, (s1.set b.id t).types j = .infer → s1.types j = .infer := fun j hj => by
    by_cases h : s1.types j = .infer
    · exact h
    · exact absurd hj (hmono j h)
  have hdeep : Deep k (s1.set b.id t).types := by
    rcases hs with h | ⟨rs, h⟩
    · have : (s1.set b.id t).types = s1.types := by
        funext j
        by_cases hj : j = b.id
        · rw [hj, heq, h]
        · exact hne j hj
      rw [this]; exact hg.inv.deep
    · exact (hg.inv.deep.update (Nat.le_of_lt hlt) (by rw [h]; rfl) hrefs heq hne).1
  have hpop : ∀ t', RecOk A.grammar (r :: path) s1.types t' → RecOk A.grammar path (s1.set b.id t).types t' := by
    intro t' h rs hrs
    refine ⟨(h rs hrs).1, fun p hp => ⟨((h rs hrs).2 p hp).1, fun x hx => ?_⟩⟩
    obtain ⟨b', hb', hx'⟩ := ((h rs hrs).2 p hp).2 x hx
    refine ⟨b', hb', ?_⟩
    rcases hx' with hx' | hx'
    · rcases List.mem_cons.1 hx' with rfl | hx'
      · rw [hb] at hb'; cases hb'
        exact .inr (hmono _ hbi)
      · exact .inl hx'
    · exact .inr (hmono _ hx')
  have hsame : N → (s1.set b.id t).types = s1.types := fun n => by
    funext j
    by_cases hj : j = b.id
    · rw [hj, heq]
      rcases hs with h | ⟨rs, h⟩
      · exact h.symm
      · exact absurd h (hg.inv.norec n _ rs)
    · exact hne j hj
  refine ⟨⟨⟨hdeep, ?_, ?_, ?_, ?_, ?_, ?_, ?_, ?_, ?_, ?_, hg.inv.fine⟩, ?_, ?_, fun he => hg.err he, fun n hs => (hg.just n hs).types _⟩, hpop t hrec⟩
  · intro j
    by_cases hj : j = b.id
    · rw [hj, heq]; exact hpop t hrec
    · rw [hne j hj]; exact hpop _ (hg.inv.recs j)
  · intro r' b' hb' hr' hT' j hj
    have hrr : r' ≠ r := by
      rintro rfl
      rw [hb] at hb'; cases hb'
      rw [heq] at hT'
      exact ht hT'
    rw [hne]
    · refine hg.inv.fresh r' b' hb' (by simp [hrr, hr']) (hback _ hT') j hj
    · rintro rfl
      exact hrr (AGrammar_own H hb (id_mem_zone b) hb' hj)
  · intro r' b' hb' hr' hT' j hj
    by_cases hrr : r' = r
    · subst hrr
      rw [hb] at hb'; cases hb'
      exact hmono j (hz j hj)
    · have hbid : b'.id ≠ b.id := fun h => hrr (body_id_inj H hb hb' h)
      rw [hne _ hbid] at hT'
      exact hmono j (hg.inv.full r' b' hb' (by simp [hrr, hr']) hT' j hj)
  · intro e he
    refine nodeOk_set H ho hg.inv.node ?_ e he
    have hn := hg.inv.node b ho
    rcases hs with h | ⟨rs, h⟩
    · rw [← h]; exact hn
    · rw [h] at hn
      cases b with
      | not i c => rcases hn with hn | hn <;> cases hn
      | and i c => rcases hn with hn | hn <;> cases hn
      | asc i c ty =>
        rcases hn with hn | hn | hn
        · cases hn
        · have := H.written _ _ _ ho
          rw [← hn] at this
          rcases this with h | h | ⟨_, h⟩ <;> cases h
        · cases hn
      | _ => trivial
  · intro d r' b' hb' hr' rs
    by_cases hrr : b'.id = b.id
    · rw [hrr, heq]; exact hd d rs
    · rw [hne _ hrr]
      refine hg.inv.direct d r' b' hb' ?_ rs
      simp only [List.mem_cons, not_or]
      refine ⟨?_, hr'⟩
      rintro rfl
      rw [hb] at hb'; cases hb'
      exact hrr rfl
  · rw [hne k (by omega)]; exact hg.inv.span
  · intro j
    by_cases hj : j = b.id
    · rw [hj, heq]; exact hpos
    · rw [hne j hj]; exact hg.inv.pos j
  · intro n
    rw [hsame n]; exact hg.inv.norec n
  · intro n he r' b' hb' hr' hT'
    rw [hsame n] at hT' ⊢
    by_cases hrr : r' = r
    · subst hrr
      rw [hb] at hb'; cases hb'
      exact fun x hx => hdoc n he x hx.zsub
    · exact hg.inv.rules n he r' b' hb' (by simp [hrr, hr']) hT'
  · intro c r' b' hb' hr'
    by_cases hrr : b'.id = b.id
    · rw [hrr, heq]; exact ht
    · refine hmono _ (hg.inv.all c r' b' hb' ?_)
      simp only [List.mem_cons, not_or]
      refine ⟨?_, hr'⟩
      rintro rfl
      rw [hb] at hb'; cases hb'
      exact hrr rfl
  · intro j hj
    have : j ≠ b.id := fun h => hj (h ▸ hT)
    rw [hne j this]; exact hg.grow j hj
  · intro j hj
    refine .inr ?_
    by_cases hje : j = b.id
    · exact ⟨r, b, hb, hr, hje ▸ id_mem_zone b, hT, by rw [heq]; exact ht⟩
    · rw [hne j hje] at hj
      rcases hg.frame j hj with h2 | ⟨r', b', h2, h3, h4, h5, h6⟩
      · exact ⟨r, b, hb, hr, h2, hT, by rw [heq]; exact ht⟩
      · exact ⟨r', b', h2, fun h => h3 (by simp [h]), h4, h5, hmono _ h6⟩

/-- The visit of a rule. -/
theorem surfRule_post (H : A.Ready k) {m : Nat} (hm : k + 2 ≤ m) (rank : String → Nat) : ∀ (n : Nat) (path : List String) (r : String) (s : TState),
    path.Nodup → (∀ x ∈ path, x ∈ A.grammar.rules.map (·.1)) → (A.grammar.rules.map (·.1)).length < n + path.length →
    (∃ b, A.grammar.find r = some b) → SInv A k False (Ranked A.grammar rank) (Strict A.grammar rank) path s → PathInfer A path s.types →
    (Ranked A.grammar rank → path.head? = some r ∨ ∀ x ∈ path, rank r < rank x) →
    (Strict A.grammar rank → ∀ x ∈ path, rank r < rank x) →
    Outcome (surfRule A k m n path r s) (RuleQ A k False (Ranked A.grammar rank) (Strict A.grammar rank) path r s) (¬ Ranked A.grammar rank) := by
  intro n
  induction n with
  | zero =>
    intro path r s hn hp hl
    have := length_le_of_nodup_subset hn hp
    omega
  | succ n ih =>
    intro path r s hn hp hl ⟨b, hb⟩ hinv hpi hrank hstrict
    unfold surfRule
    rw [hb]
    dsimp only
    have hhead : Ranked A.grammar rank → r ∈ path → path.head? = some r := fun hD hr => by
      rcases hrank hD with h | h
      · exact h
      · exact absurd (h r hr) (Nat.lt_irrefl _)
    by_cases hT : s.types b.id = .infer
    · rw [if_pos hT]
      by_cases hr : r ∈ path
      · rw [if_pos (by simpa using hr)]
        refine .inr ⟨by simp [recType], Good.refl hinv, ?_, ?_, by simp [recType, IType.refs], by simp [recType], fun h => absurd hr h,
          fun n => absurd (hstrict n r hr) (Nat.lt_irrefl _)⟩
        · intro rs hrs
          cases hrs
          refine ⟨by simp, ?_⟩
          simp only [List.mem_singleton, forall_eq]
          refine ⟨by simp, ?_⟩
          intro x hx
          have hx : x ∈ path := by
            rcases List.mem_cons.1 hx with rfl | hx
            · exact hr
            · exact takeWhile_sub hx
          obtain ⟨b', hb'⟩ := Option.isSome_iff_exists.1 (find_isSome_iff.2 (hp x hx))
          exact ⟨b', hb', .inl hx⟩
        · intro rs hrs
          cases hrs
          simp only [List.mem_singleton, forall_eq]
          intro x hx
          refine ⟨fun hD => ?_, fun n => absurd (hstrict n r hr) (Nat.lt_irrefl _)⟩
          have hh := hhead hD hr
          cases path with
          | nil => cases hr
          | cons y path =>
            simp only [List.head?_cons, Option.some.injEq] at hh
            subst hh
            simp at hx
            rw [hx]; rfl
      · rw [if_neg (by simpa using hr)]
        have hp' : ∀ x ∈ r :: path, x ∈ A.grammar.rules.map (·.1) := List.forall_mem_cons.2 ⟨find_isSome_iff.1 (by rw [hb]; rfl), hp⟩
        have hlow : Ranked A.grammar rank → ∀ x ∈ path, rank r < rank x := fun hD => (hrank hD).resolve_left fun h => hr (List.mem_of_mem_head? h)
        have hfresh := hinv.fresh r b hb hr hT
        have hpre : Pre A k False (Ranked A.grammar rank) (Strict A.grammar rank) (r :: path) b s := by
          refine ⟨Occurs.body hb, ⟨hinv.deep, ?_, ?_, ?_, hinv.node, ?_, hinv.span, hinv.pos, hinv.norec, ?_, fun c => c.elim, hinv.fine⟩, ?_, hfresh, ?_, ?_⟩
          · intro i rs hrs
            refine ⟨(hinv.recs i rs hrs).1, fun p hp => ⟨((hinv.recs i rs hrs).2 p hp).1, fun x hx => ?_⟩⟩
            obtain ⟨b', hb', hx⟩ := ((hinv.recs i rs hrs).2 p hp).2 x hx
            exact ⟨b', hb', hx.imp (by simp; exact .inr) id⟩
          · intro r' b' hb' hr'
            exact hinv.fresh r' b' hb' fun h => hr' (by simp [h])
          · intro r' b' hb' hr'
            exact hinv.full r' b' hb' fun h => hr' (by simp [h])
          · intro d r' b' hb' hr'
            exact hinv.direct d r' b' hb' fun h => hr' (by simp [h])
          · intro n he r' b' hb' hr'
            exact hinv.rules n he r' b' hb' fun h => hr' (by simp [h])
          · intro x hx b' hb'
            rcases List.mem_cons.1 hx with rfl | hx
            · rw [hb] at hb'; cases hb'; exact hT
            · exact hpi x hx b' hb'
          · intro j hj r' b' hb' hj'
            rw [AGrammar_own H hb hj hb' hj']; simp
          · intro r' b' hb' hj
            have := AGrammar_own H hb hj hb' (id_mem_zone b')
            subst this
            rw [hb] at hb'; cases hb'; rfl
        have hbody := surfExpr_post H (W := RuleW (Ranked A.grammar rank) (Strict A.grammar rank) (r :: path)) hm (fun _ h => h.2)
          (call := surfRule A k m n (r :: path)) b ?_ s hpre
        · refine hbody.bind ?_
          rintro ⟨t, s1⟩ ⟨g1, g2, g5, g6⟩
          dsimp only at g1 g2 g5 g6 ⊢
          have hz : ∀ j ∈ b.zone, s1.types j ≠ .infer := fun j hj => (g5 j hj).1
          have g3 : t ≠ .infer := g2 ▸ hz _ (id_mem_zone b)
          have g4 : RecIn (RuleW (Ranked A.grammar rank) (Strict A.grammar rank) (r :: path)) t := g2 ▸ (g5 _ (id_mem_zone b)).2
          have hrefs : ∀ j ∈ t.refs, (s1.types j).settled = true := fun j hj => g1.inv.deep.ref (i := b.id) (by rwa [g2])
          have hpos : t ≠ .regular (.tuple []) := g2 ▸ g1.inv.pos b.id
          have hrec : RecOk A.grammar (r :: path) s1.types t := g2 ▸ g1.inv.recs b.id
          have key : (∃ rs, t = .rec_ rs) ∨ ∀ rs, t ≠ .rec_ rs := by cases t <;> simp
          rcases key with ⟨rs, rfl⟩ | hnr
          · obtain ⟨x, p, hx, hpm, hxp⟩ := entryPoint_ok g1.inv g2
            unfold reduceEntry
            dsimp only
            rw [hx]
            simp only [Res.bind_ok]
            by_cases hxr : x = r
            · rw [if_pos hxr]
              obtain ⟨t', r1, r2, r3⟩ := reduceRec_post hrec
              rw [r1]
              simp only [Res.bind_ok]
              by_cases hi : t' = .infer
              · subst hi
                left
                rcases r3 with r3 | ⟨q, hq, y, hy, b', hb', hT'⟩
                · cases r3
                · obtain ⟨b'', hb'', hy'⟩ := ((hrec rs rfl).2 q hq).2 y hy
                  rw [hb'] at hb''; cases hb''
                  have hyr : y ≠ r := by
                    rintro rfl
                    rw [hb] at hb'; cases hb'
                    rw [g2] at hT'; cases hT'
                  have hyp : y ∈ path := by
                    rcases hy' with hy' | hy'
                    · exact (List.mem_cons.1 hy').resolve_left hyr
                    · exact absurd hT' hy'
                  refine ⟨rfl, fun hD => ?_, by rintro rfl; cases hyp⟩
                  have := (g4 rs rfl q hq y hy).1 hD
                  simp only [List.head?_cons, Option.some.injEq] at this
                  exact hyr this.symm
              · have hs' : t'.settled = true := settled_of hi r2
                have hrefs' : ∀ j ∈ t'.refs, (s1.types j).settled = true := by
                  rcases r3 with rfl | ⟨q, hq, y, hy, b', hb', rfl⟩
                  · simp [IType.refs]
                  · exact fun j hj => g1.inv.deep.ref hj
                have hpos' : t' ≠ .regular (.tuple []) := by
                  rcases r3 with rfl | ⟨q, hq, y, hy, b', hb', rfl⟩
                  · simp
                  · exact g1.inv.pos _
                obtain ⟨k1, k2⟩ := g1.close H hb hr hT hz g6 hi (fun _ => r2) hrefs' (.settled hs') hpos' (.inr ⟨rs, g2⟩)
                refine .inr ⟨hi, k1, k2, .settled hs', ?_, hpos', ?_, fun _ => ⟨hr, b, hb, by simp [TState.set]⟩⟩
                · intro j hj
                  have := hrefs' j hj
                  simp only [TState.set]
                  split
                  · exact hs'
                  · exact this
                · intro _ b' hb'
                  rw [hb] at hb'; cases hb'
                  simp [TState.set, hi]
            · rw [if_neg hxr]
              simp only [Res.bind_ok]
              have hnD : ¬ Ranked A.grammar rank := fun hD => by
                have := (g4 rs rfl p hpm x hxp).1 hD
                simp only [List.head?_cons, Option.some.injEq] at this
                exact hxr this.symm
              obtain ⟨k1, k2⟩ := g1.close H hb hr hT hz g6 g3 (fun hD => absurd hD hnD) hrefs hrec hpos (.inl g2)
              have hnN : ¬ Strict A.grammar rank := fun n => hnD fun r b s h1 h2 => .inr (n r b s h1 h2)
              refine .inr ⟨g3, k1, k2, fun _ _ _ _ _ _ => ⟨fun hD => absurd hD hnD, hnN⟩, by simp [IType.refs], hpos, ?_, fun n => absurd n hnN⟩
              intro _ b' hb'
              rw [hb] at hb'; cases hb'
              simp [TState.set]
          · have hre : reduceEntry A.grammar s1.types r t = .ok t := by
              unfold reduceEntry
              split
              · exact absurd rfl (hnr _)
              · rfl
            rw [hre]
            simp only [Res.bind_ok]
            obtain ⟨k1, k2⟩ := g1.close H hb hr hT hz g6 g3 (fun _ => hnr) hrefs hrec hpos (.inl g2)
            refine .inr ⟨g3, k1, k2, fun rs hrs => absurd hrs (hnr rs), ?_, hpos, ?_, fun _ => ⟨hr, b, hb, by simp [TState.set]⟩⟩
            · intro j hj
              have := hrefs j hj
              simp only [TState.set]
              split
              · exact settled_of g3 hnr
              · exact this
            · intro _ b' hb'
              rw [hb] at hb'; cases hb'
              simp [TState.set, g3]
        · intro r' hr' hdecl s' hinv' hpi'
          have hq := ih (r :: path) r' s' (List.nodup_cons.2 ⟨hr, hn⟩) hp' (by simp; simp at hl; omega) hdecl hinv' hpi' ?_ ?_
          · refine hq.mono ?_ id
            rintro ⟨t, s1⟩ (⟨h1, h2, _⟩ | ⟨h1, h2, h3, h4, h5, h6, _, h8⟩)
            · exact .inl ⟨h1, h2⟩
            · refine .inr ⟨h1, h2, h3, h4, h5, h6, fun n he => ?_⟩
              obtain ⟨hr2, b', hb', ht⟩ := h8 n
              dsimp only at h1 h2 ht he ⊢
              exact ⟨b', hb', ht, h2.inv.rules n he r' b' hb' hr2 (ht ▸ h1) b' .root, h2.inv.full r' b' hb' hr2 (ht ▸ h1)⟩
          · intro hD
            rcases hD r b r' hb hr' with h | h
            · exact .inl (by simp [h])
            · refine .inr (List.forall_mem_cons.2 ⟨h, fun x hx => ?_⟩)
              exact Nat.lt_trans h (hlow hD x hx)
          · intro n
            have h := n r b r' hb hr'
            exact List.forall_mem_cons.2 ⟨h, fun x hx => Nat.lt_trans h (hstrict n x hx)⟩
    · rw [if_neg hT]
      have hr : r ∉ path := fun h => hT (hpi r h b hb)
      refine .inr ⟨hT, Good.refl hinv, hinv.recs _, ?_, fun j hj => hinv.deep.ref hj, hinv.pos _, ?_, fun n => ⟨hr, b, hb, rfl⟩⟩
      · intro rs hrs p hp x hx
        exact ⟨fun hD => absurd hrs (hinv.direct hD r b hb hr rs), fun n => absurd hrs (hinv.norec n _ rs)⟩
      · intro _ b' hb'
        rw [hb] at hb'; cases hb'
        exact hT

end

end Typing
end Oak
