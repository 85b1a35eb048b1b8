import Verif.Spec.RecWarnings
import Verif.Proofs.TypingMsgs
import Verif.Proofs.TypingFuel
/-!
The recursive types of the surface inference are cycles of calls.
-/
set_option linter.constructorNameAsVariable false
set_option autoImplicit false

namespace Oak
namespace Typing

/-! Messages. -/

/-- The warnings are those of `w`. -/
def OnlyWarn (w : List TMsg) (s : TState) : Prop := ∀ p, TMsg.recursive p ∈ s.msgs → TMsg.recursive p ∈ w

theorem stable_onlyWarn (w : List TMsg) : Stable (OnlyWarn w) where
  set h _ _ := h
  fail {s x d} h hx _ p hp := by
    rcases List.mem_append.1 hp with hp | hp
    · exact h p hp
    · simp only [List.mem_singleton] at hp; subst hp; cases hx
  more {s xs} h hx p hp := by
    rcases List.mem_append.1 hp with hp | hp
    · exact h p hp
    · obtain ⟨j, hj⟩ := hx _ hp; cases hj

/-- The warnings are given from the types of the surface inference. -/
theorem warnings_from {A : AGrammar} {k m n : Nat} {p : Partial (Nat → Ty)} {ms : List TMsg} (h : typeInference A k m n = .ok (p, ms)) {q : List String}
    (hq : TMsg.recursive q ∈ ms) : ∃ s w, surfRules A k m n A.grammar.rules (.new k) = .ok s ∧ warnRecursive A.grammar s.types = .ok w ∧ TMsg.recursive q ∈ w := by
  rw [typeInference_eq] at h
  obtain ⟨s1, h1, h⟩ := Res.bind_eq_ok h
  have k1 := surfRules_keeps (stable_onlyWarn []) _ (.new k) (fun p hp => hp) s1 h1
  split at h
  · cases h; cases k1 q hq
  · obtain ⟨w, hw, h⟩ := Res.bind_eq_ok h
    refine ⟨s1, w, h1, hw, ?_⟩
    obtain ⟨T1, hT1, h⟩ := Res.bind_eq_ok h
    obtain ⟨s2, h2, h⟩ := Res.bind_eq_ok h
    have st := stable_onlyWarn w
    have k2 : OnlyWarn w s2 := depthAll_keeps st (m := m) (surf := surfHere A k m n)
      (fun e _ => depthExpr_keeps st (fun e s h => surfExpr_keeps st (surfRule_keeps st n []) e s h) e) _ _ _
      (show OnlyWarn w { s1 with types := T1, msgs := s1.msgs ++ w } from fun p hp => by
        rcases List.mem_append.1 hp with hp | hp
        · cases k1 p hp
        · exact hp) s2 h2
    split at h
    · cases h; exact k2 q hq
    · obtain ⟨T2, hT2, h⟩ := Res.bind_eq_ok h
      obtain ⟨s3, h3, h⟩ := Res.bind_eq_ok h
      have k3 := checkRules_keeps st _ _ k2 s3 h3
      split at h
      · cases h; exact k3 q hq
      · cases h; exact k3 q hq

/-- A warning is about a path in the type of a rule. -/
theorem warn_path {G : Grammar} {T : Nat → IType} {w : List TMsg} (h : warnRecursive G T = .ok w) {q : List String} (hq : TMsg.recursive q ∈ w) :
    ∃ x ∈ G.rules, ∃ rs, T x.2.id = .rec_ rs ∧ ∃ p ∈ rs, p.path = q ∧ p.kind = .poly := by
  unfold warnRecursive at h
  dsimp only at h
  have hall : ∀ (l : List (String × Expr)) (acc : RecSet), (∀ x ∈ l, x ∈ G.rules) → (∀ p ∈ acc, ∃ x ∈ G.rules, ∃ rs, T x.2.id = .rec_ rs ∧ p ∈ rs) →
      ∀ p ∈ l.foldl (fun acc x => match T x.2.id with | .rec_ r => RecSet.union acc r | _ => acc) acc, ∃ x ∈ G.rules, ∃ rs, T x.2.id = .rec_ rs ∧ p ∈ rs := by
    intro l
    induction l with
    | nil => exact fun _ _ h => h
    | cons x l ih =>
      intro acc hl hacc
      rw [List.foldl_cons]
      refine ih _ (fun y hy => hl y (by simp [hy])) ?_
      split
      · rename_i r heq
        intro p hp
        rcases union_mem hp with hp | hp
        · exact hacc p hp
        · exact ⟨x, hl x (by simp), r, heq, hp⟩
      · exact hacc
  have hall := hall G.rules [] (fun _ h => h) (by simp)
  have key : ∀ (ps : RecSet) (w : List TMsg), (ps.mapM fun p : RecPath => match p.path with
      | [] => .panic
      | x :: _ => if (G.find x).isSome then .ok (TMsg.recursive p.path) else .panic) = Res.ok w → TMsg.recursive q ∈ w → ∃ p ∈ ps, p.path = q := by
    intro ps
    induction ps with
    | nil => intro w h hq; cases h; cases hq
    | cons p ps ih =>
      intro w h hq
      rw [List.mapM_cons] at h
      obtain ⟨a, h1, h2⟩ := Res.bind_eq_ok h
      obtain ⟨b, h3, h4⟩ := Res.bind_eq_ok h2
      cases h4
      rcases List.mem_cons.1 hq with hq | hq
      · subst hq
        split at h1
        · cases h1
        · split at h1
          · cases h1; exact ⟨p, by simp, rfl⟩
          · cases h1
      · obtain ⟨p', h5, h6⟩ := ih b h3 hq
        exact ⟨p', by simp [h5], h6⟩
  obtain ⟨p, hp, hpq⟩ := key _ w h hq
  rw [List.mem_filter] at hp
  obtain ⟨x, hx, rs, h1, h2⟩ := hall p hp.1
  exact ⟨x, hx, rs, h1, p, h2, hpq, by simpa using hp.2⟩

/-! Cycles. -/

section
variable (G : Grammar)

/-- The path is a cycle, its last rule first. -/
def Back (p : List String) : Prop := G.TypeCycle p.reverse

/-- The recursive types are such paths. -/
def Cyc (t : IType) : Prop := ∀ rs, t = .rec_ rs → ∀ p ∈ rs, Back G p.path

/-- All the types are. -/
def AllCyc (s : TState) : Prop := ∀ i, Cyc G (s.types i)

/-- The rules being visited, the last one first: each one is called by the next one. -/
def Stack : List String → Prop
  | a :: b :: l => G.Sees b a ∧ Stack (b :: l)
  | _ => True

end

section
variable {G : Grammar}

theorem Cyc.of_ne {t : IType} (h : ∀ rs, t ≠ .rec_ rs) : Cyc G t := fun rs hr => absurd hr (h rs)

theorem AllCyc.set {s : TState} (h : AllCyc G s) {i : Nat} {t : IType} (ht : Cyc G t) : AllCyc G (s.set i t) := by
  intro j
  show Cyc G (if j = i then t else s.types j)
  split
  · exact ht
  · exact h j

theorem stack_get {l : List String} (h : Stack G l) : ∀ i (hi : i + 1 < l.length), G.Sees l[i + 1] l[i] := by
  induction l with
  | nil => intro i hi; simp at hi
  | cons a l ih =>
    cases l with
    | nil => intro i hi; simp at hi
    | cons b l =>
      intro i hi
      cases i with
      | zero => exact h.1
      | succ i => exact ih h.2 i (by simpa using hi)

theorem takeWhile_length_lt {r : String} {l : List String} (h : r ∈ l) :
    ∃ hi : (l.takeWhile fun x => x != r).length < l.length, l[(l.takeWhile fun x => x != r).length] = r := by
  induction l with
  | nil => cases h
  | cons a l ih =>
    by_cases ha : a = r
    · subst ha; simp
    · have hm : r ∈ l := by rcases List.mem_cons.1 h with h | h; exact absurd h.symm ha; exact h
      obtain ⟨h1, h2⟩ := ih hm
      have e : (List.takeWhile (fun x => x != r) (a :: l)) = a :: l.takeWhile fun x => x != r := by simp [ha]
      rw [e]
      refine ⟨by simpa using h1, by simpa using h2⟩

theorem take_get {r : String} {l : List String} {i : Nat} (hi : i < (l.takeWhile fun x => x != r).length) :
    ∃ hj : i < l.length, (l.takeWhile fun x => x != r)[i] = l[i] := by
  induction l generalizing i with
  | nil => simp at hi
  | cons a l ih =>
    by_cases ha : a = r
    · subst ha; simp at hi
    · have e : (List.takeWhile (fun x => x != r) (a :: l)) = a :: l.takeWhile fun x => x != r := by simp [ha]
      simp only [e] at hi ⊢
      cases i with
      | zero => simp
      | succ i =>
        obtain ⟨h1, h2⟩ := ih (i := i) (by simpa using hi)
        exact ⟨by simpa using h1, by simpa using h2⟩

/-- A call of a rule that is being visited closes a cycle. -/
theorem recType_back {path : List String} {r : String} (hn : path.Nodup) (hs : Stack G (r :: path)) (hm : r ∈ path) :
    Back G (r :: path.takeWhile fun x => x != r) := by
  have hget := stack_get hs
  obtain ⟨hl, hr⟩ := takeWhile_length_lt hm
  have hlen : (r :: path.takeWhile fun x => x != r).length ≤ (r :: path).length - 1 := by simp; omega
  have hq : ∀ i (hi : i < (r :: path.takeWhile fun x => x != r).length), ∃ hj : i < (r :: path).length, (r :: path.takeWhile fun x => x != r)[i] = (r :: path)[i] := by
    intro i hi
    cases i with
    | zero => simp
    | succ i =>
      obtain ⟨h1, h2⟩ := take_get (r := r) (l := path) (i := i) (by simpa using hi)
      exact ⟨by simpa using h1, by simpa using h2⟩
  have hqn : (r :: path.takeWhile fun x => x != r).Nodup := by
    refine List.nodup_cons.2 ⟨fun h => ?_, hn.sublist (List.takeWhile_sublist _)⟩
    have := List.all_takeWhile (p := fun x => x != r) (l := path)
    rw [List.all_eq_true] at this
    have := this r h
    simp at this
  have hcl : ∀ (h : (r :: path.takeWhile fun x => x != r).length < (r :: path).length), (r :: path)[(r :: path.takeWhile fun x => x != r).length] = r := by
    intro h; simpa using hr
  have hhd : ∀ h, (r :: path.takeWhile fun x => x != r).head h = r := fun _ => rfl
  have hqe : (r :: path.takeWhile fun x => x != r) ≠ [] := by simp
  generalize (r :: path.takeWhile fun x => x != r) = q at *
  have hq0 : 0 < q.length := by cases q with | nil => exact absurd rfl hqe | cons => simp
  refine ⟨by simpa using hqe, (List.reverse_perm q).nodup_iff.2 hqn, ?_, ?_⟩
  · intro i hi
    simp only [List.length_reverse] at hi
    rw [List.getElem_reverse, List.getElem_reverse]
    have e : q.length - 1 - i = q.length - 1 - (i + 1) + 1 := by omega
    obtain ⟨h1, h2⟩ := hq (q.length - 1 - (i + 1)) (by omega)
    obtain ⟨h3, h4⟩ := hq (q.length - 1 - (i + 1) + 1) (by omega)
    simp only [e]
    rw [h2, h4]
    exact hget _ h3
  · rw [List.getLast_reverse, List.head_reverse, hhd, List.getLast_eq_getElem]
    obtain ⟨h1, h2⟩ := hq (q.length - 1) (by omega)
    have e : q.length - 1 + 1 = q.length := by omega
    have h3 : q.length - 1 + 1 < (r :: path).length := by simp at hlen ⊢; omega
    have h4 := hget (q.length - 1) h3
    simp only [e] at h4
    rw [hcl] at h4
    rw [h2]
    exact h4

/-! Types. -/

theorem Back.poly {rs : RecSet} (h : ∀ p ∈ rs, Back G p.path) : ∀ p ∈ rs.toPoly, Back G p.path := by
  intro p hp
  obtain ⟨p', h1, rfl⟩ := List.mem_map.1 hp
  exact h p' h1

theorem Back.union {a b : RecSet} (h1 : ∀ p ∈ a, Back G p.path) (h2 : ∀ p ∈ b, Back G p.path) : ∀ p ∈ RecSet.union a b, Back G p.path :=
  fun p hp => (union_mem hp).elim (h1 p) (h2 p)

variable {T : Nat → IType}

theorem cyc_unary (h : ∀ i, Cyc G (T i)) {c : Nat} {t : IType} (ht : Cyc G t) : Cyc G (reduceUnary T c t) := by
  unfold reduceUnary
  split
  · exact .of_ne (by simp)
  · rename_i r hr
    intro rs h1
    cases h1
    exact Back.poly (h c r hr)
  · exact ht

theorem cyc_recSet (h : ∀ i, Cyc G (T i)) (is : List Nat) : ∀ p ∈ tupleRecSet T is, Back G p.path := by
  unfold tupleRecSet
  have : ∀ (acc : RecSet), (∀ p ∈ acc, Back G p.path) → ∀ p ∈ is.foldl (fun acc i => match T i with
      | .rec_ r => acc.union r
      | _ => acc) acc, Back G p.path := by
    induction is with
    | nil => exact fun _ h => h
    | cons i is ih =>
      intro acc hacc
      rw [List.foldl_cons]
      refine ih _ ?_
      split
      · rename_i r hr; exact Back.union hacc (h i r hr)
      · exact hacc
  exact this [] (by simp)

theorem cyc_tuple (h : ∀ i, Cyc G (T i)) {is : List Nat} {t : IType} (ht : reduceTuple T is = .ok t) : Cyc G t := by
  unfold reduceTuple at ht
  split at ht
  · cases ht
  · dsimp only at ht
    split at ht
    · cases ht
      intro rs h1
      cases h1
      split
      · exact Back.poly (cyc_recSet h _)
      · exact cyc_recSet h _
    · split at ht
      · cases ht; exact .of_ne (by simp)
      · split at ht
        · cases ht; exact .of_ne (by simp)
        · cases ht; exact h _
        · cases ht; exact .of_ne (by simp)

theorem cyc_reduce (h : ∀ i, Cyc G (T i)) {t u : IType} (ht : Cyc G t) (hu : reduce T t = .ok u) : Cyc G u := by
  unfold reduce at hu
  split at hu
  · cases hu
  · cases hu; exact cyc_unary h ht
  · cases hu; exact cyc_unary h ht
  · exact cyc_tuple h hu
  · cases hu; exact ht

theorem cyc_split {m : Nat} {tys : List IType} (h : ∀ t ∈ tys, Cyc G t) : ∀ {r : RecSet} {ts : List IType} {x : RecSet × List IType},
    (∀ p ∈ r, Back G p.path) → splitTypes T m tys r ts = .ok x → ∀ p ∈ x.1, Back G p.path := by
  induction tys with
  | nil => intro r ts x hr hx; cases hx; exact hr
  | cons t tys ih =>
    intro r ts x hr hx
    rw [List.forall_mem_cons] at h
    unfold splitTypes at hx
    split at hx
    · exact ih h.2 (Back.union hr (h.1 _ rfl)) hx
    · obtain ⟨c, hc, hx⟩ := Res.bind_eq_ok hx
      exact ih h.2 hr hx

theorem cyc_sum {m : Nat} {tys : List IType} (h : ∀ t ∈ tys, Cyc G t) {t : IType} (ht : reduceSum T m tys = .ok (some t)) : Cyc G t := by
  unfold reduceSum at ht
  split at ht
  · cases ht
  · obtain ⟨⟨r, ts⟩, hx, ht⟩ := Res.bind_eq_ok ht
    have h1 := cyc_split h (by simp) hx
    have h2 : ∀ t ∈ ts, Cyc G t := fun t ht => h t ((splitTypes_sub hx t ht).resolve_right (by simp))
    simp only [Res.ok.injEq] at ht
    unfold sumType at ht
    split at ht
    · cases ht
    · split at ht
      · cases ht; intro rs h3; cases h3; exact h1
      · cases ht; exact h2 _ (by simp)
      · cases ht; exact h2 _ (by simp)
      · cases ht; exact h2 _ (by simp)
      · split at ht
        · cases ht; exact .of_ne (by simp)
        · cases ht

theorem cyc_first (h : ∀ i, Cyc G (T i)) {G' : Grammar} {l : List String} {t : IType} (ht : firstType G' T l = .ok t) : Cyc G t := by
  induction l with
  | nil => cases ht; exact .of_ne (by simp)
  | cons r l ih =>
    unfold firstType at ht
    split at ht
    · cases ht
    · split at ht
      · exact ih ht
      · cases ht; exact h _

theorem cyc_entry (h : ∀ i, Cyc G (T i)) {G' : Grammar} {r : String} {t u : IType} (ht : Cyc G t) (hu : reduceEntry G' T r t = .ok u) : Cyc G u := by
  unfold reduceEntry at hu
  split at hu
  · obtain ⟨e, h1, h2⟩ := Res.bind_eq_ok hu
    split at h2
    · unfold reduceRec at h2
      dsimp only at h2
      split at h2
      · cases h2; exact .of_ne (by simp)
      · exact cyc_first h h2
    · cases h2; exact ht
  · cases hu; exact ht

end

/-! Visits. -/

section
variable {A : AGrammar} {k m : Nat}

/-- A visit that keeps and gives cycles. -/
def Cycs (A : AGrammar) (x : Res (IType × TState)) : Prop := ∀ y, x = .ok y → Cyc A.grammar y.1 ∧ AllCyc A.grammar y.2

theorem surfStep_cyc {i : Nat} {s : TState} (h : AllCyc A.grammar s) {walk : Res (IType × TState)} (hw : Cycs A walk) : Cycs A (surfStep i s walk) := by
  intro y hy
  unfold surfStep at hy
  split at hy
  · obtain ⟨⟨t, s1⟩, h1, h2⟩ := Res.bind_eq_ok hy
    obtain ⟨u, h3, h4⟩ := Res.bind_eq_ok h2
    cases h4
    obtain ⟨k1, k2⟩ := hw _ h1
    have := cyc_reduce k2 k1 h3
    exact ⟨this, k2.set this⟩
  · cases hy; exact ⟨h i, h⟩

theorem cyc_ok {t : IType} {s : TState} (ht : ∀ rs, t ≠ .rec_ rs) (h : AllCyc A.grammar s) : Cycs A (.ok (t, s)) := by
  intro y hy; cases hy; exact ⟨.of_ne ht, h⟩

theorem action_ne (A : AGrammar) (i : Nat) (b : Bool) (f : Path) (rs : RecSet) : (resolveAction A i b f).1 ≠ .rec_ rs := by
  unfold resolveAction
  split
  · split
    · split <;> simp
    · simp
  · simp

variable {call : String → TState → Res (IType × TState)}

theorem surfAll_cyc {es : List Expr} (hes : ∀ e ∈ es, ∀ s, AllCyc A.grammar s → Cycs A (surfExpr A k m call e s)) (s : TState) (h : AllCyc A.grammar s) :
    ∀ y, surfAll A k m call es s = .ok y → (∀ t ∈ y.1, Cyc A.grammar t) ∧ AllCyc A.grammar y.2 := by
  induction es generalizing s with
  | nil => intro y hy; rw [surfAll] at hy; cases hy; exact ⟨by simp, h⟩
  | cons e es ih =>
    intro y hy
    rw [surfAll] at hy
    rw [List.forall_mem_cons] at hes
    obtain ⟨⟨t, s1⟩, h1, h2⟩ := Res.bind_eq_ok hy
    obtain ⟨⟨ts, s2⟩, h3, h4⟩ := Res.bind_eq_ok h2
    cases h4
    obtain ⟨k1, k2⟩ := hes.1 s h _ h1
    obtain ⟨k3, k4⟩ := ih hes.2 s1 k2 _ h3
    exact ⟨List.forall_mem_cons.2 ⟨k1, k3⟩, k4⟩

theorem surfExpr_cyc (H : A.Ready k) (e : Expr) : Occurs A.grammar e → (∀ r ∈ e.seenCalls, ∀ s, AllCyc A.grammar s → Cycs A (call r s)) →
    ∀ s, AllCyc A.grammar s → Cycs A (surfExpr A k m call e s) := by
  induction e using Expr.ind with
  | str | any | cls | ext | not | and => intro _ _ s h; rw [surfExpr]; exact surfStep_cyc h (cyc_ok (by simp) h)
  | asc i e ty =>
    intro ho _ s h; rw [surfExpr]
    refine surfStep_cyc h (cyc_ok (fun rs hr => ?_) h)
    rcases H.written _ _ _ ho with h | h | ⟨_, h⟩ <;> rw [h] at hr <;> cases hr
  | nt i r => intro _ hc s h; rw [surfExpr]; exact surfStep_cyc h (hc r (by simp [Expr.seenCalls]) s h)
  | act i e b f => intro _ _ s h; rw [surfExpr]; exact surfStep_cyc h (cyc_ok (action_ne A i b f) h)
  | star i e ih | plus i e ih | opt i e ih | span i e ih | range i e ih =>
    intro ho hc s h; rw [surfExpr]
    refine surfStep_cyc h fun y hy => ?_
    obtain ⟨⟨t, s1⟩, h1, h2⟩ := Res.bind_eq_ok hy
    cases h2
    exact ⟨.of_ne (by simp), (ih (ho.kid (by simp [Expr.kids])) (fun r hr => hc r (by simpa [Expr.seenCalls] using hr)) s h _ h1).2⟩
  | seq i es ih =>
    intro ho hc s h; rw [surfExpr]
    refine surfStep_cyc h fun y hy => ?_
    obtain ⟨⟨t, s1⟩, h1, h2⟩ := Res.bind_eq_ok hy
    cases h2
    exact ⟨.of_ne (by simp), (surfAll_cyc (fun c hcm => ih c hcm (ho.kid (by simp [Expr.kids, hcm]))
      fun r hr => hc r (kids_seenCalls (c := c) (by simp [Expr.zkids, hcm]) hr)) s h _ h1).2⟩
  | choice i es ih =>
    intro ho hc s h; rw [surfExpr]
    refine surfStep_cyc h fun y hy => ?_
    obtain ⟨⟨ts, s1⟩, h1, h2⟩ := Res.bind_eq_ok hy
    obtain ⟨k1, k2⟩ := surfAll_cyc (fun c hcm => ih c hcm (ho.kid (by simp [Expr.kids, hcm]))
      fun r hr => hc r (kids_seenCalls (c := c) (by simp [Expr.zkids, hcm]) hr)) s h _ h1
    unfold surfChoice at h2
    obtain ⟨o, h3, h4⟩ := Res.bind_eq_ok h2
    cases o with
    | some t => cases h4; exact ⟨cyc_sum k1 h3, k2⟩
    | none => cases h4; exact ⟨.of_ne (by simp), k2⟩

theorem surfRule_cyc (H : A.Ready k) (n : Nat) : ∀ path r s, path.Nodup → Stack A.grammar (r :: path) → AllCyc A.grammar s → Cycs A (surfRule A k m n path r s) := by
  induction n with
  | zero => intro path r s _ _ _ y hy; rw [surfRule] at hy; cases hy
  | succ n ih =>
    intro path r s hn hs h y hy
    rw [surfRule] at hy
    split at hy
    · cases hy
    · rename_i b hb
      split at hy
      · split at hy
        · rename_i hc
          cases hy
          refine ⟨?_, h⟩
          intro rs hr
          cases hr
          simpa using recType_back hn hs (by simpa using hc)
        · rename_i hc
          obtain ⟨⟨t, s1⟩, h1, h2⟩ := Res.bind_eq_ok hy
          obtain ⟨u, h3, h4⟩ := Res.bind_eq_ok h2
          cases h4
          obtain ⟨k1, k2⟩ := surfExpr_cyc H b (.body hb) (fun r' hr' s h => ih (r :: path) r' s (List.nodup_cons.2 ⟨by simpa using hc, hn⟩)
            ⟨⟨b, hb, hr'⟩, hs⟩ h) s h _ h1
          have := cyc_entry k2 k1 h3
          exact ⟨this, k2.set this⟩
      · cases hy; exact ⟨h _, h⟩

theorem surfRules_cyc (H : A.Ready k) {n : Nat} (rs : List (String × Expr)) : ∀ s s', AllCyc A.grammar s → surfRules A k m n rs s = .ok s' → AllCyc A.grammar s' := by
  induction rs with
  | nil => intro s s' h hs; rw [surfRules] at hs; cases hs; exact h
  | cons r rs ih =>
    intro s s' h hs
    rw [surfRules] at hs
    obtain ⟨⟨t, s1⟩, h1, h2⟩ := Res.bind_eq_ok hs
    exact ih s1 s' (surfRule_cyc H n _ _ s .nil trivial h _ h1).2 h2

/-- Warnings are about cycles. -/
theorem warnings_cycle (H : A.Ready k) {n : Nat} {p : Partial (Nat → Ty)} {ms : List TMsg} (h : typeInference A k m n = .ok (p, ms)) {q : List String}
    (hq : TMsg.recursive q ∈ ms) : A.grammar.TypeCycle q.reverse := by
  obtain ⟨s, w, h1, h2, h3⟩ := warnings_from h hq
  obtain ⟨x, hx, rs, h4, p, h5, rfl, _⟩ := warn_path h2 h3
  refine surfRules_cyc H _ _ s ?_ h1 _ rs h4 p h5
  intro i
  refine .of_ne fun rs => ?_
  show (if i = k then _ else _) ≠ _
  split <;> simp

/-- Direct recursion gives no warning. -/
theorem warnings_none (H : A.Ready k) (hr : A.grammar.DirectRec) {n : Nat} {p : Partial (Nat → Ty)} {ms : List TMsg}
    (h : typeInference A k m n = .ok (p, ms)) (q : List String) : TMsg.recursive q ∉ ms := by
  intro hq
  obtain ⟨rank, hr⟩ := hr
  have h1 : typeInference A k (max m (k + 2)) (max n (A.grammar.rules.length + 1)) = .ok (p, ms) := by
    rcases typeInference_mono (A := A) (k := k) (Nat.le_max_left m (k + 2)) (Nat.le_max_left n (A.grammar.rules.length + 1)) with h2 | h2 <;> rw [h] at h2
    · cases h2
    · exact h2.symm
  obtain ⟨s, w, h2, h3, h4⟩ := warnings_from h1 hq
  obtain ⟨x, hx, rs, h5, p, h6, rfl, _⟩ := warn_path h3 h4
  have h7 := surfRules_post H (Nat.le_max_right m (k + 2)) (Nat.le_max_right n (A.grammar.rules.length + 1)) rank A.grammar.rules (.new k) (fun _ h => h) (sinv_new H)
  rw [h2] at h7
  exact h7.1.inv.direct hr x.1 x.2 (body_of_mem H.names hx) (by simp) rs h5

end
end Typing
end Oak
