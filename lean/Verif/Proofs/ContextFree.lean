import Verif.Spec.ContextFree
import Verif.Properties.WellFormed
/-!
Matches are derivations of the context-free reading, and conversely when one character of lookahead is enough.
-/
set_option linter.constructorNameAsVariable false
set_option autoImplicit false

namespace Oak
open Spec

variable {G : Grammar} {X : ExtSpec} {r0 : String}

/-- What matches is derived. -/
theorem peg_derives {e : Expr} {s : List Char} {o : Out} {L : Log} (h : Peg G X e s o L) : ∀ s' t, o = .ok s' t → Derives G X e s s' t := by
  induction h <;> intro s' t ho <;> cases ho
  case str_ok => exact .str
  case any_ok => exact .any
  case cls_ok h => exact .cls h
  case nt_ok hf _ ih => exact .nt hf (ih _ _ rfl)
  case ext h => exact .ext h
  case seq_nil => exact .seq_nil
  case seq_cons ih1 ih2 => exact .seq_cons (ih1 _ _ rfl) (ih2 _ _ rfl)
  case choice_first ih => exact .choice (k := 0) rfl (ih _ _ rfl)
  case choice_next ih =>
    cases ih _ _ rfl with
    | choice hk h => exact .choice (by simpa using hk) h
  case star_stop => exact .star_nil
  case star_more ih1 ih2 => exact .star_cons (ih1 _ _ rfl) (ih2 _ _ rfl)
  case plus_ok ih1 ih2 => exact .plus (ih1 _ _ rfl) (ih2 _ _ rfl)
  case opt_some ih => exact .opt_some (ih _ _ rfl)
  case opt_none => exact .opt_none
  case not_ok => exact .not
  case and_ok => exact .and
  case act_ok ih => exact .act (ih _ _ rfl)
  case asc_ok ih => exact .asc (ih _ _ rfl)
  case span_ok ih => exact .span (ih _ _ rfl)
  case range_ok ih => exact .range (ih _ _ rfl)

theorem Spec.Derives.suffix (hX : X.Forward) {e : Expr} {s s' : List Char} {t : Tree} (h : Derives G X e s s' t) : s' <:+ s := by
  induction h with
  | str => exact List.suffix_append _ _
  | any | cls => exact List.suffix_cons _ _
  | ext h => exact (hX _ _ _ _ h).1 _ _ rfl
  | seq_nil | star_nil | opt_none | not | and => exact List.suffix_rfl
  | seq_cons _ _ ih1 ih2 | star_cons _ _ ih1 ih2 | plus _ _ ih1 ih2 => exact ih2.trans ih1
  | nt _ _ ih | choice _ _ ih | opt_some _ ih | act _ ih | asc _ ih | span _ ih | range _ ih => exact ih

/-- A derivation reads nothing, or starts with a character. -/
theorem Spec.Derives.cases_start (hX : X.Forward) {e : Expr} {s s' : List Char} {t : Tree} (h : Derives G X e s s' t) :
    (s' = s ∧ MayBeEmpty G X e) ∨ ∃ c s1, s = c :: s1 ∧ Starts G X e c := by
  by_cases hs : s' = s
  · exact .inl ⟨hs, s, t, hs ▸ h⟩
  · right
    cases s with
    | nil => exact absurd (List.suffix_nil.1 (h.suffix hX)) hs
    | cons c s1 => exact ⟨c, s1, rfl, s1, s', t, h, hs⟩

theorem derives_nullable (hX : X.Forward) (hc : ExtSpec.Consuming X) {e : Expr} {s s' : List Char} {t : Tree} (h : Derives G X e s s' t) : s' = s → Nullable G e := by
  induction h with
  | @str i l s =>
    intro h
    have : l.toList = [] := by
      have := congrArg List.length h
      simp only [List.length_append] at this
      exact List.length_eq_zero_iff.1 (by omega)
    have : l = "" := String.toList_inj.1 (by simpa using this)
    subst this
    exact .str
  | any | cls => intro h; exact absurd (congrArg List.length h) (by simp)
  | ext h => intro hs; exact absurd hs (hc _ _ _ _ _ h)
  | seq_nil => exact fun _ => .seq (by simp)
  | star_nil | star_cons => exact fun _ => .star
  | opt_none | opt_some => exact fun _ => .opt
  | not => exact fun _ => .not
  | and => exact fun _ => .and
  | seq_cons h1 h2 ih1 ih2 =>
    rintro rfl
    have := suffix_antisymm (h1.suffix hX) (h2.suffix hX)
    subst this
    cases ih2 rfl with
    | seq h => exact .seq (by simpa using ⟨ih1 rfl, h⟩)
  | plus h1 h2 ih1 ih2 =>
    rintro rfl
    have := suffix_antisymm (h1.suffix hX) (h2.suffix hX)
    subst this
    exact .plus (ih1 rfl)
  | nt hf _ ih => exact fun h => .nt hf (ih h)
  | choice hk _ ih => exact fun h => .choice (List.mem_of_getElem? hk) (ih h)
  | act _ ih => exact fun h => .act (ih h)
  | asc _ ih => exact fun h => .asc (ih h)
  | span _ ih => exact fun h => .span (ih h)
  | range _ ih => exact fun h => .range (ih h)

theorem occurs_sub {x e : Expr} (h : Occurs G e) (hs : Sub x e) : Occurs G x := by
  obtain ⟨r, b, hb, h⟩ := h
  exact ⟨r, b, hb, hs.trans h⟩

/-- Without predicates, what may be empty always succeeds. -/
theorem nullable_sure (hp : NoPredicates G) {e : Expr} (h : Nullable G e) : Occurs G e → SureOk G e := by
  induction h with
  | str => exact fun _ => .str
  | nt hf _ ih => exact fun _ => .nt hf (ih ⟨_, _, hf, .refl⟩)
  | seq _ ih => exact fun ho => .seq fun e he => ih e he (occurs_sub ho (.seq he .refl))
  | choice he _ ih => exact fun ho => .choice he (ih (occurs_sub ho (.choice he .refl)))
  | star => exact fun _ => .star
  | opt => exact fun _ => .opt
  | plus _ ih => exact fun ho => .plus (ih (occurs_sub ho (.plus .refl)))
  | not => exact fun ho => absurd ho (hp _ _).1
  | and => exact fun ho => absurd ho (hp _ _).2
  | act _ ih => exact fun ho => .act (ih (occurs_sub ho (.act .refl)))
  | asc _ ih => exact fun ho => .asc (ih (occurs_sub ho (.asc .refl)))
  | span _ ih => exact fun ho => .span (ih (occurs_sub ho (.span .refl)))
  | range _ ih => exact fun ho => .range (ih (occurs_sub ho (.range .refl)))

theorem Spec.CanFollow.occurs {e : Expr} {o : Option Char} (h : CanFollow G X r0 e o) : Occurs G e := by
  induction h with
  | start h => exact ⟨_, _, h, .refl⟩
  | nt _ hf _ => exact ⟨_, _, hf, .refl⟩
  | seq_next ho _ => exact occurs_sub ho (.seq (by simp) .refl)
  | seq_last _ _ ih => exact occurs_sub ih (.seq (by simp) .refl)
  | choice _ he ih => exact occurs_sub ih (.choice he .refl)
  | star _ ih => exact occurs_sub ih (.star .refl)
  | star_again ho _ => exact occurs_sub ho (.star .refl)
  | plus _ ih => exact occurs_sub ih (.plus .refl)
  | plus_again ho _ => exact occurs_sub ho (.plus .refl)
  | opt _ ih => exact occurs_sub ih (.opt .refl)
  | act _ ih => exact occurs_sub ih (.act .refl)
  | asc _ ih => exact occurs_sub ih (.asc .refl)
  | span _ ih => exact occurs_sub ih (.span .refl)
  | range _ ih => exact occurs_sub ih (.range .refl)

/-- The character that comes after the expression may follow it, or the expression is the end of a sequence, or the iterations of a `+` after the first one. -/
inductive Place (G : Grammar) (X : ExtSpec) (r0 : String) : Expr → Option Char → Prop where
  | here {e o} : CanFollow G X r0 e o → Place G X r0 e o
  | tail {i before es o} : CanFollow G X r0 (.seq i (before ++ es)) o → Place G X r0 (.seq i es) o
  | more {i e o} : CanFollow G X r0 (.plus i e) o → Place G X r0 (.star i e) o

theorem Place.seq {i es o} (h : Place G X r0 (.seq i es) o) : ∃ before, CanFollow G X r0 (.seq i (before ++ es)) o := by
  cases h with
  | here h => exact ⟨[], h⟩
  | tail h => exact ⟨_, h⟩

theorem Place.whole {e o} (h : Place G X r0 e o) (h1 : ∀ i es, e ≠ .seq i es) (h2 : ∀ i c, e ≠ .star i c) : CanFollow G X r0 e o := by
  cases h with
  | here h => exact h
  | tail => exact absurd rfl (h1 _ _)
  | more => exact absurd rfl (h2 _ _)

/-- The conditions under which derivations are matches. -/
structure Predictive (G : Grammar) (X : ExtSpec) (r0 : String) : Prop where
  fwd : X.Forward
  cons : ExtSpec.Consuming X
  /-- Every expression has an outcome everywhere. -/
  total : ∀ e, Occurs G e → ∀ s, ∃ o L, Peg G X e s o L
  wf : WellFormed G
  nopred : NoPredicates G
  ll1 : LL1 G X r0

/-- What does not start with the next character and cannot be empty fails. -/
theorem Predictive.fails (H : Predictive G X r0) {e : Expr} (ho : Occurs G e) {s : List Char} (h1 : ¬ MayBeEmpty G X e) (h2 : ∀ c s1, s = c :: s1 → ¬ Starts G X e c) :
    ∃ L, Peg G X e s .fail L := by
  obtain ⟨o, L, h⟩ := H.total e ho s
  cases o with
  | fail => exact ⟨L, h⟩
  | ok s' t =>
    rcases (peg_derives h _ _ rfl).cases_start H.fwd with ⟨_, h⟩ | ⟨c, s1, hs, h⟩
    · exact absurd h h1
    · exact absurd h (h2 c s1 hs)

theorem Predictive.repeated (H : Predictive G X r0) {i e} (ho : Occurs G (.star i e) ∨ Occurs G (.plus i e)) : ¬ MayBeEmpty G X e := by
  rintro ⟨s, t, h⟩
  exact H.wf.repeats i e ho (derives_nullable H.fwd H.cons h rfl)

theorem choice_at {i : Nat} {es : List Expr} {k : Nat} {e : Expr} {s s' : List Char} {t : Tree} {L : Log} (hk : es[k]? = some e) (h : Peg G X e s (.ok s' t) L)
    (hb : ∀ (j : Nat) x, j < k → es[j]? = some x → ∃ L, Peg G X x s .fail L) : ∃ L, Peg G X (.choice i es) s (.ok s' (.alt k t)) L := by
  induction es generalizing k with
  | nil => simp at hk
  | cons x es ih =>
    cases k with
    | zero =>
      simp only [List.getElem?_cons_zero, Option.some.injEq] at hk
      subst hk
      exact ⟨_, .choice_first h⟩
    | succ k =>
      obtain ⟨L1, h1⟩ := hb 0 x (by omega) rfl
      obtain ⟨L2, h2⟩ := ih (k := k) (by simpa using hk) fun j y hj hy => hb (j + 1) y (by omega) (by simpa using hy)
      exact ⟨_, .choice_next h1 h2⟩

theorem star_starts (hX : X.Forward) {i : Nat} {e : Expr} {s s' : List Char} {t : Tree} (h : Derives G X (.star i e) s s' t) :
    s' = s ∨ ∃ c s1, s = c :: s1 ∧ Starts G X e c := by
  generalize hw : Expr.star i e = w at h
  induction h <;> cases hw
  case star_nil => exact .inl rfl
  case star_cons h1 h2 _ ih2 =>
    rcases h1.cases_start hX with ⟨rfl, _⟩ | h
    · exact ih2 rfl
    · exact .inr h

theorem Predictive.complete (H : Predictive G X r0) {e : Expr} {s s' : List Char} {t : Tree} (h : Derives G X e s s' t) :
    Place G X r0 e s'.head? → ∃ L, Peg G X e s (.ok s' t) L := by
  induction h with
  | str => exact fun _ => ⟨_, .str_ok⟩
  | any => exact fun _ => ⟨_, .any_ok⟩
  | cls h => exact fun _ => ⟨_, .cls_ok h⟩
  | nt hf _ ih =>
    intro hp
    obtain ⟨L, h⟩ := ih (.here (.nt (hp.whole nofun nofun) hf))
    exact ⟨L, .nt_ok hf h⟩
  | ext h => exact fun _ => ⟨_, .ext h⟩
  | seq_nil => exact fun _ => ⟨_, .seq_nil⟩
  | @seq_cons i e es s s1 s' t ts h1 h2 ih1 ih2 =>
    intro hp
    obtain ⟨before, hp⟩ := hp.seq
    obtain ⟨L2, h4⟩ := ih2 (.tail (before := before ++ [e]) (by simpa using hp))
    have hn : CanFollow G X r0 e s1.head? := by
      rcases h2.cases_start H.fwd with ⟨rfl, hm⟩ | ⟨c, s2, rfl, hc⟩
      · exact .seq_last hp hm
      · exact .seq_next hp.occurs hc
    obtain ⟨L1, h3⟩ := ih1 (.here hn)
    exact ⟨_, .seq_cons h3 h4⟩
  | @choice i es k e s s' t hk h1 ih =>
    intro hp
    have hp := hp.whole nofun nofun
    have he := List.mem_of_getElem? hk
    obtain ⟨L, h⟩ := ih (.here (.choice hp he))
    refine choice_at hk h fun j x hj hx => ?_
    have ho : Occurs G x := occurs_sub hp.occurs (.choice (List.mem_of_getElem? hx) .refl)
    refine H.fails ho ?_ fun c s1 hs hc => ?_
    · rintro ⟨s, t, hd⟩
      have hsure := nullable_sure H.nopred (derives_nullable H.fwd H.cons hd rfl) ho
      have hlt : j < es.length := by
        have := (List.getElem?_eq_some_iff.1 hk).1
        omega
      have hsplit : es = es.take j ++ x :: es.drop (j + 1) := by
        rw [← (List.getElem?_eq_some_iff.1 hx).2, List.getElem_cons_drop, List.take_append_drop]
      refine H.wf.branches i (es.take j) x (es.drop (j + 1)) (hsplit ▸ hp.occurs) ?_ hsure
      have := (List.getElem?_eq_some_iff.1 hk).1
      intro hd
      have := congrArg List.length hd
      simp at this
      omega
    · obtain ⟨n1, n2⟩ := H.ll1.choice i es hp.occurs j k x e hj hx hk c hc
      rcases h1.cases_start H.fwd with ⟨rfl, hm⟩ | ⟨c', s2, hs', hc'⟩
      · exact n2 ⟨hm, by rw [hs] at hp; exact hp⟩
      · rw [hs] at hs'; cases hs'
        exact n1 hc'
  | @star_nil i e s =>
    intro hp
    have ho : (Occurs G (.star i e) ∨ Occurs G (.plus i e)) ∧ Occurs G e := by
      cases hp with
      | here h => exact ⟨.inl h.occurs, occurs_sub h.occurs (.star .refl)⟩
      | more h => exact ⟨.inr h.occurs, occurs_sub h.occurs (.plus .refl)⟩
    obtain ⟨L, h⟩ := H.fails (s := s) ho.2 (H.repeated ho.1) fun c s1 hs hc => by
      subst hs
      cases hp with
      | here h => exact H.ll1.star i e h.occurs c hc h
      | more h => exact H.ll1.plus i e h.occurs c hc h
    exact ⟨_, .star_stop h⟩
  | @star_cons i e s s1 s' t ts h1 h2 ih1 ih2 =>
    intro hp
    obtain ⟨L2, h4⟩ := ih2 hp
    have hn : CanFollow G X r0 e s1.head? := by
      rcases star_starts H.fwd h2 with rfl | ⟨c, s2, rfl, hc⟩
      · cases hp with
        | here h => exact .star h
        | more h => exact .plus h
      · cases hp with
        | here h => exact .star_again h.occurs hc
        | more h => exact .plus_again h.occurs hc
    obtain ⟨L1, h3⟩ := ih1 (.here hn)
    exact ⟨_, .star_more h3 h4⟩
  | @plus i e s s1 s' t ts h1 h2 ih1 ih2 =>
    intro hp
    have hp := hp.whole nofun nofun
    obtain ⟨L2, h4⟩ := ih2 (.more hp)
    have hn : CanFollow G X r0 e s1.head? := by
      rcases star_starts H.fwd h2 with rfl | ⟨c, s2, rfl, hc⟩
      · exact .plus hp
      · exact .plus_again hp.occurs hc
    obtain ⟨L1, h3⟩ := ih1 (.here hn)
    exact ⟨_, .plus_ok h3 h4⟩
  | @opt_none i e s =>
    intro hp
    have hp := hp.whole nofun nofun
    obtain ⟨o, L, h⟩ := H.total e (occurs_sub hp.occurs (.opt .refl)) s
    cases o with
    | fail => exact ⟨_, .opt_none h⟩
    | ok s' t =>
      rcases (peg_derives h _ _ rfl).cases_start H.fwd with ⟨_, hm⟩ | ⟨c, s1, rfl, hc⟩
      · exact absurd hm (H.ll1.absent i e hp.occurs)
      · exact absurd hp (H.ll1.opt i e hp.occurs c hc)
  | opt_some _ ih =>
    intro hp
    obtain ⟨L, h⟩ := ih (.here (.opt (hp.whole nofun nofun)))
    exact ⟨_, .opt_some h⟩
  | not => exact fun hp => absurd (hp.whole nofun nofun).occurs (H.nopred _ _).1
  | and => exact fun hp => absurd (hp.whole nofun nofun).occurs (H.nopred _ _).2
  | act _ ih =>
    intro hp
    obtain ⟨L, h⟩ := ih (.here (.act (hp.whole nofun nofun)))
    exact ⟨_, .act_ok h⟩
  | asc _ ih =>
    intro hp
    obtain ⟨L, h⟩ := ih (.here (.asc (hp.whole nofun nofun)))
    exact ⟨_, .asc_ok h⟩
  | span _ ih =>
    intro hp
    obtain ⟨L, h⟩ := ih (.here (.span (hp.whole nofun nofun)))
    exact ⟨_, .span_ok h⟩
  | range _ ih =>
    intro hp
    obtain ⟨L, h⟩ := ih (.here (.range (hp.whole nofun nofun)))
    exact ⟨_, .range_ok h⟩

end Oak
