import Verif.Properties.Calls
/-!
Counting the calls of the functions of the user made on a text.
-/
set_option linter.constructorNameAsVariable false
set_option autoImplicit false

namespace Oak
open Spec

mutual
/-- The actions of an expression. -/
def actionsOf : Expr → List (Path × Expr)
  | .seq _ es | .choice _ es => actionsAll es
  | .act _ e _ f => (f, e) :: actionsOf e
  | .span _ e | .star _ e | .plus _ e | .opt _ e | .and _ e | .not _ e | .asc _ e _ | .range _ e => actionsOf e
  | _ => []
/-- The same for lists. -/
def actionsAll : List Expr → List (Path × Expr)
  | [] => []
  | e :: es => actionsOf e ++ actionsAll es
end

theorem actionsAll_mem {es : List Expr} {e : Expr} (he : e ∈ es) {x} (h : x ∈ actionsOf e) : x ∈ actionsAll es := by
  induction es with
  | nil => cases he
  | cons y es ih =>
    rw [actionsAll, List.mem_append]
    rcases List.mem_cons.1 he with rfl | he
    · exact .inl h
    · exact .inr (ih he)

theorem actions_sub {i e b f} {x : Expr} (h : Sub (.act i e b f) x) : (f, e) ∈ actionsOf x := by
  generalize hw : Expr.act i e b f = w at h
  induction h with
  | refl => subst hw; rw [actionsOf]; exact List.mem_cons_self
  | seq he _ ih | choice he _ ih => rw [actionsOf]; exact actionsAll_mem he ih
  | act _ ih => rw [actionsOf]; exact List.mem_cons_of_mem _ ih
  | _ => rw [actionsOf]; assumption

/-- The number of calls made when the data of an expression is built. -/
def CallsMade (G : Grammar) (T : Nat → Ty) (sp : SpanSpec) (e : Expr) (s : List Char) (n : Nat) : Prop := ∃ cs, UserCalls G noExt T sp e s cs ∧ cs.length = n

section
variable {G : Grammar} {T : Nat → Ty} {sp : SpanSpec} {s s1 : List Char} {e : Expr} {es : List Expr} {i n m : Nat}

theorem made_unit (h : T e.id = .unit) : CallsMade G T sp e s 0 := ⟨_, .unit h, rfl⟩

theorem made_nt {r b} (h : T i ≠ .unit) (hb : G.find r = some b) (h1 : CallsMade G T sp b s n) : CallsMade G T sp (.nt i r) s n := by
  obtain ⟨cs, h1, h2⟩ := h1
  exact ⟨_, .nt h hb h1, h2⟩

theorem made_seq_nil : CallsMade G T sp (.seq i []) s 0 := ⟨_, .seq_nil, rfl⟩

theorem made_seq_fail (h : T i ≠ .unit) (hf : Fails G noExt e s) (h1 : CallsMade G T sp e s n) : CallsMade G T sp (.seq i (e :: es)) s n := by
  obtain ⟨cs, h1, h2⟩ := h1
  obtain ⟨L, hf⟩ := hf
  exact ⟨_, .seq_fail h hf h1, h2⟩

theorem made_seq_cons (h : T i ≠ .unit) (hm : Matches G noExt e s s1) (h1 : CallsMade G T sp e s n) (h2 : CallsMade G T sp (.seq i es) s1 m) :
    CallsMade G T sp (.seq i (e :: es)) s (n + m) := by
  obtain ⟨cs, h1, h3⟩ := h1
  obtain ⟨ds, h2, h4⟩ := h2
  obtain ⟨t, L, hm⟩ := hm
  exact ⟨_, .seq_cons h hm h1 h2, by rw [List.length_append, h3, h4]⟩

theorem made_choice_nil : CallsMade G T sp (.choice i []) s 0 := ⟨_, .choice_nil, rfl⟩

theorem made_choice_first (h : T i ≠ .unit) (hm : Matches G noExt e s s1) (h1 : CallsMade G T sp e s n) : CallsMade G T sp (.choice i (e :: es)) s n := by
  obtain ⟨cs, h1, h3⟩ := h1
  obtain ⟨t, L, hm⟩ := hm
  exact ⟨_, .choice_first h hm h1, h3⟩

theorem made_choice_next (h : T i ≠ .unit) (hf : Fails G noExt e s) (h1 : CallsMade G T sp e s n) (h2 : CallsMade G T sp (.choice i es) s m) :
    CallsMade G T sp (.choice i (e :: es)) s (n + m) := by
  obtain ⟨cs, h1, h3⟩ := h1
  obtain ⟨ds, h2, h4⟩ := h2
  obtain ⟨L, hf⟩ := hf
  exact ⟨_, .choice_next h hf h1 h2, by rw [List.length_append, h3, h4]⟩

theorem made_star_stop (h : T i ≠ .unit) (hf : Fails G noExt e s) (h1 : CallsMade G T sp e s n) : CallsMade G T sp (.star i e) s n := by
  obtain ⟨cs, h1, h2⟩ := h1
  obtain ⟨L, hf⟩ := hf
  exact ⟨_, .star_stop h hf h1, h2⟩

theorem made_star_more (h : T i ≠ .unit) (hm : Matches G noExt e s s1) (h1 : CallsMade G T sp e s n) (h2 : CallsMade G T sp (.star i e) s1 m) :
    CallsMade G T sp (.star i e) s (n + m) := by
  obtain ⟨cs, h1, h3⟩ := h1
  obtain ⟨ds, h2, h4⟩ := h2
  obtain ⟨t, L, hm⟩ := hm
  exact ⟨_, .star_more h hm h1 h2, by rw [List.length_append, h3, h4]⟩

theorem made_plus (h : T i ≠ .unit) (h1 : CallsMade G T sp (.star i e) s n) : CallsMade G T sp (.plus i e) s n := by
  obtain ⟨cs, h1, h2⟩ := h1
  exact ⟨_, .plus h h1, h2⟩

theorem made_act_ok {b f} (h : T i ≠ .unit) (hm : Matches G noExt e s s1) (hv : isVariant f = false) (h1 : CallsMade G T sp e s n) :
    CallsMade G T sp (.act i e b f) s (n + 1) := by
  obtain ⟨cs, h1, h3⟩ := h1
  obtain ⟨t, L, hm⟩ := hm
  exact ⟨_, .act_ok h hm h1, by simp [actionCalls, hv, h3]⟩

theorem made_act_fail {b f} (h : T i ≠ .unit) (hf : Fails G noExt e s) (h1 : CallsMade G T sp e s n) : CallsMade G T sp (.act i e b f) s n := by
  obtain ⟨cs, h1, h2⟩ := h1
  obtain ⟨L, hf⟩ := hf
  exact ⟨_, .act_fail h hf h1, h2⟩

theorem made_opt (h : T i ≠ .unit) (h1 : CallsMade G T sp e s n) : CallsMade G T sp (.opt i e) s n := by
  obtain ⟨cs, h1, h2⟩ := h1
  exact ⟨_, .opt h h1, h2⟩

theorem made_cls {ivs} : CallsMade G T sp (.cls i ivs) s 0 := ⟨_, .cls, rfl⟩

end

/-! ## Expressions without actions -/

mutual
/-- No action, and the rules are among `R`. -/
def silent (R : List String) : Expr → Bool
  | .seq _ es | .choice _ es => silentAll R es
  | .act _ _ _ _ => false
  | .nt _ r => R.contains r
  | .span _ e | .star _ e | .plus _ e | .opt _ e | .and _ e | .not _ e | .asc _ e _ | .range _ e => silent R e
  | .str _ _ | .any _ | .cls _ _ | .ext _ _ => true
/-- The same for lists. -/
def silentAll (R : List String) : List Expr → Bool
  | [] => true
  | e :: es => silent R e && silentAll R es
end

theorem made_silent {G : Grammar} {T : Nat → Ty} {sp : SpanSpec} {R : List String} (hR : ∀ r ∈ R, ∀ b, G.find r = some b → silent R b = true) {e : Expr} {s : List Char} {o : Out}
    {L : Log} (h : Peg G noExt e s o L) : silent R e = true → CallsMade G T sp e s 0 := by
  induction h with
  | str_ok | str_fail => intro _; exact ⟨_, .str, rfl⟩
  | any_ok | any_fail => intro _; exact ⟨_, .any, rfl⟩
  | cls_ok | cls_fail | cls_eof => intro _; exact ⟨_, .cls, rfl⟩
  | ext => intro _; exact ⟨_, .ext, rfl⟩
  | not_ok | not_fail => intro _; exact ⟨_, .not, rfl⟩
  | and_ok | and_fail => intro _; exact ⟨_, .and, rfl⟩
  | seq_nil => intro _; exact made_seq_nil
  | choice_nil => intro _; exact made_choice_nil
  | @nt_ok i r b s s' t L hb h1 ih =>
    intro hs
    rw [silent, List.contains_iff_mem] at hs
    by_cases hi : T i = .unit
    · exact made_unit hi
    · exact made_nt hi hb (ih (hR _ hs _ hb))
  | @nt_fail i r b s L hb h1 ih =>
    intro hs
    rw [silent, List.contains_iff_mem] at hs
    by_cases hi : T i = .unit
    · exact made_unit hi
    · exact made_nt hi hb (ih (hR _ hs _ hb))
  | @seq_cons i e es s s1 s2 t ts L1 L2 h1 h2 ih1 ih2 =>
    intro hs
    rw [silent, silentAll, Bool.and_eq_true] at hs
    by_cases hi : T i = .unit
    · exact made_unit hi
    · exact made_seq_cons (n := 0) (m := 0) hi ⟨_, _, h1⟩ (ih1 hs.1) (ih2 (by rw [silent]; exact hs.2))
  | @seq_later i e es s s1 t L1 L2 h1 h2 ih1 ih2 =>
    intro hs
    rw [silent, silentAll, Bool.and_eq_true] at hs
    by_cases hi : T i = .unit
    · exact made_unit hi
    · exact made_seq_cons (n := 0) (m := 0) hi ⟨_, _, h1⟩ (ih1 hs.1) (ih2 (by rw [silent]; exact hs.2))
  | @seq_fail i e es s L h1 ih1 =>
    intro hs
    rw [silent, silentAll, Bool.and_eq_true] at hs
    by_cases hi : T i = .unit
    · exact made_unit hi
    · exact made_seq_fail hi ⟨_, h1⟩ (ih1 hs.1)
  | @choice_first i e es s s1 t L h1 ih1 =>
    intro hs
    rw [silent, silentAll, Bool.and_eq_true] at hs
    by_cases hi : T i = .unit
    · exact made_unit hi
    · exact made_choice_first hi ⟨_, _, h1⟩ (ih1 hs.1)
  | @choice_next i e es s s1 k t L1 L2 h1 h2 ih1 ih2 =>
    intro hs
    rw [silent, silentAll, Bool.and_eq_true] at hs
    by_cases hi : T i = .unit
    · exact made_unit hi
    · exact made_choice_next (n := 0) (m := 0) hi ⟨_, h1⟩ (ih1 hs.1) (ih2 (by rw [silent]; exact hs.2))
  | @choice_fail i e es s L1 L2 h1 h2 ih1 ih2 =>
    intro hs
    rw [silent, silentAll, Bool.and_eq_true] at hs
    by_cases hi : T i = .unit
    · exact made_unit hi
    · exact made_choice_next (n := 0) (m := 0) hi ⟨_, h1⟩ (ih1 hs.1) (ih2 (by rw [silent]; exact hs.2))
  | @star_stop i e s L h1 ih1 =>
    intro hs
    rw [silent] at hs
    by_cases hi : T i = .unit
    · exact made_unit hi
    · exact made_star_stop hi ⟨_, h1⟩ (ih1 hs)
  | @star_more i e s s1 s2 t ts L1 L2 h1 h2 ih1 ih2 =>
    intro hs
    rw [silent] at hs
    by_cases hi : T i = .unit
    · exact made_unit hi
    · exact made_star_more (n := 0) (m := 0) hi ⟨_, _, h1⟩ (ih1 hs) (ih2 (by rw [silent]; exact hs))
  | @plus_fail i e s L h1 ih1 =>
    intro hs
    rw [silent] at hs
    by_cases hi : T i = .unit
    · exact made_unit hi
    · exact made_plus hi (made_star_stop hi ⟨_, h1⟩ (ih1 hs))
  | @plus_ok i e s s1 s2 t ts L1 L2 h1 h2 ih1 ih2 =>
    intro hs
    rw [silent] at hs
    by_cases hi : T i = .unit
    · exact made_unit hi
    · exact made_plus hi (made_star_more (n := 0) (m := 0) hi ⟨_, _, h1⟩ (ih1 hs) (ih2 (by rw [silent]; exact hs)))
  | @opt_some i e s s1 t L h1 ih1 =>
    intro hs
    rw [silent] at hs
    by_cases hi : T i = .unit
    · exact made_unit hi
    · exact made_opt hi (ih1 hs)
  | @opt_none i e s L h1 ih1 =>
    intro hs
    rw [silent] at hs
    by_cases hi : T i = .unit
    · exact made_unit hi
    · exact made_opt hi (ih1 hs)
  | act_ok | act_fail => intro hs; rw [silent] at hs; cases hs
  | @asc_ok i e ty s s1 t L h1 ih1 =>
    intro hs
    rw [silent] at hs
    by_cases hi : T i = .unit
    · exact made_unit hi
    · obtain ⟨cs, h2, h3⟩ := ih1 hs; exact ⟨cs, .asc hi h2, h3⟩
  | @asc_fail i e ty s L h1 ih1 =>
    intro hs
    rw [silent] at hs
    by_cases hi : T i = .unit
    · exact made_unit hi
    · obtain ⟨cs, h2, h3⟩ := ih1 hs; exact ⟨cs, .asc hi h2, h3⟩
  | @span_ok i e s s1 t L h1 ih1 =>
    intro hs
    rw [silent] at hs
    by_cases hi : T i = .unit
    · exact made_unit hi
    · obtain ⟨cs, h2, h3⟩ := ih1 hs; exact ⟨cs, .span hi h2, h3⟩
  | @span_fail i e s L h1 ih1 =>
    intro hs
    rw [silent] at hs
    by_cases hi : T i = .unit
    · exact made_unit hi
    · obtain ⟨cs, h2, h3⟩ := ih1 hs; exact ⟨cs, .span hi h2, h3⟩
  | @range_ok i e s s1 t L h1 ih1 =>
    intro hs
    rw [silent] at hs
    by_cases hi : T i = .unit
    · exact made_unit hi
    · obtain ⟨cs, h2, h3⟩ := ih1 hs; exact ⟨cs, .range hi h2, h3⟩
  | @range_fail i e s L h1 ih1 =>
    intro hs
    rw [silent] at hs
    by_cases hi : T i = .unit
    · exact made_unit hi
    · obtain ⟨cs, h2, h3⟩ := ih1 hs; exact ⟨cs, .range hi h2, h3⟩

end Oak
