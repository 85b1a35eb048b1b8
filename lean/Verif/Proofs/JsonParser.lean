import Verif.Proofs.JsonLex
import Verif.Proofs.LL1Check
/-!
The grammar of JSON texts and its context-free specification.
-/
set_option linter.constructorNameAsVariable false
set_option autoImplicit false

namespace Oak
open Spec

theorem yields_opt {G : Grammar} {X : ExtSpec} {T : Nat → Ty} {sp : SpanSpec} {i e s rest vs} : Yields G X T sp (.opt i e) s rest vs ↔
    (∃ ws, Yields G X T sp e s rest ws ∧ vs = if T i = .unit then [] else [.some (tupleVal ws)]) ∨ (Fails G X e s ∧ rest = s ∧ vs = if T i = .unit then [] else [.none]) := by
  constructor
  · rintro ⟨t, L, h, rfl⟩
    cases h with
    | opt_some h => exact .inl ⟨_, ⟨_, _, h, rfl⟩, by (simp only [ast, Expr.id] <;> try rfl)⟩
    | opt_none h => exact .inr ⟨⟨_, h⟩, rfl, by (simp only [ast, Expr.id] <;> try rfl)⟩
  · rintro (⟨ws, ⟨t, L, h, rfl⟩, rfl⟩ | ⟨⟨L, h⟩, rfl, rfl⟩)
    · exact ⟨_, _, .opt_some h, by (simp only [ast, Expr.id] <;> try rfl)⟩
    · exact ⟨_, _, .opt_none h, by (simp only [ast, Expr.id] <;> try rfl)⟩

end Oak

namespace Oak.JsonText
open Oak Spec Calculator

variable {T : Nat → Ty} {sp : SpanSpec}

theorem takes_end {l s rest} (h : Takes l s rest) : NotStart isSpace rest := by
  obtain ⟨_, m, _, _, sps, _, _, h⟩ := h
  exact h

theorem spaces_none {s rest : List Char} (h : NotStart isSpace s) : Spaces s rest ↔ rest = s := by
  constructor
  · rintro ⟨sps, rfl, h1, h2⟩
    cases sps with
    | nil => rfl
    | cons c sps =>
      simp only [List.cons_append, NotStart] at h
      exact absurd (h1 c (by simp)) (by simp [h])
  · rintro rfl; exact ⟨[], rfl, by simp, h⟩

theorem lexed_end {ls s rest} (h : Lexed ls s rest) (hne : ls ≠ []) : NotStart isSpace rest := by
  induction h with
  | nil => exact absurd rfl hne
  | @cons l sp' s' ls' rest' _ _ h3 _ h5 ih =>
    cases ls' with
    | nil => cases h5; exact h3
    | cons => exact ih (by simp)

theorem takes_sym {c s rest} (h : Takes (.sym c) s rest) : ∃ m, s = c :: m := by
  obtain ⟨_, m, h, _⟩ := h
  exact ⟨m, h⟩

theorem takes_length {l s rest} (h : Takes l s rest) : rest.length < s.length := by
  obtain ⟨hv, m, rfl, _, sps, rfl, _, _⟩ := h
  have : 0 < l.chars.length := by
    cases l with
    | num ds => exact List.length_pos_iff.2 hv.1
    | str cs => simp [Token.chars]
    | sym c => simp [Token.chars]
  simp only [List.length_append]
  omega

/-- The lexeme is not read where another one is. -/
theorem takes_first {l s rest} (h : Takes l s rest) : ∃ c m, s = c :: m ∧ match l with | .num _ => isDigit c = true | .str _ => c = '"' | .sym d => c = d := by
  obtain ⟨hv, m, rfl, _⟩ := h
  cases l with
  | num ds =>
    obtain ⟨h1, h2⟩ := hv
    cases ds with
    | nil => exact absurd rfl h1
    | cons d ds => exact ⟨d, _, rfl, h2 d (by simp)⟩
  | str cs => exact ⟨_, _, rfl, rfl⟩
  | sym c => exact ⟨_, _, rfl, rfl⟩

/-! ## Equations of the rules -/

/-- A value is read. -/
abbrev Elem (T : Nat → Ty) (sp : SpanSpec) (s rest : List Char) (vs : List Val) : Prop := JRule T sp "json_expr" s rest vs

/-- An element followed by a comma. -/
abbrev itemE : Expr := .seq 34 [.nt 32 "json_expr", .nt 33 "coma"]

/-- A comma followed by a pair. -/
abbrev pairE : Expr := .seq 22 [.nt 20 "coma", .nt 21 "json_pair"]

theorem array_occurs : jsonG.find "json_array" = some (.seq 39 [.nt 31 "lbracket", .star 35 itemE, .nt 36 "json_expr", .nt 37 "spacing", .nt 38 "rbracket"]) := rfl
theorem members_occurs : jsonG.find "json_members" = some (.act 25 (.seq 24 [.nt 19 "json_pair", .star 23 pairE]) false ["make_json_member"]) := rfl
theorem object_occurs : jsonG.find "json_object" = some (.seq 18 [.nt 13 "lbrace", .opt 15 (.nt 14 "json_members"), .nt 16 "spacing", .nt 17 "rbrace"]) := rfl
theorem expr_occurs : jsonG.find "json_expr" = some (.choice 12 [.act 5 (.nt 4 "number") false ["make_json_number"], .act 7 (.nt 6 "json_string") false ["make_json_string"],
    .act 9 (.nt 8 "json_array") false ["make_json_array"], .act 11 (.nt 10 "json_object") false ["make_json_object"]]) := rfl

theorem item_iff (H : JsonTypes T) {s rest vs} : Yields jsonG noExt T sp itemE s rest vs ↔ ∃ m, Elem T sp s m vs ∧ Takes (.sym ',') m rest := by
  simp only [itemE, yields_seq, YieldsSeq, jcall_val (H.v 32 (by decide) rfl), coma_iff H, H.v 34 (by decide) rfl, if_false]
  constructor
  · rintro ⟨_, ⟨m, _, _, h1, ⟨_, _, _, ⟨h2, rfl⟩, ⟨rfl, rfl⟩, rfl⟩, rfl⟩, rfl⟩
    exact ⟨m, by simpa using h1, h2⟩
  · rintro ⟨m, h1, h2⟩
    exact ⟨_, ⟨m, _, _, h1, ⟨_, _, _, ⟨h2, rfl⟩, ⟨rfl, rfl⟩, rfl⟩, rfl⟩, by simp⟩

theorem item_fails (H : JsonTypes T) {s} : Fails jsonG noExt itemE s ↔ ∀ m rest vs, Elem T sp s m vs → ¬ Takes (.sym ',') m rest := by
  rw [json_fails_iff (T := T) (sp := sp) ⟨_, _, array_occurs, .seq (e := .star 35 itemE) (by simp) (.star .refl)⟩]
  simp only [item_iff H]
  exact ⟨fun h m rest vs h1 h2 => h rest vs ⟨m, h1, h2⟩, fun h rest vs ⟨m, h1, h2⟩ => h m rest vs h1 h2⟩

theorem array_iff (H : JsonTypes T) {s rest vs} : JRule T sp "json_array" s rest vs ↔
    ∃ s1 s2 s3 s4 xs ws, Takes (.sym '[') s s1 ∧ YieldsMany jsonG noExt T sp itemE s1 s2 xs ∧ Fails jsonG noExt itemE s2 ∧ Elem T sp s2 s3 ws ∧ Spaces s3 s4 ∧ Takes (.sym ']') s4 rest ∧
      vs = .list xs :: ws := by
  simp only [jrule_iff array_occurs, yields_seq, YieldsSeq, yields_star, lbracket_iff H, rbracket_iff H, jspacing_call H, jcall_val (H.v 36 (by decide) rfl), H.v 39 (by decide) rfl, H.v 35 (by decide) rfl,
    if_false]
  constructor
  · rintro ⟨_, ⟨s1, _, _, ⟨h1, rfl⟩, ⟨s2, _, _, ⟨xs, ⟨h2, h3⟩, rfl⟩, ⟨s3, ws, _, h4, ⟨s4, _, _, ⟨h5, rfl⟩, ⟨_, _, _, ⟨h6, rfl⟩, ⟨rfl, rfl⟩, rfl⟩, rfl⟩, rfl⟩, rfl⟩, rfl⟩, rfl⟩
    exact ⟨s1, s2, s3, s4, xs, ws, h1, h2, h3, h4, h5, h6, by simp⟩
  · rintro ⟨s1, s2, s3, s4, xs, ws, h1, h2, h3, h4, h5, h6, rfl⟩
    exact ⟨_, ⟨s1, _, _, ⟨h1, rfl⟩, ⟨s2, _, _, ⟨xs, ⟨h2, h3⟩, rfl⟩, ⟨s3, ws, _, h4, ⟨s4, _, _, ⟨h5, rfl⟩, ⟨_, _, _, ⟨h6, rfl⟩, ⟨rfl, rfl⟩, rfl⟩, rfl⟩, rfl⟩, rfl⟩, rfl⟩, by simp⟩

theorem pair_iff (H : JsonTypes T) {s rest vs} : JRule T sp "json_pair" s rest vs ↔
    ∃ cs s1 s2 ws, Takes (.str cs) s s1 ∧ Takes (.sym ':') s1 s2 ∧ Elem T sp s2 rest ws ∧ vs = [.app ["make_json_pair"] (strVal cs :: ws)] := by
  have hb : jsonG.find "json_pair" = some (.act 30 (.seq 29 [.nt 26 "json_string", .nt 27 "colon", .nt 28 "json_expr"]) false ["make_json_pair"]) := rfl
  have hf : isVariant ["make_json_pair"] = false := by decide
  simp only [jrule_iff hb, yields_act hf, yields_seq, YieldsSeq, jcall_val (H.v 26 (by decide) rfl), jcall_val (H.v 28 (by decide) rfl), jstring_iff H, colon_iff H, H.v 30 (by decide) rfl,
    H.v 29 (by decide) rfl, if_false]
  constructor
  · rintro ⟨_, ⟨_, ⟨s1, _, _, ⟨cs, h1, rfl⟩, ⟨s2, _, _, ⟨h2, rfl⟩, ⟨_, ws, _, h3, ⟨rfl, rfl⟩, rfl⟩, rfl⟩, rfl⟩, rfl⟩, rfl⟩
    exact ⟨cs, s1, s2, ws, h1, h2, h3, by simp⟩
  · rintro ⟨cs, s1, s2, ws, h1, h2, h3, rfl⟩
    exact ⟨_, ⟨_, ⟨s1, _, _, ⟨cs, h1, rfl⟩, ⟨s2, _, _, ⟨h2, rfl⟩, ⟨_, ws, _, h3, ⟨rfl, rfl⟩, rfl⟩, rfl⟩, rfl⟩, rfl⟩, by simp⟩

theorem next_pair_iff (H : JsonTypes T) {s rest vs} : Yields jsonG noExt T sp pairE s rest vs ↔ ∃ m, Takes (.sym ',') s m ∧ JRule T sp "json_pair" m rest vs := by
  simp only [pairE, yields_seq, YieldsSeq, jcall_val (H.v 21 (by decide) rfl), coma_iff H, H.v 22 (by decide) rfl, if_false]
  constructor
  · rintro ⟨_, ⟨m, _, _, ⟨h1, rfl⟩, ⟨_, _, _, h2, ⟨rfl, rfl⟩, rfl⟩, rfl⟩, rfl⟩
    exact ⟨m, h1, by simpa using h2⟩
  · rintro ⟨m, h1, h2⟩
    exact ⟨_, ⟨m, _, _, ⟨h1, rfl⟩, ⟨_, _, _, h2, ⟨rfl, rfl⟩, rfl⟩, rfl⟩, by simp⟩

theorem members_iff (H : JsonTypes T) {s rest vs} : JRule T sp "json_members" s rest vs ↔
    ∃ m ps ws, JRule T sp "json_pair" s m ws ∧ YieldsMany jsonG noExt T sp pairE m rest ps ∧ Fails jsonG noExt pairE rest ∧ vs = [.app ["make_json_member"] (ws ++ [.list ps])] := by
  have hf : isVariant ["make_json_member"] = false := by decide
  simp only [jrule_iff members_occurs, yields_act hf, yields_seq, YieldsSeq, yields_star, jcall_val (H.v 19 (by decide) rfl), H.v 25 (by decide) rfl, H.v 24 (by decide) rfl, H.v 23 (by decide) rfl, if_false]
  constructor
  · rintro ⟨_, ⟨_, ⟨m, ws, _, h1, ⟨_, _, _, ⟨ps, ⟨h2, h3⟩, rfl⟩, ⟨rfl, rfl⟩, rfl⟩, rfl⟩, rfl⟩, rfl⟩
    exact ⟨m, ps, ws, h1, h2, h3, by simp⟩
  · rintro ⟨m, ps, ws, h1, h2, h3, rfl⟩
    exact ⟨_, ⟨_, ⟨m, ws, _, h1, ⟨_, _, _, ⟨ps, ⟨h2, h3⟩, rfl⟩, ⟨rfl, rfl⟩, rfl⟩, rfl⟩, rfl⟩, by simp⟩

theorem object_iff (H : JsonTypes T) {s rest vs} : JRule T sp "json_object" s rest vs ↔
    ∃ s1 s2 s3 v, Takes (.sym '{') s s1 ∧ ((∃ ws, JRule T sp "json_members" s1 s2 ws ∧ v = .some (tupleVal ws)) ∨ (Fails jsonG noExt (.nt 14 "json_members") s1 ∧ s2 = s1 ∧ v = .none)) ∧
      Spaces s2 s3 ∧ Takes (.sym '}') s3 rest ∧ vs = [v] := by
  simp only [jrule_iff object_occurs, yields_seq, YieldsSeq, yields_opt, lbrace_iff H, rbrace_iff H, jspacing_call H, jcall_val (H.v 14 (by decide) rfl), H.v 18 (by decide) rfl, H.v 15 (by decide) rfl,
    if_false]
  constructor
  · rintro ⟨_, ⟨s1, _, _, ⟨h1, rfl⟩, ⟨s2, _, _, h2, ⟨s3, _, _, ⟨h5, rfl⟩, ⟨_, _, _, ⟨h6, rfl⟩, ⟨rfl, rfl⟩, rfl⟩, rfl⟩, rfl⟩, rfl⟩, rfl⟩
    rcases h2 with ⟨ws, h2, rfl⟩ | ⟨h2, rfl, rfl⟩
    · exact ⟨s1, s2, s3, _, h1, .inl ⟨ws, h2, rfl⟩, h5, h6, by simp⟩
    · exact ⟨_, _, s3, _, h1, .inr ⟨h2, rfl, rfl⟩, h5, h6, by simp⟩
  · rintro ⟨s1, s2, s3, v, h1, h2, h5, h6, rfl⟩
    refine ⟨_, ⟨s1, _, _, ⟨h1, rfl⟩, ⟨s2, [v], _, ?_, ⟨s3, _, _, ⟨h5, rfl⟩, ⟨_, _, _, ⟨h6, rfl⟩, ⟨rfl, rfl⟩, rfl⟩, rfl⟩, rfl⟩, rfl⟩, by simp⟩
    rcases h2 with ⟨ws, h2, rfl⟩ | ⟨h2, rfl, rfl⟩
    · exact .inl ⟨ws, h2, rfl⟩
    · exact .inr ⟨h2, rfl, rfl⟩

theorem array_first (H : JsonTypes T) {s rest vs} (h : JRule T sp "json_array" s rest vs) : ∃ m, s = '[' :: m := by
  obtain ⟨_, _, _, _, _, _, h, _⟩ := (array_iff H).1 h
  exact takes_sym h

theorem object_first (H : JsonTypes T) {s rest vs} (h : JRule T sp "json_object" s rest vs) : ∃ m, s = '{' :: m := by
  obtain ⟨_, _, _, _, h, _⟩ := (object_iff H).1 h
  exact takes_sym h

theorem elem_iff (H : JsonTypes T) {s rest vs} : Elem T sp s rest vs ↔
    (∃ ds, Takes (.num ds) s rest ∧ vs = [.app ["make_json_number"] [.app ["to_number"] [.list (ds.map .chr)]]]) ∨
    (∃ cs, Takes (.str cs) s rest ∧ vs = [.app ["make_json_string"] [strVal cs]]) ∨
    (∃ ws, JRule T sp "json_array" s rest ws ∧ vs = [.app ["make_json_array"] ws]) ∨
    (∃ ws, JRule T sp "json_object" s rest ws ∧ vs = [.app ["make_json_object"] ws]) := by
  have f1 : isVariant ["make_json_number"] = false := by decide
  have f2 : isVariant ["make_json_string"] = false := by decide
  have f3 : isVariant ["make_json_array"] = false := by decide
  have f4 : isVariant ["make_json_object"] = false := by decide
  have o1 : Occurs jsonG (.act 5 (.nt 4 "number") false ["make_json_number"]) := ⟨_, _, expr_occurs, .choice (e := .act 5 (.nt 4 "number") false ["make_json_number"]) (by simp) .refl⟩
  have o2 : Occurs jsonG (.act 7 (.nt 6 "json_string") false ["make_json_string"]) := ⟨_, _, expr_occurs, .choice (e := .act 7 (.nt 6 "json_string") false ["make_json_string"]) (by simp) .refl⟩
  have o3 : Occurs jsonG (.act 9 (.nt 8 "json_array") false ["make_json_array"]) := ⟨_, _, expr_occurs, .choice (e := .act 9 (.nt 8 "json_array") false ["make_json_array"]) (by simp) .refl⟩
  simp only [Elem, jrule_iff expr_occurs, yields_choice, YieldsAlt, yields_act f1, yields_act f2, yields_act f3, yields_act f4, jcall_val (H.v 4 (by decide) rfl), jcall_val (H.v 6 (by decide) rfl),
    jcall_val (H.v 8 (by decide) rfl), jcall_val (H.v 10 (by decide) rfl), jnumber_iff H, jstring_iff H, json_fails_iff (T := T) (sp := sp) o1, json_fails_iff (T := T) (sp := sp) o2,
    json_fails_iff (T := T) (sp := sp) o3, H.v 12 (by decide) rfl, H.v 5 (by decide) rfl, H.v 7 (by decide) rfl, H.v 9 (by decide) rfl, H.v 11 (by decide) rfl, if_false]
  have nn : ∀ {c m}, s = c :: m → isDigit c = false → ∀ (rest : List Char) (vs : List Val), ¬ ∃ ws : List Val, (∃ ds, Takes (.num ds) s rest ∧ ws = [.app ["to_number"] [.list (ds.map .chr)]]) ∧ vs = [.app ["make_json_number"] ws] := by
    rintro c m rfl hc rest vs ⟨_, ⟨ds, h, _⟩, _⟩
    obtain ⟨d, m', h1, h2⟩ := takes_first h
    cases h1
    rw [hc] at h2; cases h2
  have ns : ∀ {c m}, s = c :: m → c ≠ '"' → ∀ (rest : List Char) (vs : List Val), ¬ ∃ ws : List Val, (∃ cs, Takes (.str cs) s rest ∧ ws = [strVal cs]) ∧ vs = [.app ["make_json_string"] ws] := by
    rintro c m rfl hc rest vs ⟨_, ⟨ds, h, _⟩, _⟩
    obtain ⟨d, m', h1, h2⟩ := takes_first h
    cases h1
    exact hc h2
  have na : ∀ {c m}, s = c :: m → c ≠ '[' → ∀ (rest : List Char) (vs : List Val), ¬ ∃ ws : List Val, JRule T sp "json_array" s rest ws ∧ vs = [.app ["make_json_array"] ws] := by
    rintro c m rfl hc rest vs ⟨_, h, _⟩
    obtain ⟨m', h1⟩ := array_first H h
    cases h1
    exact hc rfl
  constructor
  · rintro ⟨_, ⟨_, ⟨ds, h, rfl⟩, rfl⟩ | ⟨_, ⟨_, ⟨cs, h, rfl⟩, rfl⟩ | ⟨_, ⟨ws, h, rfl⟩ | ⟨_, ⟨ws, h, rfl⟩ | ⟨_, h⟩⟩⟩⟩, rfl⟩
    · exact .inl ⟨ds, h, rfl⟩
    · exact .inr (.inl ⟨cs, h, rfl⟩)
    · exact .inr (.inr (.inl ⟨ws, h, rfl⟩))
    · exact .inr (.inr (.inr ⟨ws, h, rfl⟩))
    · exact h.elim
  · rintro (⟨ds, h, rfl⟩ | ⟨cs, h, rfl⟩ | ⟨ws, h, rfl⟩ | ⟨ws, h, rfl⟩)
    · exact ⟨_, .inl ⟨_, ⟨ds, h, rfl⟩, rfl⟩, rfl⟩
    · obtain ⟨c, m, h1, h2⟩ := takes_first h
      dsimp only at h2
      subst h2
      exact ⟨_, .inr ⟨nn h1 (by decide), .inl ⟨_, ⟨cs, h, rfl⟩, rfl⟩⟩, rfl⟩
    · obtain ⟨m, h1⟩ := array_first H h
      exact ⟨_, .inr ⟨nn h1 (by decide), .inr ⟨ns h1 (by decide), .inl ⟨_, h, rfl⟩⟩⟩, rfl⟩
    · obtain ⟨m, h1⟩ := object_first H h
      exact ⟨_, .inr ⟨nn h1 (by decide), .inr ⟨ns h1 (by decide), .inr ⟨na h1 (by decide), .inl ⟨_, h, rfl⟩⟩⟩⟩, rfl⟩

theorem elem_unique {s a b vs ws} (h : Elem T sp s a vs) (h' : Elem T sp s b ws) : a = b ∧ vs = ws :=
  ((jrule_iff expr_occurs).1 h).unique calc_det ((jrule_iff expr_occurs).1 h')

theorem rule_length {r : String} {s rest vs} (h : JRule T sp r s rest vs) : rest.length ≤ s.length := by
  obtain ⟨b, _, t, L, h, _⟩ := h
  exact ((h.forward noExt_fwd).1 _ _ rfl).length_le

/-! ## What is read is in the language -/

theorem value_ne {d ls} (h : Value d ls) : ls ≠ [] := by
  cases h <;> simp

theorem many_sound (H : JsonTypes T) {n : Nat} (ih : ∀ s rest vs, s.length ≤ n → Elem T sp s rest vs → ∃ x d ls, vs = [x] ∧ Denotes x d ∧ Value d ls ∧ Lexed ls s rest)
    {s s' xs} (h : YieldsMany jsonG noExt T sp itemE s s' xs) (hn : s.length ≤ n) {rest vs ls} (hi : Items vs ls) (hl : Lexed ls s' rest) :
    ∃ ds ls', DenotesAll xs ds ∧ Items (ds ++ vs) ls' ∧ Lexed ls' s rest := by
  induction h with
  | nil => exact ⟨[], ls, .nil, hi, hl⟩
  | cons h1 _ ihm =>
    obtain ⟨m, h2, h3⟩ := (item_iff H).1 h1
    obtain ⟨x, d, l1, rfl, hd, hv, hl1⟩ := ih _ _ _ hn h2
    have hlen := rule_length h2
    have hlen' := takes_length h3
    obtain ⟨ds, ls', h4, h5, h6⟩ := ihm (by omega) hl
    exact ⟨d :: ds, l1 ++ .sym ',' :: ls', .cons hd h4, .cons hv h5, lexed_append.2 ⟨m, hl1, lexed_cons.2 ⟨_, h3, h6⟩⟩⟩

theorem pair_sound (H : JsonTypes T) {n : Nat} (ih : ∀ s rest vs, s.length ≤ n → Elem T sp s rest vs → ∃ x d ls, vs = [x] ∧ Denotes x d ∧ Value d ls ∧ Lexed ls s rest)
    {s rest vs} (h : JRule T sp "json_pair" s rest vs) (hn : s.length ≤ n) : ∃ p k v ls, vs = [p] ∧ DenotesPair p k v ∧ Value v ls ∧ Lexed (.str k :: .sym ':' :: ls) s rest := by
  obtain ⟨k, s1, s2, ws, h1, h2, h3, rfl⟩ := (pair_iff H).1 h
  have := takes_length h1
  have := takes_length h2
  obtain ⟨x, d, ls, rfl, h4, h5, h6⟩ := ih _ _ _ (by omega) h3
  exact ⟨_, k, d, ls, rfl, .mk h4, h5, lexed_cons.2 ⟨_, h1, lexed_cons.2 ⟨_, h2, h6⟩⟩⟩

theorem pairs_sound (H : JsonTypes T) {n : Nat} (ih : ∀ s rest vs, s.length ≤ n → Elem T sp s rest vs → ∃ x d ls, vs = [x] ∧ Denotes x d ∧ Value d ls ∧ Lexed ls s rest)
    {s s' ps} (h : YieldsMany jsonG noExt T sp pairE s s' ps) (hn : s.length ≤ n) {q k v ls0} (hv0 : Value v ls0) (hl0 : Lexed (.str k :: .sym ':' :: ls0) q s) :
    ∃ ms ls, DenotesPairs ps ms ∧ Members ((k, v) :: ms) ls ∧ Lexed ls q s' := by
  induction h generalizing q k v ls0 with
  | nil => exact ⟨[], _, .nil, .one hv0, hl0⟩
  | cons h1 _ ihm =>
    obtain ⟨m, h2, h3⟩ := (next_pair_iff H).1 h1
    have := takes_length h2
    obtain ⟨p, k', v', ls', rfl, h4, h5, h6⟩ := pair_sound H ih h3 (by omega)
    have := rule_length h3
    obtain ⟨ms, ls, h7, h8, h9⟩ := ihm (by omega) h5 h6
    obtain ⟨a, ha, hb⟩ := lexed_cons.1 hl0
    obtain ⟨b, hb, hc⟩ := lexed_cons.1 hb
    exact ⟨(k', v') :: ms, _, .cons h4 h7, .cons hv0 h8, lexed_cons.2 ⟨a, ha, lexed_cons.2 ⟨b, hb, lexed_append.2 ⟨_, hc, lexed_cons.2 ⟨_, h2, h9⟩⟩⟩⟩⟩

theorem members_ne {ms ls} (h : Members ms ls) : ls ≠ [] := by
  cases h <;> simp

theorem elem_sound (H : JsonTypes T) (n : Nat) : ∀ s rest vs, s.length ≤ n → Elem T sp s rest vs → ∃ x d ls, vs = [x] ∧ Denotes x d ∧ Value d ls ∧ Lexed ls s rest := by
  induction n with
  | zero =>
    intro s rest vs hn h
    have hs : s = [] := List.length_eq_zero_iff.1 (by omega)
    subst hs
    rcases (elem_iff H).1 h with ⟨ds, h, _⟩ | ⟨cs, h, _⟩ | ⟨ws, h, _⟩ | ⟨ws, h, _⟩
    · exact absurd (takes_length h) (by simp)
    · exact absurd (takes_length h) (by simp)
    · obtain ⟨m, h⟩ := array_first H h; cases h
    · obtain ⟨m, h⟩ := object_first H h; cases h
  | succ n ih =>
    intro s rest vs hn h
    rcases (elem_iff H).1 h with ⟨ds, h', rfl⟩ | ⟨cs, h', rfl⟩ | ⟨ws, h', rfl⟩ | ⟨ws, h', rfl⟩
    · exact ⟨_, _, _, rfl, .num, .num, lexed_cons.2 ⟨_, h', .nil⟩⟩
    · exact ⟨_, _, _, rfl, .str, .str, lexed_cons.2 ⟨_, h', .nil⟩⟩
    · obtain ⟨s1, s2, s3, s4, xs, ws, h1, h2, h3, h4, h5, h6, rfl⟩ := (array_iff H).1 h'
      have l1 := takes_length h1
      have l2 : s2.length ≤ s1.length := by
        have : ∀ {a b ys}, YieldsMany jsonG noExt T sp itemE a b ys → b.length ≤ a.length := by
          intro a b ys h
          induction h with
          | nil => exact Nat.le_refl _
          | cons h1 _ ih =>
            obtain ⟨m, h2, h3⟩ := (item_iff H).1 h1
            have := rule_length h2
            have := takes_length h3
            omega
        exact this h2
      obtain ⟨x, d, ls, rfl, hd, hv, hl⟩ := ih _ _ _ (by omega) h4
      have := (spaces_none (lexed_end hl (value_ne hv))).1 h5
      subst this
      obtain ⟨ds, ls', k1, k2, k3⟩ := many_sound H ih h2 (by omega) (.one hv) hl
      refine ⟨_, _, _, rfl, .arr k1 hd, .arr k2, ?_⟩
      rw [List.cons_append]
      exact lexed_cons.2 ⟨_, h1, lexed_append.2 ⟨_, k3, lexed_cons.2 ⟨_, h6, .nil⟩⟩⟩
    · obtain ⟨s1, s2, s3, v, h1, h2, h5, h6, rfl⟩ := (object_iff H).1 h'
      have l1 := takes_length h1
      rcases h2 with ⟨ws, h2, rfl⟩ | ⟨h2, rfl, rfl⟩
      · obtain ⟨m, ps, ws, k1, k2, k3, rfl⟩ := (members_iff H).1 h2
        obtain ⟨p, k, v, ls, rfl, k4, k5, k6⟩ := pair_sound H ih k1 (by omega)
        have := rule_length k1
        obtain ⟨ms, ls', k7, k8, k9⟩ := pairs_sound H ih k2 (by omega) k5 k6
        have := (spaces_none (lexed_end k9 (members_ne k8))).1 h5
        subst this
        refine ⟨_, _, _, rfl, ?_, .obj k8, ?_⟩
        · simp only [List.cons_append, List.nil_append, tupleVal]
          exact .obj k4 k7
        · rw [List.cons_append]
          exact lexed_cons.2 ⟨_, h1, lexed_append.2 ⟨_, k9, lexed_cons.2 ⟨_, h6, .nil⟩⟩⟩
      · have := (spaces_none (takes_end h1)).1 h5
        subst this
        exact ⟨_, _, _, rfl, .empty, .empty, lexed_cons.2 ⟨_, h1, lexed_cons.2 ⟨_, h6, .nil⟩⟩⟩

/-! ## What is in the language is read -/

theorem takes_other {c d : Char} {m rest rest' : List Char} (h : Takes (.sym c) m rest) (hd : Takes (.sym d) m rest') : c = d := by
  obtain ⟨_, h1⟩ := takes_sym h
  obtain ⟨_, h2⟩ := takes_sym hd
  rw [h1] at h2
  cases h2; rfl

/-- What completeness says for values, items and members. -/
def ReadValue (T : Nat → Ty) (sp : SpanSpec) (d : Data) (ls : List Token) : Prop := ∀ s rest, Lexed ls s rest → ∃ x, Elem T sp s rest [x] ∧ Denotes x d
/-- The same for items. -/
def ReadItems (T : Nat → Ty) (sp : SpanSpec) (vs : List Data) (ls : List Token) : Prop := ∀ s rest, Lexed ls s rest →
  ∃ m xs x ds d, vs = ds ++ [d] ∧ YieldsMany jsonG noExt T sp itemE s m xs ∧ Elem T sp m rest [x] ∧ DenotesAll xs ds ∧ Denotes x d
/-- The same for members. -/
def ReadMembers (T : Nat → Ty) (sp : SpanSpec) (ms : List (List Char × Data)) (ls : List Token) : Prop := ∀ s rest, Lexed ls s rest →
  ∃ m p ps k v ms', ms = (k, v) :: ms' ∧ JRule T sp "json_pair" s m [p] ∧ YieldsMany jsonG noExt T sp pairE m rest ps ∧ DenotesPair p k v ∧ DenotesPairs ps ms'

theorem pairs_fail (H : JsonTypes T) {s rest} (h : Takes (.sym '}') s rest) : Fails jsonG noExt pairE s := by
  rw [json_fails_iff (T := T) (sp := ⟨fun _ => 0, fun _ _ => (0, 0)⟩) ⟨_, _, members_occurs, .act (.seq (e := .star 23 pairE) (by simp) (.star .refl))⟩]
  intro rest' vs hy
  obtain ⟨m, h1, _⟩ := (next_pair_iff H).1 hy
  exact absurd (takes_other h h1) (by decide)

theorem value_complete (H : JsonTypes T) {d ls} (h : Value d ls) : ReadValue T sp d ls := by
  refine Value.rec (motive_1 := fun d ls _ => ReadValue T sp d ls) (motive_2 := fun vs ls _ => ReadItems T sp vs ls) (motive_3 := fun ms ls _ => ReadMembers T sp ms ls)
    ?_ ?_ ?_ ?_ ?_ ?_ ?_ ?_ ?_ h
  · intro ds s rest hl
    obtain ⟨_, h1, h2⟩ := lexed_cons.1 hl
    cases h2
    exact ⟨_, (elem_iff H).2 (.inl ⟨ds, h1, rfl⟩), .num⟩
  · intro cs s rest hl
    obtain ⟨_, h1, h2⟩ := lexed_cons.1 hl
    cases h2
    exact ⟨_, (elem_iff H).2 (.inr (.inl ⟨cs, h1, rfl⟩)), .str⟩
  · intro vs ls _ ih s rest hl
    rw [List.cons_append] at hl
    obtain ⟨s1, h1, h2⟩ := lexed_cons.1 hl
    obtain ⟨s3, h3, h4⟩ := lexed_append.1 h2
    obtain ⟨_, h5, h6⟩ := lexed_cons.1 h4
    cases h6
    obtain ⟨m, xs, x, ds, d, rfl, k1, k2, k3, k4⟩ := ih _ _ h3
    refine ⟨_, (elem_iff H).2 (.inr (.inr (.inl ⟨_, (array_iff H).2 ⟨s1, m, s3, s3, xs, _, h1, k1, ?_, k2, ?_, h5, rfl⟩, rfl⟩))), .arr k3 k4⟩
    · rw [item_fails (T := T) (sp := sp) H]
      intro m' rest' vs' he hc
      obtain ⟨rfl, _⟩ := elem_unique k2 he
      exact absurd (takes_other h5 hc) (by decide)
    · refine (spaces_none ?_).2 rfl
      obtain ⟨m', hm⟩ := takes_sym h5
      rw [hm]
      show isSpace ']' = false
      decide
  · intro s rest hl
    obtain ⟨s1, h1, h2⟩ := lexed_cons.1 hl
    obtain ⟨_, h3, h4⟩ := lexed_cons.1 h2
    cases h4
    refine ⟨_, (elem_iff H).2 (.inr (.inr (.inr ⟨_, (object_iff H).2 ⟨s1, s1, s1, _, h1, .inr ⟨?_, rfl, rfl⟩, (spaces_none (takes_end h1)).2 rfl, h3, rfl⟩, rfl⟩))), .empty⟩
    rw [json_fails_iff (T := T) (sp := sp) ⟨_, _, object_occurs, .seq (e := .opt 15 (.nt 14 "json_members")) (by simp) (.opt .refl)⟩]
    intro rest' vs' hy
    rw [jcall_val (H.v 14 (by decide) rfl)] at hy
    obtain ⟨_, _, _, hp, _⟩ := (members_iff H).1 hy
    obtain ⟨_, _, _, _, hs, _⟩ := (pair_iff H).1 hp
    obtain ⟨c, m, e1, e2⟩ := takes_first hs
    obtain ⟨m', e3⟩ := takes_sym h3
    rw [e3] at e1; cases e1
    change '}' = '"' at e2
    exact absurd e2 (by decide)
  · intro ms ls _ ih s rest hl
    rw [List.cons_append] at hl
    obtain ⟨s1, h1, h2⟩ := lexed_cons.1 hl
    obtain ⟨s3, h3, h4⟩ := lexed_append.1 h2
    obtain ⟨_, h5, h6⟩ := lexed_cons.1 h4
    cases h6
    obtain ⟨m, p, ps, k, v, ms', rfl, k1, k2, k3, k4⟩ := ih _ _ h3
    have hend : NotStart isSpace s3 := by
      obtain ⟨m', hm⟩ := takes_sym h5
      rw [hm]
      show isSpace '}' = false
      decide
    refine ⟨_, (elem_iff H).2 (.inr (.inr (.inr ⟨_, (object_iff H).2 ⟨s1, s3, s3, _, h1, .inl ⟨_, (members_iff H).2 ⟨m, ps, _, k1, k2, pairs_fail H h5, rfl⟩, rfl⟩, (spaces_none hend).2 rfl, h5, rfl⟩,
      rfl⟩))), ?_⟩
    simp only [List.cons_append, List.nil_append, tupleVal]
    exact .obj k3 k4
  · intro v ls _ ih s rest hl
    obtain ⟨x, h1, h2⟩ := ih _ _ hl
    exact ⟨s, [], x, [], v, rfl, .nil, h1, .nil, h2⟩
  · intro v l1 vs l2 _ _ ih1 ih2 s rest hl
    obtain ⟨m, h1, h2⟩ := lexed_append.1 hl
    obtain ⟨m', h3, h4⟩ := lexed_cons.1 h2
    obtain ⟨x, k1, k2⟩ := ih1 _ _ h1
    obtain ⟨q, xs, y, ds, d, rfl, k3, k4, k5, k6⟩ := ih2 _ _ h4
    exact ⟨q, x :: xs, y, v :: ds, d, rfl, .cons (vs := [x]) ((item_iff H).2 ⟨m, k1, h3⟩) k3, k4, .cons k2 k5, k6⟩
  · intro k v ls _ ih s rest hl
    obtain ⟨s1, h1, h2⟩ := lexed_cons.1 hl
    obtain ⟨s2, h3, h4⟩ := lexed_cons.1 h2
    obtain ⟨x, k1, k2⟩ := ih _ _ h4
    exact ⟨rest, _, [], k, v, [], rfl, (pair_iff H).2 ⟨k, s1, s2, _, h1, h3, k1, rfl⟩, .nil, .mk k2, .nil⟩
  · intro k v l1 ms l2 _ _ ih1 ih2 s rest hl
    obtain ⟨s1, h1, h2⟩ := lexed_cons.1 hl
    obtain ⟨s2, h3, h4⟩ := lexed_cons.1 h2
    obtain ⟨m, h5, h6⟩ := lexed_append.1 h4
    obtain ⟨m', h7, h8⟩ := lexed_cons.1 h6
    obtain ⟨x, k1, k2⟩ := ih1 _ _ h5
    obtain ⟨q, p, ps, k', v', ms', rfl, k3, k4, k5, k6⟩ := ih2 _ _ h8
    exact ⟨m, _, p :: ps, k, v, (k', v') :: ms', rfl, (pair_iff H).2 ⟨k, s1, s2, _, h1, h3, k1, rfl⟩, .cons (vs := [p]) ((next_pair_iff H).2 ⟨m', h7, k3⟩) k4, .mk k2, .cons k5 k6⟩

/-! ## The functions of the user give one value -/

theorem chars_eq {a b : List Char} (h : a.map Val.chr = b.map Val.chr) : a = b := (List.map_inj_right (fun a b (h : Val.chr a = Val.chr b) => by cases h; rfl)).1 h

theorem strVal_inj {a b : List Char} (h : strVal a = strVal b) : a = b := by
  simp only [strVal, Val.app.injEq, List.cons.injEq, Val.list.injEq, true_and, and_true] at h
  exact chars_eq h

theorem denotes_all_det {xs vs vs'} (h : DenotesAll xs vs) (hd : ∀ x ∈ xs, ∀ v v', Denotes x v → Denotes x v' → v = v') (h' : DenotesAll xs vs') : vs = vs' := by
  induction xs generalizing vs vs' with
  | nil => cases h; cases h'; rfl
  | cons x xs ih =>
    cases h with
    | cons h1 h2 =>
      cases h' with
      | cons h3 h4 => rw [hd x (by simp) _ _ h1 h3, ih h2 (fun y hy => hd y (by simp [hy])) h4]

theorem Denotes.det {x d d'} (h : Denotes x d) (h' : Denotes x d') : d = d' := by
  refine Denotes.rec (motive_1 := fun x d _ => ∀ d', Denotes x d' → d = d') (motive_2 := fun xs vs _ => ∀ vs', DenotesAll xs vs' → vs = vs')
    (motive_3 := fun p k v _ => ∀ k' v', DenotesPair p k' v' → k = k' ∧ v = v') (motive_4 := fun ps ms _ => ∀ ms', DenotesPairs ps ms' → ms = ms') ?_ ?_ ?_ ?_ ?_ ?_ ?_ ?_ ?_ ?_ h _ h'
  · intro ds d' h'
    generalize hw : Val.app ["make_json_number"] [.app ["to_number"] [.list (ds.map .chr)]] = w at h'
    cases h' with
    | num =>
      simp only [Val.app.injEq, List.cons.injEq, Val.list.injEq, true_and, and_true] at hw
      rw [chars_eq hw]
    | _ => simp at hw
  · intro cs d' h'
    generalize hw : Val.app ["make_json_string"] [strVal cs] = w at h'
    cases h' with
    | str =>
      simp only [Val.app.injEq, List.cons.injEq, true_and, and_true] at hw
      rw [strVal_inj hw]
    | _ => simp at hw
  · intro xs x vs v _ _ ih1 ih2 d' h'
    generalize hw : Val.app ["make_json_array"] [.list xs, x] = w at h'
    cases h' with
    | arr h1 h2 =>
      simp only [Val.app.injEq, List.cons.injEq, Val.list.injEq, true_and, and_true] at hw
      obtain ⟨rfl, rfl⟩ := hw
      rw [ih1 _ h1, ih2 _ h2]
    | _ => simp [strVal] at hw
  · intro d' h'
    generalize hw : Val.app ["make_json_object"] [.none] = w at h'
    cases h' with
    | empty => rfl
    | _ => simp [strVal] at hw
  · intro p ps k v ms _ _ ih1 ih2 d' h'
    generalize hw : Val.app ["make_json_object"] [.some (.app ["make_json_member"] [p, .list ps])] = w at h'
    cases h' with
    | empty => simp at hw
    | obj h1 h2 =>
      simp only [Val.app.injEq, List.cons.injEq, Val.list.injEq, Val.some.injEq, true_and, and_true] at hw
      obtain ⟨rfl, rfl⟩ := hw
      obtain ⟨rfl, rfl⟩ := ih1 _ _ h1
      rw [ih2 _ h2]
    | _ => simp at hw
  · intro vs' h'; cases h'; rfl
  · intro x xs v vs _ _ ih1 ih2 vs' h'
    cases h' with
    | cons h1 h2 => rw [ih1 _ h1, ih2 _ h2]
  · intro k x v _ ih k' v' h'
    generalize hw : Val.app ["make_json_pair"] [strVal k, x] = w at h'
    cases h' with
    | mk h1 =>
      simp only [Val.app.injEq, List.cons.injEq, true_and, and_true] at hw
      obtain ⟨h2, rfl⟩ := hw
      exact ⟨strVal_inj h2, ih _ h1⟩
  · intro ms' h'; cases h'; rfl
  · intro p ps k v ms _ _ ih1 ih2 ms' h'
    cases h' with
    | cons h1 h2 =>
      obtain ⟨rfl, rfl⟩ := ih1 _ _ h1
      rw [ih2 _ h2]

/-- The program reads one value. -/
theorem program_reads (H : JsonTypes T) {s rest vs} (h : JRule T sp "program" s rest vs) :
    ∃ x d sps s1 ls, vs = [x] ∧ Denotes x d ∧ s = sps ++ s1 ∧ (∀ c ∈ sps, isSpace c = true) ∧ NotStart isSpace s1 ∧ Lexed ls s1 rest ∧ Value d ls := by
  have hb : jsonG.find "program" = some (.seq 3 [.nt 0 "spacing", .nt 1 "json_expr", .nt 2 "spacing"]) := rfl
  simp only [jrule_iff hb, yields_seq, YieldsSeq, jspacing_call H, jcall_val (H.v 1 (by decide) rfl), H.v 3 (by decide) rfl, if_false] at h
  obtain ⟨_, ⟨s1, _, _, ⟨⟨sps, rfl, k1, k2⟩, rfl⟩, ⟨s2, ws, _, h2, ⟨s3, _, _, ⟨h3, rfl⟩, ⟨rfl, rfl⟩, rfl⟩, rfl⟩, rfl⟩, h4⟩ := h
  simp only [List.append_nil, List.nil_append] at h4
  subst h4
  obtain ⟨y, d', ls, rfl, h5, h6, h7⟩ := elem_sound H _ _ _ _ (Nat.le_refl _) h2
  have := (spaces_none (lexed_end h7 (value_ne h6))).1 h3
  subst this
  exact ⟨y, d', sps, s1, ls, rfl, h5, rfl, k1, k2, h7, h6⟩

/-- A text is read as the value `x`, that denotes `d`, exactly when it is a way to write `d`. -/
theorem json_program (H : JsonTypes T) {s d} : (∃ x, JRule T sp "program" s [] [x] ∧ Denotes x d) ↔ Written d s := by
  have hb : jsonG.find "program" = some (.seq 3 [.nt 0 "spacing", .nt 1 "json_expr", .nt 2 "spacing"]) := rfl
  constructor
  · rintro ⟨x, h, hd⟩
    obtain ⟨y, d', sps, s1, ls, e, h5, rfl, k1, k2, h7, h6⟩ := program_reads H h
    cases e
    cases hd.det h5
    exact ⟨sps, s1, ls, rfl, k1, k2, h7, h6⟩
  · rintro ⟨sps, s1, ls, rfl, h1, h2, h3, h4⟩
    obtain ⟨x, h5, h6⟩ := value_complete (sp := sp) H h4 _ _ h3
    refine ⟨x, ?_, h6⟩
    simp only [jrule_iff hb, yields_seq, YieldsSeq, jspacing_call H, jcall_val (H.v 1 (by decide) rfl), H.v 3 (by decide) rfl, if_false]
    exact ⟨_, ⟨s1, _, _, ⟨⟨sps, rfl, h1, h2⟩, rfl⟩, ⟨[], _, _, h5, ⟨[], _, _, ⟨(spaces_none (show NotStart isSpace [] from trivial)).2 rfl, rfl⟩, ⟨rfl, rfl⟩, rfl⟩, rfl⟩, rfl⟩, by simp⟩

end Oak.JsonText
