import Verif.Proofs.Texts
import Verif.Properties.Rejections
/-!
# The texts of the messages of the typing phase

All the messages are written; the types in the texts of the first error are the documented ones.
-/
set_option linter.constructorNameAsVariable false
set_option autoImplicit false

namespace Oak
open Typing Syntax

section
variable {A : AGrammar} {k m n : Nat}

/-- C70: the text of every message of the typing phase can be written: no panic, no endless text. There is one text for each message, in order, and it is the
documented one: what it says, where it is, whether it is an error or a warning. -/
theorem C70_written (H : A.Ready k) {p : Partial (Nat → Ty)} {ms : List TMsg} (h : typeInference A k m n = .ok (p, ms)) :
    ∃ es, Emits A k es ∧ es.length = ms.length ∧ ∀ (j : Nat) x e, ms[j]? = some x → es[j]? = some e → x.At A.grammar e := by
  obtain ⟨s, rfl, h2, h3, _, h4⟩ := run_state H h
  obtain ⟨N, es, h5, h6, h7⟩ := renderAll_total h2 h3 (typeInference_about H.names h)
  refine ⟨es, ⟨max N (max (max m (k + 2)) (max n (A.grammar.rules.length + 1))), fun m' n' n'' hm hn hn' => ?_⟩, h6, h7⟩
  rw [typingTexts, h4 m' n' (by omega) (by omega), Res.bind_ok]
  exact h5 _ (by omega)

theorem Emits.unique {es es' : List Emitted} (h : Emits A k es) (h' : Emits A k es') : es = es' := by
  obtain ⟨N, h⟩ := h
  obtain ⟨N', h'⟩ := h'
  have h1 := h (max N N') (max N N') (max N N') (by omega) (by omega) (by omega)
  rw [h' _ _ _ (by omega) (by omega) (by omega)] at h1
  cases h1
  rfl

/-- The text of the first error. -/
theorem first_text (H : A.Ready k) (hr : A.grammar.NoSeenRec) {p : Partial (Nat → Ty)} {ms : List TMsg} (h : typeInference A k m n = .ok (p, ms))
    {es : List Emitted} (he : Emits A k es) {j : Nat} {x : TMsg} (hx : FirstAt ms j x) :
    ∃ d, tdiagMsg d = x ∧ TDoc A d ∧ ∃ e N, es[j]? = some e ∧ ∀ n', N ≤ n' → d.render A.grammar n' = .ok e := by
  obtain ⟨s, rfl, h2, h3, h0, h4⟩ := run_state H h
  obtain ⟨h5, _⟩ := h0 hr
  have hf := firstAt_find hx
  have herr : s.error = true := by
    cases hs : s.error with
    | true => rfl
    | false => rw [(h5.none hs).1] at hf; cases hf
  obtain ⟨d, h6, h7, h8⟩ := h5.some herr
  rw [hf] at h6
  cases h6
  obtain ⟨N, he⟩ := he
  have key : ∀ n', max N (max (max m (k + 2)) (max n (A.grammar.rules.length + 1))) ≤ n' → ∃ e, d.render A.grammar n' = .ok e ∧ es[j]? = some e := by
    intro n' hn'
    have h9 := he n' n' n' (by omega) (by omega) (by omega)
    rw [typingTexts, h4 n' n' (by omega) (by omega), Res.bind_ok] at h9
    exact renderAll_first hx h7 h9
  obtain ⟨e, _, h10⟩ := key _ (Nat.le_refl _)
  refine ⟨d, rfl, h8, e, max N (max (max m (k + 2)) (max n (A.grammar.rules.length + 1))), h10, fun n' hn' => ?_⟩
  obtain ⟨e', h11, h12⟩ := key n' hn'
  rw [h10] at h12
  cases h12
  exact h11

/-- C70: the first error, when it is a mismatch between the branches of a choice, has one note for each branch, in order, with the documented type of the branch; the
choice has no type. -/
theorem C70_mismatch (H : A.Ready k) (hr : A.grammar.NoSeenRec) {p : Partial (Nat → Ty)} {ms : List TMsg} (h : typeInference A k m n = .ok (p, ms))
    {es : List Emitted} (he : Emits A k es) {i j : Nat} (hx : FirstAt ms j (.mismatch i)) :
    ∃ bs vs, Occurs A.grammar (.choice i bs) ∧ HasTypes A bs vs ∧ (∀ v, ¬ ChoiceType vs v) ∧
      es[j]? = some ⟨true, .expr i, "Type mismatch between branches of the choice operator.".toList, vs.mapIdx fun l v => (.branch i l, branchLine (l + 1) v)⟩ := by
  obtain ⟨d, h1, h2, e, N, h3, h4⟩ := first_text H hr h he hx
  cases d with
  | mismatch i' tys T =>
    cases h1
    obtain ⟨bs, vs, h5, h6, _, h7, h8⟩ := h2
    obtain ⟨N', h9⟩ := branchNotes_shown (i := i) h8 (hasTypes_solid h6) 0
    simp only [Nat.zero_add] at h9
    refine ⟨bs, vs, h5, h6, h7, ?_⟩
    have h10 := h4 (max N N') (by omega)
    rw [TDiag.render, h9 _ (by omega), Res.bind_ok, unfL_recs h8] at h10
    cases h10
    rw [h3, List.append_nil]
  | ascription => cases h1
  | untyped => cases h1

theorem under_occurs' {G : Grammar} {c e : Expr} (hc : Occurs G c) (h : Under c e) : Occurs G e := by
  induction h with
  | self => exact hc
  | seq _ he ih => exact ih.kid (by simpa [Expr.kids] using he)
  | choice _ he ih => exact ih.kid (by simpa [Expr.kids] using he)
  | star _ ih | plus _ ih | opt _ ih | not _ ih | and _ ih | span _ ih | range _ ih => exact ih.kid (by simp [Expr.kids])

/-- C70: the first error, when it is about an ascription, shows the documented type `v` of the expression, which is neither a Rust type nor unknown, and the ascribed
type `w`; or the types of an ascription and of the one that it is inside of. -/
theorem C70_ascription (H : A.Ready k) (hr : A.grammar.NoSeenRec) {p : Partial (Nat → Ty)} {ms : List TMsg} (h : typeInference A k m n = .ok (p, ms))
    {es : List Emitted} (he : Emits A k es) {i j : Nat} (hx : FirstAt ms j (.ascription i)) :
    ∃ v w, es[j]? = some ⟨true, .expr i, "found type ".toList ++ v.shown ++ " but expected type ".toList ++ w.shown, []⟩ ∧
      ((∃ l c x e, Occurs A.grammar (.asc l c (.regular (.rust x))) ∧ AscPart A c e ∧ e.id = i ∧ HasType A e v ∧ v ≠ .external ∧ (∀ y, v ≠ .rust y) ∧ w = .rust x) ∨
       (∃ l c ty d ty', Occurs A.grammar (.asc l c ty) ∧ Under c (.asc i d ty') ∧ ¬ Alike ty ty' ∧ AscribedType ty' v ∧ AscribedType ty w)) := by
  obtain ⟨d, h1, h2, e, N, h3, h4⟩ := first_text H hr h he hx
  cases d with
  | mismatch => cases h1
  | untyped => cases h1
  | ascription i' t a T =>
    cases h1
    have key : ∀ v w, DSolid v → DSolid w → Unf T v t → Unf T w a →
        es[j]? = some ⟨true, .expr i, "found type ".toList ++ v.shown ++ " but expected type ".toList ++ w.shown, []⟩ := by
      intro v w sv sw uv uw
      obtain ⟨n1, h5⟩ := dispTy_unf v sv uv
      obtain ⟨n2, h6⟩ := dispTy_unf w sw uw
      have h7 := h4 (max N (max n1 n2)) (by omega)
      rw [TDiag.render, h5 _ (by omega), Res.bind_ok, h6 _ (by omega), Res.bind_ok] at h7
      cases h7
      exact h3
    rcases h2 with ⟨l, c, x, e', v, h5, h6, h7, h8, h9, h10, h11, h12, h13⟩ | ⟨l, c, ty, d, ty', h5, h6, h7, h8, h9⟩
    · subst h13
      exact ⟨v, .rust x, key v _ (hasType_solid h8) trivial h12 (by rw [Unf]), .inl ⟨l, c, x, e', h5, h6, h7, h8, h10, h11, rfl⟩⟩
    · subst h8
      subst h9
      have hs : ∀ {ty v}, AscribedType ty v → DSolid v := by intro ty v h; cases h <;> trivial
      obtain ⟨v, hv1, _, hv2⟩ := ascribed_unf (H.written i d _ (under_occurs' (h5.kid (by simp [Expr.kids])) h6))
      obtain ⟨w, hw1, _, hw2⟩ := ascribed_unf (H.written l c _ h5)
      exact ⟨v, w, key v w (hs hv1) (hs hw1) (hv2 T) (hw2 T), .inr ⟨l, c, _, d, _, h5, h6, h7, hv1, hw1⟩⟩

/-- C70: the notation of types is not ambiguous: expressions whose types have the same text have the same type, when the types do not have parts written in Rust. -/
theorem C70_unambiguous {A' : AGrammar} {e e' : Expr} {v w : DType} (h : HasType A e v) (h' : HasType A' e' w) (hv : v.Known) (hw : w.Known)
    (hs : v.shown = w.shown) : v = w :=
  (shown_cancel v w hv hw (hasType_solid h) (hasType_solid h') (r := []) (r' := []) (by rw [hs])).1

theorem hasTypes_mem {es : List Expr} {vs : List DType} (h : HasTypes A es vs) : ∀ v ∈ vs, ∃ e, HasType A e v := by
  induction vs generalizing es with
  | nil => intro v hv; cases hv
  | cons v vs ih =>
    cases h with
    | cons h1 h2 =>
      intro u hu
      rcases List.mem_cons.1 hu with rfl | hu
      · exact ⟨_, h1⟩
      · exact ih h2 u hu

/-- C70: in a mismatch between branches whose types do not have parts written in Rust, the reader sees two branches of different types. -/
theorem C70_told_apart {bs : List Expr} {vs : List DType} (hb : bs ≠ []) (h : HasTypes A bs vs) (hn : ∀ v, ¬ ChoiceType vs v) (hk : ∀ v ∈ vs, v.Known) :
    ∃ v ∈ vs, ∃ w ∈ vs, v.shown ≠ w.shown := by
  cases h with
  | nil => exact absurd rfl hb
  | @cons e es t ts h1 h2 =>
    by_cases hc : ∀ u ∈ ts, u.shown = t.shown
    · refine absurd (ChoiceType.same (t := t) fun u hu => ?_) (hn t)
      obtain ⟨e', he'⟩ := hasTypes_mem h2 u hu
      rw [C70_unambiguous he' h1 (hk u (by simp [hu])) (hk t (by simp)) (hc u hu)]
      exact .refl t
    · simp only [Classical.not_forall] at hc
      obtain ⟨u, hu, hne⟩ := hc
      exact ⟨u, by simp [hu], t, by simp, hne⟩

end

/-- C70: the same for the macro: when it stops with errors of type, every one of them is written. -/
theorem C70_macro {n : Nat} {ts : List Tok} {ms : List Msg} {us : List TMsg} (h : oak n ts = .ok (.typingError ms us)) :
    ∃ A k es, Analysed ts A k ∧ Emits A k es ∧ es.length = us.length ∧ ∀ (j : Nat) x e, us[j]? = some x → es[j]? = some e → x.At A.grammar e := by
  obtain ⟨A, k, p, h1, h2, _⟩ := oak_typingError h
  obtain ⟨es, h3⟩ := C70_written h1.prepared.ready h2
  exact ⟨A, k, es, h1, h3⟩

/-! ## Examples -/

namespace Sample

/-- `r = . / "x" > f` where `f` returns a `char`. -/
def chars : AGrammar := ⟨⟨[("r", .choice 3 [.any 0, .act 2 (.str 1 "x") false ["f"]])]⟩, [("f", ⟨"f", .ty "char"⟩)], [], "StrStream", .debug⟩

/-- `r = .:char`. -/
def ascribed : AGrammar := ⟨⟨[("r", .asc 1 (.any 0) (.regular (.rust "char")))]⟩, [], [], "StrStream", .debug⟩

/-- `s = . s / "c"`. -/
def cyclic : AGrammar := ⟨⟨[("s", .choice 4 [.seq 2 [.any 0, .nt 1 "s"], .str 3 "c"])]⟩, [], [], "StrStream", .debug⟩

theorem unlike_emits : Emits unlike 3
    [⟨true, .expr 2, "Type mismatch between branches of the choice operator.".toList, [(.branch 2 0, branchLine 1 .hidden), (.branch 2 1, branchLine 2 .char)]⟩] := by
  have hrun : typeInference unlike 3 5 2 = .ok (.nothing, [.mismatch 2]) := rfl
  have H : unlike.Ready 3 := ready_of (by decide +kernel)
  obtain ⟨es, h1, h2, _⟩ := C70_written H hrun
  obtain ⟨bs, vs, h3, h4, _, h5⟩ := C70_mismatch H (noSeenRec_of (fun _ => 0) (by decide +kernel)) hrun h1 (j := 0) (i := 2) ⟨rfl, rfl, by simp⟩
  have hb : bs = [.str 0 "x", .any 1] := by have := occurs_mem h3; simp [unlike, subs, subsAll] at this; exact this
  subst hb
  have hv : vs = [.hidden, .char] := h4.det (.cons .str (.cons .any .nil))
  subst hv
  match es, h2, h5 with
  | [e], _, h5 => cases h5; exact h1

example : ∃ A k es, Analysed unlikeTokens A k ∧ Emits A k es ∧ es.length = 1 := by
  obtain ⟨A, k, es, h1, h2, h3, _⟩ := C70_macro (n := 100) (ts := unlikeTokens) (ms := []) (us := [.mismatch 2]) rfl
  exact ⟨A, k, es, h1, h2, h3⟩

/-- In a text: `branch 1 of type`. -/
example : String.ofList (branchLine 2 (.tuple [.char, .list .unit, .option (.rust "T")])) = "branch 2 of type `(char, Vec<()>, Option<T>)`" := by decide +kernel

end Sample

/-- C70: types of Rust and types of Oak are not told apart in the texts: the two branches of `. / "x" > f` where `f` returns a `char` are refused with the same
type `char` twice. -/
theorem C70_same_branches : ∃ (A : AGrammar) (k i : Nat) (es : List Emitted) (e : Emitted), A.Ready k ∧ A.grammar.NoSeenRec ∧ Emits A k es ∧ e ∈ es ∧
    e.text = "Type mismatch between branches of the choice operator.".toList ∧
    e.notes = [(.branch i 0, "branch 1 of type `char`".toList), (.branch i 1, "branch 2 of type `char`".toList)] := by
  have hrun : typeInference Sample.chars 4 6 2 = .ok (.nothing, [.mismatch 3]) := rfl
  have H : Sample.chars.Ready 4 := ready_of (by decide +kernel)
  have hr : Sample.chars.grammar.NoSeenRec := noSeenRec_of (fun _ => 0) (by decide +kernel)
  obtain ⟨es, h1, h2, _⟩ := C70_written H hrun
  obtain ⟨bs, vs, h3, h4, _, h5⟩ := C70_mismatch H hr hrun h1 (j := 0) (i := 3) ⟨rfl, rfl, by simp⟩
  have hb : bs = [.any 0, .act 2 (.str 1 "x") false ["f"]] := by have := occurs_mem h3; simp [Sample.chars, subs, subsAll] at this; exact this
  subst hb
  have hv : vs = [.char, .rust "char"] := h4.det (.cons .any (.cons .act .nil))
  subst hv
  refine ⟨Sample.chars, 4, 3, es, _, H, hr, h1, List.mem_of_getElem? h5, rfl, ?_⟩
  decide +kernel

/-- C70: the same for ascriptions: `.:char` is refused with `found type char but expected type char`. -/
theorem C70_same_ascription : ∃ (A : AGrammar) (k i : Nat) (es : List Emitted), A.Ready k ∧ A.grammar.NoSeenRec ∧ Emits A k es ∧
    ⟨true, .expr i, "found type char but expected type char".toList, []⟩ ∈ es := by
  have hrun : typeInference Sample.ascribed 2 4 2 = .ok (.nothing, [.ascription 0]) := rfl
  have H : Sample.ascribed.Ready 2 := ready_of (by decide +kernel)
  have hr : Sample.ascribed.grammar.NoSeenRec := noSeenRec_of (fun _ => 0) (by decide +kernel)
  obtain ⟨es, h1, h2, _⟩ := C70_written H hrun
  refine ⟨Sample.ascribed, 2, 0, es, H, hr, h1, ?_⟩
  obtain ⟨N, h3⟩ := h1
  have h4 := h3 (N + 4) (N + 2) (N + 1) (by omega) (by omega) (by omega)
  have h5 : typingTexts Sample.ascribed 2 (N + 4) (N + 2) (N + 1) = .ok [⟨true, .expr 0, "found type ".toList ++ ['c', 'h', 'a', 'r'] ++ " but expected type ".toList ++ "char".toList, []⟩] := rfl
  rw [h4] at h5
  cases h5
  refine List.mem_singleton.2 ?_
  decide +kernel

/-- A note on cycles: `s = . s / "c"`. -/
example : ∃ e, Emits Sample.cyclic 5 [e] ∧ e.notes.map (fun x => String.ofList x.2) = ["branch 1 of type `(^)*`", "branch 2 of type `(^)`",
    "Types annotated with `*` have been reduced to (^) because they are involved in one of the following rule cycle (generating recursive types):\ns -> s"] ∧
    e.notes.map Prod.fst = [.branch 4 0, .branch 4 1, .rule "s"] := by
  have hrun : typeInference Sample.cyclic 5 7 2 = .ok (.nothing, [.mismatch 4]) := rfl
  have H : Sample.cyclic.Ready 5 := ready_of (by decide +kernel)
  obtain ⟨es, h1, h2, _⟩ := C70_written H hrun
  match es, h1, h2 with
  | [e], h1, _ =>
    refine ⟨e, h1, ?_⟩
    obtain ⟨N, h3⟩ := h1
    have h4 := h3 (N + 7) (N + 2) (N + 2) (by omega) (by omega) (by omega)
    have h5 : ∃ e', typingTexts Sample.cyclic 5 (N + 7) (N + 2) (N + 2) = .ok [e'] ∧ e'.notes.map (fun x => String.ofList x.2) = ["branch 1 of type `(^)*`", "branch 2 of type `(^)`",
        "Types annotated with `*` have been reduced to (^) because they are involved in one of the following rule cycle (generating recursive types):\ns -> s"] ∧
        e'.notes.map Prod.fst = [.branch 4 0, .branch 4 1, .rule "s"] := ⟨_, rfl, by decide +kernel, rfl⟩
    obtain ⟨e', h5, h6⟩ := h5
    rw [h4] at h5
    cases h5
    exact h6

end Oak
