import Verif.Proofs.FrontErrorsSame
import Verif.Proofs.FrontErrorsLeft
import Verif.Properties.Front
/-!
# C71: the errors of syntax

`syntaxError` is the front-end from the side of its errors: the error that is reported, its place, and the place of the first token that was left in a group before it
(`syn` keeps it aside). `FErr.About` (`Spec/FrontErrors`) says what an error is about.
-/
set_option autoImplicit false
set_option linter.constructorNameAsVariable false

namespace Oak
open Syntax

theorem syntaxError_blocks {n : Nat} {ts : List LTok} : syntaxError n ts = .ok () ↔ eparseBlocks n none ts = .ok none := by
  unfold syntaxError
  split <;> rename_i h <;> simp [h]

/-- C71: checking the syntax ends, with one result, for all the texts. -/
theorem C71_terminates (ts : List LTok) : ∃ x, x ≠ FOut.timeout ∧ ∀ n, 10 * sizeOf (eraseAll ts) + 10 ≤ n → syntaxError n ts = x := by
  have he := blocks_ends (10 * sizeOf (eraseAll ts) + 10) none ts (Nat.le_refl _)
  have hne : eparseBlocks (10 * sizeOf (eraseAll ts) + 10) none ts ≠ .timeout := by intro h; rw [h] at he; exact he
  refine ⟨syntaxError (10 * sizeOf (eraseAll ts) + 10) ts, ?_, fun n hn => ?_⟩
  · unfold syntaxError
    split <;> first | simp | skip
    rename_i h
    exact (hne h).elim
  · unfold syntaxError
    rw [eparseBlocks_mono hn hne]

/-- C71: an error is reported iff the text is not a grammar. -/
theorem C71_rejected (ts : List LTok) (n : Nat) (hn : 10 * sizeOf (eraseAll ts) + 10 ≤ n) :
    (∃ e l, syntaxError n ts = .err e l) ↔ ¬ ∃ F, Blocks (eraseAll ts) F := by
  obtain ⟨x, h1, h2⟩ := C71_terminates ts
  constructor
  · rintro ⟨e, l, h⟩ ⟨F, hF⟩
    obtain ⟨F', hp⟩ : ∃ F', parseGrammar n (eraseAll ts) = .ok F' := by
      rcases C39_terminates (eraseAll ts) n hn with h | h
      · exact h
      · exact ((C39_rejects _ _ hn).1 h ⟨F, hF⟩).elim
    obtain ⟨k, hp⟩ := parseGrammar_ok.1 hp
    have hs := lparseBlocks_same n [] ts
    rw [List.length_nil, hp] at hs
    cases h3 : lparseBlocks n [] ts <;> rw [h3] at hs <;> first | exact hs.elim | skip
    rename_i a
    rw [syntaxError_blocks.2 (eparseBlocks_sim n [] ts _ h3)] at h
    cases h
  · intro hn'
    rw [h2 n hn]
    cases x with
    | err e l => exact ⟨e, l, rfl⟩
    | timeout => exact (h1 rfl).elim
    | ok u =>
      have h3 := syntaxError_blocks.1 (h2 n hn)
      have h4 := blocks_good n none ts
      rw [h3] at h4
      obtain ⟨_, ⟨us, F, h5, h6⟩, _⟩ := h4
      rw [h5.exact] at h6
      exact (hn' ⟨F, h6⟩).elim

/-- C71: it is the front-end that builds the grammar that finds the error. -/
theorem C71_same (ts : List LTok) (n : Nat) (hn : 10 * sizeOf (eraseAll ts) + 10 ≤ n) :
    (∃ e l, syntaxError n ts = .err e l) ↔ parseGrammar n (eraseAll ts) = .stuck := by
  rw [C71_rejected ts n hn, C39_rejects _ n hn]

/-- C71: an error is at the place of its cause, and what is before this place is the beginning of a grammar, whose last rule is the one that the error names; when tokens
were left aside, the ends of some groups are not counted. -/
theorem C71_place {n : Nat} {ts : List LTok} {e : FErr} {l : Option SrcSpan} (h : syntaxError n ts = .err e l) : e.About l.isSome ts := by
  have hg := blocks_good n none ts
  unfold syntaxError at h
  split at h
  · cases h
  · rename_i s hs
    cases h
    rw [hs] at hg
    exact hg.2.2 rfl s rfl
  · rename_i hs
    cases h
    rw [hs] at hg
    exact hg.1
  · cases h

/-- C71: when nothing was left aside, the tokens before the error, exactly, are the beginning of a grammar: no token before the place of the error is wrong. -/
theorem C71_first {n : Nat} {ts : List LTok} {e : FErr} (h : syntaxError n ts = .err e none) :
    ∃ rest us, Cut false ts rest e.kind.patch us ∧ e.kind.Cause rest ∧ e.span = e.kind.at rest ∧
      (IsGrammar us e.kind.ruleOf ∨ (e.kind = .unexpected ∧ IsGrammar (us ++ [.punct '=' false, .lit ""]) none)) :=
  C71_place h

/-- C71: when another error is reported instead of the first one, it is about the text without the ends of groups, or the token that is hidden is a token left in a group
before which nothing at all is wrong. -/
theorem C71_left {n : Nat} {ts : List LTok} {e : FErr} {s : SrcSpan} (h : syntaxError n ts = .err e (some s)) :
    FErr.About false ts ⟨.unexpected, s⟩ ∨ e.About false ts := by
  unfold syntaxError at h
  split at h
  · cases h
  · cases h
  · rename_i hs
    cases h
    exact blocks_left _ _ _ _ hs
  · cases h

/-! ### Concrete texts -/

/-- A token at the place `i`. -/
def Sample.tk (l : TokLeaf) (i : Nat) : LTok := .leaf l ⟨i, i + 1⟩ ⟨i, i + 1⟩
/-- A name at the place `i`. -/
def Sample.nm (s : String) (i : Nat) : LTok := Sample.tk (.path [s]) i
/-- A sign at the place `i`. -/
def Sample.sg (c : Char) (i : Nat) : LTok := Sample.tk (.punct c false) i
/-- Parentheses around tokens. -/
def Sample.pr (g : List LTok) (i j : Nat) : LTok := .paren g ⟨i, i + 1⟩ ⟨i, j⟩
/-- Brackets around tokens. -/
def Sample.br (g : List LTok) (i j : Nat) : LTok := .bracket g ⟨i, i + 1⟩ ⟨i, j⟩

open Sample in
/-- `r = / "x"`: there is no expression before `/`. -/
theorem C71_no_expression : syntaxError 300 [nm "r" 0, sg '=' 1, sg '/' 2, tk (.lit "x") 3] = .err ⟨.noExpr "r", ⟨2, 3⟩⟩ none := by rfl
open Sample in
/-- `r = :T`. -/
example : syntaxError 300 [nm "r" 0, sg '=' 1, sg ':' 2, nm "T" 3] = .err ⟨.ascAlone "r", ⟨3, 4⟩⟩ none := by rfl
open Sample in
/-- `r = !/ "x"`. -/
example : syntaxError 300 [nm "r" 0, sg '=' 1, sg '!' 2, sg '/' 3, tk (.lit "x") 4] = .err ⟨.operand true "r", ⟨2, 3⟩⟩ none := by rfl
open Sample in
/-- `a = "x"  r = ("y" & :T)`: the error is in the second rule. -/
example : syntaxError 300 [nm "a" 0, sg '=' 1, tk (.lit "x") 2, nm "r" 3, sg '=' 4, pr [tk (.lit "y") 6, sg '&' 7, sg ':' 8, nm "T" 9] 5 10] =
    .err ⟨.operand false "r", ⟨7, 8⟩⟩ none := by rfl
open Sample in
/-- `r = "x" ()`. -/
example : syntaxError 300 [nm "r" 0, sg '=' 1, tk (.lit "x") 2, pr [] 3 5] = .err ⟨.emptyParens "r", ⟨3, 4⟩⟩ none := by rfl
open Sample in
/-- `r = [""]`. -/
example : syntaxError 300 [nm "r" 0, sg '=' 1, br [tk (.lit "") 3] 2 5] = .err ⟨.emptyClass, ⟨2, 3⟩⟩ none := by rfl
open Sample in
/-- `r = [a]`. -/
example : syntaxError 300 [nm "r" 0, sg '=' 1, br [nm "a" 3] 2 5] = .err ⟨.classStart "r", ⟨2, 3⟩⟩ none := by rfl
open Sample in
/-- `r = ["a--z"]`. -/
example : syntaxError 300 [nm "r" 0, sg '=' 1, br [tk (.lit "a--z") 3] 2 5] = .err ⟨.classDash "r", ⟨2, 3⟩⟩ none := by rfl
open Sample in
/-- `r = "x":=`: no type. -/
example : syntaxError 300 [nm "r" 0, sg '=' 1, tk (.lit "x") 2, sg ':' 3, sg '=' 4] = .err ⟨.rustType, ⟨4, 5⟩⟩ none := by rfl
open Sample in
/-- `r = "x" > "y"`: no function. -/
example : syntaxError 300 [nm "r" 0, sg '=' 1, tk (.lit "x") 2, sg '>' 3, tk (.lit "y") 4] = .err ⟨.action, ⟨4, 5⟩⟩ none := by rfl
open Sample in
/-- `r = "x" =`: neither a rule nor an item. -/
example : syntaxError 300 [nm "r" 0, sg '=' 1, tk (.lit "x") 2, sg '=' 3] = .err ⟨.item, ⟨3, 4⟩⟩ none := by rfl
open Sample in
/-- `r = ("x" =) "y"`: a token is left in the group. -/
example : syntaxError 300 [nm "r" 0, sg '=' 1, pr [tk (.lit "x") 3, sg '=' 4] 2 6, tk (.lit "y") 7] = .err ⟨.unexpected, ⟨4, 5⟩⟩ none := by rfl
open Sample in
/-- `r: (^ "x") = "y"`. -/
example : syntaxError 300 [nm "r" 0, sg ':' 1, pr [sg '^' 3, tk (.lit "x") 4] 2 6, sg '=' 7, tk (.lit "y") 8] = .err ⟨.unexpected, ⟨4, 5⟩⟩ none := by rfl
open Sample in
/-- The place, the rule and the cause of the first of these errors, from the theorem. -/
example : (⟨.noExpr "r", ⟨2, 3⟩⟩ : FErr).About false [nm "r" 0, sg '=' 1, sg '/' 2, tk (.lit "x") 3] := C71_place C71_no_expression
open Sample in
/-- `a = "x"  r = ("y") > f`: no error, from the theorem and by computation. -/
example : ¬ ∃ e l, syntaxError 300 [nm "a" 0, sg '=' 1, tk (.lit "x") 2] = .err e l := by
  rintro ⟨e, l, h⟩
  have : syntaxError 300 [nm "a" 0, sg '=' 1, tk (.lit "x") 2] = .ok () := rfl
  rw [this] at h
  cases h

open Sample in
/-- C71: the message about an operator without operand takes the rule for the operator and the operator for the rule: the arguments are in the wrong order. -/
theorem C71_swapped : ∃ e, syntaxError 300 [nm "sum" 0, sg '=' 1, sg '!' 2, sg '/' 3, tk (.lit "x") 4] = .err e none ∧
    e.kind.text = "sum is not followed by a valid expression (in rule A 'not' predicate (`!expr`)).\n            Do not forget it must be in front of the expression." :=
  ⟨_, rfl, by decide +kernel⟩

open Sample in
/-- C71: the error that is reported is not always the first one: in `r = ("x" =) ()`, the error is about `()`, and the `=` is not reported. -/
theorem C71_not_first : syntaxError 300 [nm "r" 0, sg '=' 1, pr [tk (.lit "x") 3, sg '=' 4] 2 6, pr [] 7 9] = .err ⟨.emptyParens "r", ⟨7, 8⟩⟩ (some ⟨4, 5⟩) ∧
    syntaxError 300 [nm "r" 0, sg '=' 1, pr [tk (.lit "x") 3, sg '=' 4] 2 6] = .err ⟨.unexpected, ⟨4, 5⟩⟩ none := by
  exact ⟨rfl, rfl⟩

open Sample in
/-- `r = ("x" =) ()`: either the hidden `=` or the error on `()` has only a beginning of a grammar before it, from the theorem. -/
example : FErr.About false [nm "r" 0, sg '=' 1, pr [tk (.lit "x") 3, sg '=' 4] 2 6, pr [] 7 9] ⟨.unexpected, ⟨4, 5⟩⟩ ∨
    (⟨.emptyParens "r", ⟨7, 8⟩⟩ : FErr).About false [nm "r" 0, sg '=' 1, pr [tk (.lit "x") 3, sg '=' 4] 2 6, pr [] 7 9] := C71_left C71_not_first.1

end Oak
