import Verif.Model.FrontErrors
import Verif.Spec.Front
/-!
# Specification: the errors of the front-end

An error is reported at a place of the source. What is before it is the beginning of a grammar: replacing the rest by a given text, and closing the groups that are open,
gives a grammar. What is at the place is the cause of the error.
-/
set_option autoImplicit false

namespace Oak
open Syntax

/-- The tokens `us` are those of `ts`, except that the ends of some groups may be missing (none when `cut` is false). -/
inductive Trim (cut : Bool) : List LTok → List Tok → Prop where
  | nil : Trim cut [] []
  | leaf {l h w ts us} : Trim cut ts us → Trim cut (.leaf l h w :: ts) (l.tok :: us)
  | paren {g g' z h w ts us} : Trim cut g g' → (cut = false → z = []) → Trim cut ts us → Trim cut (.paren (g ++ z) h w :: ts) (.paren g' :: us)
  | bracket {g g' z h w ts us} : Trim cut g g' → (cut = false → z = []) → Trim cut ts us → Trim cut (.bracket (g ++ z) h w :: ts) (.bracket g' :: us)

/-- `rest` is at some place in `ts`, possibly in groups, and `us` is `ts` before that place, then `patch`; the groups that are open at that place are closed. -/
inductive Cut (cut : Bool) : List LTok → List LTok → List Tok → List Tok → Prop where
  | here {pre us rest p} : Trim cut pre us → Cut cut (pre ++ rest) rest p (us ++ p)
  | paren {pre us g h w post rest p g'} : Trim cut pre us → Cut cut g rest p g' → Cut cut (pre ++ .paren g h w :: post) rest p (us ++ [.paren g'])
  | bracket {pre us g h w post rest p g'} : Trim cut pre us → Cut cut g rest p g' → Cut cut (pre ++ .bracket g h w :: post) rest p (us ++ [.bracket g'])

/-- The rule named in the text of an error. -/
def FKind.ruleOf : FKind → Option String
  | .noExpr r | .ascAlone r | .operand _ r | .emptyParens r | .classStart r | .classDash r => some r
  | .emptyClass | .rustType | .action | .item | .unexpected => none

/-- What would have been accepted at the place of the error: an expression; the path of a function; a rule; the end of the group. -/
def FKind.patch : FKind → List Tok
  | .noExpr _ | .ascAlone _ | .operand _ _ | .emptyParens _ | .emptyClass | .classStart _ | .classDash _ | .rustType => [.lit ""]
  | .action => [.path []]
  | .item => [.path [""], .punct '=' false, .lit ""]
  | .unexpected => []

/-- The beginning of a rule, `name =` or `name: T =`; the tokens left in `(^ ..)` do not matter here. -/
inductive Header : List LTok → Prop where
  | plain {name j h w h' w' ts} : Header (.leaf (.path [name]) h w :: .leaf (.punct '=' j) h' w' :: ts)
  | typed {name i j h w h' w' h'' w'' tys ty b ts} : IsType (eraseAll tys) ty b →
      Header (.leaf (.path [name]) h w :: .leaf (.punct ':' i) h' w' :: (tys ++ .leaf (.punct '=' j) h'' w'' :: ts))
  | invisible {name i k j h w h' w' h'' w'' h3 w3 h4 w4 g ts} :
      Header (.leaf (.path [name]) h w :: .leaf (.punct ':' i) h' w' :: .paren (.leaf (.punct '^' k) h'' w'' :: g) h3 w3 :: .leaf (.punct '=' j) h4 w4 :: ts)

/-- An expression without a prefix operator cannot begin here. -/
def NoAtom (ts : List LTok) : Prop :=
  (∀ s h w us, ts ≠ .leaf (.lit s) h w :: us) ∧ (∀ j h w us, ts ≠ .leaf (.punct '.' j) h w :: us) ∧ (∀ g h w us, ts ≠ .paren g h w :: us) ∧
    (∀ g h w us, ts ≠ .bracket g h w :: us) ∧ ∀ p h w us, ts = .leaf (.path p) h w :: us → Header ts

/-- An element of a sequence cannot begin here. -/
def NoElem (ts : List LTok) : Prop :=
  NoAtom ts ∧ (∀ j h w us, ts ≠ .leaf (.punct '!' j) h w :: us) ∧ (∀ j h w us, ts ≠ .leaf (.punct '&' j) h w :: us)

/-- The cause of an error: what is at its place. -/
def FKind.Cause (rest : List LTok) : FKind → Prop
  | .noExpr _ => NoElem rest ∧ ∀ j h w us, rest ≠ .leaf (.punct ':' j) h w :: us
  | .ascAlone _ => ∃ j h w ts tys tys' ty b, rest = .leaf (.punct ':' j) h w :: (tys ++ ts) ∧ Trim true tys tys' ∧ IsType tys' ty b
  | .operand neg _ => ∃ j h w ts, rest = .leaf (.punct (if neg then '!' else '&') j) h w :: ts ∧ NoAtom ts
  | .emptyParens _ => ∃ h w ts, rest = .paren [] h w :: ts
  | .emptyClass => ∃ h w g h' w' ts, rest = .bracket (.leaf (.lit "") h w :: g) h' w' :: ts
  | .classStart _ => ∃ g h w ts, rest = .bracket g h w :: ts ∧ ∀ s h w us, g ≠ .leaf (.lit s) h w :: us
  | .classDash _ => ∃ s h w g h' w' ts, rest = .bracket (.leaf (.lit s) h w :: g) h' w' :: ts ∧ s ≠ "" ∧ ¬ ∃ K : ClassText, K.Valid ∧ K.text = s.toList
  | .rustType => ∃ j h w ts, rest = .leaf (.punct ':' j) h w :: ts ∧
      ∀ tys us ty b, eraseAll ts = tys ++ us → IsType tys ty b → b = true ∧ startsParen us = true
  | .action => ∀ p h w us, rest ≠ .leaf (.path p) h w :: us
  | .item => ¬ Header rest ∧ (∀ it h w us, rest ≠ .leaf (.item it) h w :: us) ∧ ∀ p h w us, rest ≠ .leaf (.attr p) h w :: us
  | .unexpected => rest ≠ []

/-- The place of an error: the token at which the rest begins, except for a type, which is after the colon. -/
def FKind.at (rest : List LTok) : FKind → SrcSpan
  | .ascAlone _ | .rustType => peekSpan rest.tail
  | _ => peekSpan rest

/-- The tokens are a grammar; if a rule is given, it is the last one. -/
def IsGrammar (us : List Tok) (rule : Option String) : Prop :=
  ∃ F, Blocks us F ∧ ∀ r, rule = some r → ∃ rs e, F.rules = rs ++ [(r, e)]

/-- The error `e` is about the source `ts`: what is before its place is the beginning of a grammar, in the rule that it names, and its cause is at its place. The tokens
left in a group can also be in the type of the header of a rule, `r: (^ ..) =`, which is completed with an expression. -/
def FErr.About (cut : Bool) (ts : List LTok) (e : FErr) : Prop :=
  ∃ rest us, Cut cut ts rest e.kind.patch us ∧ e.kind.Cause rest ∧ e.span = e.kind.at rest ∧
    (IsGrammar us e.kind.ruleOf ∨ (e.kind = .unexpected ∧ IsGrammar (us ++ [.punct '=' false, .lit ""]) none))

end Oak
