import Verif.Model.FrontSpans
import Verif.Spec.Front
import Verif.Spec.WellFormed
import Verif.Model.Analysis
import Verif.Model.Typing
import Verif.Model.Macro
/-!
# Specification: the places that messages point at

An expression of a grammar is written as a sequence of consecutive tokens, its text. The spans of messages about an expression are described here from its text.
-/
set_option autoImplicit false

namespace Oak
open Spec

/-- `us` are consecutive tokens of `ts`, or of a parenthesised group in `ts`, at any depth. -/
inductive TextPart (us : List LTok) : List LTok → Prop where
  | here {a b} : TextPart us (a ++ us ++ b)
  | group {a g h w b} : TextPart us g → TextPart us (a ++ .paren g h w :: b)

/-- `s` is included in `t`. -/
def SrcSpan.Inside (s t : SrcSpan) : Prop := t.lo ≤ s.lo ∧ s.hi ≤ t.hi

mutual
/-- A token has a place: what `syn` reports for it is at its beginning, and the tokens of a group are in it, in their order. -/
def LTok.Placed : LTok → Prop
  | .leaf _ h w => h.lo = w.lo ∧ h.lo < h.hi ∧ h.hi ≤ w.hi
  | .paren g h w => h.lo = w.lo ∧ h.lo < h.hi ∧ h.hi ≤ w.hi ∧ PlacedAll w.lo w.hi g
  | .bracket g h w => h.lo = w.lo ∧ h.lo < h.hi ∧ h.hi ≤ w.hi ∧ PlacedAll w.lo w.hi g
/-- Tokens between two places of a source, in their order and without overlapping. -/
def PlacedAll (lo hi : Nat) : List LTok → Prop
  | [] => lo ≤ hi
  | t :: ts => lo ≤ t.whole.lo ∧ t.Placed ∧ t.whole.hi ≤ hi ∧ PlacedAll t.whole.hi hi ts
end

/-- The place of a text: from its first token to its last one. -/
def extent : List LTok → SrcSpan
  | [] => ⟨0, 0⟩
  | t :: ts => ⟨t.whole.lo, ((t :: ts).getLast (by simp)).whole.hi⟩

/-- The tokens are the text of the expression (without its indices): a sequence or a choice of the syntax. Two ascriptions are not written after their expression:
that of `... e`, which is `...(e:())`, and that of a rule `r: T = e`, which is `r = e:T`. -/
inductive SrcText : List Tok → Expr → Prop where
  | seq {ts x} : Syntax.Seq ts x → SrcText ts x
  | choice {ts x} : Syntax.Choice ts x → SrcText ts x
  | range {ts e} : Syntax.Spanned ts (.range 0 (.asc 0 e (.regular .unit))) → SrcText ts (.asc 0 e (.regular .unit))
  | rule {name i tys ty b j ts e} : Syntax.IsType tys ty b → Syntax.Choice ts e →
      SrcText (.path [name] :: .punct ':' i :: tys ++ .punct '=' j :: ts) (.asc 0 e ty)

/-- The least interval that contains both. -/
def SrcSpan.hull (a b : SrcSpan) : SrcSpan := ⟨min a.lo b.lo, max a.hi b.hi⟩

/-- The span of the messages about an expression written `us`, `T` being the table of spans:
* terminals and calls: their token (for a path, its first segment; for a class, its opening bracket, or the whole class for old versions of `syn`);
* `e*`, `e+`, `e?`: from the first token to the operator; `!e`, `&e`: from the operator to the end of the span of `e`;
* sequences: from the first token to the end of the span of the last element; choices: from the span of the first branch to that of the last one;
* `e > f`: the token after `>`; `e:T`: the token after the colon; `.. e`, `... e`: the first dot. -/
def SpanRule (T : List SrcSpan) (us : List LTok) (x : Expr) : Prop :=
  match x with
  | .str i _ | .any i | .cls i _ | .nt i _ | .ext i _ => ∃ t, us = [t] ∧ T[i]? = some t.head
  | .star i _ | .plus i _ | .opt i _ => ∃ t vs o, us = t :: vs ++ [o] ∧ T[i]? = some (t.head.hull o.head)
  | .not i e | .and i e => ∃ t vs s, us = t :: vs ∧ T[e.id]? = some s ∧ T[i]? = some (t.head.hull s)
  | .seq i es => ∃ t vs l s, us = t :: vs ∧ es.getLast? = some l ∧ T[l.id]? = some s ∧ T[i]? = some (t.head.hull s)
  | .choice i es => ∃ f l s1 s2, es.head? = some f ∧ es.getLast? = some l ∧ T[f.id]? = some s1 ∧ T[l.id]? = some s2 ∧ T[i]? = some (s1.hull s2)
  | .act i _ _ _ => ∃ vs g h w t ws j, us = vs ++ g :: t :: ws ∧ g = .leaf (.punct '>' j) h w ∧ T[i]? = some t.head
  | .asc i _ _ => (∃ vs g h w t ws j, us = vs ++ g :: t :: ws ∧ g = .leaf (.punct ':' j) h w ∧ T[i]? = some t.head) ∨
      ∃ t vs h w, us = t :: vs ∧ t = .leaf (.punct '.' true) h w ∧ T[i]? = some t.head
  | .span i _ | .range i _ => ∃ t vs h w, us = t :: vs ∧ t = .leaf (.punct '.' true) h w ∧ T[i]? = some t.head

/-- Messages about the expression `x` point, in the source `ts`, at a part of the text of `x`, given by the rules above. -/
def PointsAt (T : List SrcSpan) (ts : List LTok) (x : Expr) : Prop :=
  ∃ us, TextPart us ts ∧ SrcText (eraseAll us) x.bare ∧ SpanRule T us x ∧
    ∀ lo hi, PlacedAll lo hi ts → ∃ s, T[x.id]? = some s ∧ s.Inside (extent us) ∧ s.lo < s.hi

/-- The rules are written in the tokens one after the other, with anything between them: `P us r` for the text `us` of each rule `r`. -/
inductive Laid (P : List LTok → String × Expr → Prop) : List LTok → List (String × Expr) → Prop where
  | nil {ts} : Laid P ts []
  | cons {a us b r rs} : P us r → Laid P b rs → Laid P (a ++ us ++ b) (r :: rs)

/-- The expressions that a message of the analysis phase is about: its spans are theirs. -/
def Msg.exprs : Msg → List Expr
  | .wellFormed (.neverSucceed e) | .wellFormed (.alwaysSucceed e) | .wellFormed (.loopRepeat e) => [e]
  | .wellFormed (.unreachable choice branch) => [choice, branch]
  | .chain w => [w.this]
  | _ => []

/-- The messages of the analysis phase. -/
def Expansion.analysisMsgs : Expansion → List Msg
  | .syntaxError => []
  | .analysisError ms | .typingError ms _ | .code ms _ _ _ _ => ms

/-- The messages of the typing phase. -/
def Expansion.typingMsgs : Expansion → List TMsg
  | .syntaxError | .analysisError _ => []
  | .typingError _ us | .code _ us _ _ _ => us

/-- What a message of the typing phase is about: an expression, known by its index, or a rule. -/
def TMsg.About (G : Grammar) : TMsg → Prop
  | .unitAction i => ∃ e b f, Occurs G (.act i e b f)
  | .mismatch i => ∃ es, Occurs G (.choice i es)
  | .ascription i => ∃ e, Occurs G e ∧ e.id = i
  | .untyped r => (G.find r).isSome = true
  | .recursive p => ∃ r rs, p = r :: rs ∧ (G.find r).isSome = true

/-- The index of the expression that a message of the typing phase is about: its span is the span of that expression. -/
def TMsg.index : TMsg → Option Nat
  | .unitAction i | .mismatch i | .ascription i => some i
  | .untyped _ | .recursive _ => none

/-- The tokens are the text of the rule. -/
def RuleText (us : List LTok) (r : String × Expr) : Prop := Syntax.Blocks (eraseAll us) ⟨[(r.1, r.2.bare)], [], []⟩

end Oak
