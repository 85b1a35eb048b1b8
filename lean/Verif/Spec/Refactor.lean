import Verif.Spec.Operators
/-!
# Specification: refactoring of grammars

Laws between expressions, and grammars obtained from another one by using laws anywhere in the rules.
-/
set_option autoImplicit false

namespace Oak.Spec
open Oak

/-- `a` and `b` match the same texts and stop at the same places. -/
def SameMatches (G : Grammar) (X : ExtSpec) (a b : Expr) : Prop :=
  ∀ s, (∀ s', Matches G X a s s' ↔ Matches G X b s s') ∧ (Fails G X a s ↔ Fails G X b s)

/-- Moreover they try the same terminals in vain, at the same places and in the same order: errors are reported in the same way. -/
def SameReports (G : Grammar) (X : ExtSpec) (a b : Expr) : Prop := ∀ s x L, Outcome G X a s x L ↔ Outcome G X b s x L

/-- `Refactor E e e'`: the expression `e'` is made from `e` by replacing, anywhere and any number of times, an expression `a` by an
expression `b` such that `E a b`. The numbering of the expressions and what only matters for the AST (functions of the actions, types)
can change freely. -/
inductive Refactor (E : Expr → Expr → Prop) : Expr → Expr → Prop where
  | law {a b} : E a b → Refactor E a b
  | refl {a} : Refactor E a a
  | trans {a b c} : Refactor E a b → Refactor E b c → Refactor E a c
  | str {i j l} : Refactor E (.str i l) (.str j l)
  | any {i j} : Refactor E (.any i) (.any j)
  | cls {i j v} : Refactor E (.cls i v) (.cls j v)
  | nt {i j r} : Refactor E (.nt i r) (.nt j r)
  | ext {i j p} : Refactor E (.ext i p) (.ext j p)
  | seq_nil {i j} : Refactor E (.seq i []) (.seq j [])
  | seq_cons {i j e e' es es'} : Refactor E e e' → Refactor E (.seq i es) (.seq j es') → Refactor E (.seq i (e :: es)) (.seq j (e' :: es'))
  | choice_nil {i j} : Refactor E (.choice i []) (.choice j [])
  | choice_cons {i j e e' es es'} : Refactor E e e' → Refactor E (.choice i es) (.choice j es') →
      Refactor E (.choice i (e :: es)) (.choice j (e' :: es'))
  | star {i j e e'} : Refactor E e e' → Refactor E (.star i e) (.star j e')
  | plus {i j e e'} : Refactor E e e' → Refactor E (.plus i e) (.plus j e')
  | opt {i j e e'} : Refactor E e e' → Refactor E (.opt i e) (.opt j e')
  | not {i j e e'} : Refactor E e e' → Refactor E (.not i e) (.not j e')
  | and {i j e e'} : Refactor E e e' → Refactor E (.and i e) (.and j e')
  | act {i j e e' b b' f f'} : Refactor E e e' → Refactor E (.act i e b f) (.act j e' b' f')
  | asc {i j e e' t t'} : Refactor E e e' → Refactor E (.asc i e t) (.asc j e' t')
  | span {i j e e'} : Refactor E e e' → Refactor E (.span i e) (.span j e')
  | range {i j e e'} : Refactor E e e' → Refactor E (.range i e) (.range j e')

/-- The rules of `G'` are those of `G`, refactored. (Unused rules of `G'` can be added to `G` beforehand, see C57.) -/
def Refactored (E : Expr → Expr → Prop) (G G' : Grammar) : Prop :=
  ∀ r e', G'.find r = some e' → ∃ e, G.find r = some e ∧ Refactor E e e'

/-- Laws that change neither the texts matched nor the errors reported. -/
inductive ReportLaw (G : Grammar) : Expr → Expr → Prop where
  /-- A rule can be inlined. -/
  | inline {i r e} : G.find r = some e → ReportLaw G (.nt i r) e
  /-- `a (b c) d` is `a b c d`. -/
  | seq_flat {i j as bs cs} : ReportLaw G (.seq i (as ++ .seq j bs :: cs)) (.seq i (as ++ (bs ++ cs)))
  /-- `a / (b / c) / d` is `a / b / c / d`. -/
  | choice_flat {i j as bs cs} : ReportLaw G (.choice i (as ++ .choice j bs :: cs)) (.choice i (as ++ (bs ++ cs)))
  /-- A sequence of one expression. -/
  | seq_one {i e} : ReportLaw G (.seq i [e]) e
  /-- A choice of one expression. -/
  | choice_one {i e} : ReportLaw G (.choice i [e]) e
  /-- The empty literal has no effect in a sequence. -/
  | seq_empty {i j as bs} : ReportLaw G (.seq i (as ++ .str j "" :: bs)) (.seq i (as ++ bs))
  /-- `e+` is `e e*`. -/
  | plus {i j k e} : ReportLaw G (.plus i e) (.seq j [e, .star k e])
  /-- `e*` is `(e e*) / ""`. -/
  | star {i j k l m e} : ReportLaw G (.star i e) (.choice j [.seq k [e, .star l e], .str m ""])
  /-- `e?` is `e / ""`. -/
  | opt {i j k e} : ReportLaw G (.opt i e) (.choice j [e, .str k ""])
  /-- `e??` is `e?`. -/
  | opt_opt {i j k e} : ReportLaw G (.opt i (.opt j e)) (.opt k e)
  /-- `(e+)?` is `e*`. -/
  | plus_opt {i j k e} : ReportLaw G (.opt i (.plus j e)) (.star k e)
  /-- `&e` is `!!e`. -/
  | and {i j k e} : ReportLaw G (.and i e) (.not j (.not k e))
  /-- `!!!e` is `!e`. -/
  | not {i j k l e} : ReportLaw G (.not i (.not j (.not k e))) (.not l e)
  /-- Actions, ascriptions and spans do not change what is matched. -/
  | act {i e b f} : ReportLaw G (.act i e b f) e
  | asc {i e t} : ReportLaw G (.asc i e t) e
  | span {i e} : ReportLaw G (.span i e) e
  | range {i e} : ReportLaw G (.range i e) e
  /-- What follows a branch that cannot fail is never tried. -/
  | unreachable {i as bs j e} : ReportLaw G (.choice i (as ++ .star j e :: bs)) (.choice i (as ++ [.star j e]))
  | unreachable' {i as bs j e} : ReportLaw G (.choice i (as ++ .opt j e :: bs)) (.choice i (as ++ [.opt j e]))

/-- Laws that do not change the texts matched, but can change the errors reported. -/
inductive MatchLaw : Expr → Expr → Prop where
  /-- `a b / a c` is `a (b / c)`. -/
  | factor {i j k l m n a bs cs} : MatchLaw (.choice i [.seq j (a :: bs), .seq k (a :: cs)]) (.seq l [a, .choice m [.seq n bs, .seq n cs]])
  /-- A branch already tried can be removed. -/
  | again {i as bs cs e} : MatchLaw (.choice i (as ++ e :: (bs ++ e :: cs))) (.choice i (as ++ e :: (bs ++ cs)))
  /-- A literal is the sequence of its parts. -/
  | literal {i j k l u v} : MatchLaw (.str i (u ++ v)) (.seq j [.str k u, .str l v])
  /-- A character class is the choice of its parts. -/
  | cls {i j k l u v} : MatchLaw (.cls i (u ++ v)) (.choice j [.cls k u, .cls l v])
  /-- A character is the class of this character. -/
  | char {i j c} : MatchLaw (.str i (String.singleton c)) (.cls j [⟨c, c⟩])

end Oak.Spec
