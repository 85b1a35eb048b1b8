import Verif.Spec.Analysis
import Verif.Spec.Texts
import Verif.Model.AnalysisTexts
/-!
# Specification: the messages of the analysis phase
-/
set_option autoImplicit false

namespace Oak

/-- The items that have the name of an item before them, in order: the place of the first item with this name, the place of the item, the name. -/
def repeatsOf {α : Type} (name : α → String) (xs : List α) : List (Nat × Nat × String) :=
  xs.zipIdx.filterMap fun (x, j) =>
    let i := xs.findIdx fun y => name y == name x
    if i < j then some (i, j, name x) else none

/-- The message about an item defined twice: at the second definition, with a note at the first one. -/
def repeatMessage (what : String) (place : Nat → APlace) (d : Nat × Nat × String) : AEmitted :=
  ⟨true, place d.2.1, ("duplicate definition of " ++ what ++ " with name `" ++ d.2.2 ++ "`").toList,
    [(place d.1, ("previous definition of `" ++ d.2.2 ++ "` here").toList)]⟩

/-- The text about left recursion, with the cycle that is displayed. -/
def leftText (cycle : List Char) : List Char :=
  "Left-recursion is not supported in Oak; the following rule cycle do not consume any input and would therefore loop forever\nDetected cycle: ".toList ++ cycle ++
    "\nSolution: Rewrite one of the incriminated rules such that it consumes at least one atom in the input before calling the next one. \
    Usually, left-recursion is rewritten with a repeat operator (`e*` or `e+`).".toList

/-- The errors on the form of the rules: `G` is the grammar, `rules` are the rules that are written. -/
inductive FormError (rules : List (String × Expr)) (G : Grammar) : AEmitted → Prop where
  /-- The place is the name of the first rule of the cycle, where it is defined first. -/
  | leftRecursion {j r e c} : rules[j]? = some (r, e) → (∀ i x, i < j → rules[i]? = some x → x.1 ≠ r) → LeftCycle G (r :: c) →
      FormError rules G ⟨true, .rule j, leftText (cycleLine (r :: c)), []⟩
  | neverSucceed {e} : Occurs G e → SureFail G e →
      FormError rules G ⟨true, .expr e.id, "Expression will never succeed.\nSolution: Remove this expression.".toList, []⟩
  | alwaysSucceed {e} : Occurs G e → SureOk G e → Idle G e →
      FormError rules G ⟨true, .expr e.id, "Expression will always succeed without consuming any input.\nSolution: Remove this expression.".toList, []⟩
  | loopRepeat {e i c} : Occurs G e → (e = .star i c ∨ e = .plus i c) → Nullable G c →
      FormError rules G ⟨true, .expr e.id, "Infinite loop detected. A repeat operator (`e*` or `e+`) will never stop because the sub-expression does not consume input.\n\
        Solution: Rewrite the expression such that it consumes at least one atom in the input or get rid of the repeat operator.".toList, []⟩
  | unreachable {i before b after} : Occurs G (.choice i (before ++ b :: after)) → after ≠ [] → SureOk G b →
      FormError rules G ⟨true, .expr i, "Unreachable branch in a choice expression. We detected that some branches cannot be reached in this expression.\n\
        Solution: Either remove (or rewrite) this branch or move it to the end of the choice expression.".toList, [(.expr b.id, "Branch always succeeding".toList)]⟩

/-- How an operator is written around an expression. -/
def Op.around (op : Op) (x : String) : String :=
  match op with
  | .and => "&" ++ x
  | .not => "!" ++ x
  | .optional => x ++ "?"
  | .oneOrMore => x ++ "+"
  | .zeroOrMore => x ++ "*"
  | .nothing => x

/-- What is matched first is the operator, whatever the branches that are chosen. -/
inductive BeginsWith (G : Grammar) (op : Op) : Expr → Prop where
  | here {e x} : rootOp e = some (op, x) → BeginsWith G op e
  | nt {i r e} : G.find r = some e → BeginsWith G op e → BeginsWith G op (.nt i r)
  | seq {i e es} : BeginsWith G op e → BeginsWith G op (.seq i (e :: es))
  | choice {i es} : (∀ e ∈ es, BeginsWith G op e) → BeginsWith G op (.choice i es)
  | act {i e b f} : BeginsWith G op e → BeginsWith G op (.act i e b f)
  | asc {i e t} : BeginsWith G op e → BeginsWith G op (.asc i e t)
  | span {i e} : BeginsWith G op e → BeginsWith G op (.span i e)
  | range {i e} : BeginsWith G op e → BeginsWith G op (.range i e)

/-- The operator that does alone what the two operators do: negations cancel each other, repeated repetitions are one repetition. The second line from the end,
`(e+)*` rewritten to `e+`, is wrong (C23). -/
def Op.merged : Op → Op → Op
  | .and, op => op
  | .not, .not => .and
  | .not, _ => .not
  | .optional, .optional => .optional
  | .oneOrMore, .oneOrMore => .oneOrMore
  | .zeroOrMore, .oneOrMore => .oneOrMore
  | _, _ => .zeroOrMore

/-- The text of a warning: what is written and what it could be. -/
def chainText (written could : String) : List Char :=
  ("unnecessary chaining of predicates of the form `" ++ written ++ "`\nYou can rewrite this expression to the equivalent one `" ++ could ++
    "`.\n(" ++ written ++ " ~~~> " ++ could ++ ")").toList

/-- The warning on an operator applied to an expression that starts with an operator. -/
inductive ChainWarning (G : Grammar) : AEmitted → Prop where
  | mk {e c : Expr} {outer inner : Op} : Occurs G e → rootOp e = some (outer, c) → BeginsWith G inner c → RedundantHere outer inner →
      ChainWarning G ⟨false, .expr e.id, chainText (outer.around ("(" ++ inner.around "e" ++ ")")) ((outer.merged inner).around "e"), []⟩

/-- The warnings on the attributes that are not known. -/
def attrWarnings (attrs : List Path) : List AEmitted :=
  attrs.zipIdx.filterMap fun (a, j) =>
    if (requested a).isNone then some ⟨false, .attr j, "unknown attribute: it will be ignored.".toList, []⟩ else none

/-- The grammar that is analysed: the first rules of each name, with their calls resolved. -/
def AnalysedBy (rules : List (String × Expr)) (G : Grammar) : Prop :=
  ∃ kept, kept.Sublist rules ∧ (kept.map (·.1)).Nodup ∧ (∀ n, kept.find? (fun x => x.1 == n) = rules.find? fun x => x.1 == n) ∧ G = resolveGrammar ⟨kept⟩

end Oak
