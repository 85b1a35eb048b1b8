import Verif.Model.Ast
/-!
# Specification: semantics of parsing expression grammars

Independent of the compiler and of the runtime.  Inputs are lists of characters, a position in the input is the
suffix that remains to be read.
-/
set_option autoImplicit false

namespace Oak.Spec
open Oak

/-- Parse trees. -/
inductive Tree where
  | leaf
  | chr (c : Char)
  | nt (t : Tree)
  | ext (v : Val)
  | seq (ts : List Tree)
  | alt (k : Nat) (t : Tree)
  | rep (ts : List Tree)
  | none
  | some (t : Tree)
  | act (t : Tree)
  | asc (t : Tree)
  | spanned (lo hi : List Char) (t : Tree)
deriving Repr

/-- Outcome of matching an expression: failure, or success with the remaining input and a parse tree. -/
inductive Out where
  | fail
  | ok (rest : List Char) (t : Tree)
deriving Repr

/-- Terminals that were tried and did not match, in the order of the attempts, with the position of the attempt. -/
abbrev Log := List (List Char × String)

/-- Membership in a character class. -/
def InClass (ivs : List Interval) (c : Char) : Prop := ∃ iv ∈ ivs, iv.lo ≤ c ∧ c ≤ iv.hi

/-- Behaviour of external rules. -/
abbrev ExtSpec := Path → List Char → Out → Log → Prop

/-- External rules are deterministic. -/
def ExtSpec.Det (X : ExtSpec) : Prop := ∀ p s o L o' L', X p s o L → X p s o' L' → o = o' ∧ L = L'

/-- External rules only move forward in the input and try terminals from where they start. -/
def ExtSpec.Forward (X : ExtSpec) : Prop :=
  ∀ p s o L, X p s o L → (∀ s' t, o = .ok s' t → s' <:+ s) ∧ ∀ x ∈ L, x.1 <:+ s

/-- `Peg G X e s o L`: matching `e` at position `s` has outcome `o`, after trying in vain the terminals of `L`.
Ordered choice, greedy repetition, syntactic predicates (Ford 2004). -/
inductive Peg (G : Grammar) (X : ExtSpec) : Expr → List Char → Out → Log → Prop where
  | str_ok {i lit r} : Peg G X (.str i lit) (lit.toList ++ r) (.ok r .leaf) []
  | str_fail {i lit s} : ¬ lit.toList <+: s → Peg G X (.str i lit) s .fail [(s, lit)]
  | any_ok {i c cs} : Peg G X (.any i) (c :: cs) (.ok cs (.chr c)) []
  | any_fail {i} : Peg G X (.any i) [] .fail [([], "<character>")]
  | cls_ok {i ivs c cs} : InClass ivs c → Peg G X (.cls i ivs) (c :: cs) (.ok cs (.chr c)) []
  | cls_fail {i ivs c cs} : ¬ InClass ivs c → Peg G X (.cls i ivs) (c :: cs) .fail [(c :: cs, classDesc ivs)]
  | cls_eof {i ivs} : Peg G X (.cls i ivs) [] .fail [([], classDesc ivs)]
  | nt_ok {i r e s s' t L} : G.find r = some e → Peg G X e s (.ok s' t) L → Peg G X (.nt i r) s (.ok s' (.nt t)) L
  | nt_fail {i r e s L} : G.find r = some e → Peg G X e s .fail L → Peg G X (.nt i r) s .fail L
  | ext {i p s o L} : X p s o L → Peg G X (.ext i p) s o L
  | seq_nil {i s} : Peg G X (.seq i []) s (.ok s (.seq [])) []
  | seq_cons {i e es s s1 s2 t ts L1 L2} : Peg G X e s (.ok s1 t) L1 → Peg G X (.seq i es) s1 (.ok s2 (.seq ts)) L2 →
      Peg G X (.seq i (e :: es)) s (.ok s2 (.seq (t :: ts))) (L1 ++ L2)
  | seq_fail {i e es s L} : Peg G X e s .fail L → Peg G X (.seq i (e :: es)) s .fail L
  | seq_later {i e es s s1 t L1 L2} : Peg G X e s (.ok s1 t) L1 → Peg G X (.seq i es) s1 .fail L2 →
      Peg G X (.seq i (e :: es)) s .fail (L1 ++ L2)
  | choice_nil {i s} : Peg G X (.choice i []) s .fail []
  | choice_first {i e es s s1 t L} : Peg G X e s (.ok s1 t) L → Peg G X (.choice i (e :: es)) s (.ok s1 (.alt 0 t)) L
  | choice_next {i e es s s1 k t L1 L2} : Peg G X e s .fail L1 → Peg G X (.choice i es) s (.ok s1 (.alt k t)) L2 →
      Peg G X (.choice i (e :: es)) s (.ok s1 (.alt (k + 1) t)) (L1 ++ L2)
  | choice_fail {i e es s L1 L2} : Peg G X e s .fail L1 → Peg G X (.choice i es) s .fail L2 →
      Peg G X (.choice i (e :: es)) s .fail (L1 ++ L2)
  | star_stop {i e s L} : Peg G X e s .fail L → Peg G X (.star i e) s (.ok s (.rep [])) L
  | star_more {i e s s1 s2 t ts L1 L2} : Peg G X e s (.ok s1 t) L1 → Peg G X (.star i e) s1 (.ok s2 (.rep ts)) L2 →
      Peg G X (.star i e) s (.ok s2 (.rep (t :: ts))) (L1 ++ L2)
  | plus_fail {i e s L} : Peg G X e s .fail L → Peg G X (.plus i e) s .fail L
  | plus_ok {i e s s1 s2 t ts L1 L2} : Peg G X e s (.ok s1 t) L1 → Peg G X (.star i e) s1 (.ok s2 (.rep ts)) L2 →
      Peg G X (.plus i e) s (.ok s2 (.rep (t :: ts))) (L1 ++ L2)
  | opt_some {i e s s1 t L} : Peg G X e s (.ok s1 t) L → Peg G X (.opt i e) s (.ok s1 (.some t)) L
  | opt_none {i e s L} : Peg G X e s .fail L → Peg G X (.opt i e) s (.ok s .none) L
  | not_ok {i e s L} : Peg G X e s .fail L → Peg G X (.not i e) s (.ok s .leaf) L
  | not_fail {i e s s1 t L} : Peg G X e s (.ok s1 t) L → Peg G X (.not i e) s .fail L
  | and_ok {i e s s1 t L} : Peg G X e s (.ok s1 t) L → Peg G X (.and i e) s (.ok s .leaf) L
  | and_fail {i e s L} : Peg G X e s .fail L → Peg G X (.and i e) s .fail L
  | act_ok {i e b f s s1 t L} : Peg G X e s (.ok s1 t) L → Peg G X (.act i e b f) s (.ok s1 (.act t)) L
  | act_fail {i e b f s L} : Peg G X e s .fail L → Peg G X (.act i e b f) s .fail L
  | asc_ok {i e ty s s1 t L} : Peg G X e s (.ok s1 t) L → Peg G X (.asc i e ty) s (.ok s1 (.asc t)) L
  | asc_fail {i e ty s L} : Peg G X e s .fail L → Peg G X (.asc i e ty) s .fail L
  | span_ok {i e s s1 t L} : Peg G X e s (.ok s1 t) L → Peg G X (.span i e) s (.ok s1 (.spanned s s1 t)) L
  | span_fail {i e s L} : Peg G X e s .fail L → Peg G X (.span i e) s .fail L
  | range_ok {i e s s1 t L} : Peg G X e s (.ok s1 t) L → Peg G X (.range i e) s (.ok s1 (.spanned s s1 t)) L
  | range_fail {i e s L} : Peg G X e s .fail L → Peg G X (.range i e) s .fail L

/-- How spans are built from the positions (suffixes) before and after a match. -/
structure SpanSpec where
  pos : List Char → Nat
  span : List Char → List Char → Nat × Nat

/-- Is `f` the path of a unit variant (last segment starts with an upper-case letter)? -/
def isVariant (f : Path) : Bool :=
  match f.getLast? with
  | some x => match x.toList.head? with
    | some c => c.isUpper
    | none => false
  | none => false

mutual
/-- The values an expression contributes to the AST, given the parse tree of its match.  `T i` is the type of node `i`:
unit-typed expressions contribute nothing. -/
def ast (G : Grammar) (T : Nat → Ty) (sp : SpanSpec) (e : Expr) : Tree → List Val
  | .leaf => []
  | .chr c => if T e.id = .unit then [] else [.chr c]
  | .nt t => if T e.id = .unit then [] else
      match e with
      | .nt _ r => match G.find r with
        | some b => ast G T sp b t
        | none => []
      | _ => []
  | .ext v => if T e.id = .unit then [] else [v]
  | .seq ts => if T e.id = .unit then [] else
      match e with
      | .seq _ es => astSeq G T sp es ts
      | _ => []
  | .alt k t => if T e.id = .unit then [] else
      match e with
      | .choice _ es => match es[k]? with
        | some b => ast G T sp b t
        | none => []
      | _ => []
  | .rep ts => if T e.id = .unit then [] else
      match e with
      | .star _ c | .plus _ c => [.list (astRep G T sp c ts)]
      | _ => []
  | .none => if T e.id = .unit then [] else [.none]
  | .some t => if T e.id = .unit then [] else
      match e with
      | .opt _ c => [.some (tupleVal (ast G T sp c t))]
      | _ => []
  | .act t => if T e.id = .unit then [] else
      match e with
      | .act _ c boxed f =>
        let call := if isVariant f && T c.id = .unit then Val.path f else .app f (ast G T sp c t)
        [if boxed then .box call else call]
      | _ => []
  | .asc t => if T e.id = .unit then [] else
      match e with
      | .asc _ c _ => ast G T sp c t
      | _ => []
  | .spanned lo hi t => if T e.id = .unit then [] else
      match e with
      | .span _ c => .span (sp.span lo hi).1 (sp.span lo hi).2 :: ast G T sp c t
      | .range _ c => .range (sp.pos lo) (sp.pos hi) :: ast G T sp c t
      | _ => []
/-- Values of a sequence: the concatenation of the values of its elements. -/
def astSeq (G : Grammar) (T : Nat → Ty) (sp : SpanSpec) (es : List Expr) : List Tree → List Val
  | [] => []
  | t :: ts => match es with
    | [] => []
    | e :: es => ast G T sp e t ++ astSeq G T sp es ts
/-- Values of a repetition: one (tuple) value per iteration. -/
def astRep (G : Grammar) (T : Nat → Ty) (sp : SpanSpec) (e : Expr) : List Tree → List Val
  | [] => []
  | t :: ts => tupleVal (ast G T sp e t) :: astRep G T sp e ts
end

/-- The farthest position (shortest suffix) among the failed terminals of a log, starting from `s`. -/
def farthest (s : List Char) : Log → List Char
  | [] => s
  | (p, _) :: L => farthest (if p.length < s.length then p else s) L

/-- The terminals expected at position `p`, in the order they were tried. -/
def expectedAt (p : List Char) (L : Log) : List String :=
  (L.filter (fun x => x.1 = p)).map (·.2)

end Oak.Spec
