import Verif.Model.FrontSpans
/-!
Model of the errors of the front-end: `src/liboak/front/parser.rs`, lines 24-442.

`Model/Front` and `Model/FrontSpans` say what is read; an error is only `stuck` there. Here the same functions are modelled from the side of their errors: which error is
reported, at which place, for which rule. What they build on success is left out; instead of the expression, the functions give whether there is one.

`syn` reports the tokens that are left in a group (parentheses or brackets) when the group is dropped, but it keeps this error aside: reading goes on, and the error is
reported if no other one stops it (`ParseBuffer::drop` and `check_unexpected`, `syn` 1.0, outside the repository). `left` is the place of the first of them.

The errors of `syn` itself ("expected identifier", ..) are of the kinds `rustType`, `action`, `item` and `unexpected`; their texts are not modelled, and the place of an
error in a Rust type is simplified to the first token of the type.
-/
set_option autoImplicit false

namespace Oak

/-- The errors, with the name of the rule when the text contains it. -/
inductive FKind where
  /-- front/parser.rs:201-204. -/
  | noExpr (rule : String)
  /-- front/parser.rs:218-219. -/
  | ascAlone (rule : String)
  /-- front/parser.rs:250-255: `!` when `neg`, `&` otherwise. -/
  | operand (neg : Bool) (rule : String)
  /-- front/parser.rs:334-338. -/
  | emptyParens (rule : String)
  /-- front/parser.rs:370-374. -/
  | emptyClass
  /-- front/parser.rs:377-381. -/
  | classStart (rule : String)
  /-- front/parser.rs:406-410, 416-418, 431. -/
  | classDash (rule : String)
  /-- front/parser.rs:150-156. -/
  | rustType
  /-- `syn::ExprPath`, front/parser.rs:167. -/
  | action
  /-- `syn::Item`, front/parser.rs:46. -/
  | item
  /-- `syn`: the tokens left in a group. -/
  | unexpected
deriving DecidableEq

/-- An error and its place. -/
structure FErr where
  kind : FKind
  span : SrcSpan
deriving DecidableEq

/-- The names of the operators in the messages, front/parser.rs:231, 235. -/
def predName : Bool → String
  | true => "A 'not' predicate (`!expr`)"
  | false => "A 'and' predicate (`&expr`)"

/-- The texts of the messages: front/parser.rs:202, 218-219, 252-254, 336-337, 372-373, 379-380, 406-410. Line 254 gives the arguments of `format!` in the wrong order. For
`rustType`, this is the note that is added (152-154). -/
def FKind.text : FKind → String
  | .noExpr r => "expect at least one expression (in rule `" ++ r ++ "`)."
  | .ascAlone r => "an expression must precede a type ascription (in rule `" ++ r ++ "`). For instance: `r1:u32` or `([\"0-9\"]+):()`."
  | .operand neg r => r ++ " is not followed by a valid expression (in rule " ++ predName neg ++ ").
            Do not forget it must be in front of the expression."
  | .emptyParens r => "unit type must follow an expression (in rule " ++ r ++ ").
              For instance: `[\"0-9\"]:()`."
  | .emptyClass => "Empty character classes are forbidden. For empty expression you can use the empty string literal `\"\"`."
  | .classStart r => "Unexpected character in this character class (in rule " ++ r ++
      "). `[` must only be followed by a string literal (such as in `[\"a-z\"]`)."
  | .classDash r => "Unexpected separator `-`. Put it in the start or the end if you want to accept it as a character in the set. \
      Otherwise, you should only use it for character intervals as in `[\"a-z\"]` (in rule " ++ r ++ ")."
  | .rustType => "note: you might need to parenthesize the Rust type.\n\
      For instance `rule:ast::Expr (rule2 rule3)` might generate an error because the Rust parser fails on parsing `ast::Expr(rule2 rule3)` thinking it is a Rust type.\n\
      Instead, you can write `rule:(ast::Expr) (rule2 rule3)` or `(rule:ast::Expr) (rule2 rule3)`."
  | .action | .item | .unexpected => ""

/-- What a function gives: a result, or an error and what was left aside before it; the time is that of the model. -/
inductive FOut (α : Type) where
  | ok (a : α)
  | err (e : FErr) (left : Option SrcSpan)
  | timeout

/-- The operator `?`. -/
def FOut.bind {α β : Type} : FOut α → (α → FOut β) → FOut β
  | .ok a, f => f a
  | .err e l, _ => .err e l
  | .timeout, _ => .timeout

instance : Monad FOut where
  pure := .ok
  bind := FOut.bind

/-- The end of a group: what is left in it is kept aside, if nothing was before (`ParseBuffer::drop`, `syn` 1.0). -/
def closeGroup : Option SrcSpan → List LTok → Option SrcSpan
  | none, t :: _ => some t.head
  | l, _ => l

/-- What the functions give: whether there is an expression, what was left aside, the tokens that remain. -/
abbrev FRead := Bool × Option SrcSpan × List LTok

/-- `parse_type`, front/parser.rs:125-159: whether there is a type. -/
def eparseType (l : Option SrcSpan) : List LTok → FOut FRead
  | .leaf (.punct ':' _) _ _ :: .paren [] _ _ :: ts => .ok (true, l, ts)
  | .leaf (.punct ':' _) _ _ :: .paren (.leaf (.punct '^' _) _ _ :: g) _ _ :: ts => .ok (true, closeGroup l g, ts)
  | .leaf (.punct ':' _) _ _ :: ts =>
    match parseRustTy (eraseAll ts) with
    | .ok (_, r) => .ok (true, l, ts.drop (ts.length - r.length))
    | _ => .err ⟨.rustType, peekSpan ts⟩ l
  | ts => .ok (false, l, ts)

/-- `parse_semantic_action`, front/parser.rs:161-173. -/
def eparseAction (l : Option SrcSpan) : List LTok → FOut FRead
  | .leaf (.punct '>' _) _ _ :: .leaf .box _ _ :: .leaf (.path _) _ _ :: ts => .ok (true, l, ts)
  | .leaf (.punct '>' _) _ _ :: .leaf .box _ _ :: ts => .err ⟨.action, peekSpan ts⟩ l
  | .leaf (.punct '>' _) _ _ :: .leaf (.path _) _ _ :: ts => .ok (true, l, ts)
  | .leaf (.punct '>' _) _ _ :: ts => .err ⟨.action, peekSpan ts⟩ l
  | ts => .ok (true, l, ts)

/-- `parse_char_class`, `parse_set_of_char_range` and `parse_char_range`, front/parser.rs:367-442: the tokens are those of the brackets, at `span`. -/
def eparseClass (r : String) (span : SrcSpan) (l : Option SrcSpan) : List LTok → FOut (Option SrcSpan)
  | .leaf (.lit s) _ _ :: g =>
    if s.toList.isEmpty then .err ⟨.emptyClass, span⟩ l
    else
      match parseCharClass (s.toList.length + 2) s.toList with
      | .ok _ => .ok (closeGroup l g)
      | _ => .err ⟨.classDash r, span⟩ l
  | _ => .err ⟨.classStart r, span⟩ l

/-- The suffix operators, front/parser.rs:267-288. -/
def eparseSuffix : List LTok → List LTok
  | .leaf (.punct '*' _) _ _ :: ts => ts
  | .leaf (.punct '+' _) _ _ :: ts => ts
  | .leaf (.punct '?' _) _ _ :: ts => ts
  | ts => ts

mutual

/-- `parse_rule_choice`, front/parser.rs:86-106. -/
def eparseChoice (r : String) : Nat → Option SrcSpan → List LTok → FOut FRead
  | 0, _, _ => .timeout
  | n + 1, l, ts => eparseBranches r n l ts
termination_by structural n => n

/-- The loop of `parse_rule_choice`, front/parser.rs:88-97. -/
def eparseBranches (r : String) : Nat → Option SrcSpan → List LTok → FOut FRead
  | 0, _, _ => .timeout
  | n + 1, l, ts => do
    let (_, l, ts) ← eparseSpanned r n l ts
    let (_, l, ts) ← eparseAction l ts
    match ts with
    | .leaf (.punct '/' _) _ _ :: ts => eparseBranches r n l ts
    | ts => .ok (true, l, ts)
termination_by structural n => n

/-- `parse_spanned_expr`, front/parser.rs:175-193. -/
def eparseSpanned (r : String) : Nat → Option SrcSpan → List LTok → FOut FRead
  | 0, _, _ => .timeout
  | n + 1, l, ts =>
    match ts with
    | .leaf (.punct '.' true) _ _ :: .leaf (.punct '.' true) _ _ :: .leaf (.punct '.' _) _ _ :: ts => eparseSeq r n l ts
    | .leaf (.punct '.' true) _ _ :: .leaf (.punct '.' _) _ _ :: ts => eparseSeq r n l ts
    | ts => eparseSeq r n l ts
termination_by structural n => n

/-- `parse_seq`, front/parser.rs:195-210. -/
def eparseSeq (r : String) : Nat → Option SrcSpan → List LTok → FOut FRead
  | 0, _, _ => .timeout
  | n + 1, l, ts => do
    let lo := peekSpan ts
    let (b, l, ts) ← eparseTypeds r n l ts
    if b then .ok (true, l, ts) else .err ⟨.noExpr r, lo⟩ l
termination_by structural n => n

/-- The loop of `parse_seq`, front/parser.rs:197-200: whether there is an expression at least. -/
def eparseTypeds (r : String) : Nat → Option SrcSpan → List LTok → FOut FRead
  | 0, _, _ => .timeout
  | n + 1, l, ts => do
    let (b, l, ts) ← eparseTyped r n l ts
    if b then do
      let (_, l, ts) ← eparseTypeds r n l ts
      .ok (true, l, ts)
    else .ok (false, l, ts)
termination_by structural n => n

/-- `parse_typed_expr`, front/parser.rs:212-224. -/
def eparseTyped (r : String) : Nat → Option SrcSpan → List LTok → FOut FRead
  | 0, _, _ => .timeout
  | n + 1, l, ts => do
    let (b, l, ts) ← eparsePrefixed r n l ts
    let (t, l, us) ← eparseType l ts
    if t then if b then .ok (true, l, us) else .err ⟨.ascAlone r, peekSpan ts.tail⟩ l
    else .ok (b, l, us)
termination_by structural n => n

/-- `parse_prefixed_expr` and `parse_prefixed_expr2`, front/parser.rs:226-261. -/
def eparsePrefixed (r : String) : Nat → Option SrcSpan → List LTok → FOut FRead
  | 0, _, _ => .timeout
  | n + 1, l, ts =>
    match ts with
    | .leaf (.punct '!' _) h _ :: ts => do
      let (b, l, ts) ← eparseSuffixed r n l ts
      if b then .ok (true, l, ts) else .err ⟨.operand true r, h⟩ l
    | .leaf (.punct '&' _) h _ :: ts => do
      let (b, l, ts) ← eparseSuffixed r n l ts
      if b then .ok (true, l, ts) else .err ⟨.operand false r, h⟩ l
    | ts => eparseSuffixed r n l ts
termination_by structural n => n

/-- `parse_suffixed_expr`, front/parser.rs:263-290. -/
def eparseSuffixed (r : String) : Nat → Option SrcSpan → List LTok → FOut FRead
  | 0, _, _ => .timeout
  | n + 1, l, ts => do
    let (b, l, ts) ← eparseAtom r n l ts
    if b then .ok (true, l, eparseSuffix ts) else .ok (false, l, ts)
termination_by structural n => n

/-- `parse_rule_atom`, front/parser.rs:322-365. The error of line 356 is never reported: `ps.peek(Token![.])` accepts the first of two dots (`C39_late_span`). -/
def eparseAtom (r : String) : Nat → Option SrcSpan → List LTok → FOut FRead
  | 0, _, _ => .timeout
  | n + 1, l, ts =>
    match ts with
    | .leaf (.lit _) _ _ :: ts => .ok (true, l, ts)
    | .leaf (.punct '.' _) _ _ :: ts => .ok (true, l, ts)
    | .paren g h _ :: ts =>
      if g.isEmpty then .err ⟨.emptyParens r, h⟩ l
      else do
        let (_, l, g) ← eparseChoice r n l g
        .ok (true, closeGroup l g, ts)
    | .leaf (.path p) h w :: ts =>
      if peekLhs (eraseAll (.leaf (.path p) h w :: ts)) then .ok (false, l, .leaf (.path p) h w :: ts)
      else .ok (true, l, ts)
    | .bracket g h _ :: ts => do
      let l ← eparseClass r h l g
      .ok (true, l, ts)
    | ts => .ok (false, l, ts)
termination_by structural n => n
end

/-- `parse_rule`, front/parser.rs:74-84, after `peek_rule_lhs`: reading the name and the type cannot fail (`ps` is read as its fork was). -/
def eparseRule (n : Nat) (l : Option SrcSpan) : List LTok → FOut FRead
  | .leaf (.path [name]) _ _ :: ts => do
    let (_, l, ts) ← eparseType l ts
    match ts with
    | .leaf (.punct '=' _) _ _ :: ts => eparseChoice name n l ts
    | ts => .err ⟨.item, peekSpan ts⟩ l
  | ts => .err ⟨.item, peekSpan ts⟩ l

/-- `parse_blocks`, front/parser.rs:38-49. -/
def eparseBlocks : Nat → Option SrcSpan → List LTok → FOut (Option SrcSpan)
  | 0, _, _ => .timeout
  | n + 1, l, ts =>
    if ts.isEmpty then .ok l
    else
      let (_, ts) := lsplitAttrs ts
      if peekLhs (eraseAll ts) then do
        let (_, l, ts) ← eparseRule n l ts
        eparseBlocks n l ts
      else
        match ts with
        | .leaf (.item _) _ _ :: ts => eparseBlocks n l ts
        | ts => .err ⟨.item, peekSpan ts⟩ l

/-- `parse_macro_input!`, lib.rs:35: the error of the grammar, if any; `parse2` (`syn`) reports the tokens left in a group if there is no other error. -/
def syntaxError (n : Nat) (ts : List LTok) : FOut Unit :=
  match eparseBlocks n none ts with
  | .ok none => .ok ()
  | .ok (some s) => .err ⟨.unexpected, s⟩ none
  | .err e l => .err e l
  | .timeout => .timeout

end Oak
