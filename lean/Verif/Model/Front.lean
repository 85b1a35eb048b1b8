import Verif.Model.CharClass
import Verif.Model.Analysis
/-!
Model of the front-end: `src/liboak/front/parser.rs`, lines 24-365, on token trees.

* The tokens are those of `proc_macro2`, except that what `syn` reads as a unit is one token: a path (`syn::Path`, as long as possible), an item
  (`syn::Item`) with its outer attributes, an inner attribute (`#![..]`), a Rust type that is neither a path nor a parenthesised type.
* `Res.stuck` is a `syn::Error`: `parse_macro_input!` (lib.rs:35) stops with a compilation error. `syn` also reports an error at the end
  when a group (parentheses or brackets) was not read entirely; here it is reported at the end of the group.
* `n` bounds the depth of the recursion and of the loops; `k` is the size of the arena (`exprs.len()`, front/ast.rs:42-47), that is the index given to the
  next expression. The spans of the expressions are not modelled.
-/
set_option autoImplicit false

namespace Oak

/-- Tokens. A punctuation character is `joint` when it is immediately followed by another one. -/
inductive Tok where
  | lit (s : String)
  | path (p : Path)
  | punct (c : Char) (joint : Bool)
  | paren (ts : List Tok)
  | bracket (ts : List Tok)
  | box
  | rtype (t : String)
  | item (it : Item)
  | attr (p : Path)
  | other (s : String)

/-- The text of a path. -/
def pathText (p : Path) : String := "::".intercalate p

/-- `syn::Type` in parentheses: a path, another type, or a type in parentheses. -/
def tokType : Tok → Option String
  | .path p => some (pathText p)
  | .rtype t => some t
  | .paren [t] => (tokType t).map fun s => "(" ++ s ++ ")"
  | _ => none

/-- `syn::Type::parse` (`syn` 1.0, outside the repository), simplified: a path takes a parenthesised group that follows it as its arguments
(`Fn(A)`), of which only the forms without a comma are considered; bounds (`A + B`), macros and return types are not considered. -/
def parseRustTy : List Tok → Res (String × List Tok)
  | .path p :: .paren [] :: ts => .ok (pathText p ++ "()", ts)
  | .path p :: .paren [t] :: ts =>
    match tokType t with
    | some s => .ok (pathText p ++ "(" ++ s ++ ")", ts)
    | none => .stuck
  | .path _ :: .paren _ :: _ => .stuck
  | t :: ts =>
    match tokType t with
    | some s => .ok (s, ts)
    | none => .stuck
  | [] => .stuck

/-- `parse_type` and `peek_unit_type`, front/parser.rs:107-159. -/
def parseType : List Tok → Res (IType × List Tok)
  | .punct ':' _ :: .paren [] :: ts => .ok (.regular .unit, ts)
  | .punct ':' _ :: .paren (.punct '^' _ :: g) :: ts => if g.isEmpty then .ok (.invisible, ts) else .stuck
  | .punct ':' _ :: ts => do
    let (t, ts) ← parseRustTy ts
    .ok (.regular (.rust t), ts)
  | ts => .ok (.infer, ts)

/-- The next token is `=`. -/
def peekEq : List Tok → Bool
  | .punct '=' _ :: _ => true
  | _ => false

/-- `parse_type` on a fork of the tokens, front/parser.rs:61: what is left in the parentheses of `(^ ..)` is not an error there. -/
def peekType : List Tok → Res (IType × List Tok)
  | .punct ':' _ :: .paren (.punct '^' _ :: _) :: ts => .ok (.invisible, ts)
  | ts => parseType ts

/-- `peek_rule_lhs`, front/parser.rs:53-72. -/
def peekLhs : List Tok → Bool
  | .path [_] :: ts =>
    if peekEq ts then true
    else
      match peekType ts with
      | .ok (_, ts) => peekEq ts
      | _ => false
  | _ => false

/-- `parse_semantic_action`, front/parser.rs:161-173. -/
def parseAction (k : Nat) (e : Expr) : List Tok → Res (Expr × Nat × List Tok)
  | .punct '>' _ :: .box :: .path f :: ts => .ok (.act k e true f, k + 1, ts)
  | .punct '>' _ :: .path f :: ts => .ok (.act k e false f, k + 1, ts)
  | .punct '>' _ :: _ => .stuck
  | ts => .ok (e, k, ts)

/-- `parse_char_class`, front/parser.rs:367-382. -/
def parseClass (k : Nat) : List Tok → Res (Expr × Nat)
  | [.lit s] => do
    let ivs ← parseCharClass (s.toList.length + 2) s.toList
    .ok (.cls k ivs, k + 1)
  | _ => .stuck

/-- The suffix operators of `parse_suffixed_expr`, front/parser.rs:273-287. -/
def parseSuffix (k : Nat) (e : Expr) : List Tok → Expr × Nat × List Tok
  | .punct '*' _ :: ts => (.star k e, k + 1, ts)
  | .punct '+' _ :: ts => (.plus k e, k + 1, ts)
  | .punct '?' _ :: ts => (.opt k e, k + 1, ts)
  | ts => (e, k, ts)

mutual

/-- `parse_rule_choice`, front/parser.rs:86-106. -/
def parseChoice : Nat → Nat → List Tok → Res (Expr × Nat × List Tok)
  | 0, _, _ => .timeout
  | n + 1, k, ts => do
    let (es, k, ts) ← parseBranches n k ts
    match es with
    | [e] => .ok (e, k, ts)
    | es => .ok (.choice k es, k + 1, ts)
termination_by structural n => n

/-- The loop of `parse_rule_choice`, front/parser.rs:88-97. -/
def parseBranches : Nat → Nat → List Tok → Res (List Expr × Nat × List Tok)
  | 0, _, _ => .timeout
  | n + 1, k, ts => do
    let (e, k, ts) ← parseSpanned n k ts
    let (e, k, ts) ← parseAction k e ts
    match ts with
    | .punct '/' _ :: ts => do
      let (es, k, ts) ← parseBranches n k ts
      .ok (e :: es, k, ts)
    | ts => .ok ([e], k, ts)
termination_by structural n => n

/-- `parse_spanned_expr`, front/parser.rs:175-193. -/
def parseSpanned : Nat → Nat → List Tok → Res (Expr × Nat × List Tok)
  | 0, _, _ => .timeout
  | n + 1, k, ts =>
    match ts with
    | .punct '.' true :: .punct '.' true :: .punct '.' _ :: ts => do
      let (e, k, ts) ← parseSeq n k ts
      .ok (.range (k + 1) (.asc k e (.regular .unit)), k + 2, ts)
    | .punct '.' true :: .punct '.' _ :: ts => do
      let (e, k, ts) ← parseSeq n k ts
      .ok (.span k e, k + 1, ts)
    | ts => parseSeq n k ts
termination_by structural n => n

/-- `parse_seq`, front/parser.rs:195-210. -/
def parseSeq : Nat → Nat → List Tok → Res (Expr × Nat × List Tok)
  | 0, _, _ => .timeout
  | n + 1, k, ts => do
    let (es, k, ts) ← parseTypeds n k ts
    match es with
    | [] => .stuck
    | [e] => .ok (e, k, ts)
    | es => .ok (.seq k es, k + 1, ts)
termination_by structural n => n

/-- The loop of `parse_seq`, front/parser.rs:197-200. -/
def parseTypeds : Nat → Nat → List Tok → Res (List Expr × Nat × List Tok)
  | 0, _, _ => .timeout
  | n + 1, k, ts => do
    let (o, k, ts) ← parseTyped n k ts
    match o with
    | none => .ok ([], k, ts)
    | some e => do
      let (es, k, ts) ← parseTypeds n k ts
      .ok (e :: es, k, ts)
termination_by structural n => n

/-- `parse_typed_expr`, front/parser.rs:212-224. -/
def parseTyped : Nat → Nat → List Tok → Res (Option Expr × Nat × List Tok)
  | 0, _, _ => .timeout
  | n + 1, k, ts => do
    let (o, k, ts) ← parsePrefixed n k ts
    let (ty, ts) ← parseType ts
    match ty with
    | .infer => .ok (o, k, ts)
    | ty =>
      match o with
      | none => .stuck
      | some e => .ok (some (.asc k e ty), k + 1, ts)
termination_by structural n => n

/-- `parse_prefixed_expr` and `parse_prefixed_expr2`, front/parser.rs:226-261. -/
def parsePrefixed : Nat → Nat → List Tok → Res (Option Expr × Nat × List Tok)
  | 0, _, _ => .timeout
  | n + 1, k, ts =>
    match ts with
    | .punct '!' _ :: ts => do
      let (o, k, ts) ← parseSuffixed n k ts
      match o with
      | some e => .ok (some (.not k e), k + 1, ts)
      | none => .stuck
    | .punct '&' _ :: ts => do
      let (o, k, ts) ← parseSuffixed n k ts
      match o with
      | some e => .ok (some (.and k e), k + 1, ts)
      | none => .stuck
    | ts => parseSuffixed n k ts
termination_by structural n => n

/-- `parse_suffixed_expr`, front/parser.rs:263-290. -/
def parseSuffixed : Nat → Nat → List Tok → Res (Option Expr × Nat × List Tok)
  | 0, _, _ => .timeout
  | n + 1, k, ts => do
    let (o, k, ts) ← parseAtom n k ts
    match o with
    | none => .ok (none, k, ts)
    | some e =>
      let (e, k, ts) := parseSuffix k e ts
      .ok (some e, k, ts)
termination_by structural n => n

/-- `parse_rule_atom`, front/parser.rs:322-365. The test of `..` at line 355 is never reached: `ps.peek(Token![.])` at line 331 accepts the first
of two dots (`syn` compares a one-character token without looking at what follows). -/
def parseAtom : Nat → Nat → List Tok → Res (Option Expr × Nat × List Tok)
  | 0, _, _ => .timeout
  | n + 1, k, ts =>
    match ts with
    | .lit s :: ts => .ok (some (.str k s), k + 1, ts)
    | .punct '.' _ :: ts => .ok (some (.any k), k + 1, ts)
    | .paren g :: ts =>
      if g.isEmpty then .stuck
      else do
        let (e, k, g) ← parseChoice n k g
        if g.isEmpty then .ok (some e, k, ts) else .stuck
    | .path p :: ts =>
      if peekLhs (.path p :: ts) then .ok (none, k, .path p :: ts)
      else .ok (some (.ext k p), k + 1, ts)
    | .bracket g :: ts => do
      let (e, k) ← parseClass k g
      .ok (some e, k, ts)
    | ts => .ok (none, k, ts)
termination_by structural n => n
end

/-- `parse_rule`, front/parser.rs:74-84. -/
def parseRule (n k : Nat) : List Tok → Res ((String × Expr) × Nat × List Tok)
  | .path [name] :: ts => do
    let (ty, ts) ← parseType ts
    match ts with
    | .punct '=' _ :: ts => do
      let (e, k, ts) ← parseChoice n k ts
      match ty with
      | .infer => .ok ((name, e), k, ts)
      | ty => .ok ((name, .asc k e ty), k + 1, ts)
    | _ => .stuck
  | _ => .stuck

/-- `Attribute::parse_inner` (`syn`): the inner attributes at the head of the tokens. -/
def splitAttrs : List Tok → List Path × List Tok
  | .attr p :: ts => let (ps, ts) := splitAttrs ts; (p :: ps, ts)
  | ts => ([], ts)

/-- `parse_blocks`, front/parser.rs:38-49. -/
def parseBlocks : Nat → Nat → List Tok → Res (FGrammar × Nat)
  | 0, _, _ => .timeout
  | n + 1, k, ts =>
    if ts.isEmpty then .ok (⟨[], [], []⟩, k)
    else
      let (ps, ts) := splitAttrs ts
      if peekLhs ts then do
        let (r, k, ts) ← parseRule n k ts
        let (F, k) ← parseBlocks n k ts
        .ok (⟨r :: F.rules, F.items, ps ++ F.attrs⟩, k)
      else
        match ts with
        | .item it :: ts => do
          let (F, k) ← parseBlocks n k ts
          .ok (⟨F.rules, it :: F.items, ps ++ F.attrs⟩, k)
        | _ => .stuck

/-- `FGrammar::parse`, front/parser.rs:24-30. -/
def parseGrammar (n : Nat) (ts : List Tok) : Res FGrammar := do
  let (F, _) ← parseBlocks n 0 ts
  .ok F

end Oak
