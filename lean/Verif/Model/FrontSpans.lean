import Verif.Model.Front
/-!
Model of the front-end with the spans of the expressions: `src/liboak/front/parser.rs`, lines 24-365, and `front/ast.rs`, lines 42-47.

`Model/Front` leaves out the spans; here the tokens have a place in the source, and the functions pass the table of spans (`exprs_info`) that `alloc_expr` extends. An
index of the arena is the length of that table. The functions are the same otherwise (`C69_same_front_end`).

* `ps.span()` is the span of the next token (`syn::parse::ParseBuffer::span`): of the first segment for a path, of the opening delimiter for a group (of the whole group
  in old versions of `syn` 1.0; both are allowed by the specification). It is `head` here. At the end of the tokens, `syn` gives the closing delimiter or the call of
  the macro; `⟨0, 0⟩` stands for it: it never gets into the table (`C69_points`).
* `Span::join` returns `None` for spans of two files only (and on compilers that are not nightly): `unwrap` is assumed to return.
-/
set_option autoImplicit false

namespace Oak

/-- `proc_macro2::Span`: bytes of the source. -/
structure SrcSpan where
  lo : Nat
  hi : Nat
deriving Repr, DecidableEq

/-- `Span::join`, front/parser.rs:102, 209, 247, 267. -/
def SrcSpan.join (a b : SrcSpan) : SrcSpan := ⟨min a.lo b.lo, max a.hi b.hi⟩

/-- The tokens of `Model/Front` that are not groups. -/
inductive TokLeaf where
  | lit (s : String)
  | path (p : Path)
  | punct (c : Char) (joint : Bool)
  | box
  | rtype (t : String)
  | item (it : Item)
  | attr (p : Path)
  | other (s : String)

/-- A token and its place: `whole` is its span, `head` what `syn` reports when it is the next token. -/
inductive LTok where
  | leaf (l : TokLeaf) (head whole : SrcSpan)
  | paren (ts : List LTok) (head whole : SrcSpan)
  | bracket (ts : List LTok) (head whole : SrcSpan)

/-- The token of `Model/Front`. -/
def TokLeaf.tok : TokLeaf → Tok
  | .lit s => .lit s
  | .path p => .path p
  | .punct c j => .punct c j
  | .box => .box
  | .rtype t => .rtype t
  | .item it => .item it
  | .attr p => .attr p
  | .other s => .other s

mutual
/-- The token without its place. -/
def LTok.erase : LTok → Tok
  | .leaf l _ _ => l.tok
  | .paren ts _ _ => .paren (eraseAll ts)
  | .bracket ts _ _ => .bracket (eraseAll ts)
/-- The tokens without their places. -/
def eraseAll : List LTok → List Tok
  | [] => []
  | t :: ts => t.erase :: eraseAll ts
end

/-- `syn` reports this span for the token. -/
def LTok.head : LTok → SrcSpan
  | .leaf _ h _ | .paren _ h _ | .bracket _ h _ => h

/-- The span of the whole token. -/
def LTok.whole : LTok → SrcSpan
  | .leaf _ _ w | .paren _ _ w | .bracket _ _ w => w

/-- `ps.span()`. -/
def peekSpan : List LTok → SrcSpan
  | t :: _ => t.head
  | [] => ⟨0, 0⟩

/-- `span_of`, front/parser.rs:33-35: indexing a vector panics out of its bounds. -/
def spanOf (T : List SrcSpan) (i : Nat) : Res SrcSpan :=
  match T[i]? with
  | some s => .ok s
  | none => .panic

/-- `parse_type`, front/parser.rs:125-159, with the span that it returns: the token after the colon (when there is no colon, the span is not used). -/
def lparseType (ts : List LTok) : Res (SrcSpan × IType × List LTok) := do
  let (ty, r) ← parseType (eraseAll ts)
  .ok (peekSpan ts.tail, ty, ts.drop (ts.length - r.length))

/-- `parse_semantic_action`, front/parser.rs:161-173: the span is that of the token after `>`. -/
def lparseAction (T : List SrcSpan) (e : Expr) : List LTok → Res (Expr × List SrcSpan × List LTok)
  | .leaf (.punct '>' _) _ _ :: .leaf .box h _ :: .leaf (.path f) _ _ :: ts => .ok (.act T.length e true f, T ++ [h], ts)
  | .leaf (.punct '>' _) _ _ :: .leaf (.path f) h _ :: ts => .ok (.act T.length e false f, T ++ [h], ts)
  | .leaf (.punct '>' _) _ _ :: _ => .stuck
  | ts => .ok (e, T, ts)

/-- The suffix operators of `parse_suffixed_expr`, front/parser.rs:267-288: the span goes from the beginning of the atom (`lo`) to the operator. -/
def lparseSuffix (T : List SrcSpan) (lo : SrcSpan) (e : Expr) : List LTok → Expr × List SrcSpan × List LTok
  | .leaf (.punct '*' _) h _ :: ts => (.star T.length e, T ++ [lo.join h], ts)
  | .leaf (.punct '+' _) h _ :: ts => (.plus T.length e, T ++ [lo.join h], ts)
  | .leaf (.punct '?' _) h _ :: ts => (.opt T.length e, T ++ [lo.join h], ts)
  | ts => (e, T, ts)

mutual

/-- `parse_rule_choice`, front/parser.rs:86-106: the span goes from that of the first branch to that of the last one. -/
def lparseChoice : Nat → List SrcSpan → List LTok → Res (Expr × List SrcSpan × List LTok)
  | 0, _, _ => .timeout
  | n + 1, T, ts => do
    let (es, T, ts) ← lparseBranches n T ts
    match es with
    | [] => .panic
    | [e] => .ok (e, T, ts)
    | e1 :: e2 :: es => do
      let lo ← spanOf T e1.id
      let hi ← spanOf T ((e2 :: es).getLast (by simp)).id
      .ok (.choice T.length (e1 :: e2 :: es), T ++ [lo.join hi], ts)
termination_by structural n => n

/-- The loop of `parse_rule_choice`, front/parser.rs:88-97. -/
def lparseBranches : Nat → List SrcSpan → List LTok → Res (List Expr × List SrcSpan × List LTok)
  | 0, _, _ => .timeout
  | n + 1, T, ts => do
    let (e, T, ts) ← lparseSpanned n T ts
    let (e, T, ts) ← lparseAction T e ts
    match ts with
    | .leaf (.punct '/' _) _ _ :: ts => do
      let (es, T, ts) ← lparseBranches n T ts
      .ok (e :: es, T, ts)
    | ts => .ok ([e], T, ts)
termination_by structural n => n

/-- `parse_spanned_expr`, front/parser.rs:175-193: the span is that of the first dot. -/
def lparseSpanned : Nat → List SrcSpan → List LTok → Res (Expr × List SrcSpan × List LTok)
  | 0, _, _ => .timeout
  | n + 1, T, ts =>
    match ts with
    | .leaf (.punct '.' true) h _ :: .leaf (.punct '.' true) _ _ :: .leaf (.punct '.' _) _ _ :: ts => do
      let (e, T, ts) ← lparseSeq n T ts
      .ok (.range (T.length + 1) (.asc T.length e (.regular .unit)), T ++ [h] ++ [h], ts)
    | .leaf (.punct '.' true) h _ :: .leaf (.punct '.' _) _ _ :: ts => do
      let (e, T, ts) ← lparseSeq n T ts
      .ok (.span T.length e, T ++ [h], ts)
    | ts => lparseSeq n T ts
termination_by structural n => n

/-- `parse_seq`, front/parser.rs:195-210: the span goes from the first token to the span of the last element. -/
def lparseSeq : Nat → List SrcSpan → List LTok → Res (Expr × List SrcSpan × List LTok)
  | 0, _, _ => .timeout
  | n + 1, T, ts => do
    let lo := peekSpan ts
    let (es, T, ts) ← lparseTypeds n T ts
    match es with
    | [] => .stuck
    | [e] => .ok (e, T, ts)
    | e1 :: e2 :: es => do
      let hi ← spanOf T ((e2 :: es).getLast (by simp)).id
      .ok (.seq T.length (e1 :: e2 :: es), T ++ [lo.join hi], ts)
termination_by structural n => n

/-- The loop of `parse_seq`, front/parser.rs:197-200. -/
def lparseTypeds : Nat → List SrcSpan → List LTok → Res (List Expr × List SrcSpan × List LTok)
  | 0, _, _ => .timeout
  | n + 1, T, ts => do
    let (o, T, ts) ← lparseTyped n T ts
    match o with
    | none => .ok ([], T, ts)
    | some e => do
      let (es, T, ts) ← lparseTypeds n T ts
      .ok (e :: es, T, ts)
termination_by structural n => n

/-- `parse_typed_expr`, front/parser.rs:212-224: the span is that of the first token of the type. -/
def lparseTyped : Nat → List SrcSpan → List LTok → Res (Option Expr × List SrcSpan × List LTok)
  | 0, _, _ => .timeout
  | n + 1, T, ts => do
    let (o, T, ts) ← lparsePrefixed n T ts
    let (sp, ty, ts) ← lparseType ts
    match ty with
    | .infer => .ok (o, T, ts)
    | ty =>
      match o with
      | none => .stuck
      | some e => .ok (some (.asc T.length e ty), T ++ [sp], ts)
termination_by structural n => n

/-- `parse_prefixed_expr` and `parse_prefixed_expr2`, front/parser.rs:226-261: the span goes from the operator to the span of the operand. -/
def lparsePrefixed : Nat → List SrcSpan → List LTok → Res (Option Expr × List SrcSpan × List LTok)
  | 0, _, _ => .timeout
  | n + 1, T, ts =>
    match ts with
    | .leaf (.punct '!' _) h _ :: ts => do
      let (o, T, ts) ← lparseSuffixed n T ts
      match o with
      | some e => do
        let hi ← spanOf T e.id
        .ok (some (.not T.length e), T ++ [h.join hi], ts)
      | none => .stuck
    | .leaf (.punct '&' _) h _ :: ts => do
      let (o, T, ts) ← lparseSuffixed n T ts
      match o with
      | some e => do
        let hi ← spanOf T e.id
        .ok (some (.and T.length e), T ++ [h.join hi], ts)
      | none => .stuck
    | ts => lparseSuffixed n T ts
termination_by structural n => n

/-- `parse_suffixed_expr`, front/parser.rs:263-290. -/
def lparseSuffixed : Nat → List SrcSpan → List LTok → Res (Option Expr × List SrcSpan × List LTok)
  | 0, _, _ => .timeout
  | n + 1, T, ts => do
    let lo := peekSpan ts
    let (o, T, ts) ← lparseAtom n T ts
    match o with
    | none => .ok (none, T, ts)
    | some e =>
      let (e, T, ts) := lparseSuffix T lo e ts
      .ok (some e, T, ts)
termination_by structural n => n

/-- `parse_rule_atom`, front/parser.rs:322-365, and `parse_char_class`, 367-382: the span is that of the next token. -/
def lparseAtom : Nat → List SrcSpan → List LTok → Res (Option Expr × List SrcSpan × List LTok)
  | 0, _, _ => .timeout
  | n + 1, T, ts =>
    match ts with
    | .leaf (.lit s) h _ :: ts => .ok (some (.str T.length s), T ++ [h], ts)
    | .leaf (.punct '.' _) h _ :: ts => .ok (some (.any T.length), T ++ [h], ts)
    | .paren g _ _ :: ts =>
      if g.isEmpty then .stuck
      else do
        let (e, T, g) ← lparseChoice n T g
        if g.isEmpty then .ok (some e, T, ts) else .stuck
    | .leaf (.path p) h w :: ts =>
      if peekLhs (eraseAll (.leaf (.path p) h w :: ts)) then .ok (none, T, .leaf (.path p) h w :: ts)
      else .ok (some (.ext T.length p), T ++ [h], ts)
    | .bracket g h _ :: ts => do
      let (e, _) ← parseClass T.length (eraseAll g)
      .ok (some e, T ++ [h], ts)
    | ts => .ok (none, T, ts)
termination_by structural n => n
end

/-- `parse_rule`, front/parser.rs:74-84: the span of the ascription that stands for the type of the rule is that of the type. -/
def lparseRule (n : Nat) (T : List SrcSpan) : List LTok → Res ((String × Expr) × List SrcSpan × List LTok)
  | .leaf (.path [name]) _ _ :: ts => do
    let (sp, ty, ts) ← lparseType ts
    match ts with
    | .leaf (.punct '=' _) _ _ :: ts => do
      let (e, T, ts) ← lparseChoice n T ts
      match ty with
      | .infer => .ok ((name, e), T, ts)
      | ty => .ok ((name, .asc T.length e ty), T ++ [sp], ts)
    | _ => .stuck
  | _ => .stuck

/-- `Attribute::parse_inner` (`syn`). -/
def lsplitAttrs : List LTok → List Path × List LTok
  | .leaf (.attr p) _ _ :: ts => let (ps, ts) := lsplitAttrs ts; (p :: ps, ts)
  | ts => ([], ts)

/-- `parse_blocks`, front/parser.rs:38-49. -/
def lparseBlocks : Nat → List SrcSpan → List LTok → Res (FGrammar × List SrcSpan)
  | 0, _, _ => .timeout
  | n + 1, T, ts =>
    if ts.isEmpty then .ok (⟨[], [], []⟩, T)
    else
      let (ps, ts) := lsplitAttrs ts
      if peekLhs (eraseAll ts) then do
        let (r, T, ts) ← lparseRule n T ts
        let (F, T) ← lparseBlocks n T ts
        .ok (⟨r :: F.rules, F.items, ps ++ F.attrs⟩, T)
      else
        match ts with
        | .leaf (.item it) _ _ :: ts => do
          let (F, T) ← lparseBlocks n T ts
          .ok (⟨F.rules, it :: F.items, ps ++ F.attrs⟩, T)
        | _ => .stuck

/-- `FGrammar::parse`, front/parser.rs:24-30: the grammar and the spans of its expressions. -/
def lparseGrammar (n : Nat) (ts : List LTok) : Res (FGrammar × List SrcSpan) := lparseBlocks n [] ts

end Oak
