import Verif.Model.Code
/-!
Model of the back-end: `src/liboak/back/{name_factory,context,continuation}.rs` and `src/liboak/back/compiler/*.rs`.

Panics of the compiler (`expect`, `assert!`, `unwrap`, `unreachable!`) are `Except.error`.
A `Continuation` (continuation.rs:21-25) is the pair of arguments `S` (success) and `F` (failure).
-/
set_option autoImplicit false

namespace Oak

/-- `NameFactory`, name_factory.rs:41-48. -/
structure NameFactory where
  prefixUid : Nat
  markUid : Nat
  branchFailedUid : Nat
  counterUid : Nat
  closureUid : Nat
deriving Repr, DecidableEq

/-- `NameFactory::new`, name_factory.rs:52-60. -/
def NameFactory.new : NameFactory := ⟨1, 0, 0, 0, 0⟩

/-- `Context`, context.rs:26-35 (the grammar is passed separately; the types of the `&mut` variables are not kept). -/
structure Ctx where
  closures : List Closure
  names : NameFactory
  fv : List Name
  marks : List Name
  muts : List Name
  ncomb : Nat
deriving Repr, DecidableEq

namespace Ctx

/-- `Context::new`, context.rs:39-50. -/
def new : Ctx := ⟨[], .new, [], [], [], 0⟩

/-- `next_mark_name`, context.rs:198-200, name_factory.rs:62-65. -/
def nextMark (c : Ctx) : Name × Ctx :=
  let n := c.names.markUid + 1
  (.mark n, { c with names := { c.names with markUid := n } })

/-- `next_branch_failed_name`, context.rs:206-208, name_factory.rs:67-70. -/
def nextBranchFailed (c : Ctx) : Name × Ctx :=
  let n := c.names.branchFailedUid + 1
  (.branchFailed n, { c with names := { c.names with branchFailedUid := n } })

/-- `next_counter_name`, context.rs:202-204, name_factory.rs:77-80. -/
def nextCounter (c : Ctx) : Name × Ctx :=
  let n := c.names.counterUid + 1
  (.counter n, { c with names := { c.names with counterUid := n } })

/-- `fresh_vars`, name_factory.rs:82-87: one prefix for the whole list. -/
def freshVars (c : Ctx) (card : Nat) : List Name × Ctx :=
  let p := c.names.prefixUid
  ((List.range card).map (Name.var p), { c with names := { c.names with prefixUid := p + 1 } })

/-- `next_free_var`, context.rs:210-212: pops the last free variable. -/
def nextFreeVar (c : Ctx) : Except String (Name × Ctx) :=
  match c.fv.getLast? with
  | some v => .ok (v, { c with fv := c.fv.dropLast })
  | none => .error "Free variables are all bound."

/-- `(0..n).map(|_| next_free_var())` then `reverse`, non_terminal.rs:86-91: the last `n` free variables in order. -/
def nextFreeVars (c : Ctx) : Nat → Except String (List Name × Ctx)
  | 0 => .ok ([], c)
  | n + 1 => do
    let (v, c1) ← c.nextFreeVar
    let (vs, c2) ← c1.nextFreeVars n
    .ok (vs ++ [v], c2)

/-- `next_free_var_skip`, context.rs:214-218: `remove(len - 1 - card)` panics on underflow. -/
def nextFreeVarSkip (c : Ctx) (card : Nat) : Except String (Name × Ctx) :=
  if card + 1 ≤ c.fv.length then
    match c.fv[c.fv.length - 1 - card]? with
    | some v => .ok (v, { c with fv := c.fv.eraseIdx (c.fv.length - 1 - card) })
    | none => .error "removal index out of bounds"
  else .error "attempt to subtract with overflow"

/-- `Scope`, context.rs:282-287. -/
structure Scope where
  ncomb : Nat
  fv : List Name
  muts : List Name
deriving Repr, DecidableEq

/-- `save_scope`, context.rs:267-273. -/
def saveScope (c : Ctx) : Scope := ⟨c.ncomb, c.fv, c.muts⟩

/-- `restore_scope`, context.rs:275-279. -/
def restoreScope (c : Ctx) (s : Scope) : Ctx := { c with ncomb := s.ncomb, muts := s.muts, fv := s.fv }

/-- `open_scope`, context.rs:251-259, for an expression of the given cardinality. -/
def openScope (c : Ctx) (card : Nat) : Scope × Ctx :=
  let scope := c.saveScope
  let (vs, c1) := { c with ncomb := 0, muts := [] }.freshVars card
  (scope, { c1 with fv := vs })

/-- `close_scope`, context.rs:261-265. -/
def closeScope (c : Ctx) (s : Scope) : Except String Ctx :=
  if c.fv = [] then .ok (c.restoreScope s)
  else .error "Try to close the scope but all free variables have not been bounded."

/-- `push_mut_ref_fv`, context.rs:234-236. -/
def pushMut (c : Ctx) (x : Name) : Ctx := { c with muts := c.muts ++ [x] }

/-- `pop_mut_ref_fv`, context.rs:238-241. -/
def popMut (c : Ctx) : Except String Ctx :=
  if c.muts = [] then .error "There is no mut ref free variables." else .ok { c with muts := c.muts.dropLast }

/-- `push_mark`, context.rs:222-224. -/
def pushMark (c : Ctx) (m : Name) : Ctx := { c with marks := c.marks ++ [m] }

/-- `pop_mark`, context.rs:226-228. -/
def popMark (c : Ctx) : Ctx := { c with marks := c.marks.dropLast }

/-- The increment of `num_combinators_compiled` after a `compile_success`, context.rs:109-115. -/
def incr (c : Ctx) : Ctx := { c with ncomb := c.ncomb + 1 }

/-- `success_as_closure`, context.rs:151-165, with `closure_params`/`closure_args`, context.rs:167-196. -/
def successAsClosure (c : Ctx) (S : Ex) : Ex × Ctx :=
  if c.ncomb > 0 then
    let k := c.names.closureUid + 1
    let cl : Closure := ⟨k, c.muts, c.fv, c.marks, S⟩
    (.call k c.muts c.fv c.marks,
     { c with ncomb := 0, names := { c.names with closureUid := k }, closures := c.closures ++ [cl] })
  else (S, c)

end Ctx

/-- `compile_interval`, character_class.rs:50-59. -/
def compileInterval (iv : Interval) : CharCond :=
  if iv.lo = iv.hi then .eq iv.lo else .between iv.lo iv.hi

/-- `compile_condition`, character_class.rs:61-71: panics on an empty class. -/
def compileCondition : List Interval → Except String CharCond
  | [] => .error "Empty character intervals should be forbidden at the parsing stage."
  | iv :: ivs => .ok (ivs.foldl (fun accu i => .or accu (compileInterval i)) (compileInterval iv))

/-- The nested tests of a choice after its first branch, choice.rs:75-85. -/
def choiceCode (m b : Name) : List Ex → Ex
  | [] => .st
  | br :: rest => .ite (.var b) (.stmt (.restoreFailed true m) (.bind br (choiceCode m b rest))) .st

/-- The template of repetitions, repeat.rs:42-94.  `plus` is `cardinality_min > 0` (it is 1 for `e+`). -/
def repeatCode (plus : Bool) (body S F : Ex) (c : Ctx) : Ex × Ctx :=
  let (m, c) := c.nextMark
  if plus then
    let (k, c) := c.nextCounter
    (.stmt (.letMark m) (.stmt (.letZero k) (.loop body (some k) m (.ite (.lt k 1) F (.stmt (.restoreFailed false m) S)))), c)
  else
    (.stmt (.letMark m) (.loop body none m (.stmt (.restoreFailed false m) S)), c)

/-- The template of optional expressions, optional.rs:39-55. -/
def optionalCode (body S : Ex) (c : Ctx) : Ex × Ctx :=
  let (m, c) := c.nextMark
  (.stmt (.letMark m) (.bind body (.stmt (.ifFailedRestore m) S)), c)

/-- The test of `is_unit_variant`, semantic_action.rs:44-53, without the test of the type: the last segment begins with an upper-case letter.
`is_uppercase` is the ASCII test in the model. -/
def startsUpper (f : Path) : Bool :=
  match f.getLast? with
  | some x => match x.toList.head? with
    | some c => c.isUpper
    | none => false
  | none => false

/-- The value passed to the success continuation of a semantic action, semantic_action.rs:40-65. -/
def actionCall (boxed : Bool) (f : Path) (unitChild : Bool) (args : List Name) : VEx :=
  let call := if startsUpper f && unitChild then VEx.path f else .call f args
  if boxed then .box call else call

/-- Calls, non_terminal.rs:45-110. -/
def compileCall (T : Nat → Ty) (p : Bool) (i : Nat) (path : Path) (S F : Ex) (c : Ctx) : Except String (Ex × Ctx) :=
  if p && T i ≠ .unit then do
    let (vs, c) ← c.nextFreeVars (T i).card
    .ok (.stmt (.call ⟨true, path⟩) (.ite .isSuccessful (.stmt (.extract vs) S) (.stmt .fail F)), c)
  else
    .ok (.stmt (.call ⟨false, path⟩) (.ite .isSuccessful (.stmt .discard S) F), c)

/-- `value_constructor`, context.rs:126-145, for a vector (`vec`) or an option; `comp` compiles the sub-expression, whose
cardinality is `card`. -/
def valueConstructor (comp : Ex → Ex → Ctx → Except String (Ex × Ctx)) (card : Nat) (vec : Bool) (c : Ctx) :
    Except String (Ex × Name × Ctx) := do
  let (r, c) ← c.nextFreeVar
  let (scope, c) := c.openScope card
  let c := c.pushMut r
  let v := VEx.tup c.fv
  let S := Ex.stmt (if vec then .push r v else .setSome r v) .st       -- repeat.rs:103-108, optional.rs:64-69
  let (body, c) ← comp S .failure c
  let c ← c.incr.closeScope scope
  .ok (body, r, c)

mutual
/-- `parser_compiler` / `recognizer_compiler` (compiler/mod.rs:63-109) followed by `compile_expr` of the chosen compiler.
`p` tells whether a parser is asked for; it is compiled as a recognizer when its type is unit. -/
def compile (T : Nat → Ty) (p : Bool) (e : Expr) (S F : Ex) (c : Ctx) : Except String (Ex × Ctx) :=
  match e with
  | .str _ lit =>                                                       -- str_literal.rs:35-53
    .ok (.ifPrefix lit S (.stmt (.error lit) F), c)
  | .any i =>                                                           -- any_single_char.rs:48-68
    if p && T i ≠ .unit then do
      let (v, c) ← c.nextFreeVar
      .ok (.matchNext (some v) S (.stmt (.error "<character>") F), c)
    else
      .ok (.matchNext none S (.stmt (.error "<character>") F), c)
  | .cls i ivs => do                                                    -- character_class.rs:74-101
    let (v, c) ← if p && T i ≠ .unit then c.nextFreeVar else .ok (.x, c)
    let cond ← compileCondition ivs
    let (m, c) := c.nextMark
    .ok (.stmt (.letMark m) (.matchClass v cond S
      (.stmt (.restore m) (.stmt (.error (classDesc ivs)) F))), c)
  | .nt i r => compileCall T p i [r] S F c
  | .ext i path => compileCall T p i path S F c
  | .seq i es => compileSeq T (p && T i ≠ .unit) es S F c               -- sequence.rs:40-51
  | .choice i es => do                                                  -- choice.rs:40-94
    let p := p && T i ≠ .unit
    let (S, c) := c.successAsClosure S
    let (m, c) := c.nextMark
    let (b, c) := c.nextBranchFailed
    let c := c.pushMut b
    let (brs, c) ← compileBranches T p es b S F c.saveScope c
    match brs with
    | first :: rest =>
      .ok (.stmt (.letMark m) (.stmt (.letTrue b) (.bind first (choiceCode m b rest))), c)
    | [] => .error "called `Option::unwrap()` on a `None` value"
  | .star i e =>                                                        -- repeat.rs:96-137
    if p && T i ≠ .unit then do
      let (body, r, c) ← valueConstructor (compile T true e) (T e.id).card true c
      let (code, c) := repeatCode false body S F c
      .ok (.stmt (.letVec r) code, c)
    else do
      let (body, c) ← compile T false e .st .failure c
      .ok (repeatCode false body S F c.incr)
  | .plus i e =>                                                        -- repeat.rs:96-137
    if p && T i ≠ .unit then do
      let (body, r, c) ← valueConstructor (compile T true e) (T e.id).card true c
      let (code, c) := repeatCode true body S F c
      .ok (.stmt (.letVec r) code, c)
    else do
      let (body, c) ← compile T false e .st .failure c
      .ok (repeatCode true body S F c.incr)
  | .opt i e =>                                                         -- optional.rs:57-98
    if p && T i ≠ .unit then do
      let (body, r, c) ← valueConstructor (compile T true e) (T e.id).card false c
      let (code, c) := optionalCode body S c
      .ok (.stmt (.letNone r) code, c)
    else do
      let (body, c) ← compile T false e .st .failure c
      .ok (optionalCode body S c.incr)
  | .not i e =>                                                         -- syntactic_predicate.rs:36-74
    if p && T i ≠ .unit then
      .error "BUG: Syntactic predicate can not be compiled to parser (they do not generate data)."
    else do
      let (m, c) := c.nextMark
      let (body, c) ← compile T false e .st .failure c
      .ok (.stmt (.letMark m) (.bind body (.stmt .letIsSuccess (.stmt (.restore m)
        (.ite (.var .isSuccess) F S)))), c.incr)
  | .and i e =>                                                         -- syntactic_predicate.rs:36-74
    if p && T i ≠ .unit then
      .error "BUG: Syntactic predicate can not be compiled to parser (they do not generate data)."
    else do
      let (m, c) := c.nextMark
      let (body, c) ← compile T false e .st .failure c
      .ok (.stmt (.letMark m) (.bind body (.stmt .letIsSuccess (.stmt (.restore m)
        (.ite (.var .isSuccess) S F)))), c.incr)
  | .act i e boxed f =>                                                 -- semantic_action.rs:33-75
    if p && T i ≠ .unit then do
      let (r, c) ← c.nextFreeVar
      let (scope, c) := c.openScope (T e.id).card
      let v := actionCall boxed f (T e.id = .unit) c.fv
      let (code, c) ← compile T true e (.stmt (.letVal r v) S) F c
      let c ← c.incr.closeScope scope
      .ok (code, c)
    else compile T false e S F c                                        -- mod.rs:104-107
  | .asc i e _ => compile T (p && T i ≠ .unit) e S F c                  -- mod.rs:80, 104-107
  | .span i e =>                                                        -- spanned_expr.rs:29-62
    if p && T i ≠ .unit then do
      let (m, c) := c.nextMark
      let (r, c) ← c.nextFreeVarSkip (T e.id).card
      let (code, c) ← compile T true e (.stmt (.letVal r (.span m)) S) F (c.pushMark m)
      .ok (.stmt (.letMark m) code, c.incr.popMark)
    else compile T false e S F c
  | .range i e =>                                                       -- spanned_expr.rs:29-62
    if p && T i ≠ .unit then do
      let (m, c) := c.nextMark
      let (r, c) ← c.nextFreeVarSkip (T e.id).card
      let (code, c) ← compile T true e (.stmt (.letVal r (.range m)) S) F (c.pushMark m)
      .ok (.stmt (.letMark m) code, c.incr.popMark)
    else compile T false e S F c

/-- Sequences are compiled from right to left, sequence.rs:45-50 and continuation.rs:36-41. -/
def compileSeq (T : Nat → Ty) (p : Bool) (es : List Expr) (S F : Ex) (c : Ctx) : Except String (Ex × Ctx) :=
  match es with
  | [] => .ok (S, c)
  | e :: es => do
    let (S, c) ← compileSeq T p es S F c
    let (code, c) ← compile T p e S F c
    .ok (code, c.incr)

/-- Branches of a choice, choice.rs:55-70, continuation.rs:43-51. -/
def compileBranches (T : Nat → Ty) (p : Bool) (es : List Expr) (b : Name) (S F : Ex) (scope : Ctx.Scope) (c : Ctx) :
    Except String (List Ex × Ctx) :=
  match es with
  | [] => .error "called `Option::unwrap()` on a `None` value"
  | e :: es =>
    if es.isEmpty then do
      let c ← (c.restoreScope scope).popMut
      let (code, c) ← compile T p e S F c
      .ok ([code], c)
    else do
      let (code, c) ← compile T p e (.stmt (.setFalse b) S) F (c.restoreScope scope)
      let (codes, c) ← compileBranches T p es b S F scope c.incr
      .ok (code :: codes, c)
end

/-- `compile_recognizer`, rule.rs:41-50. -/
def compileRecognizer (T : Nat → Ty) (e : Expr) : Except String Fn := do
  let (body, c) ← compile T false e (.success (.tup [])) .failure Ctx.new
  .ok ⟨c.closures, body⟩

/-- `compile_parser`, rule.rs:52-69; the alias `parse_r(state) = recognize_r(state)` for unit rules, context.rs:57-64. -/
def compileParser (T : Nat → Ty) (r : String) (e : Expr) : Except String Fn :=
  if T e.id = .unit then .ok ⟨[], .stmt (.call ⟨false, [r]⟩) .st⟩
  else do
    let (scope, c) := Ctx.new.openScope (T e.id).card
    let (body, c) ← compile T true e (.success (.tup c.fv)) .failure c
    let c ← c.closeScope scope
    .ok ⟨c.closures, body⟩

/-- `GrammarCompiler::compile_rules`, grammar.rs:62-66 and `RuleCompiler::compile`, rule.rs:26-32. -/
def compileGrammar (T : Nat → Ty) : List (String × Expr) → Except String (List (FnRef × Fn))
  | [] => .ok []
  | (r, e) :: rs => do
    let rec_ ← compileRecognizer T e
    let par ← compileParser T r e
    let rest ← compileGrammar T rs
    .ok ((⟨false, [r]⟩, rec_) :: (⟨true, [r]⟩, par) :: rest)

end Oak
