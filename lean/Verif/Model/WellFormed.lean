import Verif.Model.Ast
import Verif.Model.Res
/-!
Model of the well-formedness analysis: `src/liboak/middle/analysis/well_formedness.rs`, with the traversal of
`src/liboak/visitor.rs`.
-/
set_option autoImplicit false

namespace Oak

/-- `WFA`, well_formedness.rs:21-28. -/
structure WFA where
  canFail : Bool
  canSucceed : Bool
  alwaysConsume : Bool
  neverConsume : Bool
deriving Repr, DecidableEq

/-- `WFA::always_succeed`, well_formedness.rs:32-39. -/
def WFA.alwaysSucceed (neverConsume : Bool) : WFA := ⟨false, true, false, neverConsume⟩

/-- `Default for WFA`, well_formedness.rs:42-51. -/
def WFA.dflt : WFA := ⟨true, true, true, false⟩

/-- The diagnostics emitted by the analysis, well_formedness.rs:170-232 (the expression stands for its source location; `cycle` is the cycle that is displayed, 174-187). -/
inductive Diag where
  | leftRecursion (rule : String) (cycle : List String)
  | neverSucceed (e : Expr)
  | alwaysSucceed (e : Expr)
  | loopRepeat (e : Expr)
  | unreachable (choice branch : Expr)

/-- `WellFormedness`, well_formedness.rs:53-62, without the grammar. The last entry of `recursion_path` is the head of `path`.
`diags` records the emitted diagnostics, the last one first. -/
structure WState where
  path : List (String × Bool)
  consumed : Bool
  wfa : String → Option WFA
  fixpoint : Bool
  wellFormed : Bool
  errors : List Nat
  diags : List Diag

namespace WState

/-- `WellFormedness::new`, well_formedness.rs:82-94. -/
def new (G : Grammar) : WState where
  path := []
  consumed := false
  wfa r := if (G.find r).isSome then some .dflt else none
  fixpoint := false
  wellFormed := true
  errors := []
  diags := []

/-- `push_rule_in_path`, well_formedness.rs:126-129. -/
def push (st : WState) (r : String) : WState := { st with path := (r, st.consumed) :: st.path, consumed := false }

/-- `pop_rule_in_path`, well_formedness.rs:131-134. -/
def pop (st : WState) : Res WState :=
  match st.path with
  | [] => .panic
  | (_, c) :: p => .ok { st with path := p, consumed := c }

/-- `self.rules_wfa[&rule]`: panics on an unknown key. -/
def get (st : WState) (r : String) : Res WFA :=
  match st.wfa r with
  | some w => .ok w
  | none => .panic

/-- `fixpoint_update`, well_formedness.rs:136-141. -/
def update (st : WState) (w : WFA) (r : String) : Res WState := do
  let old ← st.get r
  if w ≠ old then
    .ok { st with fixpoint := false, wfa := fun x => if x = r then some w else st.wfa x }
  else .ok st

/-- `is_rec`, well_formedness.rs:143-145. -/
def isRec (st : WState) (r : String) : Bool := st.path.any fun x => x.1 == r

/-- `rec_path_from`, well_formedness.rs:147-152. -/
def recPathFrom (st : WState) (r : String) : List (String × Bool) := st.path.takeWhile fun x => x.1 != r

/-- `consume_input_since`, well_formedness.rs:154-160. -/
def consumeInputSince (st : WState) (r : String) : Bool := (st.recPathFrom r).any fun x => x.2

/-- `register_error`, well_formedness.rs:234-236, followed by the emission of a diagnostic when the index is new, as in
`error_never_succeed`, `error_always_succeed_without_consuming`, `error_loop_repeat` and `error_unreachable_branches`,
well_formedness.rs:190-232. -/
def report (st : WState) (idx : Nat) (d : Diag) : WState :=
  if idx ∈ st.errors then st
  else { st with errors := idx :: st.errors, wellFormed := false, diags := d :: st.diags }

/-- `error_left_recursion`, well_formedness.rs:170-188. -/
def reportLeft (st : WState) (G : Grammar) (r : String) : Res WState :=
  let st := { st with wellFormed := false }
  match G.find r with
  | none => .panic
  | some e => .ok (st.report e.id (.leftRecursion r (r :: ((st.recPathFrom r).map (·.1)).reverse)))

end WState

/-- `visit_expr` after `walk_expr`, well_formedness.rs:248-263. -/
def checkExpr (e : Expr) (w : WFA) (st : WState) : Res (WFA × WState) := do
  Res.assert (w.canFail || w.canSucceed)
  Res.assert (!w.alwaysConsume || !w.neverConsume)
  if w.canFail && !w.canSucceed then .ok ({ w with canSucceed := true }, st.report e.id (.neverSucceed e))
  else if w.canSucceed && !w.canFail && w.neverConsume then
    .ok ({ w with neverConsume := false }, st.report e.id (.alwaysSucceed e))
  else .ok (w, st)

/-- `visit_str_literal`, well_formedness.rs:265-274. -/
def wfaStr (lit : String) : WFA :=
  if lit.toList.isEmpty then { WFA.dflt with canFail := false, alwaysConsume := false } else .dflt

/-- `visit_repeat` after the visit of the child, well_formedness.rs:280-289. -/
def wfaRepeat (this : Expr) (w : WFA) (st : WState) : WFA × WState :=
  if w.canSucceed && !w.alwaysConsume then (.dflt, st.report this.id (.loopRepeat this)) else (w, st)

/-- `visit_syntactic_predicate` after the visit of the child, well_formedness.rs:301-307. -/
def wfaPredicate (w : WFA) : WFA := { w with alwaysConsume := false, neverConsume := true }

/-- `visit_not_predicate` after the visit of the child, well_formedness.rs:309-313. -/
def wfaNot (w : WFA) : WFA :=
  let w := wfaPredicate w
  { w with canSucceed := w.canFail, canFail := w.canSucceed }

/-- Combination of the attributes of a branch, well_formedness.rs:327-330. -/
def wfaBranch (w c : WFA) : WFA :=
  ⟨w.canFail && c.canFail, w.canSucceed || c.canSucceed, w.alwaysConsume && c.alwaysConsume, w.neverConsume && c.neverConsume⟩

/-- Combination of the attributes of an element of a sequence, well_formedness.rs:349-352. -/
def wfaElem (w c : WFA) : WFA :=
  ⟨w.canFail || c.canFail, w.canSucceed && c.canSucceed, w.alwaysConsume || c.alwaysConsume, w.neverConsume && c.neverConsume⟩

mutual
/-- `visit_expr`, well_formedness.rs:248-263, through `walk_expr`, visitor.rs:102-155. `vr` is `visit_rule`. -/
def visitExpr (vr : String → WState → Res (WFA × WState)) (e : Expr) (st : WState) : Res (WFA × WState) :=
  match e with
  | .str _ l => checkExpr e (wfaStr l) st
  | .any _ | .cls _ _ | .ext _ _ => checkExpr e .dflt st     -- `visit_atom`, `visit_external_non_terminal_symbol`: visitor.rs:29-38
  | .nt _ r => do                                            -- well_formedness.rs:276-278
    let (w, st) ← vr r st
    checkExpr e w st
  | .seq _ es => do                                          -- well_formedness.rs:339-359
    let save := st.consumed
    let (w, st) ← visitSeq vr ⟨false, true, false, true⟩ es st
    checkExpr e w { st with consumed := save }
  | .choice _ es => do                                       -- well_formedness.rs:315-337
    let (w, st) ← visitChoice vr e ⟨true, false, true, true⟩ es st
    checkExpr e w st
  | .star _ c => do                                          -- well_formedness.rs:291-294
    let (w, st) ← visitExpr vr c st
    let (w, st) := wfaRepeat e w st
    checkExpr e (.alwaysSucceed w.neverConsume) st
  | .plus _ c => do                                          -- `visit_one_or_more`, visitor.rs:59-61
    let (w, st) ← visitExpr vr c st
    let (w, st) := wfaRepeat e w st
    checkExpr e w st
  | .opt _ c => do                                           -- well_formedness.rs:296-299
    let (w, st) ← visitExpr vr c st
    checkExpr e (.alwaysSucceed w.neverConsume) st
  | .not _ c => do
    let (w, st) ← visitExpr vr c st
    checkExpr e (wfaNot w) st
  | .and _ c => do                                           -- `visit_and_predicate`, visitor.rs:75-77
    let (w, st) ← visitExpr vr c st
    checkExpr e (wfaPredicate w) st
  | .act _ c _ _ | .asc _ c _ | .span _ c | .range _ c => do -- visitor.rs:40-46, 79-85
    let (w, st) ← visitExpr vr c st
    checkExpr e w st
/-- The loop of `visit_sequence`, well_formedness.rs:347-356. -/
def visitSeq (vr : String → WState → Res (WFA × WState)) (w : WFA) (es : List Expr) (st : WState) : Res (WFA × WState) :=
  match es with
  | [] => .ok (w, st)
  | e :: es => do
    let (c, st) ← visitExpr vr e st
    visitSeq vr (wfaElem w c) es (if c.alwaysConsume then { st with consumed := true } else st)
/-- The loop of `visit_choice`, well_formedness.rs:322-335. -/
def visitChoice (vr : String → WState → Res (WFA × WState)) (this : Expr) (w : WFA) (es : List Expr) (st : WState) : Res (WFA × WState) :=
  match es with
  | [] => .ok (w, st)
  | e :: es => do
    let save := st.consumed
    let (c, st) ← visitExpr vr e st
    let st := { st with consumed := save }
    if !es.isEmpty && !c.canFail then .ok (wfaBranch w c, st.report e.id (.unreachable this e))
    else visitChoice vr this (wfaBranch w c) es st
end

/-- The body of `visit_rule` before the final lookup, well_formedness.rs:107-122. `ve` visits the body of the rule. -/
def enterRule (G : Grammar) (ve : Expr → WState → Res (WFA × WState)) (r : String) (st : WState) : Res WState :=
  if st.isRec r then
    if !st.consumeInputSince r && !st.consumed then st.reportLeft G r else .ok st
  else
    match G.find r with
    | none => .panic
    | some e => do
      let (w, st) ← ve e (st.push r)
      let st ← st.pop
      st.update w r

/-- `visit_rule`, well_formedness.rs:106-124. `n` bounds the depth of nested calls. -/
def visitRule (G : Grammar) : Nat → String → WState → Res (WFA × WState)
  | 0, _, _ => .timeout
  | n + 1, r, st => do
    let st ← enterRule G (visitExpr (visitRule G n)) r st
    let w ← st.get r
    .ok (w, st)

/-- The loop over the rules of `visit_rules`, well_formedness.rs:99-102. -/
def visitEach (G : Grammar) (n : Nat) : List (String × Expr) → WState → Res WState
  | [], st => .ok st
  | (r, _) :: rs, st => do
    let (_, st) ← visitRule G n r st
    if !st.wellFormed then .ok st else visitEach G n rs st

/-- `visit_rules`, well_formedness.rs:96-104. `m` bounds the number of passes. -/
def visitRules (G : Grammar) (n : Nat) : Nat → WState → Res WState
  | 0, _ => .timeout
  | m + 1, st =>
    if !st.fixpoint && st.wellFormed then do
      let st ← visitEach G n G.rules { st with fixpoint := true }
      visitRules G n m st
    else .ok st

/-- `is_well_formed`, well_formedness.rs:76-80, with the final state. -/
def wellFormedness (G : Grammar) (n m : Nat) : Res WState := visitRules G n m (.new G)

end Oak
