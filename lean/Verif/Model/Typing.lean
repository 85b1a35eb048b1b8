import Verif.Model.Analysis
/-!
Model of the typing phase: `src/liboak/middle/typing/{mod,ast,surface,depth,type_rewriting}.rs`, and of the translation of types to Rust,
`src/liboak/back/compiler/rtype.rs`.

* The types of the expressions (`exprs_info`) are a function from the indices of the expressions.
* The methods on types follow indices, and the visit of an expression follows calls: `m` bounds the depth of the former, `n` the depth of the latter.
* `Res.panic` is a failed `assert!`, `expect`, `unreachable!` or an index out of bounds.
* The texts of the messages are in `Model/Texts.lean`; the debug printing is not modelled.
-/
set_option autoImplicit false

namespace Oak

/-- The messages of the typing phase. -/
inductive TMsg where
  | unitAction (i : Nat)           -- error, typing/ast.rs:53-57
  | mismatch (i : Nat)             -- error, surface.rs:95-111
  | recursive (path : List String) -- warning, depth.rs:109-125
  | ascription (i : Nat)           -- error, depth.rs:134-142
  | untyped (rule : String)        -- error, depth.rs:88-97
deriving Repr, DecidableEq

/-- `error` or `warning`, at the lines above. -/
def TMsg.isError : TMsg → Bool
  | .recursive _ => false
  | _ => true

/-- What the text of an error of the typing phase is made of: `tys` are the types of the branches, `types` the types of the expressions when the error is emitted
(the texts are in `Model/Texts.lean`). -/
inductive TDiag where
  | mismatch (i : Nat) (tys : List IType) (types : Nat → IType)     -- surface.rs:95-111
  | ascription (i : Nat) (ty aty : IType) (types : Nat → IType)     -- depth.rs:134-142
  | untyped (rule : String)                                         -- depth.rs:88-97

/-- `Surface`, surface.rs:24-29, without the grammar and the recursion path: the types, the `error` flag, the emitted messages and what the texts of the errors are
made of. -/
structure TState where
  types : Nat → IType
  error : Bool
  msgs : List TMsg
  log : List TDiag

/-- `type_expr`, surface.rs:80-83. -/
def TState.set (s : TState) (i : Nat) (t : IType) : TState := { s with types := fun j => if j = i then t else s.types j }

/-- `RecSet::union`, typing/ast.rs:237-244. -/
def RecSet.union (a b : RecSet) : RecSet := b.foldl (fun acc p => if acc.contains p then acc else acc ++ [p]) a

/-- `RecSet::to_polymorphic_path`, typing/ast.rs:252-258. -/
def RecSet.toPoly (r : RecSet) : RecSet := r.map fun p => { p with kind := .poly }

/-- `RecSet::is_polymorphic`, typing/ast.rs:268-270. -/
def RecSet.isPoly (r : RecSet) : Bool := r.any fun p => p.kind == .poly

/-- `RecSet::entry_point`, typing/ast.rs:246-250. -/
def RecSet.entryPoint (r : RecSet) : Res String :=
  match r with
  | ⟨_, x :: _⟩ :: _ => .ok x
  | _ => .panic

/-- `IType::is_unit_kind`, typing/ast.rs:310-312. -/
def IType.isUnitKind (t : IType) : Bool := t == .invisible || t == .regular .unit

/-- The loop of `Type::syntactic_eq` over the components of tuples, typing/ast.rs:391-402: stops at the first difference. -/
def allEq (f : Nat → Nat → Res Bool) : List Nat → List Nat → Res Bool
  | i :: is, j :: js => do
    if ← f i j then allEq f is js else .ok false
  | _, _ => .ok true

/-- `IType::syntactic_eq` and `Type::syntactic_eq`, typing/ast.rs:300-308 and 381-408. -/
def synEq (T : Nat → IType) : Nat → IType → IType → Res Bool
  | 0, _, _ => .timeout
  | n + 1, a, b =>
    match a, b with
    | .rec_ r1, .rec_ r2 => .ok (r1 == r2)
    | .invisible, .invisible => .ok true
    | .external, .external => .ok true
    | .regular t1, .regular t2 =>
      match t1, t2 with
      | .unit, .unit => .ok true
      | .atom, .atom => .ok true
      | .optional i, .optional j => synEq T n (T i) (T j)
      | .list i, .list j => synEq T n (T i) (T j)
      | .tuple is, .tuple js => if is.length = js.length then allEq (fun i j => synEq T n (T i) (T j)) is js else .ok false
      | .rust _, .rust _ => .ok true
      | _, _ => .ok false
    | _, _ => .ok false

/-- `Iterator::any` with a test that may not terminate. -/
def anyRes {α : Type} (f : α → Res Bool) : List α → Res Bool
  | [] => .ok false
  | x :: xs => do
    if ← f x then .ok true else anyRes f xs

/-- `IType::contains_external` and `Type::contains_external`, typing/ast.rs:314-320 and 435-448. -/
def containsExternal (T : Nat → IType) : Nat → IType → Res Bool
  | 0, _ => .timeout
  | n + 1, t =>
    match t with
    | .infer | .rec_ _ | .invisible => .ok false
    | .external => .ok true
    | .regular .unit | .regular .atom | .regular (.rust _) => .ok false
    | .regular (.optional i) | .regular (.list i) => containsExternal T n (T i)
    | .regular (.tuple is) => anyRes (fun i => containsExternal T n (T i)) is

/-- The loop of `reduce_rec`, type_rewriting.rs:39-48: the first rule of the paths whose type is not recursive. -/
def firstType (G : Grammar) (T : Nat → IType) : List String → Res IType
  | [] => .ok .invisible
  | r :: rs =>
    match G.find r with
    | none => .panic
    | some b =>
      match T b.id with
      | .rec_ _ => firstType G T rs
      | t => .ok t

/-- `reduce_rec`, type_rewriting.rs:35-52. -/
def reduceRec (G : Grammar) (T : Nat → IType) (t : IType) : Res IType :=
  match t with
  | .rec_ r => if r.isPoly then .ok .invisible else firstType G T (r.flatMap RecPath.path)
  | t => .ok t

/-- `reduce_rec_entry_point`, type_rewriting.rs:28-33. -/
def reduceEntry (G : Grammar) (T : Nat → IType) (rule : String) (t : IType) : Res IType :=
  match t with
  | .rec_ r => do
    let e ← r.entryPoint
    if e = rule then reduceRec G T t else .ok t
  | t => .ok t

/-- `reduce_final`, type_rewriting.rs:54-62. -/
def reduceFinal : IType → Res Ty
  | .invisible => .ok .unit
  | .infer => .panic
  | .rec_ _ => .panic
  | .external => .ok (.rust "_")
  | .regular t => .ok t

/-- `reduce_unary`, type_rewriting.rs:82-89. -/
def reduceUnary (T : Nat → IType) (c : Nat) (t : IType) : IType :=
  match T c with
  | .invisible => .invisible
  | .rec_ r => .rec_ r.toPoly
  | _ => t

/-- `tuple_inlining`, type_rewriting.rs:113-122. -/
def tupleInlining (T : Nat → IType) (is : List Nat) : List Nat :=
  is.flatMap fun i => match T i with
    | .regular (.tuple js) => js
    | _ => [i]

/-- The recursive types among the components, type_rewriting.rs:126-137. -/
def tupleRecSet (T : Nat → IType) (is : List Nat) : RecSet :=
  is.foldl (fun acc i => match T i with
    | .rec_ r => acc.union r
    | _ => acc) []

/-- Some component has data, type_rewriting.rs:126-137. -/
def tuplePoly (T : Nat → IType) (is : List Nat) : Bool :=
  is.any fun i => match T i with
    | .external => true
    | .regular .unit => false
    | .regular _ => true
    | _ => false

/-- `reduce_tuple`, type_rewriting.rs:91-111, with `tuple_rec`, `tuple_invisible` and `tuple_unit`, 124-158. -/
def reduceTuple (T : Nat → IType) (is : List Nat) : Res IType :=
  if is.isEmpty then .panic
  else
    let is := tupleInlining T is
    let r := tupleRecSet T is
    if !r.isEmpty then .ok (.rec_ (if tuplePoly T is then r.toPoly else r))
    else
      let is := is.filter fun i => T i != .invisible
      if is.isEmpty then .ok .invisible
      else
        match is.filter fun i => T i != .regular .unit with
        | [] => .ok (.regular .unit)
        | [i] => .ok (T i)
        | is => .ok (.regular (.tuple is))

/-- `reduce` and `reduce_regular`, type_rewriting.rs:64-80. -/
def reduce (T : Nat → IType) (t : IType) : Res IType :=
  match t with
  | .infer => .panic
  | .regular (.optional c) => .ok (reduceUnary T c t)
  | .regular (.list c) => .ok (reduceUnary T c t)
  | .regular (.tuple is) => reduceTuple T is
  | t => .ok t

/-- The loop of `reduce_sum`, type_rewriting.rs:170-183. -/
def splitTypes (T : Nat → IType) (m : Nat) : List IType → RecSet → List IType → Res (RecSet × List IType)
  | [], r, ts => .ok (r, ts)
  | t :: tys, r, ts =>
    match t with
    | .rec_ r2 => splitTypes T m tys (r.union r2) ts
    | t => do
      let c ← anyRes (fun t2 => synEq T m t t2) ts
      splitTypes T m tys r (if c then ts else ts ++ [t])

/-- The decision of `reduce_sum`, type_rewriting.rs:184-210; `none` is `Err`. -/
def sumType (r : RecSet) (ts : List IType) : Option IType :=
  if r.isPoly then none
  else
    match ts with
    | [] => some (.rec_ r)
    | [t] => some t
    | [.external, t] => some t
    | [t, .external] => some t
    | ts => if ts.all IType.isUnitKind then some .invisible else none

/-- `reduce_sum`, type_rewriting.rs:167-211. -/
def reduceSum (T : Nat → IType) (m : Nat) (tys : List IType) : Res (Option IType) :=
  if tys.isEmpty then .panic
  else do
    let (r, ts) ← splitTypes T m tys [] []
    .ok (sumType r ts)

/-- `resolve_action_type`, typing/ast.rs:63-91. -/
def resolveAction (A : AGrammar) (i : Nat) (boxed : Bool) (f : Path) : IType × List TMsg :=
  match f with
  | [f] =>
    match A.functions.find? (·.1 == f) with
    | some (_, fn) =>
      match fn.ret with
      | .default => (.regular .unit, [.unitAction i])
      | .ty t => (.regular (.rust (if boxed then "Box<" ++ t ++ ">" else t)), if t = "()" then [.unitAction i] else [])
    | none => (.external, [])
  | _ => (.external, [])

/-- `range_type`, ast.rs:102-105 (the arguments of a generic alias `Stream` are omitted). -/
def rangeTy : String := "Range<Stream>"

/-- `span_type`, ast.rs:97-100. -/
def spanTy : String := "<Range<Stream> as StreamSpan>::Output"

/-- `Surface::visit_expr`, surface.rs:123-134: the expression of index `i` is typed by `walk` and reduced, unless it is typed already. -/
def surfStep (i : Nat) (s : TState) (walk : Res (IType × TState)) : Res (IType × TState) :=
  if s.types i = .infer then do
    let (t, s) ← walk
    let t ← reduce s.types t
    .ok (t, s.set i t)
  else .ok (s.types i, s)

/-- `visit_choice` after the visit of the branches, surface.rs:192-201, with `type_mismatch_branches`, surface.rs:95-111. -/
def surfChoice (m i : Nat) (tys : List IType) (s : TState) : Res (IType × TState) := do
  match ← reduceSum s.types m tys with
  | some t => .ok (t, s)
  | none => .ok (.invisible, { s with error := true, msgs := s.msgs ++ [.mismatch i], log := s.log ++ [.mismatch i tys s.types] })

mutual
/-- The visits of `Surface`, surface.rs:137-201, through `walk_expr`, visitor.rs:102-155. `k` is the index of the span type (`span_ty_idx`, typing/ast.rs:123-125),
`call` is `visit_rule`. -/
def surfExpr (A : AGrammar) (k m : Nat) (call : String → TState → Res (IType × TState)) (e : Expr) (s : TState) : Res (IType × TState) :=
  match e with
  | .str i _ => surfStep i s (.ok (.invisible, s))
  | .not i _ | .and i _ => surfStep i s (.ok (.invisible, s))
  | .any i | .cls i _ => surfStep i s (.ok (.regular .atom, s))
  | .asc i _ ty => surfStep i s (.ok (ty, s))
  | .act i _ boxed f =>
    surfStep i s (.ok ((resolveAction A i boxed f).1, { s with msgs := s.msgs ++ (resolveAction A i boxed f).2 }))
  | .nt i r => surfStep i s (call r s)
  | .ext i _ => surfStep i s (.ok (.external, s))
  | .star i c | .plus i c => surfStep i s (do
      let (_, s) ← surfExpr A k m call c s
      .ok (.regular (.list c.id), s))
  | .opt i c => surfStep i s (do
      let (_, s) ← surfExpr A k m call c s
      .ok (.regular (.optional c.id), s))
  | .span i c => surfStep i s (do
      let (_, s) ← surfExpr A k m call c s
      .ok (.regular (.tuple [k, c.id]), s))
  | .range i c => surfStep i s (do
      let (_, s) ← surfExpr A k m call c s
      .ok (.regular (.rust rangeTy), s))
  | .seq i es => surfStep i s (do
      let (_, s) ← surfAll A k m call es s
      .ok (.regular (.tuple (es.map Expr.id)), s))
  | .choice i es => surfStep i s (do
      let (tys, s) ← surfAll A k m call es s
      surfChoice m i tys s)
/-- `walk_exprs`, visitor.rs:157-161. -/
def surfAll (A : AGrammar) (k m : Nat) (call : String → TState → Res (IType × TState)) (es : List Expr) (s : TState) :
    Res (List IType × TState) :=
  match es with
  | [] => .ok ([], s)
  | e :: es => do
    let (t, s) ← surfExpr A k m call e s
    let (ts, s) ← surfAll A k m call es s
    .ok (t :: ts, s)
end

/-- `infer_rec_type`, surface.rs:85-93. The head of the path is its last element. -/
def recType (path : List String) (r : String) : IType := .rec_ [⟨.unit, r :: path.takeWhile fun x => x != r⟩]

/-- `visit_rule`, surface.rs:52-70; `path` is `recursion_path`, its last element first. -/
def surfRule (A : AGrammar) (k m : Nat) : Nat → List String → String → TState → Res (IType × TState)
  | 0, _, _, _ => .timeout
  | n + 1, path, r, s =>
    match A.grammar.find r with
    | none => .panic
    | some b =>
      if s.types b.id = .infer then
        if path.contains r then .ok (recType path r, s)
        else do
          let (t, s) ← surfExpr A k m (surfRule A k m n (r :: path)) b s
          let t ← reduceEntry A.grammar s.types r t
          .ok (t, s.set b.id t)
      else .ok (s.types b.id, s)

/-- `surface`, surface.rs:41-50: all the rules in order. -/
def surfRules (A : AGrammar) (k m n : Nat) : List (String × Expr) → TState → Res TState
  | [], s => .ok s
  | (r, _) :: rs, s => do
    let (_, s) ← surfRule A k m n [] r s
    surfRules A k m n rs s

/-- `error_if_not_match_ty_ascription`, depth.rs:134-142. -/
def matchAscription (m i : Nat) (t a : IType) (s : TState) : Res TState := do
  if ← synEq s.types m t a then .ok s
  else .ok { s with error := true, msgs := s.msgs ++ [.ascription i], log := s.log ++ [.ascription i t a s.types] }

/-- `Depth::visit_expr`, depth.rs:154-181: `u` is `under_unit`, `a` is `under_ty_ascription`; `walk` visits the children. -/
def depthStep (m i : Nat) (u : Bool) (a : Option IType) (s : TState) (walk : Bool → TState → Res TState) : Res TState :=
  if u then walk true (s.set i (.regular .unit))
  else if (s.types i).isUnitKind && a.isNone then walk true s
  else
    match a with
    | some a =>
      if s.types i = .external then walk false (s.set i a)
      else do
        let s ← matchAscription m i (s.types i) a s
        walk false s
    | none => walk false s

mutual
/-- The visits of `Depth`, depth.rs:184-218, through `walk_expr`, visitor.rs:102-155. `surf` is `surface_expr`, depth.rs:64-71. -/
def depthExpr (m : Nat) (surf : Expr → TState → Res (IType × TState)) (u : Bool) (a : Option IType) (e : Expr) (s : TState) :
    Res TState :=
  match e with
  | .str i _ | .any i | .cls i _ | .nt i _ | .ext i _ => depthStep m i u a s fun _ s => .ok s
  | .seq i es => depthStep m i u a s fun u s => depthSeq m surf u a es s
  | .choice i es => depthStep m i u a s fun u s => depthAll m surf u a es s
  | .star i c | .plus i c | .opt i c | .not i c | .and i c | .span i c | .range i c =>
    depthStep m i u a s fun u s => depthExpr m surf u a c s
  | .asc i c ty => depthStep m i u a s fun u s => do
      let s ← match a with
        | some a => matchAscription m i ty a s
        | none => .ok s
      let s ← if u then .ok s else do
        let (_, s) ← surf c s
        .ok s
      depthExpr m surf u (some ty) c s
  | .act i c _ _ => depthStep m i u a s fun u s => do
      let (_, s) ← surf c s
      depthExpr m surf u none c s
/-- `visit_sequence`, depth.rs:187-202. -/
def depthSeq (m : Nat) (surf : Expr → TState → Res (IType × TState)) (u : Bool) (a : Option IType) (es : List Expr) (s : TState) :
    Res TState :=
  match es with
  | [] => .ok s
  | e :: es => do
    let s ← depthExpr m surf u (if (s.types e.id).isUnitKind then none else a) e s
    depthSeq m surf u a es s
/-- `walk_exprs`, visitor.rs:157-161. -/
def depthAll (m : Nat) (surf : Expr → TState → Res (IType × TState)) (u : Bool) (a : Option IType) (es : List Expr) (s : TState) :
    Res TState :=
  match es with
  | [] => .ok s
  | e :: es => do
    let s ← depthExpr m surf u a e s
    depthAll m surf u a es s
end

/-- `warn_recursive_type`, depth.rs:109-125. -/
def warnRecursive (G : Grammar) (T : Nat → IType) : Res (List TMsg) :=
  let r := G.rules.foldl (fun acc x => match T x.2.id with
    | .rec_ r => RecSet.union acc r
    | _ => acc) []
  (r.filter fun p => p.kind == .poly).mapM fun p =>
    match p.path with
    | [] => .panic
    | x :: _ => if (G.find x).isSome then .ok (.recursive p.path) else .panic

/-- `reduce_all_rec`, depth.rs:73-79, on the indices below `k + 1`. -/
def reduceAllRec (G : Grammar) (k : Nat) (T : Nat → IType) : Res (Nat → IType) := do
  let ts ← (List.range (k + 1)).mapM fun i => reduceRec G T (T i)
  .ok fun i => (ts[i]?).getD .infer

/-- `reduce_all_invisible`, depth.rs:81-86. -/
def reduceAllFinal (k : Nat) (T : Nat → IType) : Res (Nat → Ty) := do
  let ts ← (List.range (k + 1)).mapM fun i => reduceFinal (T i)
  .ok fun i => (ts[i]?).getD .unit

/-- `check_all_rules_have_type`, depth.rs:88-97. -/
def checkRules (m : Nat) (rules : List (String × Expr)) (s : TState) : Res TState :=
  match rules with
  | [] => .ok s
  | (r, e) :: rs => do
    if ← containsExternal s.types m (s.types e.id) then
      checkRules m rs { s with error := true, msgs := s.msgs ++ [.untyped r], log := s.log ++ [.untyped r] }
    else checkRules m rs s

/-- `IGrammar::from`, typing/ast.rs:34-51, with `alloc_span_ty_expr`, 114-121: `k` expressions, and the span type at index `k`. -/
def TState.new (k : Nat) : TState := ⟨fun i => if i = k then .regular (.rust spanTy) else .infer, false, [], []⟩

/-- `surface_expr`, depth.rs:64-71: the recursion path is empty. -/
def surfHere (A : AGrammar) (k m n : Nat) : Expr → TState → Res (IType × TState) := surfExpr A k m (surfRule A k m n [])

/-- `type_inference`, typing/mod.rs:26-29 and `Depth::infer`, depth.rs:32-53, for an arena of `k` expressions: the types, if any, and the state at the end. -/
def typingRun (A : AGrammar) (k m n : Nat) : Res (Partial (Nat → Ty) × TState) := do
  let s ← surfRules A k m n A.grammar.rules (.new k)
  if s.error then .ok (.nothing, s)
  else do
    let w ← warnRecursive A.grammar s.types
    let T ← reduceAllRec A.grammar k s.types
    let s ← depthAll m (surfHere A k m n) false none (A.grammar.rules.map (·.2)) { s with types := T, msgs := s.msgs ++ w }
    if s.error then .ok (.nothing, s)
    else do
      let T ← reduceAllFinal k s.types
      let s ← checkRules m A.grammar.rules s
      if s.error then .ok (.nothing, s) else .ok (.value T, s)

/-- The types and the messages of `type_inference`. -/
def typeInference (A : AGrammar) (k m n : Nat) : Res (Partial (Nat → Ty) × List TMsg) := do
  let (p, s) ← typingRun A k m n
  .ok (p, s.msgs)

/-- What the texts of the errors of `type_inference` are made of. -/
def typingErrors (A : AGrammar) (k m n : Nat) : Res (List TDiag) := do
  let (_, s) ← typingRun A k m n
  .ok s.log

/-- The two together. -/
theorem typeInference_eq (A : AGrammar) (k m n : Nat) : typeInference A k m n = (do
    let s ← surfRules A k m n A.grammar.rules (.new k)
    if s.error then .ok (.nothing, s.msgs)
    else do
      let w ← warnRecursive A.grammar s.types
      let T ← reduceAllRec A.grammar k s.types
      let s ← depthAll m (surfHere A k m n) false none (A.grammar.rules.map (·.2)) { s with types := T, msgs := s.msgs ++ w }
      if s.error then .ok (.nothing, s.msgs)
      else do
        let T ← reduceAllFinal k s.types
        let s ← checkRules m A.grammar.rules s
        if s.error then .ok (.nothing, s.msgs) else .ok (.value T, s.msgs)) := by
  unfold typeInference typingRun
  cases surfRules A k m n A.grammar.rules (.new k) with
  | ok s =>
    simp only [Res.bind_ok]
    split
    · rfl
    · cases warnRecursive A.grammar s.types with
      | ok w =>
        simp only [Res.bind_ok]
        cases reduceAllRec A.grammar k s.types with
        | ok T =>
          simp only [Res.bind_ok]
          cases depthAll m (surfHere A k m n) false none (A.grammar.rules.map (·.2)) { s with types := T, msgs := s.msgs ++ w } with
          | ok s =>
            simp only [Res.bind_ok]
            split
            · rfl
            · cases reduceAllFinal k s.types with
              | ok T =>
                simp only [Res.bind_ok]
                cases checkRules m A.grammar.rules s with
                | ok s => simp only [Res.bind_ok]; split <;> rfl
                | _ => rfl
              | _ => rfl
          | _ => rfl
        | _ => rfl
      | _ => rfl
  | _ => rfl

/-- Rust types, as `TypeCompiler` writes them. -/
inductive RTy where
  | unit
  | char
  | vec (t : RTy)
  | option (t : RTy)
  | tuple (ts : List RTy)
  | rust (t : String)

/-- `compile_type`, back/compiler/rtype.rs:37-76. -/
def compileType (T : Nat → Ty) : Nat → Nat → Res RTy
  | 0, _ => .timeout
  | n + 1, i =>
    match T i with
    | .unit => .ok .unit
    | .atom => .ok .char
    | .list j => do .ok (.vec (← compileType T n j))
    | .optional j => do .ok (.option (← compileType T n j))
    | .rust t => .ok (.rust t)
    | .tuple is => do .ok (.tuple (← is.mapM fun i => compileType T n i))

end Oak
