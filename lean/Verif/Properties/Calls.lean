import Verif.Properties.Parsing
import Verif.Proofs.Calls
import Verif.Proofs.Shown
/-!
Calls of the semantic actions when generated functions run.
-/
set_option linter.constructorNameAsVariable false
set_option autoImplicit false

namespace Oak
open Spec

variable {G : Grammar} {T : Nat → Ty} {fs : List (FnRef × Fn)} {ext : Nat → FnRef → PState StrStream Val → Res (PState StrStream Val)}
  {X : ExtSpec} {ptr : Nat} {input : List Char} {r : String} {e : Expr} {st st' : PState StrStream Val}

theorem Deployed.calls (d : Deployed G T fs ext X ptr input) (hq : QuietExt ext) (n : Nat) :
    FnsCalls (StrStream.At ptr input) StrStream.rest G T (strSpans input) X (Program.run StrStream.ops ext ⟨fs⟩ n) := by
  have : Program.run StrStream.ops ext ⟨fs⟩ n = runProg StrStream.ops ext G T n := by
    funext f st
    exact program_correct _ ext G T fs d.gen.compiled d.gen.scopes d.gen.coherent n f st
  rw [this]
  exact runProg_calls (d.gen.strSys ptr input) d.ext hq n

/-- C17: the calls made by a parser are exactly those that the grammar prescribes at the position where it starts: each action is called on
the values of its expression, each time the expression has matched while data is built, in this order, and nothing else is called. -/
theorem C17_calls (d : Deployed G T fs ext X ptr input) (hq : QuietExt ext) (he : G.find r = some e) (hst : OkSt (StrStream.At ptr input) st)
    (h : Steps ext fs true r st st') :
    ∃ cs, st'.calls = st.calls ++ cs ∧ ∀ cs', UserCalls G X T (strSpans input) e st.cur.rest cs' ↔ cs' = cs := by
  obtain ⟨n, hn⟩ := h
  obtain ⟨cs, h1, h2⟩ := (d.calls hq n).rule r e st st' he hst hn
  exact ⟨cs, h2, fun cs' => ⟨fun h => h.det d.ext.det h1, fun h => h ▸ h1⟩⟩

/-- C17: a recognizer calls no action. -/
theorem C17_recognizer_calls (d : Deployed G T fs ext X ptr input) (hq : QuietExt ext) (h : Steps ext fs false r st st') : st'.calls = st.calls := by
  obtain ⟨n, hn⟩ := h
  exact (d.calls hq n).recog [r] st st' hn

/-- C17: each call made by a parser is that of an action of the grammar whose data is wanted, on the values of a match of its expression in
what remained of the input. -/
theorem C17_after_match (d : Deployed G T fs ext X ptr input) (hq : QuietExt ext) (he : G.find r = some e) (hst : OkSt (StrStream.At ptr input) st)
    (h : Steps ext fs true r st st') {c : Val} (hc : c ∈ st'.calls) :
    c ∈ st.calls ∨ ∃ i e1 b f s1 s2 t L, Occurs G (.act i e1 b f) ∧ T i ≠ .unit ∧ s1 <:+ st.cur.rest ∧ Peg G X e1 s1 (.ok s2 t) L ∧
      c = .app f (ast G T (strSpans input) e1 t) := by
  obtain ⟨cs, h1, h2⟩ := C17_calls d hq he hst h
  rw [h1] at hc
  rcases List.mem_append.1 hc with hc | hc
  · exact .inl hc
  · right
    obtain ⟨i, e1, b, f, s1, s2, t, L, h3, h4⟩ := ((h2 cs).2 rfl).after d.fwd hc
    exact ⟨i, e1, b, f, s1, s2, t, L, h3.elim (fun h => ⟨r, e, he, h⟩) id, h4⟩

/-- C17: when the rule matches, all the actions of the match were called, in the order of the match. -/
theorem C17_match_calls (d : Deployed G T fs ext X ptr input) (hq : QuietExt ext) (he : G.find r = some e) (hst : OkSt (StrStream.At ptr input) st)
    (h : Steps ext fs true r st st') {s' : List Char} {t : Tree} {L : Log} (hp : Peg G X e st.cur.rest (.ok s' t) L) :
    ∃ cs, st'.calls = st.calls ++ cs ∧ (treeCalls G T (strSpans input) e t).Sublist cs := by
  obtain ⟨cs, h1, h2⟩ := C17_calls d hq he hst h
  exact ⟨cs, h1, ((h2 cs).2 rfl).tree d.ext.det hp⟩

/-- C17: every call of a function that the data returned shows was made, unless it is shown by a value that an external rule returned. -/
theorem C17_shown (d : Deployed G T fs ext X ptr input) (hq : QuietExt ext) (he : G.find r = some e) (hst : OkSt (StrStream.At ptr input) st)
    (h : Steps ext fs true r st st') {v : Val} (hv : st'.data = some v) {f : Path} {args : List Val} (hs : Shown (.app f args) v) :
    .app f args ∈ st'.calls ∨ ∃ s' t L, Peg G X e st.cur.rest (.ok s' t) L ∧ ∃ x ∈ t.exts, Shown (.app f args) x := by
  obtain ⟨o, L, hp, hr⟩ := d.steps_iff he true hst h
  cases o with
  | fail =>
    obtain ⟨_, h2, _⟩ := hr
    rw [h2] at hv; cases hv
  | ok s' t =>
    obtain ⟨_, _, ⟨w, hw, hval, _⟩, _⟩ := hr
    rw [hw] at hv; cases hv
    rw [if_pos rfl] at hval
    subst hval
    obtain ⟨x, hx, hs⟩ := shown_tuple hs
    rcases shown_called G T (strSpans input) f args t e x hx hs with h1 | h1
    · obtain ⟨cs, h2, h3⟩ := C17_match_calls d hq he hst h hp
      exact .inl (by rw [h2]; exact List.mem_append_right _ (h3.subset h1))
    · exact .inr ⟨s', t, L, hp, h1⟩

theorem noExt_exts {s : List Char} {o : Out} {L : Log} (h : Peg G noExt e s o L) : ∀ {s' t}, o = .ok s' t → t.exts = [] := by
  induction h <;> intro s' t ho <;> cases ho <;> try simp only [Tree.exts, List.flatMap_nil, List.flatMap_cons]
  case ext h => exact h.elim
  case seq_cons ih1 ih2 | star_more ih1 ih2 | plus_ok ih1 ih2 =>
    have := ih2 rfl
    simp only [Tree.exts] at this
    rw [ih1 rfl, this]; rfl
  case choice_next ih => have := ih rfl; simpa only [Tree.exts] using this
  all_goals (rename_i ih; exact ih rfl)

theorem noFns_quiet : QuietExt (σ := StrStream) noFns := fun _ _ _ _ h => by cases h

/-! ### Concrete cases -/

mutual
/-- Equality of values. -/
def Val.decEq : (a b : Val) → Decidable (a = b)
  | .chr c, b => match b with
    | .chr c' => decidable_of_iff (c = c') (by simp)
    | .tup _ | .list _ | .none | .some _ | .span _ _ | .range _ _ | .app _ _ | .path _ | .box _ | .foreign _ => isFalse nofun
  | .tup vs, b => match b with
    | .tup vs' => let _ := Val.decEqs vs vs'; decidable_of_iff (vs = vs') (by simp)
    | .chr _ | .list _ | .none | .some _ | .span _ _ | .range _ _ | .app _ _ | .path _ | .box _ | .foreign _ => isFalse nofun
  | .list vs, b => match b with
    | .list vs' => let _ := Val.decEqs vs vs'; decidable_of_iff (vs = vs') (by simp)
    | .chr _ | .tup _ | .none | .some _ | .span _ _ | .range _ _ | .app _ _ | .path _ | .box _ | .foreign _ => isFalse nofun
  | .none, b => match b with
    | .none => isTrue rfl
    | .chr _ | .tup _ | .list _ | .some _ | .span _ _ | .range _ _ | .app _ _ | .path _ | .box _ | .foreign _ => isFalse nofun
  | .some v, b => match b with
    | .some v' => let _ := Val.decEq v v'; decidable_of_iff (v = v') (by simp)
    | .chr _ | .tup _ | .list _ | .none | .span _ _ | .range _ _ | .app _ _ | .path _ | .box _ | .foreign _ => isFalse nofun
  | .span l h, b => match b with
    | .span l' h' => decidable_of_iff (l = l' ∧ h = h') (by simp)
    | .chr _ | .tup _ | .list _ | .none | .some _ | .range _ _ | .app _ _ | .path _ | .box _ | .foreign _ => isFalse nofun
  | .range l h, b => match b with
    | .range l' h' => decidable_of_iff (l = l' ∧ h = h') (by simp)
    | .chr _ | .tup _ | .list _ | .none | .some _ | .span _ _ | .app _ _ | .path _ | .box _ | .foreign _ => isFalse nofun
  | .app f vs, b => match b with
    | .app f' vs' => let _ := Val.decEqs vs vs'; decidable_of_iff (f = f' ∧ vs = vs') (by simp)
    | .chr _ | .tup _ | .list _ | .none | .some _ | .span _ _ | .range _ _ | .path _ | .box _ | .foreign _ => isFalse nofun
  | .path f, b => match b with
    | .path f' => decidable_of_iff (f = f') (by simp)
    | .chr _ | .tup _ | .list _ | .none | .some _ | .span _ _ | .range _ _ | .app _ _ | .box _ | .foreign _ => isFalse nofun
  | .box v, b => match b with
    | .box v' => let _ := Val.decEq v v'; decidable_of_iff (v = v') (by simp)
    | .chr _ | .tup _ | .list _ | .none | .some _ | .span _ _ | .range _ _ | .app _ _ | .path _ | .foreign _ => isFalse nofun
  | .foreign s, b => match b with
    | .foreign s' => decidable_of_iff (s = s') (by simp)
    | .chr _ | .tup _ | .list _ | .none | .some _ | .span _ _ | .range _ _ | .app _ _ | .path _ | .box _ => isFalse nofun
/-- Equality of lists of values. -/
def Val.decEqs : (a b : List Val) → Decidable (a = b)
  | [], b => match b with
    | [] => isTrue rfl
    | _ :: _ => isFalse nofun
  | v :: vs, b => match b with
    | [] => isFalse nofun
    | v' :: vs' => let _ := Val.decEq v v'; let _ := Val.decEqs vs vs'; decidable_of_iff (v = v' ∧ vs = vs') (by simp)
end
instance : DecidableEq Val := Val.decEq

/-- The data and the calls of a run. -/
def runCalls (x : Res (PState StrStream Val)) : Option (Option Val × List Val) :=
  match x with
  | .ok st => some (st.data, st.calls)
  | .panic | .stuck | .timeout => none

theorem steps_of_runCalls {n : Nat} {p : Bool} {d : Option Val} {cs : List Val}
    (h : runCalls (Program.run StrStream.ops ext ⟨fs⟩ n ⟨p, [r]⟩ st) = some (d, cs)) : ∃ st', Steps ext fs p r st st' ∧ st'.data = d ∧ st'.calls = cs := by
  cases hx : Program.run StrStream.ops ext ⟨fs⟩ n ⟨p, [r]⟩ st with
  | ok st' => rw [hx] at h; simp only [runCalls, Option.some.injEq, Prod.mk.injEq] at h; exact ⟨st', ⟨n, hx⟩, h⟩
  | panic | stuck | timeout => rw [hx] at h; cases h

/-- On `1+23`, from the start: `to_num` is called on `1`, then on `23`, then `add`. -/
theorem sum_calls : ∃ st', Steps noFns Sample.sumFs true "sum" (start 0 "1+23".toList) st' ∧
    st'.data = some (.app ["add"] [.app ["to_num"] [.list [.chr '1']], .list [.app ["to_num"] [.list [.chr '2', .chr '3']]]]) ∧ st'.calls = [
      .app ["to_num"] [.list [.chr '1']], .app ["to_num"] [.list [.chr '2', .chr '3']],
      .app ["add"] [.app ["to_num"] [.list [.chr '1']], .list [.app ["to_num"] [.list [.chr '2', .chr '3']]]]] :=
  steps_of_runCalls (n := 20) (by decide +kernel)

/-- The hypotheses of the theorems are met there. -/
example : UserCalls Sample.sum noExt Sample.sumT (strSpans "1+23".toList) (Sample.sum.rules[0].2) "1+23".toList [
      .app ["to_num"] [.list [.chr '1']], .app ["to_num"] [.list [.chr '2', .chr '3']],
      .app ["add"] [.app ["to_num"] [.list [.chr '1']], .list [.app ["to_num"] [.list [.chr '2', .chr '3']]]]] := by
  obtain ⟨st', h, _, hc⟩ := sum_calls
  obtain ⟨cs, h1, h2⟩ := C17_calls (Sample.sum_generated.deployed 0 "1+23".toList) noFns_quiet (r := "sum") rfl (okSt_new 0 _) h
  exact (h2 _).2 (hc.symm.trans h1)

namespace Sample

/-- `stmt = item "=" item > assign / item > single ; item = ["a-z"] > name` -/
def stmt : Grammar := ⟨[
  ("stmt", .choice 7 [.act 4 (.seq 3 [.nt 0 "item", .str 1 "=", .nt 2 "item"]) false ["assign"], .act 6 (.nt 5 "item") false ["single"]]),
  ("item", .act 9 (.cls 8 [⟨'a', 'z'⟩]) false ["name"])]⟩

/-- Types of the nodes of `stmt`. -/
def stmtT : Nat → Ty
  | 0 | 2 | 5 | 9 => .rust "N"
  | 3 => .tuple [0, 2]
  | 4 | 6 | 7 => .rust "S"
  | 8 => .atom
  | _ => .unit

/-- Its generated program. -/
def stmtFs : List (FnRef × Fn) := match compileGrammar stmtT stmt.rules with | .ok f => f | .error _ => []

theorem stmt_generated : Generated stmt stmtT stmtFs where
  compiled := by rfl
  scopes := by decide +kernel
  coherent := by decide +kernel
  resolved := by decide +kernel

end Sample

/-- C17: actions are also called for what is abandoned later. On `x`, the first branch of `stmt` calls `name` before it fails on `=`; the second
branch calls it again. The value returned only shows the second call. -/
theorem C17_abandoned : ∃ st', Steps noFns Sample.stmtFs true "stmt" (start 0 "x".toList) st' ∧
    st'.data = some (.app ["single"] [.app ["name"] [.chr 'x']]) ∧
    st'.calls = [.app ["name"] [.chr 'x'], .app ["name"] [.chr 'x'], .app ["single"] [.app ["name"] [.chr 'x']]] :=
  steps_of_runCalls (n := 20) (by decide +kernel)

/-- It is an instance of the theorems. -/
example : UserCalls Sample.stmt noExt Sample.stmtT (strSpans "x".toList) (Sample.stmt.rules[0].2) "x".toList
    [.app ["name"] [.chr 'x'], .app ["name"] [.chr 'x'], .app ["single"] [.app ["name"] [.chr 'x']]] := by
  obtain ⟨st', h, _, hc⟩ := C17_abandoned
  obtain ⟨cs, h1, h2⟩ := C17_calls (Sample.stmt_generated.deployed 0 "x".toList) noFns_quiet (r := "stmt") rfl (okSt_new 0 _) h
  exact (h2 _).2 (hc.symm.trans h1)

end Oak
