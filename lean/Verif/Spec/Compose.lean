import Verif.Spec.Result
import Verif.Spec.Operators
/-!
# Specification: a grammar that calls the rules of another one

`ρ` tells which paths of the first grammar denote a rule of the second one (`use other::grammar;` in the user's crate).
-/
set_option autoImplicit false

namespace Oak
open Spec

mutual
/-- The calls of external rules denoted by `ρ` become calls of rules. -/
def linkE (ρ : Path → Option String) (e : Expr) : Expr :=
  match e with
  | .str i l => .str i l
  | .any i => .any i
  | .cls i ivs => .cls i ivs
  | .nt i r => .nt i r
  | .ext i p => match ρ p with
    | some r => .nt i r
    | none => .ext i p
  | .seq i es => .seq i (linkAll ρ es)
  | .choice i es => .choice i (linkAll ρ es)
  | .star i e => .star i (linkE ρ e)
  | .plus i e => .plus i (linkE ρ e)
  | .opt i e => .opt i (linkE ρ e)
  | .not i e => .not i (linkE ρ e)
  | .and i e => .and i (linkE ρ e)
  | .act i e b f => .act i (linkE ρ e) b f
  | .asc i e t => .asc i (linkE ρ e) t
  | .span i e => .span i (linkE ρ e)
  | .range i e => .range i (linkE ρ e)
/-- On lists. -/
def linkAll (ρ : Path → Option String) (es : List Expr) : List Expr :=
  match es with
  | [] => []
  | e :: es => linkE ρ e :: linkAll ρ es
end

/-- One grammar made of the two. -/
def Grammar.link (ρ : Path → Option String) (G1 G2 : Grammar) : Grammar :=
  ⟨G1.rules.map (fun x => (x.1, linkE ρ x.2)) ++ G2.rules⟩

/-- The functions seen by the first program: those generated for the second one where `ρ` tells so, `ext` elsewhere. -/
def linkFns (ρ : Path → Option String) (fs2 : List (FnRef × Fn)) (ext : Nat → FnRef → PState StrStream Val → Res (PState StrStream Val)) :
    Nat → FnRef → PState StrStream Val → Res (PState StrStream Val) :=
  fun n f st => match ρ f.path with
    | some r => Program.run StrStream.ops ext ⟨fs2⟩ n ⟨f.parser, [r]⟩ st
    | none => ext n f st

/-- The behaviour of the external rules seen by the first grammar. -/
def linkSpec (ρ : Path → Option String) (G2 : Grammar) (T2 : Nat → Ty) (input : List Char) (X : ExtSpec) : ExtSpec :=
  fun path s o L => match ρ path with
    | some r => ∃ e o2, G2.find r = some e ∧ Peg G2 X e s o2 L ∧
        o = match o2 with
          | .fail => .fail
          | .ok s' t => .ok s' (.ext (tupleVal (ast G2 T2 (strSpans input) e t)))
    | none => X path s o L

end Oak
