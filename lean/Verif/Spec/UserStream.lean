import Verif.Spec.Result
import Verif.Spec.FileMap
/-!
# Specification: parsing over the streams of the user

A stream type written by the user is admissible when it satisfies `LawfulStream`, which is what the traits of
runtime/src/stream.rs document:

* `Iterator::next` gives the next character and moves after it, or gives nothing at the end of the text (it may alter the stream there,
  as long as nothing remains to be read);
* `ConsumePrefix`: "consumes `prefix` if it fully matches from the current position; if it does not match, the stream is not altered";
* `HasNext`: "`true` if an item can be read";
* `Ord`: streams over the same text compare as the amount of text read.

Nothing else is asked: two distinct values can stand for the same position, and the locations given to the values of the AST can be
anything that depends on the position only.
-/
set_option autoImplicit false

namespace Oak
open Spec

/-- A generated program that runs over a stream of the user: `s0` is a fresh stream over the text `input`. `ext` implements the
external rules `X`, and `sp` tells the locations given by `S` at each position. -/
structure Streamed {S : Type} (G : Grammar) (T : Nat → Ty) (fs : List (FnRef × Fn)) (ops : StreamOps S) (V : S → Prop) (rest : S → List Char)
    (input : List Char) (sp : SpanSpec) (ext : Nat → FnRef → PState S Val → Res (PState S Val)) (X : ExtSpec) (s0 : S) : Prop where
  gen : Generated G T fs
  lawful : LawfulStream ops V rest input
  pos : ∀ a, V a → sp.pos (rest a) = ops.pos a
  span : ∀ a b, V a → V b → sp.span (rest a) (rest b) = ops.span a b
  ext : ExtOk V rest ext G X
  fwd : X.Forward
  fresh : V s0
  whole : rest s0 = input

/-- The call of `recognize_r` (`p = false`) or `parse_r` (`p = true`) on the stream `s0`, followed by `into_result`, returns `res`. -/
def ReturnsOn {S : Type} (ops : StreamOps S) (ext : Nat → FnRef → PState S Val → Res (PState S Val)) (fs : List (FnRef × Fn)) (p : Bool)
    (r : String) (s0 : S) (res : PResult S Val) : Prop :=
  ∃ n, Program.parse ops ext ⟨fs⟩ n ⟨p, [r]⟩ s0 = .ok res

/-- What `parse_r` or `recognize_r` should return for a match with outcome `o` and failed terminals `L`: the farthest stream is given
by the text that remains to be read there. -/
def expectedView (G : Grammar) (T : Nat → Ty) (sp : SpanSpec) (e : Expr) (p : Bool) (input : List Char) (L : Log) :
    Out → PResult (List Char) Val
  | .fail => .failure (farthest input L) (expectedAt (farthest input L) L)
  | .ok s' t =>
    let d := tupleVal (if p then ast G T sp e t else [])
    if s' = [] then .success d else .part d (farthest input L) (expectedAt (farthest input L) L)

/-- The stream carried by a result. -/
def PResult.stream {S D : Type} : PResult S D → Option S
  | .success _ => none
  | .part _ far _ => some far
  | .failure far _ => some far

end Oak
