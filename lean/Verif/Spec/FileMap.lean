import Verif.Spec.Result
import Verif.Model.FileMap
/-!
# Specification: streams over registered files
-/
set_option autoImplicit false

namespace Oak
open Spec

/-- Streams over the file of text `raw` (at address `ptr`) registered at `start`. -/
def FileMapStream.At (start ptr : Nat) (raw : List Char) (s : FileMapStream) : Prop := s.start = start ∧ StrStream.At ptr raw s.str

/-- The characters that remain to be read. -/
def FileMapStream.rest (s : FileMapStream) : List Char := s.str.rest

/-- Positions in a file registered at `start`: offsets from the beginning of the code map, on 32 bits for spans. -/
def fileSpans (start : Nat) (input : List Char) : SpanSpec where
  pos r := start + (blen input - blen r)
  span a b := ((start + (blen input - blen a)) % 2 ^ 32, (start + (blen input - blen b)) % 2 ^ 32)

/-- The same result, with another kind of stream. -/
def PResult.mapStream {S S' D : Type} (f : S → S') : PResult S D → PResult S' D
  | .success d => .success d
  | .part d far exp => .part d (f far) exp
  | .failure far exp => .failure (f far) exp

/-- What `parse_r` or `recognize_r` should return on a registered file, for a match with outcome `o` and failed terminals `L`. -/
def expectedFileResult (G : Grammar) (T : Nat → Ty) (e : Expr) (p : Bool) (start ptr : Nat) (input : List Char) (L : Log) :
    Out → PResult FileMapStream Val
  | .fail => .failure ⟨start, streamAt ptr input (farthest input L)⟩ (expectedAt (farthest input L) L)
  | .ok s' t =>
    let d := tupleVal (if p then ast G T (fileSpans start input) e t else [])
    if s' = [] then .success d
    else .part d ⟨start, streamAt ptr input (farthest input L)⟩ (expectedAt (farthest input L) L)

/-- The call of `recognize_r` (`p = false`) or `parse_r` (`p = true`) on a registered file, followed by `into_result`. -/
def ReturnsFile (fs : List (FnRef × Fn)) (p : Bool) (r : String) (start ptr : Nat) (input : List Char)
    (res : PResult FileMapStream Val) : Prop :=
  ∃ n, Program.parse FileMapStream.ops (fun _ _ _ => .timeout) ⟨fs⟩ n ⟨p, [r]⟩ ⟨start, StrStream.new ptr input⟩ = .ok res

/-- Byte offsets of the starts of the lines of a text, from left to right: the beginning and what follows each newline, if something
remains there. `pos` is the offset of the beginning, `fresh` tells that a line starts here. -/
def lineStarts (pos : Nat) (fresh : Bool) : List Char → List Nat
  | [] => []
  | c :: cs => (if fresh then [pos] else []) ++ lineStarts (pos + c.utf8Size) (c = '\n') cs

/-- The text with Windows line endings replaced by newlines. -/
def withoutCR : List Char → List Char
  | [] => []
  | c :: cs => if c = '\r' ∧ cs.head? = some '\n' then withoutCR cs else c :: withoutCR cs

/-- The position after the last line: as if the last line had a newline. -/
def endOfLines (pos : Nat) (src : List Char) : Nat := pos + blen src + (if src = [] ∨ src.getLast? = some '\n' then 0 else 1)

end Oak
