import Verif.Model.Report
/-!
Model of `runtime/src/file_map_stream.rs`, and of the two methods of syntex_pos' `FileMap` it calls.
-/
set_option autoImplicit false

namespace Oak

/-- `syntex_pos::FileMap` (fields used here): start position in the code map, source, starts of the registered lines.
The `RefCell` is a plain field. -/
structure FileMap where
  start : Nat
  src : Option (List Char)
  lines : List Nat
deriving Repr, DecidableEq

namespace FileMap

/-- `FileMap::count_lines` of syntex_pos. -/
def countLines (f : FileMap) : Nat := f.lines.length

/-- `FileMap::next_line` of syntex_pos: asserts that line starts increase. -/
def nextLine (f : FileMap) (pos : Nat) : Res FileMap := do
  Res.assert (match f.lines.getLast? with | none => true | some l => l < pos)
  .ok { f with lines := f.lines ++ [pos] }

/-- Addition of `u32`s in a debug build: overflows panic. -/
def addU32 (a b : Nat) : Res Nat := if a + b < 2 ^ 32 then .ok (a + b) else .panic

/-- The loop of `FileMapStream::register_lines`, file_map_stream.rs:52-57. -/
def registerLoop (f : FileMap) (bytePos : Nat) : List (List Char) → Res FileMap
  | [] => .ok f
  | l :: ls => do
    let f ← f.nextLine bytePos
    let n ← addU32 (StrStream.asU32 (blen l)) 1
    let bytePos ← addU32 bytePos n
    registerLoop f bytePos ls

/-- `FileMapStream::register_lines`, file_map_stream.rs:48-59. -/
def registerLines (f : FileMap) (src : List Char) : Res FileMap :=
  if f.countLines = 0 then registerLoop f f.start (Oak.lines src) else .ok f

end FileMap

/-- `FileMapStream`, file_map_stream.rs:31-36. Only the start position of the file map is kept. -/
structure FileMapStream where
  start : Nat
  str : StrStream
deriving Repr, DecidableEq

namespace FileMapStream

/-- `FileMapStream::new`, file_map_stream.rs:40-47: registers the lines, `unwrap` panics without source. `ptr` is the address of the
source. Returns the file map after registration. -/
def new (ptr : Nat) (f : FileMap) : Res (FileMap × FileMapStream) :=
  match f.src with
  | none => .panic
  | some src => do
    let f ← f.registerLines src
    .ok (f, ⟨f.start, StrStream.new ptr src⟩)

/-- `FileMapStream::abs_pos`, file_map_stream.rs:61-63, in a release build (wrapping `u32` addition). -/
def absPos (s : FileMapStream) : Nat := StrStream.asU32 (s.start + StrStream.asU32 s.str.off)

/-- `Iterator::next`, file_map_stream.rs:66-72. -/
def next (s : FileMapStream) : Res (Option Char × FileMapStream) := do
  let (c, t) ← s.str.next
  .ok (c, { s with str := t })

/-- `ConsumePrefix::consume_prefix`, file_map_stream.rs:114-119. -/
def consumePrefix (p : String) (s : FileMapStream) : Res (Bool × FileMapStream) := do
  let (b, t) ← s.str.consumePrefix p
  .ok (b, { s with str := t })

/-- `HasNext::has_next`, file_map_stream.rs:121-126. -/
def hasNext (s : FileMapStream) : Bool := s.str.hasNext

/-- `PartialEq`, `PartialOrd`, `Ord`, file_map_stream.rs:74-96. -/
def cmp (a b : FileMapStream) : Res Ordering := a.str.cmp b.str

/-- `Location::location`, file_map_stream.rs:98-103. -/
def location (s : FileMapStream) : String := s.str.location

/-- `CodeSnippet::code_snippet`, file_map_stream.rs:105-110. -/
def codeSnippet (s : FileMapStream) (n : Nat) : Res String := s.str.codeSnippet n

/-- `StreamSpan::stream_span`, file_map_stream.rs:128-137. `mk_sp` is the plain pair. -/
def span (a b : FileMapStream) : Nat × Nat := (a.absPos, b.absPos)

/-- The trait implementations gathered. The position denoted by a stream is its offset from the start of the code map. -/
def ops : StreamOps FileMapStream where
  next := next
  consumePrefix := consumePrefix
  hasNext := hasNext
  cmp := cmp
  pos s := s.start + s.str.off
  span := span

end FileMapStream
end Oak
