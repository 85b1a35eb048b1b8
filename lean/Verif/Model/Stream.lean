import Verif.Model.Res
/-!
Model of the input streams of the runtime: `runtime/src/stream.rs`, `runtime/src/str_stream.rs`.
-/
set_option autoImplicit false

namespace Oak

/-- UTF-8 bytes of a list of characters (`str::as_bytes`). -/
def utf8 (l : List Char) : List UInt8 := l.flatMap String.utf8EncodeChar

/-- `str::len`: the number of bytes of a string. -/
def blen : List Char → Nat
  | [] => 0
  | c :: cs => c.utf8Size + blen cs

/-- `&s[n..]`: the suffix at byte offset `n`; `none` when `n` is not on a character boundary (Rust panics). -/
def dropBytes : List Char → Nat → Option (List Char)
  | l, 0 => some l
  | [], _ + 1 => none
  | c :: cs, n + 1 => if c.utf8Size ≤ n + 1 then dropBytes cs (n + 1 - c.utf8Size) else none

/-- `&s[..n]`: the prefix of `n` bytes; `none` when `n` is not on a character boundary (Rust panics). -/
def takeBytes : List Char → Nat → Option (List Char)
  | _, 0 => some []
  | [], _ + 1 => none
  | c :: cs, n + 1 =>
    if c.utf8Size ≤ n + 1 then (takeBytes cs (n + 1 - c.utf8Size)).map (c :: ·) else none

/-- The stream operations that the generated code and `ParseState` rely on
(traits of `runtime/src/stream.rs`:15-54 together with `Iterator`, `Ord`).
`pos` stands for the position denoted by a stream in a `Range`, `span` for `StreamSpan::stream_span`. -/
structure StreamOps (S : Type) where
  next : S → Res (Option Char × S)
  consumePrefix : String → S → Res (Bool × S)
  hasNext : S → Bool
  cmp : S → S → Res Ordering
  pos : S → Nat
  span : S → S → Nat × Nat

/-- `StrStream`, runtime/src/str_stream.rs:41-45.  `ptr` is the address of `raw_data`
(only compared by the debug assertion, str_stream.rs:57-60). -/
structure StrStream where
  ptr : Nat
  raw : List Char
  off : Nat
deriving Repr, DecidableEq

namespace StrStream

/-- `StrStream::new`, str_stream.rs:49-54. -/
def new (ptr : Nat) (raw : List Char) : StrStream := ⟨ptr, raw, 0⟩

/-- `StrStream::current_char`, str_stream.rs:81-83: panics when the slice is not on a boundary. -/
def currentChar (s : StrStream) : Res (Option Char) :=
  match dropBytes s.raw s.off with
  | some r => .ok r.head?
  | none => .panic

/-- `Iterator::next`, str_stream.rs:89-97. -/
def next (s : StrStream) : Res (Option Char × StrStream) :=
  if s.off < blen s.raw then do
    match ← s.currentChar with
    | some c => .ok (some c, { s with off := s.off + c.utf8Size })
    | none => .panic            -- `unwrap` on `None`
  else .ok (none, s)

/-- `ConsumePrefix::consume_prefix`, str_stream.rs:151-162: compares raw bytes. -/
def consumePrefix (p : String) (s : StrStream) : Res (Bool × StrStream) :=
  let e := s.off + blen p.toList
  if e ≤ blen s.raw ∧ ((utf8 s.raw).drop s.off).take (blen p.toList) = utf8 p.toList then
    .ok (true, { s with off := e })
  else .ok (false, s)

/-- `HasNext::has_next`, str_stream.rs:167-169. -/
def hasNext (s : StrStream) : Bool := s.off < blen s.raw

/-- `Ord::cmp`/`PartialOrd::partial_cmp`/`PartialEq::eq`, str_stream.rs:100-124: compare the offsets after the debug
assertion that both streams share the same raw data (str_stream.rs:57-60). -/
def cmp (a b : StrStream) : Res Ordering := do
  Res.assert (a.ptr == b.ptr)
  .ok (compare a.off b.off)

/-- `lo as u32`, runtime/src/lib.rs:32-36. -/
def asU32 (n : Nat) : Nat := n % 2 ^ 32

/-- `make_span`, runtime/src/lib.rs:32-36 and `stream_span`, str_stream.rs:172-180.
`mk_sp` of syntex_pos is modelled as the plain pair. -/
def span (a b : StrStream) : Nat × Nat := (asU32 a.off, asU32 b.off)

/-- The trait implementations of `StrStream` gathered, str_stream.rs:86-180. -/
def ops : StreamOps StrStream where
  next := next
  consumePrefix := consumePrefix
  hasNext := hasNext
  cmp := cmp
  pos := off
  span := span

end StrStream

end Oak
