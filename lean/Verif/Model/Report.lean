import Verif.Model.ParseState
/-!
Model of the error reports of the runtime: locations, snippets and messages
(`runtime/src/str_stream.rs`, `runtime/src/parse_state.rs`).
-/
set_option autoImplicit false

namespace Oak

/-- `str::split_terminator('\n')`: the pieces between newlines, without the last one when it is empty. -/
def splitTerminator : List Char → List (List Char)
  | [] => []
  | c :: cs =>
    if c = '\n' then [] :: splitTerminator cs
    else match splitTerminator cs with
      | [] => [[c]]
      | l :: ls => (c :: l) :: ls

/-- Removes one final `\r`, as `str::lines` does on every line. -/
def stripCR (l : List Char) : List Char := if l.getLast? = some '\r' then l.dropLast else l

/-- `str::lines`. -/
def lines (raw : List Char) : List (List Char) := (splitTerminator raw).map stripCR

/-- The loop of `StrStream::line_column`, str_stream.rs:66-73. -/
def lineColumnLoop (remaining lineNo : Nat) : List (List Char) → Nat × Nat
  | [] => (lineNo, remaining + 1)
  | l :: ls =>
    let lineLen := blen l + 1
    if remaining < lineLen then (lineNo, remaining + 1)
    else lineColumnLoop (remaining - lineLen) (lineNo + 1) ls

namespace StrStream

/-- `StrStream::line_column`, str_stream.rs:63-75. -/
def lineColumn (s : StrStream) : Nat × Nat := lineColumnLoop s.off 1 (lines s.raw)

/-- `Location::location`, str_stream.rs:126-132: `format!("{}:{}", line, column)`. -/
def location (s : StrStream) : String := toString s.lineColumn.1 ++ ":" ++ toString s.lineColumn.2

/-- `CodeSnippet::code_snippet`, str_stream.rs:134-147; `&raw[off..][..len]` panics outside of character boundaries,
`total_len - current_offset` panics on underflow. -/
def codeSnippet (s : StrStream) (lenHint : Nat) : Res String :=
  let total := blen s.raw
  if s.off = total then .ok "<end-of-file>"
  else if total < s.off then .panic
  else
    let len := min (total - s.off) lenHint
    match dropBytes s.raw s.off with
    | none => .panic
    | some r => match takeBytes r len with
      | none => .panic
      | some t => .ok (String.ofList t)

end StrStream

/-- `ParseExpectation::expected_items`, parse_state.rs:56-68. `items` is the order in which the hash set enumerates its
elements (any order, without repetition). `String::truncate` panics outside of character boundaries. -/
def expectedItems (items : List String) : Res String :=
  if items.length > 0 then
    let desc := items.foldl (fun d x => d ++ ['`'] ++ x.toList ++ "` or ".toList) []
    match takeBytes desc (blen desc - 4) with
    | some d => .ok (String.ofList d)
    | none => .panic
  else .ok ""

/-- `Debug for ParseExpectation`, parse_state.rs:72-83: `"{}: unexpected `{}`, expecting {}."`. -/
def debugExpectation (far : StrStream) (items : List String) : Res String := do
  let expected ← expectedItems items
  let snippet ← far.codeSnippet 10
  .ok (far.location ++ ": unexpected `" ++ snippet ++ "`, expecting " ++ expected ++ ".")

/-- `Debug for ParseResult`, parse_state.rs:91-113. `debugData` is the `Debug` instance of the data, `order` the enumeration
order of the set made of a list of expected items. -/
def debugResult {D : Type} (debugData : D → String) (order : List String → List String) : PResult StrStream D → Res String
  | .success d => .ok ("Full match, got data `" ++ debugData d ++ "`.")
  | .part d far exp => do
    let e ← debugExpectation far (order exp)
    .ok ("Partial match, got data `" ++ debugData d ++ "`. It stopped because:\n\t" ++ e)
  | .failure far exp => do
    let e ← debugExpectation far (order exp)
    .ok ("Error:\n\t" ++ e)

end Oak
