import Verif.Proofs.FileMap
import Verif.Properties.Parsing
/-!
Properties of streams over registered files.
-/
set_option autoImplicit false

namespace Oak
open Spec

/-! ### C36 -/

/-- C36: a stream over a file does what the stream over its text does. -/
theorem C36_calls (start : Nat) (s t : StrStream) (p : String) (n : Nat) :
    FileMapStream.next ⟨start, s⟩ = (s.next >>= fun r => .ok (r.1, ⟨start, r.2⟩)) ∧
    FileMapStream.consumePrefix p ⟨start, s⟩ = (s.consumePrefix p >>= fun r => .ok (r.1, ⟨start, r.2⟩)) ∧
    FileMapStream.hasNext ⟨start, s⟩ = s.hasNext ∧ FileMapStream.cmp ⟨start, s⟩ ⟨start, t⟩ = s.cmp t ∧
    FileMapStream.location ⟨start, s⟩ = s.location ∧ FileMapStream.codeSnippet ⟨start, s⟩ n = s.codeSnippet n :=
  ⟨rfl, rfl, rfl, rfl, rfl, rfl⟩

variable {G : Grammar} {T : Nat → Ty} {fs : List (FnRef × Fn)} {start ptr : Nat} {input : List Char} {r : String} {e : Expr}

/-- C36: a generated recognizer returns on a file what it returns on its text. -/
theorem C36_recognizer (g : Generated G T fs) (he : G.find r = some e) (res : PResult FileMapStream Val) :
    ReturnsFile fs false r start ptr input res ↔
      ∃ res', Returns noFns fs false r ptr input res' ∧ res = res'.mapStream (⟨start, ·⟩) := by
  rw [g.file_iff he]
  have hmap : ∀ L o, expectedFileResult G T e false start ptr input L o =
      (expectedResult G T e false ptr input L o).mapStream (⟨start, ·⟩) := by
    intro L o
    cases o with
    | fail => rfl
    | ok s' t =>
      simp only [expectedFileResult, expectedResult]
      split <;> rfl
  constructor
  · rintro ⟨o, L, hp, rfl⟩
    exact ⟨_, ((g.deployed ptr input).returns_iff he false _).2 ⟨o, L, hp, rfl⟩, hmap L o⟩
  · rintro ⟨res', h, rfl⟩
    obtain ⟨o, L, hp, rfl⟩ := ((g.deployed ptr input).returns_iff he false _).1 h
    exact ⟨o, L, hp, (hmap L o).symm⟩

/-- C36: a generated parser returns on a file what it returns on its text, with spans shifted by the start of the file. -/
theorem C36_parser (g : Generated G T fs) (he : G.find r = some e) (res : PResult FileMapStream Val) :
    ReturnsFile fs true r start ptr input res ↔
      ∃ o L, Peg G noExt e input o L ∧ res = expectedFileResult G T e true start ptr input L o :=
  g.file_iff he true res

/-- C36: when the file fits below 2^32 in the code map, the spans are the offsets shifted by the start of the file. -/
theorem C36_span (a b : StrStream) (ha : StrStream.At ptr input a) (hb : StrStream.At ptr input b) (hfit : start + blen input < 2 ^ 32) :
    FileMapStream.ops.span ⟨start, a⟩ ⟨start, b⟩ = (start + (StrStream.ops.span a b).1, start + (StrStream.ops.span a b).2) := by
  have h1 := StrStream.off_add ha
  have h2 := StrStream.off_add hb
  simp only [FileMapStream.ops, FileMapStream.span, FileMapStream.absPos, StrStream.ops, StrStream.span, StrStream.asU32]
  rw [Nat.mod_eq_of_lt (show a.off < 2 ^ 32 by omega), Nat.mod_eq_of_lt (show b.off < 2 ^ 32 by omega),
    Nat.mod_eq_of_lt (by omega), Nat.mod_eq_of_lt (by omega)]

/-- C36, restricted to files without Windows line endings: the creation of the stream registers the starts of the lines.
Missing: files with Windows line endings, for which it is false. -/
theorem C36_lines_partial (start : Nat) (src : List Char) (hcr : ¬ ∃ q s, src = q ++ '\r' :: '\n' :: s)
    (hfit : start + blen src + 1 < 2 ^ 32) :
    FileMapStream.new ptr ⟨start, some src, []⟩ = .ok (⟨start, some src, lineStarts start true src⟩, ⟨start, StrStream.new ptr src⟩) := by
  have h : NoEndingCR src ['x'] := by
    intro q s hs
    cases s with
    | nil => exact ⟨'x', [], rfl, by decide⟩
    | cons c s =>
      refine ⟨c, _, rfl, ?_⟩
      intro hc
      exact hcr ⟨q, s, by rw [hs, hc]⟩
  simp only [FileMapStream.new, FileMap.registerLines, FileMap.countLines, List.length_nil, if_true]
  rw [registerLoop_ok src.length src (Nat.le_refl _) _ _ h (by simp) hfit]
  simp

/-- C36: the creation of the stream succeeds exactly if the position after the last line, ended by a newline if it is not, fits in 32 bits. Otherwise it panics (in a debug build). -/
theorem C36_fits (start : Nat) (src : List Char) (hcr : '\r' ∉ src) (hs : start < 2 ^ 32) (hb : blen src < 2 ^ 32) :
    (endOfLines start src < 2 ^ 32 → ∃ f s, FileMapStream.new ptr ⟨start, some src, []⟩ = .ok (f, s)) ∧
    (¬ endOfLines start src < 2 ^ 32 → FileMapStream.new ptr ⟨start, some src, []⟩ = .panic) := by
  have := registerLoop_fits src.length src (Nat.le_refl _) ⟨start, some src, []⟩ start hcr (by simp) hb hs
  simp only [FileMapStream.new, FileMap.registerLines, FileMap.countLines, List.length_nil, if_true]
  refine ⟨fun h => ?_, fun h => ?_⟩
  · obtain ⟨f', hf⟩ := this.1 h
    rw [hf]; exact ⟨_, _, rfl⟩
  · rw [this.2 h]; rfl

example : FileMapStream.new 0 ⟨2 ^ 32 - 2, some "a".toList, []⟩ = .panic := (C36_fits (2 ^ 32 - 2) "a".toList (by decide) (by decide) (by decide)).2 (by decide +kernel)
example : ∃ f s, FileMapStream.new 0 ⟨2 ^ 32 - 3, some "a".toList, []⟩ = .ok (f, s) := (C36_fits (2 ^ 32 - 3) "a".toList (by decide) (by decide) (by decide)).1 (by decide +kernel)

/-- C36: lines that are already registered are kept. -/
theorem C36_lines_kept (f : FileMap) (src : List Char) (hsrc : f.src = some src) (h : f.lines ≠ []) :
    FileMapStream.new ptr f = .ok (f, ⟨f.start, StrStream.new ptr src⟩) := by
  have : f.countLines ≠ 0 := by simp [FileMap.countLines, h]
  simp only [FileMapStream.new, hsrc, FileMap.registerLines, this, if_false, Res.bind_ok]

/-- C36, exactly: the registered lines are those of the file in which Windows line endings are replaced by newlines. -/
theorem C36_lines_exact (start : Nat) (src : List Char) (hfit : start + blen src + 1 < 2 ^ 32) :
    FileMapStream.new ptr ⟨start, some src, []⟩ = .ok (⟨start, some src, lineStarts start true (withoutCR src)⟩, ⟨start, StrStream.new ptr src⟩) := by
  simp only [FileMapStream.new, FileMap.registerLines, FileMap.countLines, List.length_nil, if_true]
  rw [registerLoop_unix src.length src (Nat.le_refl _) _ _ (by simp) hfit]
  rfl

/-- C36: the registered lines are right iff no Windows line ending is followed by something. -/
theorem C36_lines_iff (start : Nat) (src : List Char) (hfit : start + blen src + 1 < 2 ^ 32) :
    FileMapStream.new ptr ⟨start, some src, []⟩ = .ok (⟨start, some src, lineStarts start true src⟩, ⟨start, StrStream.new ptr src⟩) ↔
      ¬ ∃ q s, src = q ++ '\r' :: '\n' :: s ∧ s ≠ [] := by
  rw [C36_lines_exact start src hfit, ← lineStarts_unix src.length src (Nat.le_refl _) start]
  simp

example : FileMapStream.new 0 ⟨0, some "a\r\nb".toList, []⟩ = .ok (⟨0, some "a\r\nb".toList, [0, 2]⟩, ⟨0, StrStream.new 0 "a\r\nb".toList⟩) :=
  C36_lines_exact 0 _ (by decide +kernel)
example : FileMapStream.new 0 ⟨0, some "a\n\rb\r\n".toList, []⟩ = .ok (⟨0, some "a\n\rb\r\n".toList, [0, 2]⟩, ⟨0, StrStream.new 0 "a\n\rb\r\n".toList⟩) := by
  rfl

/-- C36 is false of the lines of files with Windows line endings: the second line starts at offset 3. -/
theorem C36_lines_counterexample : ∃ f s, FileMapStream.new 0 ⟨0, some "a\r\nb".toList, []⟩ = .ok (f, s) ∧
    f.lines = [0, 2] ∧ lineStarts 0 true "a\r\nb".toList = [0, 3] :=
  ⟨_, _, rfl, by decide +kernel, by decide +kernel⟩

example : ReturnsFile Sample.spansFs true "all" 100 0 "ab".toList (.success (.tup [.span 100 102, .list [.chr 'a', .chr 'b']])) := ⟨20, rfl⟩
example : (FileMapStream.new 0 ⟨10, some "A\n\nT\n".toList, []⟩ : Res _) =
    .ok (⟨10, some "A\n\nT\n".toList, [10, 12, 13]⟩, ⟨10, StrStream.new 0 "A\n\nT\n".toList⟩) := by rfl

end Oak
