import Verif.Proofs.Main
import Verif.Proofs.Report
import Verif.Spec.FileMap
/-!
Streams over registered files are lawful; registration of lines.
-/
set_option autoImplicit false

namespace Oak
open Spec

namespace FileMapStream

theorem lawful (start ptr : Nat) (raw : List Char) : LawfulStream ops (At start ptr raw) rest raw where
  next_cons := by
    intro s c cs h hr
    obtain ⟨s', a, b, e, _⟩ := StrStream.next_cons h.2 hr
    exact ⟨{ s with str := s' }, by simp [ops, next, a], ⟨h.1, b⟩, e⟩
  next_nil := by
    intro s h hr
    exact ⟨s, by simp [ops, next, StrStream.next_nil h.2 hr], h, hr⟩
  prefix_true := by
    intro s p r h hr
    obtain ⟨s', a, b, e, _⟩ := StrStream.prefix_true h.2 hr
    exact ⟨{ s with str := s' }, by simp [ops, consumePrefix, a], ⟨h.1, b⟩, e⟩
  prefix_false := by
    intro s p h hr
    simp [ops, consumePrefix, StrStream.prefix_false h.2 hr]
  hasNext_eq := by intro s h; exact StrStream.hasNext_eq h.2
  cmp_eq := by
    intro a b ha hb
    have := (StrStream.lawful ptr raw).cmp_eq ha.2 hb.2
    simp only [ops, cmp]
    rw [show a.str.cmp b.str = StrStream.ops.cmp a.str b.str from rfl, this]
    rfl
  suffix := by intro s h; exact (StrStream.lawful ptr raw).suffix h.2

end FileMapStream

theorem fileSpans_pos {start ptr : Nat} {input : List Char} (a : FileMapStream) (h : FileMapStream.At start ptr input a) :
    (fileSpans start input).pos a.rest = FileMapStream.ops.pos a := by
  have := StrStream.off_add h.2
  simp only [fileSpans, FileMapStream.ops, FileMapStream.rest, h.1]; omega

theorem fileSpans_span {start ptr : Nat} {input : List Char} (a b : FileMapStream) (ha : FileMapStream.At start ptr input a)
    (hb : FileMapStream.At start ptr input b) :
    (fileSpans start input).span a.rest b.rest = FileMapStream.ops.span a b := by
  have h1 := StrStream.off_add ha.2
  have h2 := StrStream.off_add hb.2
  simp only [fileSpans, FileMapStream.ops, FileMapStream.span, FileMapStream.absPos, StrStream.asU32, FileMapStream.rest, ha.1, hb.1]
  rw [show blen input - blen a.str.rest = a.str.off by omega, show blen input - blen b.str.rest = b.str.off by omega]
  simp [Nat.add_mod]

section
variable {G : Grammar} {T : Nat → Ty} {fs : List (FnRef × Fn)} {start ptr : Nat} {input : List Char}

theorem fileExt_ok : ExtOk (FileMapStream.At start ptr input) FileMapStream.rest (fun _ _ _ => .timeout) G noExt where
  sound _ _ _ _ _ _ := .inl rfl
  complete _ _ _ _ _ _ h := h.elim
  det _ _ _ _ _ _ h := h.elim

theorem fileOk_new : OkSt (FileMapStream.At start ptr input) (PState.new ⟨start, StrStream.new ptr input⟩) :=
  ⟨⟨rfl, .new ptr input⟩, ⟨rfl, .new ptr input⟩, rfl, rfl⟩

theorem Generated.fileSys (g : Generated G T fs) (start ptr : Nat) (input : List Char) :
    Sys FileMapStream.ops (FileMapStream.At start ptr input) FileMapStream.rest input (fun _ _ _ => .timeout) G T
      (fileSpans start input) noExt :=
  g.sys (FileMapStream.lawful start ptr input) fileSpans_pos fileSpans_span

theorem noExt_forward : noExt.Forward := fun _ _ _ _ h => h.elim

theorem file_intoResult {p : Bool} {e : Expr} {o : Out} {L : Log} {st' : PState FileMapStream Val} (hp : Peg G noExt e input o L)
    (hr : FnRes (FileMapStream.At start ptr input) FileMapStream.rest (RuleVal G T (fileSpans start input) e p)
      (PState.new ⟨start, StrStream.new ptr input⟩) L st' o) :
    st'.intoResult FileMapStream.ops = .ok (expectedFileResult G T e p start ptr input L o) := by
  have htr : ∀ {st'}, After (FileMapStream.At start ptr input) FileMapStream.rest (PState.new ⟨start, StrStream.new ptr input⟩) st' L →
      st'.far = ⟨start, streamAt ptr input (farthest input L)⟩ ∧ st'.exp = expectedAt (farthest input L) L := by
    intro st' ha
    have := ha.track
    simp only [PState.new, FileMapStream.rest, StrStream.rest_new, track_new noExt_forward hp, Prod.mk.injEq] at this
    obtain ⟨h1, h2⟩ := ha.far
    refine ⟨?_, this.2⟩
    have h3 := at_eq_streamAt h2
    rw [this.1] at h3
    cases hf : st'.far
    rw [hf] at h1 h3
    simp_all
  cases o with
  | fail =>
    obtain ⟨h1, h2, h3⟩ := hr
    obtain ⟨e1, e2⟩ := htr h3
    simp [PState.intoResult, h2, h1, expectedFileResult, e1, e2]
  | ok s' t =>
    obtain ⟨h1, h2, ⟨d, hd, hv, _⟩, h3⟩ := hr
    obtain ⟨e1, e2⟩ := htr h3
    have hn : FileMapStream.ops.hasNext st'.cur = !s'.isEmpty := by
      rw [← h2]; exact StrStream.hasNext_eq h3.cur.2
    simp only [PState.intoResult, hd, hn, expectedFileResult, e1, e2, hv]
    cases s' <;> simp

/-- Results on registered files are those of matches. -/
theorem Generated.file_iff (g : Generated G T fs) {r : String} {e : Expr} (he : G.find r = some e) (p : Bool)
    (res : PResult FileMapStream Val) :
    ReturnsFile fs p r start ptr input res ↔ ∃ o L, Peg G noExt e input o L ∧ res = expectedFileResult G T e p start ptr input L o := by
  have sound : ∀ n st, OkSt (FileMapStream.At start ptr input) st →
      Program.run FileMapStream.ops (fun _ _ _ => .timeout) ⟨fs⟩ n ⟨p, [r]⟩ st = .timeout ∨
      ∃ o L st', Program.run FileMapStream.ops (fun _ _ _ => .timeout) ⟨fs⟩ n ⟨p, [r]⟩ st = .ok st' ∧ Peg G noExt e st.cur.rest o L ∧
        FnRes (FileMapStream.At start ptr input) FileMapStream.rest (RuleVal G T (fileSpans start input) e p) st L st' o := by
    intro n st hst
    rw [program_correct FileMapStream.ops _ G T fs g.compiled g.scopes g.coherent]
    exact (runProg_sound (g.fileSys start ptr input) fileExt_ok n).rule p r e st he hst
  have hrest : (FileMapStream.rest (PState.new (D := Val) (⟨start, StrStream.new ptr input⟩ : FileMapStream)).cur) = input := by
    simp [PState.new, FileMapStream.rest]
  constructor
  · rintro ⟨n, hn⟩
    unfold Program.parse at hn
    rcases sound n _ fileOk_new with h | ⟨o, L, st', h, hp, hr⟩
    · rw [h] at hn; cases hn
    · rw [h] at hn
      rw [hrest] at hp
      refine ⟨o, L, hp, ?_⟩
      simp only [Res.bind_ok] at hn
      rw [file_intoResult hp hr] at hn
      cases hn; rfl
  · rintro ⟨o, L, hp, rfl⟩
    obtain ⟨n0, h⟩ := runProg_complete (g.fileSys start ptr input) fileExt_ok he hp
    have hnt := h n0 (Nat.le_refl _) p _ fileOk_new hrest
    rw [← program_correct FileMapStream.ops _ G T fs g.compiled g.scopes g.coherent] at hnt
    refine ⟨n0, ?_⟩
    unfold Program.parse
    rcases sound n0 _ fileOk_new with h | ⟨o', L', st', h, hp', hr⟩
    · exact absurd h hnt
    · rw [h]
      rw [hrest] at hp'
      obtain ⟨rfl, rfl⟩ := hp.det (fun _ _ _ _ _ _ h => h.elim) hp'
      exact file_intoResult hp hr

end

/-! Registration of lines -/

theorem lineStarts_false (pos : Nat) {l : List Char} (h : '\n' ∉ l) (t : List Char) :
    lineStarts pos false (l ++ t) = match t with
      | [] => []
      | c :: cs => lineStarts (pos + blen l + c.utf8Size) (c = '\n') cs := by
  induction l generalizing pos with
  | nil => cases t <;> simp [lineStarts, blen]
  | cons c l ih =>
    have hc : (c = '\n') = False := eq_false (fun e => h (e ▸ List.mem_cons_self))
    simp only [List.cons_append, lineStarts, hc, decide_false, Bool.false_eq_true, if_false, List.nil_append]
    rw [ih _ (fun e => h (List.mem_cons_of_mem _ e))]
    cases t <;> simp only [blen, Nat.add_assoc]

theorem lineStarts_line (pos : Nat) {l : List Char} (h : '\n' ∉ l) (t : List Char) :
    lineStarts pos true (l ++ '\n' :: t) = pos :: lineStarts (pos + blen l + 1) true t := by
  cases l with
  | nil => simp [lineStarts, blen]; rfl
  | cons c l =>
    have hc : (c = '\n') = False := eq_false (fun e => h (e ▸ List.mem_cons_self))
    simp only [List.cons_append, lineStarts, hc, decide_false, if_true, List.cons_append, List.nil_append]
    rw [lineStarts_false _ (fun e => h (List.mem_cons_of_mem _ e))]
    simp only [blen, decide_true, Nat.add_assoc]; rfl

theorem lineStarts_last (pos : Nat) {l : List Char} (h : '\n' ∉ l) (hne : l ≠ []) : lineStarts pos true l = [pos] := by
  cases l with
  | nil => exact absurd rfl hne
  | cons c l =>
    have hc : (c = '\n') = False := eq_false (fun e => h (e ▸ List.mem_cons_self))
    simp only [lineStarts, hc, decide_false, if_true, List.cons_append, List.nil_append]
    have := lineStarts_false (pos + c.utf8Size) (fun e => h (List.mem_cons_of_mem _ e)) []
    rw [List.append_nil] at this
    rw [this]

theorem registerLoop_ok (m : Nat) (src : List Char) (hm : src.length ≤ m) (f : FileMap) (pos : Nat)
    (hcr : NoEndingCR src ['x']) (hlast : ∀ l, f.lines.getLast? = some l → l < pos) (hfit : pos + blen src + 1 < 2 ^ 32) :
    f.registerLoop pos (lines src) = .ok { f with lines := f.lines ++ lineStarts pos true src } := by
  induction m generalizing src f pos with
  | zero =>
    have : src = [] := by cases src with | nil => rfl | cons _ _ => simp at hm
    subst this
    simp [lines, splitTerminator, FileMap.registerLoop, lineStarts]
  | succ m ih =>
    have hnext : f.nextLine pos = .ok { f with lines := f.lines ++ [pos] } := by
      unfold FileMap.nextLine
      cases h : f.lines.getLast? with
      | none => rfl
      | some l => simp [hlast l h]
    rcases split_first_line src with hs | ⟨l, t, rfl, hl⟩
    · by_cases hne : src = []
      · subst hne
        simp [lines, splitTerminator, FileMap.registerLoop, lineStarts]
      · have hlines : lines src = [stripCR src] := by unfold lines; rw [splitTerminator_nonl hs hne]; rfl
        have hle := blen_stripCR_le src
        rw [hlines, lineStarts_last pos hs hne]
        have h1 : blen (stripCR src) % 2 ^ 32 = blen (stripCR src) := Nat.mod_eq_of_lt (by omega)
        simp only [FileMap.registerLoop, hnext, Res.bind_ok, FileMap.addU32, StrStream.asU32, h1]
        rw [if_pos (by omega)]
        simp only [Res.bind_ok]
        rw [if_pos (by omega)]
        rfl
    · have hlines : lines (l ++ '\n' :: t) = stripCR l :: lines t := by
        unfold lines
        rw [splitTerminator_nl hl]; rfl
      have hb : blen (l ++ '\n' :: t) = blen l + 1 + blen t := by
        rw [blen_append]; simp only [blen, show ('\n').utf8Size = 1 from rfl]; omega
      have hstrip : stripCR l = l ∧ l.getLast? ≠ some '\r' := by
        rcases blen_stripCR l with h | ⟨q, hq, _⟩
        · exact h
        · obtain ⟨c, t', h1, h2⟩ := hcr q ('\n' :: t) (by rw [hq]; simp)
          simp only [List.cons_append, List.cons.injEq] at h1
          exact absurd h1.1.symm h2
      rw [hlines, lineStarts_line pos hl, hstrip.1]
      have h1 : blen l % 2 ^ 32 = blen l := Nat.mod_eq_of_lt (by omega)
      simp only [FileMap.registerLoop, hnext, Res.bind_ok, FileMap.addU32, StrStream.asU32, h1]
      rw [if_pos (by omega)]
      simp only [Res.bind_ok]
      rw [if_pos (by omega)]
      simp only [Res.bind_ok]
      rw [ih t (by simp at hm; omega) _ _ ((noEndingCR_nl hstrip.2 t ['x'] hl).1 hcr) ?_ (by omega)]
      · simp [Nat.add_assoc]
      · intro x hx
        simp at hx
        omega

/-! Windows line endings -/

theorem withoutCR_nonl {l : List Char} (h : '\n' ∉ l) : withoutCR l = l := by
  induction l with
  | nil => rfl
  | cons c l ih =>
    rw [withoutCR, ih (fun e => h (List.mem_cons_of_mem _ e)), if_neg]
    rintro ⟨_, hh⟩
    cases l with
    | nil => cases hh
    | cons d l => simp at hh; exact h (by simp [hh])

theorem withoutCR_line {l : List Char} (h : '\n' ∉ l) (t : List Char) : withoutCR (l ++ '\n' :: t) = stripCR l ++ '\n' :: withoutCR t := by
  have hnl : withoutCR ('\n' :: t) = '\n' :: withoutCR t := by rw [withoutCR, if_neg (by simp)]
  rcases blen_stripCR l with ⟨h1, h2⟩ | ⟨q, rfl, h2⟩
  · rw [h1]
    clear h1
    induction l with
    | nil => exact hnl
    | cons c l ih =>
      have hn : '\n' ∉ l := fun e => h (List.mem_cons_of_mem _ e)
      rw [List.cons_append, withoutCR]
      cases l with
      | nil =>
        simp at h2
        rw [if_neg (by simp [h2]), List.nil_append, hnl]; rfl
      | cons d l =>
        rw [if_neg (by simp only [List.cons_append, List.head?_cons, Option.some.injEq, not_and]; intro _ e; exact hn (by simp [e])),
          ih hn (by simpa using h2)]; rfl
  · rw [h2]
    have hq : '\n' ∉ q := fun e => h (by simp [e])
    clear h2 h
    induction q with
    | nil => rw [List.nil_append, List.cons_append, withoutCR, if_pos (by simp), List.nil_append, hnl]; rfl
    | cons c q ih =>
      have hn : '\n' ∉ q := fun e => hq (List.mem_cons_of_mem _ e)
      have := ih hn
      simp only [List.cons_append] at this ⊢
      rw [withoutCR, if_neg, this]
      rintro ⟨_, e⟩
      cases q with
      | nil => simp at e
      | cons d q => simp at e; exact hn (by simp [e])

/-- The registered lines are those of the text without carriage returns at ends of lines. -/
theorem registerLoop_unix (m : Nat) (src : List Char) (hm : src.length ≤ m) (f : FileMap) (pos : Nat)
    (hlast : ∀ l, f.lines.getLast? = some l → l < pos) (hfit : pos + blen src + 1 < 2 ^ 32) :
    f.registerLoop pos (lines src) = .ok { f with lines := f.lines ++ lineStarts pos true (withoutCR src) } := by
  induction m generalizing src f pos with
  | zero =>
    have : src = [] := by cases src with | nil => rfl | cons _ _ => simp at hm
    subst this
    simp [lines, splitTerminator, FileMap.registerLoop, lineStarts, withoutCR]
  | succ m ih =>
    have hnext : f.nextLine pos = .ok { f with lines := f.lines ++ [pos] } := by
      unfold FileMap.nextLine
      cases h : f.lines.getLast? with
      | none => rfl
      | some l => simp [hlast l h]
    rcases split_first_line src with hs | ⟨l, t, rfl, hl⟩
    · by_cases hne : src = []
      · subst hne
        simp [lines, splitTerminator, FileMap.registerLoop, lineStarts, withoutCR]
      · have hlines : lines src = [stripCR src] := by unfold lines; rw [splitTerminator_nonl hs hne]; rfl
        have hle := blen_stripCR_le src
        rw [hlines, withoutCR_nonl hs, lineStarts_last pos hs hne]
        have h1 : blen (stripCR src) % 2 ^ 32 = blen (stripCR src) := Nat.mod_eq_of_lt (by omega)
        simp only [FileMap.registerLoop, hnext, Res.bind_ok, FileMap.addU32, StrStream.asU32, h1]
        rw [if_pos (by omega)]
        simp only [Res.bind_ok]
        rw [if_pos (by omega)]
        rfl
    · have hlines : lines (l ++ '\n' :: t) = stripCR l :: lines t := by
        unfold lines
        rw [splitTerminator_nl hl]; rfl
      have hb : blen (l ++ '\n' :: t) = blen l + 1 + blen t := by
        rw [blen_append]; simp only [blen, show ('\n').utf8Size = 1 from rfl]; omega
      have hle := blen_stripCR_le l
      have hsn : '\n' ∉ stripCR l := by
        rcases blen_stripCR l with ⟨h, _⟩ | ⟨q, hq, h⟩
        · rwa [h]
        · rw [h]; intro e; exact hl (by rw [hq]; simp [e])
      rw [hlines, withoutCR_line hl, lineStarts_line pos hsn]
      have h1 : blen (stripCR l) % 2 ^ 32 = blen (stripCR l) := Nat.mod_eq_of_lt (by omega)
      simp only [FileMap.registerLoop, hnext, Res.bind_ok, FileMap.addU32, StrStream.asU32, h1]
      rw [if_pos (by omega)]
      simp only [Res.bind_ok]
      rw [if_pos (by omega)]
      simp only [Res.bind_ok]
      rw [ih t (by simp at hm; omega) _ _ ?_ (by omega)]
      · simp [Nat.add_assoc]
      · intro x hx
        simp at hx
        omega

theorem lineStarts_head {t : List Char} (pos : Nat) (h : t ≠ []) : (lineStarts pos true t).head? = some pos := by
  cases t with
  | nil => exact absurd rfl h
  | cons c t => simp [lineStarts]

theorem withoutCR_ne {t : List Char} (h : t ≠ []) : withoutCR t ≠ [] := by
  induction t with
  | nil => exact absurd rfl h
  | cons c t ih =>
    rw [withoutCR]
    split
    · rename_i hh
      refine ih ?_
      rintro rfl
      simp at hh
    · simp

/-- They are the lines of the text iff no Windows line ending is followed by something. -/
theorem lineStarts_unix (m : Nat) (src : List Char) (hm : src.length ≤ m) (pos : Nat) :
    lineStarts pos true (withoutCR src) = lineStarts pos true src ↔ ¬ ∃ q s, src = q ++ '\r' :: '\n' :: s ∧ s ≠ [] := by
  induction m generalizing src pos with
  | zero =>
    have : src = [] := by cases src with | nil => rfl | cons _ _ => simp at hm
    subst this
    simp [withoutCR]
  | succ m ih =>
    rcases split_first_line src with hs | ⟨l, t, rfl, hl⟩
    · rw [withoutCR_nonl hs]
      simp only [true_iff]
      rintro ⟨q, s, rfl, _⟩
      simp at hs
    · have hsn : '\n' ∉ stripCR l := by
        rcases blen_stripCR l with ⟨h, _⟩ | ⟨q, hq, h⟩
        · rwa [h]
        · rw [h]; intro e; exact hl (by rw [hq]; simp [e])
      rw [withoutCR_line hl, lineStarts_line pos hsn, lineStarts_line pos hl, List.cons.injEq]
      simp only [true_and]
      rcases blen_stripCR l with ⟨h, hr⟩ | ⟨q, hq, h⟩
      · rw [h, ih t (by simp at hm; omega)]
        refine not_congr ⟨?_, ?_⟩
        · rintro ⟨a, b, rfl, hb⟩
          exact ⟨l ++ '\n' :: a, b, by simp, hb⟩
        · rintro ⟨a, b, hab, hb⟩
          rw [List.append_eq_append_iff] at hab
          rcases hab with ⟨c, rfl, h2⟩ | ⟨c, h1, h2⟩
          · cases c with
            | nil => simp at h2
            | cons x c => simp only [List.cons_append, List.cons.injEq] at h2; exact ⟨c, b, h2.2, hb⟩
          · cases c with
            | nil => simp at h2
            | cons x c =>
              simp only [List.cons_append, List.cons.injEq] at h2
              cases c with
              | nil => rw [h1, ← h2.1] at hr; simp at hr
              | cons y c =>
                simp only [List.cons_append, List.cons.injEq] at h2
                exact absurd (by rw [h1, ← h2.2.1]; simp) hl
      · have hbl : blen l = blen (stripCR l) + 1 := by
          rw [h, hq, blen_append]; rfl
        by_cases ht : t = []
        · subst ht
          constructor
          · intro _
            rintro ⟨a, b, hab, hb⟩
            have h0 : '\n' ∈ (l ++ ['\n']).dropLast := by
              rw [hab]
              obtain ⟨b', x, rfl⟩ : ∃ b' x, b = b' ++ [x] := ⟨b.dropLast, b.getLast hb, (List.dropLast_concat_getLast hb).symm⟩
              rw [show a ++ '\r' :: '\n' :: (b' ++ [x]) = (a ++ '\r' :: '\n' :: b') ++ [x] by simp, List.dropLast_concat]
              simp
            rw [List.dropLast_concat] at h0
            exact hl h0
          · intro _; simp [withoutCR, lineStarts]
        · constructor
          · intro he
            have := congrArg List.head? he
            rw [lineStarts_head _ (withoutCR_ne ht), lineStarts_head _ ht] at this
            simp at this
            omega
          · intro hc
            exact absurd ⟨q, t, by rw [hq]; simp, ht⟩ hc

theorem registerLoop_fits (m : Nat) (src : List Char) (hm : src.length ≤ m) (f : FileMap) (pos : Nat) (hcr : '\r' ∉ src) (hlast : ∀ l, f.lines.getLast? = some l → l < pos)
    (hb : blen src < 2 ^ 32) (hpos : pos < 2 ^ 32) :
    (endOfLines pos src < 2 ^ 32 → ∃ f', f.registerLoop pos (lines src) = .ok f') ∧ (¬ endOfLines pos src < 2 ^ 32 → f.registerLoop pos (lines src) = .panic) := by
  induction m generalizing src f pos with
  | zero =>
    have : src = [] := by cases src with | nil => rfl | cons _ _ => simp at hm
    subst this
    simp [lines, splitTerminator, FileMap.registerLoop, endOfLines, blen]
    exact hpos
  | succ m ih =>
    have hnext : f.nextLine pos = .ok { f with lines := f.lines ++ [pos] } := by
      unfold FileMap.nextLine
      cases h : f.lines.getLast? with
      | none => rfl
      | some l => simp [hlast l h]
    have hstrip : ∀ l, '\r' ∉ l → stripCR l = l := by
      intro l hl
      unfold stripCR
      rw [if_neg]
      intro h
      exact hl (List.mem_of_getLast? h)
    rcases split_first_line src with hs | ⟨l, t, rfl, hl⟩
    · by_cases hne : src = []
      · subst hne
        simp [lines, splitTerminator, FileMap.registerLoop, endOfLines, blen]
        exact hpos
      · have hlines : lines src = [src] := by unfold lines; rw [splitTerminator_nonl hs hne, List.map_singleton, hstrip src hcr]
        have hend : endOfLines pos src = pos + (blen src + 1) := by
          unfold endOfLines
          rw [if_neg]
          · omega
          · rintro (h | h)
            · exact hne h
            · exact hs (List.mem_of_getLast? h)
        rw [hlines, hend]
        have h1 : blen src % 2 ^ 32 = blen src := Nat.mod_eq_of_lt hb
        simp only [FileMap.registerLoop, hnext, Res.bind_ok, FileMap.addU32, StrStream.asU32, h1]
        constructor
        · intro h
          rw [if_pos (by omega)]
          simp only [Res.bind_ok]
          rw [if_pos (by omega)]
          exact ⟨_, rfl⟩
        · intro h
          by_cases h2 : blen src + 1 < 2 ^ 32
          · rw [if_pos h2]
            simp only [Res.bind_ok]
            rw [if_neg h]
            rfl
          · rw [if_neg h2]
            rfl
    · have hlr : '\r' ∉ l := fun h => hcr (by simp [h])
      have hlines : lines (l ++ '\n' :: t) = l :: lines t := by
        unfold lines
        rw [splitTerminator_nl hl, List.map_cons, hstrip l hlr]
      have hbl : blen (l ++ '\n' :: t) = blen l + 1 + blen t := by
        rw [blen_append]; simp only [blen, show ('\n').utf8Size = 1 from rfl]; omega
      have hend : endOfLines pos (l ++ '\n' :: t) = endOfLines (pos + (blen l + 1)) t := by
        unfold endOfLines
        rw [hbl]
        cases t with
        | nil => simp [blen]
        | cons c t =>
          simp
          omega
      rw [hlines, hend]
      have h1 : blen l % 2 ^ 32 = blen l := Nat.mod_eq_of_lt (by omega)
      simp only [FileMap.registerLoop, hnext, Res.bind_ok, FileMap.addU32, StrStream.asU32, h1]
      rw [if_pos (show blen l + 1 < 2 ^ 32 by omega)]
      simp only [Res.bind_ok]
      by_cases h2 : pos + (blen l + 1) < 2 ^ 32
      · rw [if_pos h2]
        simp only [Res.bind_ok]
        exact ih t (by simp at hm; omega) _ _ (fun h => hcr (by simp [h])) (by simp) (by omega) h2
      · rw [if_neg h2]
        refine ⟨fun h => absurd h (by unfold endOfLines; omega), fun _ => rfl⟩
end Oak
