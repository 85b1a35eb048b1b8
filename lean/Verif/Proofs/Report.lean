import Verif.Model.Report
import Verif.Spec.Report
import Verif.Proofs.Stream
/-!
Lemmas on lines, columns and messages.
-/
set_option autoImplicit false

namespace Oak
open Spec

theorem splitTerminator_nonl {l : List Char} (h : '\n' ∉ l) (hne : l ≠ []) : splitTerminator l = [l] := by
  induction l with
  | nil => exact absurd rfl hne
  | cons c l ih =>
    have hc : ¬ c = '\n' := fun e => h (e ▸ List.mem_cons_self)
    simp only [splitTerminator, hc, if_false]
    cases l with
    | nil => rfl
    | cons d l => rw [ih (fun e => h (List.mem_cons_of_mem _ e)) (by simp)]

theorem splitTerminator_nl {l : List Char} (h : '\n' ∉ l) (t : List Char) :
    splitTerminator (l ++ '\n' :: t) = l :: splitTerminator t := by
  induction l with
  | nil => simp [splitTerminator]
  | cons c l ih =>
    have hc : ¬ c = '\n' := fun e => h (e ▸ List.mem_cons_self)
    simp only [List.cons_append, splitTerminator, hc, if_false]
    rw [ih (fun e => h (List.mem_cons_of_mem _ e))]

theorem split_first_line (l : List Char) : '\n' ∉ l ∨ ∃ a b, l = a ++ '\n' :: b ∧ '\n' ∉ a := by
  induction l with
  | nil => exact .inl (by simp)
  | cons c l ih =>
    by_cases hc : c = '\n'
    · exact .inr ⟨[], l, by rw [hc]; rfl, by simp⟩
    · rcases ih with h | ⟨a, b, rfl, h⟩
      · exact .inl (by simp [h, Ne.symm hc])
      · exact .inr ⟨c :: a, b, rfl, by simp [h, Ne.symm hc]⟩

theorem takeWhile_nonl {p : List Char} (h : '\n' ∉ p) (l : List Char) :
    (p ++ l).takeWhile (· ≠ '\n') = p ++ l.takeWhile (· ≠ '\n') := by
  induction p with
  | nil => rfl
  | cons c p ih =>
    have hc : c ≠ '\n' := fun e => h (e ▸ List.mem_cons_self)
    simp only [List.cons_append, List.takeWhile_cons, hc, ne_eq, not_false_eq_true, decide_true, if_true]
    rw [← ih (fun e => h (List.mem_cons_of_mem _ e))]

theorem lastLine_nonl {p : List Char} (h : '\n' ∉ p) : lastLine p = p := by
  unfold lastLine
  have := takeWhile_nonl (p := p.reverse) (by simpa using h) []
  rw [List.append_nil] at this
  rw [this]; simp

theorem takeWhile_nl (q l : List Char) :
    (q ++ '\n' :: l).takeWhile (· ≠ '\n') = q.takeWhile (· ≠ '\n') := by
  induction q with
  | nil => simp
  | cons c q ih =>
    simp only [List.cons_append, List.takeWhile_cons]
    rw [ih]

theorem lastLine_nl (l p : List Char) : lastLine (l ++ '\n' :: p) = lastLine p := by
  unfold lastLine
  simp only [List.reverse_append, List.reverse_cons, List.append_assoc, List.cons_append, List.nil_append, takeWhile_nl]

theorem lineAfter_nonl {p : List Char} (h : '\n' ∉ p) : lineAfter p = 1 := by
  simp [lineAfter, List.count_eq_zero.2 h]

theorem lineAfter_nl {l : List Char} (h : '\n' ∉ l) (p : List Char) : lineAfter (l ++ '\n' :: p) = lineAfter p + 1 := by
  simp [lineAfter, List.count_append, List.count_eq_zero.2 h]; omega

theorem blen_stripCR (l : List Char) : (stripCR l = l ∧ l.getLast? ≠ some '\r') ∨
    ∃ q, l = q ++ ['\r'] ∧ stripCR l = q := by
  unfold stripCR
  split
  · rename_i h
    rcases List.eq_nil_or_concat l with rfl | ⟨q, a, rfl⟩
    · simp at h
    · simp only [List.concat_eq_append, List.getLast?_append, List.getLast?_singleton, Option.some_or, Option.some.injEq] at h
      subst h
      exact .inr ⟨q, by simp, by simp⟩
  · rename_i h; exact .inl ⟨rfl, h⟩

theorem blen_stripCR_le (l : List Char) : blen (stripCR l) ≤ blen l := by
  rcases blen_stripCR l with ⟨h, _⟩ | ⟨q, h, hq⟩
  · rw [h]; exact Nat.le_refl _
  · rw [hq, h, blen_append]; omega

theorem lineColumnLoop_ge (rem n : Nat) (ls : List (List Char)) : n ≤ (lineColumnLoop rem n ls).1 := by
  induction ls generalizing rem n with
  | nil => simp [lineColumnLoop]
  | cons l ls ih =>
    simp only [lineColumnLoop]
    split
    · simp
    · exact Nat.le_trans (Nat.le_succ n) (ih _ _)

/-- With too large an offset, the line and column are not those of `p`. -/
theorem lineColumnLoop_ne (m : Nat) (p r : List Char) (hm : p.length ≤ m) (k n : Nat) (hk : 0 < k) :
    lineColumnLoop (blen p + k) n (lines (p ++ r)) ≠ (n + (lineAfter p - 1), columnAfter p) := by
  induction m generalizing p n k with
  | zero =>
    have hp : p = [] := by cases p with | nil => rfl | cons _ _ => simp at hm
    subst hp
    intro h
    have h1 := congrArg Prod.fst h
    have h2 := congrArg Prod.snd h
    simp only [lineAfter_nonl (p := []) (by simp), columnAfter, lastLine_nonl (p := []) (by simp), blen, Nat.zero_add] at h1 h2
    cases hl : lines ([] ++ r) with
    | nil => rw [hl] at h2; simp only [lineColumnLoop] at h2; omega
    | cons a ls =>
      rw [hl] at h1 h2
      simp only [lineColumnLoop] at h1 h2
      split at h1
      · rename_i hlt; rw [if_pos hlt] at h2; simp only at h2; omega
      · have := lineColumnLoop_ge (k - (blen a + 1)) (n + 1) ls
        omega
  | succ m ih =>
    rcases split_first_line p with hp | ⟨l, q, rfl, hl⟩
    · intro h
      have h1 := congrArg Prod.fst h
      have h2 := congrArg Prod.snd h
      simp only [lineAfter_nonl hp, columnAfter, lastLine_nonl hp] at h1 h2
      cases hls : lines (p ++ r) with
      | nil => rw [hls] at h2; simp only [lineColumnLoop] at h2; omega
      | cons a ls =>
        rw [hls] at h1 h2
        simp only [lineColumnLoop] at h1 h2
        split at h1
        · rename_i hlt; rw [if_pos hlt] at h2; simp only at h2; omega
        · have := lineColumnLoop_ge (blen p + k - (blen a + 1)) (n + 1) ls
          omega
    · have hlines : lines (l ++ '\n' :: q ++ r) = stripCR l :: lines (q ++ r) := by
        unfold lines
        rw [List.append_assoc, List.cons_append, splitTerminator_nl hl]; rfl
      rw [hlines, lineAfter_nl hl]
      have hle := blen_stripCR_le l
      have hb : blen (l ++ '\n' :: q) = blen l + 1 + blen q := by
        rw [blen_append]; simp only [blen, show ('\n').utf8Size = 1 from rfl]; omega
      simp only [lineColumnLoop, hb]
      rw [if_neg (by omega)]
      have hc : columnAfter (l ++ '\n' :: q) = columnAfter q := by simp only [columnAfter, lastLine_nl]
      have hge : 1 ≤ lineAfter q := by unfold lineAfter; omega
      rw [hc, show n + (lineAfter q + 1 - 1) = (n + 1) + (lineAfter q - 1) by omega,
        show blen l + 1 + blen q + k - (blen (stripCR l) + 1) = blen q + (k + (blen l - blen (stripCR l))) by omega]
      exact ih q (by simp at hm; omega) _ _ (by omega)

theorem noEndingCR_nl {l : List Char} (hl : l.getLast? ≠ some '\r') (q r : List Char) (h' : '\n' ∉ l) :
    NoEndingCR (l ++ '\n' :: q) r ↔ NoEndingCR q r := by
  constructor
  · intro h a b hq
    exact h (l ++ '\n' :: a) b (by rw [hq]; simp)
  · intro h a b hab
    rw [List.append_eq_append_iff] at hab
    rcases hab with ⟨c, rfl, h2⟩ | ⟨c, h1, h2⟩
    · cases c with
      | nil => simp at h2
      | cons d c =>
        simp only [List.cons_append, List.cons.injEq] at h2
        exact h c b h2.2
    · cases c with
      | nil => simp at h2
      | cons d c =>
        simp only [List.cons_append, List.cons.injEq] at h2
        obtain ⟨rfl, rfl⟩ := h2
        cases c with
        | nil => rw [h1] at hl; simp at hl
        | cons d c =>
          refine ⟨d, _, rfl, ?_⟩
          intro e
          exact h' (by rw [h1, e]; simp)

/-- The loop computes the line and column exactly when no carriage return before the position ends a line. -/
theorem lineColumnLoop_iff (m : Nat) (p r : List Char) (hm : p.length ≤ m) (n : Nat) :
    lineColumnLoop (blen p) n (lines (p ++ r)) = (n + (lineAfter p - 1), columnAfter p) ↔ NoEndingCR p r := by
  induction m generalizing p n with
  | zero =>
    have hp : p = [] := by cases p with | nil => rfl | cons _ _ => simp at hm
    subst hp
    constructor
    · intro _ q s h; simp at h
    · intro _
      cases hl : lines ([] ++ r) <;>
        simp [lineColumnLoop, blen, lineAfter_nonl (p := []) (by simp), columnAfter, lastLine_nonl (p := []) (by simp)]
  | succ m ih =>
    rcases split_first_line p with hp | ⟨l, q, rfl, hl⟩
    · -- the position is on the first line
      rw [lineAfter_nonl hp, columnAfter, lastLine_nonl hp]
      -- the first line of the text
      obtain ⟨l, ls, hls, hpl, hlr⟩ : ∃ l ls, (lines (p ++ r) = stripCR l :: ls ∨ (l = [] ∧ lines (p ++ r) = [])) ∧ p <+: l ∧
          (l = p ++ r ∨ ∃ t, p ++ r = l ++ '\n' :: t) ∧ '\n' ∉ l := by
        rcases split_first_line (p ++ r) with h | ⟨a, b, hab, ha⟩
        · by_cases hne : p ++ r = []
          · refine ⟨[], [], .inr ⟨rfl, by rw [hne]; rfl⟩, ?_, .inl hne.symm, by simp⟩
            simp only [List.append_eq_nil_iff] at hne
            rw [hne.1]; exact List.nil_prefix
          · refine ⟨p ++ r, [], .inl ?_, List.prefix_append _ _, .inl rfl, h⟩
            unfold lines; rw [splitTerminator_nonl h hne]; rfl
        · refine ⟨a, lines b, .inl ?_, ?_, .inr ⟨b, hab⟩, ha⟩
          · unfold lines; rw [hab, splitTerminator_nl ha]; rfl
          · rw [List.append_eq_append_iff] at hab
            rcases hab with ⟨c, rfl, _⟩ | ⟨c, h1, h2⟩
            · exact List.prefix_append _ _
            · cases c with
              | nil => rw [h1]; simp
              | cons d c =>
                simp only [List.cons_append, List.cons.injEq] at h2
                exact absurd (by rw [h1, ← h2.1]; simp) hp
      obtain ⟨hlr, hnl⟩ := hlr
      obtain ⟨u, rfl⟩ := hpl
      have hends : ∀ q s, p = q ++ '\r' :: s → s ++ u ≠ [] → ∃ c t, s ++ r = c :: t ∧ c ≠ '\n' := by
        intro q s hps hne
        have hr : ∃ w, r = u ++ w := by
          rcases hlr with h | ⟨t, h⟩
          · exact ⟨[], by simpa using (List.append_cancel_left h).symm⟩
          · rw [List.append_assoc] at h; exact ⟨_, List.append_cancel_left h⟩
        obtain ⟨w, rfl⟩ := hr
        cases hs : s ++ u with
        | nil => exact absurd hs hne
        | cons c t =>
          refine ⟨c, t ++ w, by rw [← List.append_assoc, hs]; rfl, ?_⟩
          intro e
          apply hnl
          rw [hps, List.append_assoc, List.cons_append, hs, e]; simp
      rcases hls with hls | ⟨hnil, hls⟩
      · rw [hls]
        simp only [lineColumnLoop]
        rcases blen_stripCR (p ++ u) with ⟨hs, hcr⟩ | ⟨q, hq, hs⟩
        · rw [hs, if_pos (by rw [blen_append]; omega)]
          constructor
          · intro _ a s hps
            apply hends a s hps
            intro e
            simp only [List.append_eq_nil_iff] at e
            rw [hps, e.1, e.2] at hcr
            simp at hcr
          · intro _; simp [Nat.add_comm]
        · rw [hs]
          by_cases hu : u = []
          · subst hu
            simp only [List.append_nil] at hq
            have hb : blen p = blen q + 1 := by rw [hq, blen_append]; rfl
            rw [if_neg (by omega)]
            constructor
            · intro h
              have := lineColumnLoop_ge (blen p - (blen q + 1)) (n + 1) ls
              rw [h] at this
              simp only at this
              omega
            · intro h
              obtain ⟨c, t, h1, h2⟩ := h q [] hq
              rcases hlr with h3 | ⟨w, h3⟩
              · simp only [List.append_nil] at h3
                have : r = [] := by simpa using h3.symm
                rw [this] at h1; cases h1
              · rw [List.append_nil] at h3
                have := List.append_cancel_left h3
                rw [this] at h1
                simp only [List.nil_append, List.cons.injEq] at h1
                exact absurd h1.1.symm h2
          · have hlt : blen p < blen q + 1 := by
              have h1 : blen (p ++ u) = blen q + 1 := by rw [hq, blen_append]; rfl
              rw [blen_append] at h1
              have : 0 < blen u := Nat.pos_of_ne_zero (fun h => hu (blen_eq_zero.1 h))
              omega
            rw [if_pos hlt]
            constructor
            · intro _ a s hps
              exact hends a s hps (by simp [hu])
            · intro _; simp [Nat.add_comm]
      · rw [hls]
        simp only [List.append_eq_nil_iff] at hnil
        obtain ⟨rfl, rfl⟩ := hnil
        constructor
        · intro _ q s h; simp at h
        · intro _; simp [lineColumnLoop, blen]
    · have hlines : lines (l ++ '\n' :: q ++ r) = stripCR l :: lines (q ++ r) := by
        unfold lines
        rw [List.append_assoc, List.cons_append, splitTerminator_nl hl]; rfl
      have hb : blen (l ++ '\n' :: q) = blen l + 1 + blen q := by
        rw [blen_append]; simp only [blen, show ('\n').utf8Size = 1 from rfl]; omega
      have hc : columnAfter (l ++ '\n' :: q) = columnAfter q := by simp only [columnAfter, lastLine_nl]
      have hge : 1 ≤ lineAfter q := by unfold lineAfter; omega
      have hle := blen_stripCR_le l
      rw [hlines, lineAfter_nl hl, hc]
      simp only [lineColumnLoop, hb]
      rw [if_neg (by omega), show n + (lineAfter q + 1 - 1) = (n + 1) + (lineAfter q - 1) by omega]
      rcases blen_stripCR l with ⟨hs, hcr⟩ | ⟨a, ha, hs⟩
      · rw [hs, show blen l + 1 + blen q - (blen l + 1) = blen q by omega, noEndingCR_nl hcr q r hl]
        exact ih q (by simp at hm; omega) _
      · have h1 : blen l = blen a + 1 := by rw [ha, blen_append]; rfl
        rw [hs, show blen l + 1 + blen q - (blen a + 1) = blen q + 1 by omega]
        constructor
        · intro h
          exact absurd h (lineColumnLoop_ne q.length q r (Nat.le_refl _) 1 (n + 1) (by omega))
        · intro h
          obtain ⟨c, t, h2, h3⟩ := h a ('\n' :: q) (by rw [ha]; simp)
          simp only [List.cons_append, List.cons.injEq] at h2
          exact absurd h2.1.symm h3

/-! Messages -/

theorem foldl_items (items : List String) (d : List Char) :
    items.foldl (fun d x => d ++ ['`'] ++ x.toList ++ "` or ".toList) d =
      d ++ items.flatMap (fun x => '`' :: x.toList ++ "` or ".toList) := by
  induction items generalizing d with
  | nil => simp
  | cons x xs ih => rw [List.foldl_cons, ih]; simp

theorem itemList_append {items : List String} (h : items ≠ []) :
    items.flatMap (fun x => '`' :: x.toList ++ "` or ".toList) = itemList items ++ " or ".toList := by
  induction items with
  | nil => exact absurd rfl h
  | cons x xs ih =>
    cases xs with
    | nil => simp [itemList]
    | cons y ys => rw [List.flatMap_cons, ih (by simp)]; simp [itemList]

theorem expectedItems_eq (items : List String) : expectedItems items = .ok (String.ofList (itemList items)) := by
  unfold expectedItems
  cases items with
  | nil => rfl
  | cons x xs =>
    rw [if_pos (by simp), foldl_items, itemList_append (by simp)]
    simp only [List.nil_append]
    rw [show blen (itemList (x :: xs) ++ " or ".toList) - 4 = blen (itemList (x :: xs)) by
      rw [blen_append, show blen " or ".toList = 4 by decide +kernel]; omega, takeBytes_append]

end Oak
