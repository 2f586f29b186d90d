import Verif.Proofs.TextLines
import Verif.Model.TextBoxItem
import Mathlib.Tactic.FieldSimp
import Mathlib.Tactic.Linarith

/-!
# Properties C09, C10, C17, C18: line numbers, lines, inline and line boxes
-/

namespace Verif.Text
open Spec

/-- **C09.** Line `i` (from 0) of the numbered snippet is line `i` of the snippet, preceded by a
label in style `code_lineno`: the decimal digits of `i + 1`, zero-padded to the width of the
number of lines, and a space.  There are no other changes, and nesting is kept. -/
theorem C09_line_numbers (toks : List Tok) :
    ∃ label : Nat → Str,
      lines (addLineNumbers toks) = (lines toks).mapIdx (fun i l =>
        .opn "code_lineno".toList :: .text (label i ++ [' ']) :: .close :: l) ∧
      (∀ i, i < (lines toks).length →
        (label i).length = (Nat.toDigits 10 (lines toks).length).length ∧
        (∀ c ∈ label i, c.isDigit = true) ∧ Nat.ofDigitChars 10 (label i) 0 = i + 1) ∧
      (Balanced toks → Balanced (addLineNumbers toks)) := by
  refine ⟨fun i => zfill (natStr (lines toks).length).length (natStr (i + 1)), ?_, ?_, ?_⟩
  · rw [lines_addLineNumbers]; rfl
  · intro i hi
    have hle : (natStr (i + 1)).length ≤ (natStr (lines toks).length).length :=
      toDigits_length_mono (by omega)
    refine ⟨?_, ?_, ?_⟩
    · simp only [zfill, List.length_append, List.length_replicate]
      simp only [natStr] at *; omega
    · intro c hc
      simp only [zfill, List.mem_append, List.mem_replicate] at hc
      rcases hc with ⟨_, rfl⟩ | hc
      · decide
      · exact Nat.isDigit_of_mem_toDigits (by omega) (by omega) hc
    · simp only [zfill]
      rw [ofDigitChars_replicate_zero]
      exact Nat.ofDigitChars_toDigits (by omega) (by omega)
  · intro hb
    rw [balanced_iff_depth] at hb ⊢
    simp [addLineNumbers, lineLabel, numberLoop_depth, hb]

example : addLineNumbers [.text ['a'], .newline 2, .opn ['s'], .text ['b'], .close] =
    [.opn "code_lineno".toList, .text "1 ".toList, .close, .text ['a'], .newline 1,
     .opn "code_lineno".toList, .text "2 ".toList, .close, .newline 1,
     .opn "code_lineno".toList, .text "3 ".toList, .close, .opn ['s'], .text ['b'], .close] := by
  decide +kernel

theorem tw_imp (p : Tok → Bool) (l : List Tok) (x : Tok) (h : x ∈ l.takeWhile p) : p x = true := by
  induction l with
  | nil => simp at h
  | cons a l ih =>
    rw [List.takeWhile_cons] at h
    split at h
    · rcases List.mem_cons.mp h with rfl | h
      · assumption
      · exact ih h
    · simp at h

/-- **C10.** For a balanced stream and an index whose token is not a line break, the stream splits
into what precedes the line, the line, and the rest; the extracted line is the styles open at the
start of the line (whatever follows the line's start is displayed alike after `opened`), the
tokens of the line, and closings; it is balanced, displays the line with the
same styles, and the returned index designates the same token. -/
theorem C10_extract_line (toks : List Tok) (hb : Balanced toks) (index : Nat) (t : Tok)
    (ht : toks[index]? = some t) (hnn : ∀ n, t ≠ .newline n) :
    ∃ (pre line post : List Tok) (opened : List Str) (result : List Tok) (j : Nat),
      toks = pre ++ line ++ post ∧
      (pre = [] ∨ ∃ p n, pre = p ++ [.newline n]) ∧ (∀ n, Tok.newline n ∉ line) ∧
      (post = [] ∨ ∃ n q, post = .newline n :: q) ∧
      pre.length ≤ index ∧ index < pre.length + line.length ∧
      extractLine toks index = .ok (result, (j : Int)) ∧
      result = opened.map .opn ++ line ++ List.replicate (result.length - opened.length - line.length) .close ∧
      Balanced result ∧ result[j]? = some t ∧ j = opened.length + (index - pre.length) ∧
      (∀ rest, shown [] (pre ++ rest) = shown [] pre ++ shown [] (opened.map .opn ++ rest)) ∧
      ∃ after, shown [] toks = shown [] pre ++ shown [] result ++ after := by
  have hidx : index < toks.length := by
    by_contra h
    rw [List.getElem?_eq_none (by omega)] at ht
    cases ht
  have hti : toks[index] = t := by
    rw [List.getElem?_eq_getElem hidx] at ht; exact Option.some.inj ht
  have htn : t.isNewline = false := by cases t <;> simp_all [Tok.isNewline]
  obtain ⟨s1, s2, s3⟩ := lineStart_spec toks (index + 1) (by omega)
  have hbi : lineStart toks (index + 1) ≤ index := by
    rcases Nat.lt_or_ge index (lineStart toks (index + 1)) with h | h
    · rcases s3 with h0 | ⟨n, hn, _⟩
      · omega
      · have : lineStart toks (index + 1) - 1 = index := by omega
        rw [this, ht] at hn
        injection hn with hn
        exact absurd hn (hnn n)
    · exact h
  set b := lineStart toks (index + 1) with hbdef
  set e := lineEnd toks index with hedef
  have hie : index < e := by
    rw [hedef]; unfold lineEnd
    rw [List.drop_eq_getElem_cons hidx, List.takeWhile_cons, hti]
    simp [htn]
  have hel : e ≤ toks.length := by
    rw [hedef]; unfold lineEnd
    have := (List.takeWhile_prefix (l := toks.drop index) (fun t => !t.isNewline)).length_le
    simp at this; omega
  -- depths
  have hd := depth_of_balanced hb 0
  have hsplit : toks = toks.take b ++ (toks.take e).drop b ++ toks.drop e := by
    have h1 : toks.take b ++ (toks.take e).drop b = toks.take e := by
      have := List.take_append_drop b (toks.take e)
      rwa [List.take_take, Nat.min_eq_left (by omega)] at this
    rw [h1, List.take_append_drop]
  set pre := toks.take b with hpre
  set line := (toks.take e).drop b with hline
  set post := toks.drop e with hpost
  obtain ⟨d1, hd1⟩ : ∃ d1, depth 0 pre = some d1 := by
    rw [hsplit, List.append_assoc, depth_append] at hd
    cases h : depth 0 pre with
    | none => simp [h] at hd
    | some d => exact ⟨d, rfl⟩
  obtain ⟨d2, hd2⟩ : ∃ d2, depth d1 line = some d2 := by
    rw [hsplit, List.append_assoc, depth_append, hd1, Option.bind_some, depth_append] at hd
    cases h : depth d1 line with
    | none => simp [h] at hd
    | some d => exact ⟨d, rfl⟩
  have hst := openBlocksRev_eq pre [] d1 hd1
  have hstl := stackAfter_length pre [] d1 hd1
  set st := stackAfter [] pre with hstdef
  have hob : openBlocks pre = .ok (st.reverse.map .opn) := by simp [openBlocks, hst]
  have hdres : depth 0 (st.reverse.map .opn ++ line) = some d2 := by
    rw [depth_append, depth_opens]; simp [hstl, hd2]
  have hcount : openBlocksCount (st.reverse.map .opn ++ line) = d2 := by
    have := openBlocksCount_eq _ _ _ hdres; simpa using this
  have hlinelen : line.length = e - b := by simp [hline]; omega
  have hprelen : pre.length = b := by simp [hpre]; omega
  have hrlen : (st.reverse.map Tok.opn).length = st.length := by simp
  refine ⟨pre, line, post, st.reverse, st.reverse.map .opn ++ line ++ List.replicate d2 .close,
    st.length + (index - b), hsplit, ?_, ?_, ?_, by omega, by omega, ?_, ?_, ?_, ?_, ?_, ?_, ?_⟩
  · rcases s3 with h0 | ⟨n, hn, hpos⟩
    · left; simp [hpre, h0]
    · right
      refine ⟨toks.take (b - 1), n, ?_⟩
      have hlt : b - 1 < toks.length := by omega
      have : toks[b-1] = .newline n := by
        rw [List.getElem?_eq_getElem hlt] at hn; exact Option.some.inj hn
      rw [hpre]
      conv_lhs => rw [show b = (b - 1) + 1 by omega, List.take_succ_eq_append_getElem hlt, this]
  · intro n hn
    have hsub : line = (toks.take (index + 1)).drop b ++ (toks.take e).drop (index + 1) := by
      rw [hline]
      have h1 : toks.take e = toks.take (index + 1) ++ (toks.take e).drop (index + 1) := by
        have := List.take_append_drop (index + 1) (toks.take e)
        rw [List.take_take, Nat.min_eq_left (by omega)] at this
        exact this.symm
      conv_lhs => rw [h1]
      rw [List.drop_append_of_le_length (by simp; omega)]
    rw [hsub, List.mem_append] at hn
    rcases hn with hn | hn
    · have := s2 _ hn; simp [Tok.isNewline] at this
    · have h2 : (toks.take e).drop (index + 1) <:+ (toks.take e).drop index := by
        have : (toks.take e).drop (index + 1) = ((toks.take e).drop index).drop 1 := by simp
        rw [this]; exact List.drop_suffix _ _
      have h3 : (toks.take e).drop index = (toks.drop index).takeWhile (fun t => !t.isNewline) := by
        rw [hedef]; unfold lineEnd
        rw [List.drop_take, Nat.add_sub_cancel_left]
        exact (List.prefix_iff_eq_take.mp (List.takeWhile_prefix _)).symm
      have h4 := h2.mem hn
      rw [h3] at h4
      have := tw_imp _ _ _ h4
      simp [Tok.isNewline] at this
  · have h5 : post = (toks.drop index).dropWhile (fun t => !t.isNewline) := by
      rw [hpost, hedef]; unfold lineEnd
      have := List.takeWhile_append_dropWhile (p := fun t : Tok => !t.isNewline) (l := toks.drop index)
      rw [← List.drop_drop]
      conv_lhs => rw [← this]
      exact List.drop_left' (by rw [this])
    cases hp : post with
    | nil => left; rfl
    | cons x q =>
      right
      rw [h5] at hp
      have hne : (toks.drop index).dropWhile (fun t => !t.isNewline) ≠ [] := by rw [hp]; simp
      have := List.head_dropWhile_not (fun t : Tok => !t.isNewline) hne
      simp only [hp, List.head_cons] at this
      cases x with
      | newline n => exact ⟨n, q, rfl⟩
      | _ => simp [Tok.isNewline] at this
  · unfold extractLine
    rw [if_pos hidx]
    simp only [← hbdef, ← hedef, ← hpre, ← hline, hob, hcount]
    simp
    omega
  · simp
  · rw [balanced_iff_depth, depth_append, hdres]
    simpa using depth_closes d2 0
  · rw [List.append_assoc, List.getElem?_append_right (by simp), List.getElem?_append_left (by simp; omega)]
    simp only [List.length_map, List.length_reverse, Nat.add_sub_cancel_left]
    rw [hline, List.getElem?_drop, List.getElem?_take_of_lt (by omega)]
    rw [show b + (index - b) = index by omega]
    exact ht
  · simp [hprelen]
  · intro rest
    rw [shown_append, shown_opens, ← hstdef]; simp
  · rw [shown_append_closes, shown_opens]
    simp only [List.reverse_reverse, List.append_nil]
    refine ⟨shown (stackAfter st line) post, ?_⟩
    conv_lhs => rw [hsplit, List.append_assoc, shown_append, shown_append, ← hstdef]
    simp

example : extractLine [.opn ['s'], .text ['a'], .newline 1, .opn ['t'], .text ['b'], .close, .newline 2,
    .text ['c'], .close] 3 = .ok ([.opn ['s'], .opn ['t'], .text ['b'], .close, .close], 1) := by
  decide +kernel

/-- **C17.** `inline_box(name, n)` chooses the token that opens `name` and is preceded by exactly
`n - 1` openings of `name`; it raises exactly if there are fewer than `n`. -/
theorem C17_inline_box (toks : List Tok) (name : Str) (n : Nat) (hn : 1 ≤ n) :
    (∀ i, inlineBoxIndex toks name n = .ok i ↔
      toks[i]? = some (.opn name) ∧ (toks.take i).count (.opn name) = n - 1) ∧
    ((∃ err, inlineBoxIndex toks name n = .error err) ↔ toks.count (.opn name) < n) := by
  have aux : ∀ (toks : List Tok) (k n : Nat), 1 ≤ n →
      (∀ i, inlineLoop name k n toks = .ok i ↔
        k ≤ i ∧ toks[i - k]? = some (.opn name) ∧ (toks.take (i - k)).count (.opn name) = n - 1) ∧
      ((∃ err, inlineLoop name k n toks = .error err) ↔ toks.count (.opn name) < n) := by
    intro toks
    induction toks with
    | nil => intro k n hn; simp [inlineLoop]; omega
    | cons t ts ih =>
      intro k n hn
      simp only [inlineLoop]
      by_cases ht : t = .opn name
      · subst ht
        by_cases hc : n - 1 = 0
        · simp only [if_true, hc]
          refine ⟨fun i => ⟨?_, ?_⟩, ?_⟩
          · intro h; injection h with h; subst h; simp
          · rintro ⟨h1, h2, h3⟩
            rcases Nat.eq_zero_or_pos (i - k) with h0 | h0
            · rw [show i = k by omega]
            · obtain ⟨m, hm⟩ : ∃ m, i - k = m + 1 := ⟨i - k - 1, by omega⟩
              rw [hm] at h3; simp at h3
          · simp; omega
        · simp only [if_true, if_neg hc]
          have := ih (k + 1) (n - 1) (by omega)
          refine ⟨fun i => ?_, ?_⟩
          · rw [this.1]
            constructor
            · rintro ⟨h1, h2, h3⟩
              obtain ⟨m, hm⟩ : ∃ m, i - k = m + 1 := ⟨i - k - 1, by omega⟩
              have hm' : i - (k + 1) = m := by omega
              rw [hm'] at h2 h3
              rw [hm]
              refine ⟨by omega, by simpa using h2, ?_⟩
              simp [h3]; omega
            · rintro ⟨h1, h2, h3⟩
              rcases Nat.eq_zero_or_pos (i - k) with h0 | h0
              · rw [h0] at h3; simp at h3; omega
              · obtain ⟨m, hm⟩ : ∃ m, i - k = m + 1 := ⟨i - k - 1, by omega⟩
                have hm' : i - (k + 1) = m := by omega
                rw [hm] at h2 h3
                rw [hm']
                simp at h2 h3
                exact ⟨by omega, h2, by omega⟩
          · rw [this.2]; simp; omega
      · simp only [if_neg ht]
        have := ih (k + 1) n hn
        refine ⟨fun i => ?_, ?_⟩
        · rw [this.1]
          constructor
          · rintro ⟨h1, h2, h3⟩
            obtain ⟨m, hm⟩ : ∃ m, i - k = m + 1 := ⟨i - k - 1, by omega⟩
            have hm' : i - (k + 1) = m := by omega
            rw [hm'] at h2 h3
            rw [hm]
            exact ⟨by omega, by simpa using h2, by simp [ht, h3]⟩
          · rintro ⟨h1, h2, h3⟩
            rcases Nat.eq_zero_or_pos (i - k) with h0 | h0
            · rw [h0] at h2; simp at h2; exact absurd h2 ht
            · obtain ⟨m, hm⟩ : ∃ m, i - k = m + 1 := ⟨i - k - 1, by omega⟩
              have hm' : i - (k + 1) = m := by omega
              rw [hm] at h2 h3
              rw [hm']
              simp [ht] at h2 h3
              exact ⟨by omega, h2, h3⟩
        · rw [this.2]; simp [ht]
  have hne : n ≠ 0 := by omega
  have := aux toks 0 n hn
  simp only [inlineBoxIndex, if_neg hne]
  simpa using this

example : inlineBoxIndex [.opn ['s'], .text ['a'], .close, .opn ['t'], .close, .opn ['s'], .close] ['s'] 2 = .ok 5 := by
  decide

/-- **C18.** The line boxes of a text block: line 0 starts at the top of the block, consecutive
lines are one line height apart, the line after the last starts at the bottom, the block is
vertically centred, an `n`-line box is `n` line heights plus one high, and an inline box sits on
the line of its token. -/
theorem C18_line_boxes (rect : Rect) (h : Rat) (toks : List Tok) (i n : Int) (index : Nat) :
    let N : Rat := ((lines toks).length : Rat)
    let top := (lineBox rect h toks 0 n).1
    let bottom := (lineBox rect h toks (lines toks).length n).1
    bottom - top = h ∧ top - rect.y = (rect.y + rect.height) - bottom ∧
    (lineBox rect h toks (i + 1) n).1 - (lineBox rect h toks i n).1 = h / N ∧
    (lineBox rect h toks i n).2 = n * (h / N) + 1 ∧
    inlineBoxY rect h toks index =
      lineBox rect h toks ((lines (toks.take index)).length - 1) 1 := by
  have hpos : (0 : Rat) < ((lines toks).length : Rat) := by
    have := List.length_pos_iff.mpr (lines_ne_nil toks)
    exact_mod_cast this
  simp only [lineBox, inlineBoxY, lines_length]
  refine ⟨?_, ?_, ?_, ?_, ?_⟩
  · push_cast; field_simp; ring
  · push_cast; field_simp; ring
  · push_cast; ring
  · ring
  · push_cast
    ext <;> simp

example : lineBox ⟨0, 0, 100, 100⟩ 40 [.text ['a'], .newline 1, .text ['b']] 1 1 = (50, 21) := by
  have : numberOfLines [.text ['a'], .newline 1, .text ['b']] = 2 := by decide
  norm_num [lineBox, this]

end Verif.Text
