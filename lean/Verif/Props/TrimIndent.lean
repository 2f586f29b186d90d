import Verif.Model.Code
import Verif.Spec.Code
import Mathlib.Data.List.DropRight

/-! # Property C16: removing common indentation -/

namespace Verif.Text
open Spec

theorem splitlinesAux_step {c : Char} (hc : isLineSep c = false) (cur cs : Str) :
    splitlinesAux cur (c :: cs) = splitlinesAux (c :: cur) cs := by
  conv => lhs; unfold splitlinesAux
  split
  · rename_i h; cases h
  · rename_i h; injection h with h1 h2; subst h1; simp [isLineSep] at hc
  · rename_i h; injection h with h1 h2; subst h1; subst h2; simp [hc]

theorem splitlinesAux_nl (cur cs : Str) :
    splitlinesAux cur ('\n' :: cs) = cur.reverse :: splitlinesAux [] cs := by
  conv => lhs; unfold splitlinesAux
  simp [isLineSep]

theorem splitlinesAux_line (l : Str) (hl : ∀ c ∈ l, isLineSep c = false) : ∀ (cur rest : Str),
    splitlinesAux cur (l ++ rest) = splitlinesAux (l.reverse ++ cur) rest := by
  induction l with
  | nil => intro cur rest; rfl
  | cons c l ih =>
    intro cur rest
    rw [List.cons_append, splitlinesAux_step (hl c (by simp)), ih (fun c hc => hl c (by simp [hc]))]
    simp

/-- Splitting joined lines gives the lines back, whether or not a final line break follows. -/
theorem splitlines_join (ls : List Str) (hs : ∀ l ∈ ls, ∀ c ∈ l, isLineSep c = false)
    (last : ∀ h : ls ≠ [], ls.getLast h ≠ []) (e : Str) (he : e = [] ∨ e = ['\n'] ∧ ls ≠ []) :
    splitlines (joinLines ls ++ e) = ls := by
  unfold splitlines
  induction ls with
  | nil => rcases he with rfl | ⟨_, h⟩ <;> simp_all [joinLines, splitlinesAux]
  | cons l ls ih =>
    cases ls with
    | nil =>
      have hl := last (by simp)
      simp only [List.getLast_singleton] at hl
      rw [joinLines, splitlinesAux_line l (hs l (by simp))]
      rcases he with rfl | ⟨rfl, _⟩
      · simp [splitlinesAux, hl]
      · rw [splitlinesAux_nl]; simp [splitlinesAux]
    | cons l2 ls =>
      rw [joinLines, List.append_assoc, splitlinesAux_line l (hs l (by simp)), List.cons_append, splitlinesAux_nl]
      rw [ih (fun l hl => hs l (by simp [hl])) (fun h => by simpa using last (by simp))
        (by rcases he with h | ⟨h, _⟩ <;> simp [h])]
      · simp
      · simp

theorem indentOf_eq (l : Str) : indentOf l = (l.takeWhile isSpace).length := by
  have := congrArg List.length (List.takeWhile_append_dropWhile (p := isSpace) (l := l))
  simp only [List.length_append] at this
  unfold indentOf; omega

theorem nonBlank_iff (l : Str) : nonBlank l = true ↔ ¬ Blank isSpace l := by
  simp [nonBlank, Blank]

/-- What `trim_indent` does to lines. -/
theorem trimIndent_lines (text : Str) (ls : List Str) (h : splitlines text = ls)
    (hb : ∃ l ∈ ls, ¬ Blank isSpace l) :
    ∃ m, trimIndent text = .ok (joinLines (ls.map (·.drop m))) ∧
      (∀ l ∈ ls, ¬ Blank isSpace l → ∃ ind c rest, l = ind ++ c :: rest ∧ m ≤ ind.length ∧
        (∀ d ∈ ind, isSpace d = true) ∧ isSpace c = false) ∧
      (∃ l ∈ ls, ∃ ind c rest, l = ind ++ c :: rest ∧ ind.length = m ∧ (∀ d ∈ ind, isSpace d = true) ∧
        isSpace c = false) := by
  have hdec : ∀ l, ¬ Blank isSpace l → ∃ c rest, l = l.takeWhile isSpace ++ c :: rest ∧
      (∀ d ∈ l.takeWhile isSpace, isSpace d = true) ∧ isSpace c = false := by
    intro l hl
    cases hd : l.dropWhile isSpace with
    | nil =>
      exfalso; apply hl
      exact List.dropWhile_eq_nil_iff.mp hd
    | cons c rest =>
      refine ⟨c, rest, ?_, fun d hd => List.mem_takeWhile_imp hd, ?_⟩
      · rw [← hd]; exact (List.takeWhile_append_dropWhile).symm
      · have := List.head?_dropWhile_not isSpace l
        rw [hd] at this; simpa using this
  have hmin : ((ls.filter nonBlank).map indentOf).min? ≠ none := by
    obtain ⟨l, hl, hlb⟩ := hb
    rw [ne_eq, List.min?_eq_none_iff, List.map_eq_nil_iff]
    intro he
    have : l ∈ ls.filter nonBlank := List.mem_filter.mpr ⟨hl, (nonBlank_iff l).mpr hlb⟩
    rw [he] at this; cases this
  cases hm : ((ls.filter nonBlank).map indentOf).min? with
  | none => exact absurd hm hmin
  | some m =>
    obtain ⟨h1, h2⟩ := (List.min?_eq_some_iff).mp hm
    refine ⟨m, by simp [trimIndent, h, hm], ?_, ?_⟩
    · intro l hl hlb
      obtain ⟨c, rest, e1, e2, e3⟩ := hdec l hlb
      refine ⟨_, c, rest, e1, ?_, e2, e3⟩
      rw [← indentOf_eq]
      exact h2 _ (List.mem_map.mpr ⟨l, List.mem_filter.mpr ⟨hl, (nonBlank_iff l).mpr hlb⟩, rfl⟩)
    · obtain ⟨l, hl, rfl⟩ := List.mem_map.mp h1
      obtain ⟨hl, hlb⟩ := List.mem_filter.mp hl
      obtain ⟨c, rest, e1, e2, e3⟩ := hdec l ((nonBlank_iff l).mp hlb)
      exact ⟨l, hl, _, c, rest, e1, (indentOf_eq l).symm, e2, e3⟩

/-- **C16 is false.** A line break at the end is lost at each application, so `trim_indent` is not
idempotent. -/
theorem C16_trim_indent_false :
    ¬ ∀ text r, trimIndent text = .ok r → trimIndent r = .ok r := by
  intro h
  have h1 : trimIndent "a\n\n".toList = .ok "a\n".toList := by decide +kernel
  have h2 : trimIndent "a\n".toList = .ok "a".toList := by decide +kernel
  have := h _ _ h1
  rw [h2] at this
  exact absurd this (by decide)

theorem trim_indent_aux (ls : List Str) (hs : ∀ l ∈ ls, ∀ c ∈ l, isLineSep c = false)
    (last : ∀ h : ls ≠ [], ls.getLast h ≠ []) (e : Str) (he : e = [] ∨ e = ['\n'])
    (hb : ∃ l ∈ ls, ¬ Blank isSpace l) :
    ∃ m, trimIndent (joinLines ls ++ e) = .ok (joinLines (ls.map (·.drop m))) ∧
      (∀ l ∈ ls, ¬ Blank isSpace l → ∃ ind c rest, l = ind ++ c :: rest ∧ m ≤ ind.length ∧
        (∀ d ∈ ind, isSpace d = true) ∧ isSpace c = false) ∧
      (∃ l ∈ ls, ∃ ind c rest, l = ind ++ c :: rest ∧ ind.length = m ∧ (∀ d ∈ ind, isSpace d = true) ∧
        isSpace c = false) := by
  have hne : ls ≠ [] := by rintro rfl; obtain ⟨l, hl, _⟩ := hb; cases hl
  exact trimIndent_lines _ ls (splitlines_join ls hs last e (by
    rcases he with h | h
    · exact .inl h
    · exact .inr ⟨h, hne⟩)) hb

theorem idempotent_aux (ls : List Str) (hs : ∀ l ∈ ls, ∀ c ∈ l, isLineSep c = false)
    (last : ∃ h : ls ≠ [], ¬ Blank isSpace (ls.getLast h)) (e : Str) (he : e = [] ∨ e = ['\n']) :
    ∃ r, trimIndent (joinLines ls ++ e) = .ok r ∧ trimIndent r = .ok r := by
  obtain ⟨hne, hlast⟩ := last
  have hlne : ∀ h : ls ≠ [], ls.getLast h ≠ [] := by
    intro h hc; apply hlast; rw [hc]; intro c hc; cases hc
  have hb : ∃ l ∈ ls, ¬ Blank isSpace l := ⟨_, List.getLast_mem hne, hlast⟩
  obtain ⟨m, h1, h2, l0, hl0, ind0, c0, rest0, e1, e2, e3, e4⟩ :=
    trim_indent_aux ls hs hlne e he hb
  refine ⟨_, h1, ?_⟩
  have hsp : splitlines (joinLines (ls.map (·.drop m)) ++ []) = ls.map (·.drop m) := by
    apply splitlines_join
    · intro l hl c hc
      obtain ⟨l', hl', rfl⟩ := List.mem_map.mp hl
      exact hs l' hl' c (List.mem_of_mem_drop hc)
    · intro h hc
      obtain ⟨ind, c, rest, q1, q2, q3, q4⟩ := h2 _ (List.getLast_mem hne) hlast
      rw [List.getLast_map] at hc
      rw [q1, List.drop_append_of_le_length q2] at hc
      exact absurd hc (by simp)
    · exact .inl rfl
  rw [List.append_nil] at hsp
  have hmem : (c0 :: rest0) ∈ ls.map (·.drop m) := by
    refine List.mem_map.mpr ⟨l0, hl0, ?_⟩
    show l0.drop m = _
    rw [e1, ← e2, List.drop_left]
  have hnb : ¬ Blank isSpace (c0 :: rest0) := fun h => by
    have := h c0 (by simp); rw [e4] at this; cases this
  obtain ⟨m', g1, g2, _⟩ := trimIndent_lines _ _ hsp ⟨_, hmem, hnb⟩
  obtain ⟨ind, c, rest, q1, q2, q3, q4⟩ := g2 _ hmem hnb
  have hm' : m' = 0 := by
    cases ind with
    | nil => simpa using q2
    | cons d ind =>
      simp only [List.cons_append, List.cons.injEq] at q1
      have := q3 d (by simp)
      rw [← q1.1, e4] at this; cases this
  subst hm'
  rw [g1]
  have : (fun x : Str => List.drop 0 x) = id := rfl
  rw [this, List.map_id]

example : trimIndent "  def f():\n\n      return 1\n".toList = .ok "def f():\n\n    return 1".toList := by
  decide +kernel

theorem joinLines_eq (ls : List Str) : joinLines ls = ['\n'].intercalate ls := by
  induction ls with
  | nil => rfl
  | cons l ls ih =>
    cases ls with
    | nil => simp [joinLines]
    | cons l2 ls =>
      rw [joinLines, ih]
      · simp [List.intercalate]
      · simp

/-- **C16.** For a text of lines `ls` (joined by line breaks, with or without one at the end; last line
not empty, some line not blank), the same number `m` of characters is removed from the start of each
line: only whitespace of non-blank lines, and some non-blank line keeps none of its indentation.
Missing from the full property: a line break at the end is lost. -/
theorem C16_trim_indent_partial (ls : List Str) (hs : ∀ l ∈ ls, ∀ c ∈ l, isLineSep c = false)
    (last : ∀ h : ls ≠ [], ls.getLast h ≠ []) (e : Str) (he : e = [] ∨ e = ['\n'])
    (hb : ∃ l ∈ ls, ¬ Blank isSpace l) :
    ∃ m, trimIndent (['\n'].intercalate ls ++ e) = .ok (['\n'].intercalate (ls.map (·.drop m))) ∧
      (∀ l ∈ ls, ¬ Blank isSpace l → ∃ ind c rest, l = ind ++ c :: rest ∧ m ≤ ind.length ∧
        (∀ d ∈ ind, isSpace d = true) ∧ isSpace c = false) ∧
      (∃ l ∈ ls, ∃ ind c rest, l = ind ++ c :: rest ∧ ind.length = m ∧ (∀ d ∈ ind, isSpace d = true) ∧
        isSpace c = false) := by
  simp only [← joinLines_eq]
  exact trim_indent_aux ls hs last e he hb

/-- **C16 (idempotent).** If the last line is not blank, a second application changes nothing. -/
theorem C16_idempotent_partial (ls : List Str) (hs : ∀ l ∈ ls, ∀ c ∈ l, isLineSep c = false)
    (last : ∃ h : ls ≠ [], ¬ Blank isSpace (ls.getLast h)) (e : Str) (he : e = [] ∨ e = ['\n']) :
    ∃ r, trimIndent (['\n'].intercalate ls ++ e) = .ok r ∧ trimIndent r = .ok r := by
  rw [← joinLines_eq]
  exact idempotent_aux ls hs last e he

theorem isSpace_of_lineSep {c : Char} (h : isLineSep c = true) : isSpace c = true := by
  simp [isSpace, h]

theorem splitlinesAux_blank (cur s : Str) :
    (∀ l ∈ splitlinesAux cur s, Blank isSpace l) ↔ Blank isSpace (cur ++ s) := by
  have hnl : isSpace '\n' = true := by decide
  have hcr : isSpace '\r' = true := by decide
  fun_induction splitlinesAux cur s with
  | case1 => simp [Blank]
  | case2 cur h => simp [Blank]
  | case3 cur cs ih =>
    simp only [List.mem_cons, forall_eq_or_imp, ih]
    simp [Blank, hnl, hcr, or_imp, forall_and]
  | case4 cur c cs _ hc ih =>
    simp only [List.mem_cons, forall_eq_or_imp, ih]
    simp [Blank, isSpace_of_lineSep hc, or_imp, forall_and]
  | case5 cur c cs _ hc ih =>
    refine ih.trans ?_
    simp only [Blank, List.mem_append, List.mem_cons, or_imp, forall_and]
    tauto

/-- **C16 (blank texts).** `trim_indent` fails exactly for texts of whitespace only. -/
theorem C16_blank_rejected (text : Str) :
    (trimIndent text = .error .value ↔ ∀ c ∈ text, isSpace c = true) ∧
    ((∃ r, trimIndent text = .ok r) ↔ ∃ c ∈ text, isSpace c = false) := by
  have hb : (∀ l ∈ splitlines text, Blank isSpace l) ↔ ∀ c ∈ text, isSpace c = true := splitlinesAux_blank [] text
  by_cases h : ∀ l ∈ splitlines text, Blank isSpace l
  · have he : (splitlines text).filter nonBlank = [] := by
      rw [List.filter_eq_nil_iff]
      intro l hl hn
      exact (nonBlank_iff l).mp hn (h l hl)
    have ht : trimIndent text = .error .value := by simp [trimIndent, he]
    have hs := hb.mp h
    refine ⟨⟨fun _ => hs, fun _ => ht⟩, ⟨fun ⟨r, hr⟩ => ?_, fun ⟨c, hc, hn⟩ => ?_⟩⟩
    · rw [ht] at hr; cases hr
    · rw [hs c hc] at hn; cases hn
  · have hs : ∃ c ∈ text, isSpace c = false := by
      by_contra hn
      refine h (hb.mpr fun c hc => ?_)
      cases hsp : isSpace c
      · exact absurd ⟨c, hc, hsp⟩ hn
      · rfl
    obtain ⟨m, hm, -⟩ := trimIndent_lines text _ rfl (by
      by_contra hn
      exact h fun l hl => by_contra fun hb => hn ⟨l, hl, hb⟩)
    refine ⟨⟨fun he => ?_, fun hall => absurd (hb.mpr hall) h⟩, ⟨fun _ => hs, fun _ => ⟨_, hm⟩⟩⟩
    rw [hm] at he; cases he

example : trimIndent " \n\t\n".toList = .error .value := by decide +kernel

end Verif.Text
