import Verif.Proofs.MergeNested
import Verif.Props.TextParse

/-!
# Properties C11-C13: merging two markups of one text

`tokensMerge t1 t2` is `tokens_merge(t1, t2)`, used by `code(use_styles=True)`.
-/

namespace Verif.Text
open Spec

theorem clean_good {ts : List Tok} (h : Clean ts) : ∀ t ∈ ts, t.Good := by
  intro t ht
  cases t with
  | text s => exact h.1 s ht
  | newline n => exact h.2 n ht
  | opn s => trivial
  | close => trivial

theorem minit {t1 t2 : List Tok} (c1 : Clean t1) (c2 : Clean t2) (b1 : Balanced t1) (b2 : Balanced t2) :
    MInv ⟨t1, t2, 0, 0, [], []⟩ :=
  ⟨clean_good c1, clean_good c2, depth_of_balanced b1 0, depth_of_balanced b2 0⟩

theorem outline_iff (a b : Str) : outline a = outline b ↔ a.map blank = b.map blank := by
  have h : ∀ (c d : Char), ((c == '\n') = (d == '\n')) ↔ blank c = blank d := by
    intro c d
    unfold blank
    by_cases h1 : c = '\n' <;> by_cases h2 : d = '\n' <;> simp [h1, h2]
  induction a generalizing b with
  | nil => cases b <;> simp [outline]
  | cons c a ih =>
    cases b with
    | nil => simp [outline]
    | cons d b =>
      have := ih b
      simp only [outline, List.map_cons, List.cons.injEq] at this ⊢
      exact and_congr (h c d) this

/-- Everything about a merge of streams of equal outline. -/
theorem merge_all {t1 t2 : List Tok} (c1 : Clean t1) (c2 : Clean t2) (b1 : Balanced t1)
    (b2 : Balanced t2) (h : outline (chars t1) = outline (chars t2)) :
    ∃ ms r0 r, Run ⟨t1, t2, 0, 0, [], []⟩ ms ∧ mergeEmit [] ms = .ok r0 ∧
      depth 0 r0 = some 0 ∧ chars r0 = chars (proj false ms) ∧
      normalizeTokens r0 = .ok r ∧ tokensMerge t1 t2 = .ok r := by
  have hi := minit c1 c2 b1 b2
  obtain ⟨ms, hm⟩ := mergeLoop_ok (t1.length + t2.length + 1) ⟨t1, t2, 0, 0, [], []⟩ hi
    ((outline_iff _ _).mp h) (by simp)
  have hrun := mergeLoop_run hm
  obtain ⟨d1, d2⟩ := run_depth hrun hi
  obtain ⟨r0, e1, e2, e3⟩ := mergeEmit_ok ms [] (run_blocksOnly hrun) (run_plainOnly hrun) d1 d2
  obtain ⟨r, hr⟩ := normalize_ok e2
  exact ⟨ms, r0, r, hrun, e1, e2, e3, hr, by simp [tokensMerge, mergeHelper, hm, e1, hr]⟩

/-- **C11.** Merging two clean balanced streams with equal text succeeds; the result displays that
text (up to line breaks at the end), is balanced and in normal form. -/
theorem C11_merge_text (t1 t2 : List Tok) (c1 : Clean t1) (c2 : Clean t2) (b1 : Balanced t1)
    (b2 : Balanced t2) (h : chars t1 = chars t2) :
    ∃ r, tokensMerge t1 t2 = .ok r ∧ Balanced r ∧ NormalForm r ∧
      ∃ k, chars r ++ List.replicate k '\n' = chars t1 := by
  obtain ⟨ms, r0, r, hrun, e1, e2, e3, hr, hm⟩ := merge_all c1 c2 b1 b2 (by rw [h])
  have hs := normalize_simplifies hr
  refine ⟨r, hm, balanced_of_depth _ (simplifies_depth hs 0 0 e2), normalize_nf hr, ?_⟩
  obtain ⟨k, hk⟩ := simplifies_shown hs []
  refine ⟨k, ?_⟩
  have h2 := congrArg (List.map Prod.fst) hk
  simp [shown_fst] at h2
  rw [h2, e3]
  have := congrArg (List.map Prod.fst) ((run_shown hrun h).1 [])
  simpa [shown_fst] using this

example : tokensMerge
    [.opn ['k'], .text "if".toList, .close, .newline 1, .opn ['n'], .text "xy".toList, .close]
    [.text ['i'], .opn ['a'], .text ['f'], .newline 1, .text ['x'], .close, .text ['y']] =
    .ok [.opn ['k'], .text ['i'], .opn ['a'], .text ['f'], .close, .close, .opn ['a'], .newline 1,
      .opn ['n'], .text ['x'], .close, .close, .opn ['n'], .text ['y'], .close] := by decide +kernel

/-- **C12 is false.** When the end of a highlighted token cuts through two nested user styles, they
are re-opened in the wrong order, and the character after the inner one loses the outer style. -/
theorem C12_merge_styles_false :
    ¬ ∀ (t1 t2 : List Tok), Clean t1 → Clean t2 → NormalForm t1 → NormalForm t2 →
        Balanced t1 → Balanced t2 → chars t1 = chars t2 →
      ∀ r, tokensMerge t1 t2 = .ok r →
      ∃ k, Merged (shown [] r ++ List.replicate k ('\n', [])) (shown [] t1) (shown [] t2) := by
  intro h
  -- "~a{1234}56" and "1~b{~c{2345}6}"
  have p1 : parseText (some '~') '{' '}' "~a{1234}56".toList = .ok
    [.opn ['a'], .text "1234".toList, .close, .text "56".toList] := by decide +kernel
  have p2 : parseText (some '~') '{' '}' "1~b{~c{2345}6}".toList = .ok
    [.text ['1'], .opn ['b'], .opn ['c'], .text "2345".toList, .close, .text ['6'], .close] := by
    decide +kernel
  have hb1 : ∀ s toks, parseText (some '~') '{' '}' s = .ok toks →
      Balanced toks ∧ Clean toks ∧ NormalForm toks := by
    intro s toks hp
    have hnf := C04_parse_normal _ _ _ _ _ hp
    refine ⟨?_, ⟨fun r hr => ⟨?_, hnf.2.1 r hr⟩, hnf.2.2.1⟩, hnf.1⟩
    · have h3 := (C03_rejected_iff_unclosed (some '~') '{' '}' s)
      cases hu : unclosed (some '~') '{' '}' 0 false s
      · obtain ⟨t, h4, h5⟩ := h3.2.mp hu
        rw [hp] at h4; injection h4 with h4; rw [h4]; exact h5
      · have := h3.1.mp hu; rw [hp] at this; cases this
    · intro he; subst he; exact hnf.1.noEmpty hr
  have q1 := hb1 _ _ p1
  have q2 := hb1 _ _ p2
  have hm : tokensMerge [.opn ['a'], .text "1234".toList, .close, .text "56".toList]
    [.text ['1'], .opn ['b'], .opn ['c'], .text "2345".toList, .close, .text ['6'], .close] =
    .ok [.opn ['a'], .text ['1'], .opn ['b'], .opn ['c'], .text "234".toList, .close, .close, .close,
      .opn ['c'], .opn ['b'], .text ['5'], .close, .text ['6'], .close] := by decide +kernel
  obtain ⟨k, hk⟩ := h _ _ q1.2.1 q2.2.1 q1.2.2 q2.2.2 q1.1 q2.1 (by decide) _ hm
  simp [shown, mark] at hk
  cases hk with
  | cons _ _ _ _ _ hk =>
  cases hk with
  | cons _ _ _ _ _ hk =>
  cases hk with
  | cons _ _ _ _ _ hk =>
  cases hk with
  | cons _ _ _ _ _ hk =>
  cases hk with
  | cons _ _ _ _ _ hk =>
  cases hk with
  | cons _ _ _ _ hp _ => exact absurd hp (by decide)

/-- **C12.** If styles are not nested in either stream (highlighting never nests), every character
of the result carries exactly the styles of both streams.
Missing from the full property: nested styles, where it is false in general (see also
`C12_merge_nested_partial`). -/
theorem C12_merge_styles_partial (t1 t2 : List Tok) (c1 : Clean t1) (c2 : Clean t2) (b1 : Balanced t1)
    (b2 : Balanced t2) (h : chars t1 = chars t2)
    (n1 : maxNesting 0 t1 ≤ 1) (n2 : maxNesting 0 t2 ≤ 1) :
    ∃ r k, tokensMerge t1 t2 = .ok r ∧
      Merged (shown [] r ++ List.replicate k ('\n', [])) (shown [] t1) (shown [] t2) := by
  obtain ⟨ms, r0, r, hrun, e1, e2, e3, hr, hm⟩ := merge_all c1 c2 b1 b2 (by rw [h])
  obtain ⟨k, hk⟩ := simplifies_shown (normalize_simplifies hr) []
  refine ⟨r, k, hm, ?_⟩
  rw [hk]
  have hn := run_nesting hrun 0
  have hre := reopens1_of_flat ms [] (run_blocksOnly hrun) (run_plainOnly hrun)
    (by rw [show cnt false [] = 0 from rfl, hn.1]; exact n1)
    (by rw [show cnt true [] = 0 from rfl, hn.2]; exact n2)
  have := mergeEmit_styles ms [] r0 (run_plainOnly hrun) hre e1
  have hsh := run_shown hrun h
  simp only [names, List.filter_nil, List.map_nil] at this
  rw [hsh.1, hsh.2] at this
  exact this

example : maxNesting 0 [.opn ['k'], .text "if".toList, .close, .newline 1, .opn ['n'], .text "xy".toList, .close] ≤ 1 ∧
    maxNesting 0 [.text ['i'], .opn ['a'], .text ['f'], .newline 1, .text ['x'], .close, .text ['y']] ≤ 1 := by
  decide

/-- **C12.** The same if only the first stream is flat, as highlighting is, and the styles of the second may be nested as
deep as wanted, provided none of them is empty and no section of the first stream ends inside (or together with) two styles that
began after it.  Missing from the full property: the sections that cut two nested styles, where it is false, and nesting on both sides. -/
theorem C12_merge_nested_partial (t1 t2 : List Tok) (c1 : Clean t1) (c2 : Clean t2) (b1 : Balanced t1) (b2 : Balanced t2)
    (h : chars t1 = chars t2) (n1 : maxNesting 0 t1 ≤ 1)
    (n2 : ∀ x ∈ sections 0 [] t2, x.1 < x.2)
    (n3 : ∀ x ∈ sections 0 [] t1, ((sections 0 [] t2).filter (fun y => decide (Crosses y x))).length ≤ 1) :
    ∃ r k, tokensMerge t1 t2 = .ok r ∧ Merged (shown [] r ++ List.replicate k ('\n', [])) (shown [] t1) (shown [] t2) := by
  obtain ⟨ms, r0, r, hrun, hrp, e1, hr, hm⟩ : ∃ ms r0 r, Run ⟨t1, t2, 0, 0, [], []⟩ ms ∧ RunP ⟨t1, t2, 0, 0, [], []⟩ ms ∧
      mergeEmit [] ms = .ok r0 ∧ normalizeTokens r0 = .ok r ∧ tokensMerge t1 t2 = .ok r := by
    have hi := minit c1 c2 b1 b2
    obtain ⟨ms, hl⟩ := mergeLoop_ok (t1.length + t2.length + 1) ⟨t1, t2, 0, 0, [], []⟩ hi
      ((outline_iff _ _).mp (by rw [h])) (by simp)
    have hrun := mergeLoop_run hl
    obtain ⟨d1, d2⟩ := run_depth hrun hi
    obtain ⟨r0, e1, e2, e3⟩ := mergeEmit_ok ms [] (run_blocksOnly hrun) (run_plainOnly hrun) d1 d2
    obtain ⟨r, hr⟩ := normalize_ok e2
    exact ⟨ms, r0, r, hrun, mergeLoop_runP hl, e1, hr, by simp [tokensMerge, mergeHelper, hl, e1, hr]⟩
  obtain ⟨k, hk⟩ := simplifies_shown (normalize_simplifies hr) []
  refine ⟨r, k, hm, ?_⟩
  rw [hk]
  have hre := reopens1_nested hrp 0 [] ⟨clean_good c1, clean_good c2, depth_of_balanced b1 0, depth_of_balanced b2 0, n1, n2,
    by simp, n3, by intro top n s rest e; simp at e⟩
  have := mergeEmit_styles ms [] r0 (run_plainOnly hrun) hre e1
  have hsh := run_shown hrun h
  simp only [names, List.filter_nil, List.map_nil] at this
  rw [hsh.1, hsh.2] at this
  exact this

/-- `~k{def} ~n{foo}` highlighted, with the nested user styles `~a{de~b{f f}oo}`: the end of the keyword cuts only `b`. -/
example :
    let t1 : List Tok := [.opn ['k'], .text "def".toList, .close, .text " ".toList, .opn ['n'], .text "foo".toList, .close]
    let t2 : List Tok := [.opn ['a'], .text "de".toList, .opn ['b'], .text "f f".toList, .close, .text "oo".toList, .close]
    chars t1 = chars t2 ∧ maxNesting 0 t1 ≤ 1 ∧ maxNesting 0 t2 = 2 ∧ (∀ x ∈ sections 0 [] t2, x.1 < x.2) ∧
    (∀ x ∈ sections 0 [] t1, ((sections 0 [] t2).filter (fun y => decide (Crosses y x))).length ≤ 1) ∧
    tokensMerge t1 t2 = .ok [.opn ['a'], .opn ['k'], .text "de".toList, .opn ['b'], .text "f".toList, .close, .close, .opn ['b'], .text " ".toList,
      .opn ['n'], .text "f".toList, .close, .close, .opn ['n'], .text "oo".toList, .close, .close] := by
  decide +kernel

/-- The styles of the witness against C12 do not meet the condition: the section `a` of the first stream cuts two. -/
example :
    ((sections 0 [] [.text ['1'], .opn ['b'], .opn ['c'], .text "2345".toList, .close, .text ['6'], .close]).filter
      (fun y => decide (Crosses y (0, 4)))).length = 2 := by
  decide +kernel

/-- **C13 is false.** Texts that differ only in letters are merged without complaint, and the result
can mix both: merging `ab` with `~s{c}d` shows `cb`. -/
theorem C13_merge_rejects_false :
    ¬ ∀ (t1 t2 : List Tok), Clean t1 → Clean t2 → Balanced t1 → Balanced t2 → chars t1 ≠ chars t2 →
      ∃ e, tokensMerge t1 t2 = .error e := by
  intro h
  obtain ⟨e, he⟩ := h [.text "ab".toList] [.opn ['s'], .text ['c'], .close, .text ['d']]
    ⟨by simp, by simp⟩ ⟨by simp, by simp⟩ (.text _ _ .nil)
    (.block _ [.text ['c']] _ (.text _ _ .nil) (.text _ _ .nil)) (by decide)
  have : tokensMerge [.text "ab".toList] [.opn ['s'], .text ['c'], .close, .text ['d']] =
    .ok [.opn ['s'], .text ['c'], .close, .text ['b']] := by decide +kernel
  rw [this] at he; cases he

/-- **C13.** Merging two clean balanced streams raises exactly if the texts differ in length or in
the position of a line break.  Missing: texts of the same outline but with different letters. -/
theorem C13_merge_rejects_partial (t1 t2 : List Tok) (c1 : Clean t1) (c2 : Clean t2) (b1 : Balanced t1)
    (b2 : Balanced t2) :
    (∃ r, tokensMerge t1 t2 = .ok r) ↔ outline (chars t1) = outline (chars t2) := by
  constructor
  · rintro ⟨r, hr⟩
    unfold tokensMerge at hr
    cases hm : mergeHelper t1 t2 with
    | error e => rw [hm] at hr; cases hr
    | ok ms => exact (outline_iff _ _).mpr (run_shape (mergeLoop_run hm) (minit c1 c2 b1 b2))
  · intro h
    obtain ⟨ms, r0, r, _, _, _, _, _, hm⟩ := merge_all c1 c2 b1 b2 h
    exact ⟨r, hm⟩

example : ∃ e, tokensMerge [.text "ab".toList] [.text ['a'], .newline 1, .text ['b']] = .error e :=
  ⟨.assertion, by decide +kernel⟩

end Verif.Text
