import Verif.Proofs.Markers

/-! # C138: dummy styles (`~#name{…}`) have no visual effect -/

namespace Verif.Markers
open Spec Verif.Text Verif.Text.Spec Verif.Style Verif.Xml Verif.Xml.Spec Verif.Cairo Verif.Cairo.Spec

/-- `without` takes out just the markers: `~#a{x~em{y}}z` is `x~em{y}z` without them. -/
example : without [.opn "#a".toList, .text ['x'], .opn "em".toList, .text ['y'], .close, .close, .text ['z']] =
    [.text ['x'], .opn "em".toList, .text ['y'], .close, .text ['z']] := by decide +kernel

/-- It joins the pieces around a marker: `a~#m{b}c` is `abc`. -/
example : without [.text ['a'], .opn "#m".toList, .text ['b'], .close, .text ['c']] = [.text "abc".toList] := by decide +kernel

/-- **C138 (Cairo).** A text drawn with Cairo has the same characters, and every byte of it the same style, as the text
without its markers. -/
theorem C138_markers_cairo (styles : Str → Option TextStyle) (default style : TextStyle) (toks : List Tok) (hb : Balanced toks)
    (hs : ∀ n, Tok.opn n ∈ toks → isMarker n = true ∨ styles n ≠ none) :
    ∃ text r1 r2, getTextAndAttributes styles default style toks = .ok (text, r1) ∧
      getTextAndAttributes styles default style (without toks) = .ok (text, r2) ∧ bytesOfRanges r1 = bytesOfRanges r2 := by
  have hk : ∀ n, Tok.opn n ∈ toks → n.head? = some '#' ∨ styles n ≠ none := fun n h => (hs n h).imp (by simp [isMarker]) id
  obtain ⟨t1, r1, h1, e1, -, b1⟩ := C60_ranges styles default style toks hb hk
  obtain ⟨t2, r2, h2, e2, -, b2⟩ := C60_ranges styles default style (without toks) (balanced_join (balanced_unmark hb))
    (fun n h => hk n (opn_unmark (opn_join h)).1)
  have key : styledChars (noMarkers styles) (over style default) [] true (without toks) =
      styledChars (noMarkers styles) (over style default) [] true toks :=
    (styled_join _ _ _ _ _).trans (styled_unmark styles _ toks [] [] true trivial)
  rw [key] at e2 b2
  exact ⟨t1, r1, r2, h1, by rw [h2, e2, e1], b1.trans b2.symm⟩

/-- The case of a marker around two styles of different priorities, with Cairo. -/
example : (getTextAndAttributes prioEnv.styles {} prioEnv.style
      [.opn "#m".toList, .opn ['C'], .text ['x'], .close, .opn ['D'], .text ['y'], .close, .close]).toOption.map
        (fun r => (r.1, (bytesOfRanges r.2).map (·.font))) = some ("xy".toList, [some ['C'], some ['D']]) ∧
    (getTextAndAttributes prioEnv.styles {} prioEnv.style
      [.opn ['C'], .text ['x'], .close, .opn ['D'], .text ['y'], .close]).toOption.map
        (fun r => (r.1, (bytesOfRanges r.2).map (·.font))) = some ("xy".toList, [some ['C'], some ['D']]) := by decide +kernel

/-! ### SVG -/

/-- The full claim for SVG: if the text without its markers is drawn, so is the text, and its characters look the same. -/
def MarkersInvisible : Prop :=
  ∀ (env : Env) (toks : List Tok), EnvOk env → Balanced toks → (∀ n, isMarker n = true → env.styles n = none) →
    (∀ n, Tok.opn n ∈ toks → env.styles n = none → isMarker n = true) → (∀ s, Tok.text s ∈ toks → Plain s) →
    ∀ x2 s2 F2, drawText env {} (without toks) = .ok x2 → x2.toString = .ok s2 → (readXml s2).bind contentOf = some F2 →
    ∃ x1 s1 F1, drawText env {} toks = .ok x1 ∧ x1.toString = .ok s1 ∧ (readXml s1).bind contentOf = some F1 ∧
      visible (F1.chars []) = visible (F2.chars [])

instance : DecidableEq Attrs := inferInstanceAs (DecidableEq (List (List Char × List Char)))
instance : DecidableEq (List (Char × List Attrs)) := inferInstance
instance : DecidableEq (Option (List (Char × List Attrs))) := inferInstance

/-- What a reader sees of a drawn text: the characters with the attributes around them. -/
def seen (env : Env) (toks : List Tok) : Option (List (Char × List Attrs)) :=
  (drawText env {} toks).toOption.bind fun x => x.toString.toOption.bind fun s => ((readXml s).bind contentOf).map fun F => visible (F.chars [])

theorem seen_of {env : Env} {toks : List Tok} {l} (h : seen env toks = some l) : ∃ x s F, drawText env {} toks = .ok x ∧ x.toString = .ok s ∧
    (readXml s).bind contentOf = some F ∧ visible (F.chars []) = l := by
  unfold seen at h
  cases h1 : drawText env {} toks with
  | error e => rw [h1] at h; cases h
  | ok x =>
    rw [h1] at h
    simp only [Except.toOption, Option.bind_some] at h
    cases h2 : x.toString with
    | error e => rw [h2] at h; cases h
    | ok s =>
      rw [h2] at h
      simp only [Option.bind_some] at h
      cases h3 : (readXml s).bind contentOf with
      | none => rw [h3] at h; cases h
      | some F =>
        rw [h3] at h
        injection h with h
        exact ⟨x, s, F, rfl, h2, h3, h⟩

theorem seen_eq {env : Env} {toks : List Tok} {x s F} (h1 : drawText env {} toks = .ok x) (h2 : x.toString = .ok s)
    (h3 : (readXml s).bind contentOf = some F) : seen env toks = some (visible (F.chars [])) := by
  unfold seen
  rw [h1]
  simp only [Except.toOption, Option.bind_some]
  rw [h2]
  simp only [Option.bind_some]
  rw [h3]
  rfl

/-- `~#m{~C{x}~D{y}}`, where `C` has priority 10 and `D` has 7. -/
def markToks : List Tok := [.opn "#m".toList, .opn ['C'], .text ['x'], .close, .opn ['D'], .text ['y'], .close, .close]

/-- **C138 is false for SVG.** When a style ends inside a marker its priority stays in force (draw.py:113-114), and a style
with a lower one that follows is not applied: in `~#m{~C{x}~D{y}}` the `y` is not in style `D`; without the marker it is. -/
theorem C138_markers_svg_false : ¬ MarkersInvisible := by
  intro h
  have hw : seen prioEnv (without markToks) ≠ none ∧ seen prioEnv markToks ≠ seen prioEnv (without markToks) := by decide +kernel
  cases h2 : seen prioEnv (without markToks) with
  | none => exact hw.1 h2
  | some l =>
    obtain ⟨x2, s2, F2, a1, a2, a3, a4⟩ := seen_of h2
    obtain ⟨x1, s1, F1, b1, b2, b3, b4⟩ := h prioEnv markToks prioEnv_ok
      (.block "#m".toList [.opn ['C'], .text ['x'], .close, .opn ['D'], .text ['y'], .close] []
        (.block ['C'] [.text ['x']] _ (.text _ _ .nil) (.block ['D'] [.text ['y']] _ (.text _ _ .nil) .nil)) .nil)
      (by
        intro n hn
        simp only [prioEnv]
        split
        · rename_i h; subst h; revert hn; decide
        · split
          · rename_i h; subst h; revert hn; decide
          · split
            · rename_i h; subst h; revert hn; decide
            · split
              · rename_i h; subst h; revert hn; decide
              · rfl)
      (by
        intro n hn hs
        simp only [markToks, List.mem_cons, Tok.opn.injEq, List.not_mem_nil, or_false, reduceCtorEq, false_or] at hn
        rcases hn with rfl | rfl | rfl
        · rfl
        · revert hs; decide
        · revert hs; decide)
      (by
        intro s hs
        simp only [markToks, List.mem_cons, Tok.text.injEq, List.not_mem_nil, or_false, reduceCtorEq, false_or] at hs
        rcases hs with rfl | rfl
        · exact (okStr_of_decide (by decide)).1
        · exact (okStr_of_decide (by decide)).1) x2 s2 F2 a1 a2 a3
    apply hw.2
    rw [seen_eq b1 b2 b3, seen_eq a1 a2 a3, b4]

/-- The other way in which it fails: a marker around a line break makes drawing raise, without it the text is drawn. -/
theorem C138_break_in_marker : seen sampleEnv sampleToks = none ∧ seen sampleEnv (without sampleToks) ≠ none := by decide +kernel

/-- **C138 (SVG, partial).** For texts that C58 and C59 cover, the text and the text without its markers are both drawn, at
the same place, with the same lines at the same distances, and every character with the same attributes around it
(elements that set nothing do not count). What is missing: see `C138_markers_svg_false` and `C138_break_in_marker`. -/
theorem C138_markers_svg_partial (env : Env) (toks : List Tok) (he : EnvOk env) (hb : Balanced toks)
    (hmark : ∀ n, isMarker n = true → env.styles n = none)
    (hsty : ∀ n, Tok.opn n ∈ toks → env.styles n = none → isMarker n = true) (hplain : ∀ s, Tok.text s ∈ toks → Plain s)
    (hal : env.style.align = some "left".toList ∨ env.style.align = some "middle".toList ∨ env.style.align = some "right".toList)
    (hsafe : SafeBreaks env.styles [env.style.priority] [true] toks)
    (hcalm : Calm env.styles [some env.style] toks) (hbr : BreaksApplied env.styles [some env.style] toks) :
    ∃ x1 s1 as1 l1 x2 s2 as2 l2, drawText env {} toks = .ok x1 ∧ x1.toString = .ok s1 ∧
      readXml s1 = some (.elem "text".toList as1 (linesForest l1) .nil) ∧
      drawText env {} (without toks) = .ok x2 ∧ x2.toString = .ok s2 ∧
      readXml s2 = some (.elem "text".toList as2 (linesForest l2) .nil) ∧
      fontOnly as1 = fontOnly as2 ∧ (∀ k ∈ ["x".toList, "y".toList, "transform".toList], as1.lookup k = as2.lookup k) ∧
      Anchored env.style.align (as1.lookup "text-anchor".toList) ∧ Anchored env.style.align (as2.lookup "text-anchor".toList) ∧
      l1.map (fun l => l.2.textOf) = l2.map (fun l => l.2.textOf) ∧
      l1.tail.map (fun l => (l.1.lookup "x".toList, l.1.lookup "dy".toList)) =
        l2.tail.map (fun l => (l.1.lookup "x".toList, l.1.lookup "dy".toList)) ∧
      visible ((linesForest l1).chars []) = visible ((linesForest l2).chars []) := by
  have hk : ∀ n, Tok.opn n ∈ toks → env.styles n = none → n.head? = some '#' := fun n h h' => by simpa [isMarker] using hsty n h h'
  have hb2 : Balanced (without toks) := balanced_join (balanced_unmark hb)
  have hk2 : ∀ n, Tok.opn n ∈ without toks → env.styles n = none → n.head? = some '#' := fun n h => hk n (opn_unmark (opn_join h)).1
  have hp2 : ∀ s, Tok.text s ∈ without toks → Plain s := plain_join (fun s h => hplain s (text_unmark h))
  have hsafe2 : SafeBreaks env.styles [env.style.priority] [true] (without toks) := safe_join _ _ _ (safe_unmark hmark toks [] _ _ hsafe)
  obtain ⟨c1, c2⟩ := calm_unmark hmark toks [] [some env.style] trivial hcalm hbr
  obtain ⟨hcalm2, hbr2⟩ := calm_join _ _ c1 c2
  obtain ⟨x1, s1, as1, f1, ls1, a1, a2, a3, a4, a5, a6, a7, a8, a9⟩ := C58_drawn_partial env toks he hb hk hplain hal hsafe
  obtain ⟨x2, s2, as2, f2, ls2, b1, b2, b3, b4, b5, b6, b7, b8, b9⟩ := C58_drawn_partial env (without toks) he hb2 hk2 hp2 hal hsafe2
  obtain ⟨y1, t1, at1, F1, p1, p2, p3, p4, p5⟩ := C59_priority_svg_partial env toks he hb hk hplain hal hcalm hbr
  obtain ⟨y2, t2, at2, F2, q1, q2, q3, q4, q5⟩ := C59_priority_svg_partial env (without toks) he hb2 hk2 hp2 hal hcalm2 hbr2
  rw [a1] at p1; injection p1 with p1; subst p1
  rw [a2] at p2; injection p2 with p2; subst p2
  rw [a3] at p3; injection p3 with p3; injection p3 with _ p3 p3'; subst p3 p3'
  rw [b1] at q1; injection q1 with q1; subst q1
  rw [b2] at q2; injection q2 with q2; subst q2
  rw [b3] at q3; injection q3 with q3; injection q3 with _ q3 q3'; subst q3 q3'
  obtain ⟨hl1, hl2⟩ := lines_without toks
  rw [hl1] at b4
  rw [hl2] at b5
  refine ⟨x1, s1, as1, f1 :: ls1, x2, s2, as2, f2 :: ls2, a1, a2, a3, b1, b2, b3, p4.trans q4.symm, ?_, a9, b9, a4.trans b4.symm, ?_, ?_⟩
  · intro k hk
    simp only [List.mem_cons, List.not_mem_nil, or_false] at hk
    rcases hk with rfl | rfl | rfl
    · rw [a6, b6]
    · rw [a7, b7]
    · rw [a8, b8]
  · simp only [List.tail_cons]
    clear a4 b4 p5 q5 a3 b3
    generalize breaks toks = bs at a5 b5
    induction a5 generalizing ls2 with
    | nil => cases b5; rfl
    | cons h _ ih =>
      cases b5 with
      | cons h' b5 =>
        simp only [List.map_cons]
        rw [ih _ b5, h.1, h.2, h'.1, h'.2]
  · rw [p5, q5]
    apply visible_asRead
    show visible (expected env.fmt env.styles env.style [some env.style] [] toks) = visible (expected env.fmt env.styles env.style [some env.style] [] (joinTexts (unmark [] toks)))
    rw [expected_join]
    have hd : Deep 0 toks := by have := deep_of hb 0 [] trivial; rwa [List.append_nil] at this
    exact (expected_unmark env.fmt env.styles hmark env.style toks [] [] [] trivial rfl hd).symm

/-- **C138 (SVG, when all priorities are equal).** If all styles have the priority of the text's own style, as they have by
default, and no line break is inside a marker, the conditions of `C138_markers_svg_partial` hold. -/
theorem C138_equal_priorities_partial (env : Env) (toks : List Tok) (hb : Balanced toks)
    (hmark : ∀ n, isMarker n = true → env.styles n = none) (hsty : ∀ n, Tok.opn n ∈ toks → env.styles n = none → isMarker n = true)
    (hp : ∀ n s, env.styles n = some s → s.priority = env.style.priority) (hout : BreaksOutside [] toks) :
    SafeBreaks env.styles [env.style.priority] [true] toks ∧ Calm env.styles [some env.style] toks ∧ BreaksApplied env.styles [some env.style] toks := by
  have hd : Deep 0 toks := by have := deep_of hb 0 [] trivial; rwa [List.append_nil] at this
  obtain ⟨h1, h2, h3⟩ := calm_of hp hmark toks [] [some env.style] [env.style.priority] hsty hd hout ⟨env.style, rfl, rfl⟩ (by simp)
  exact ⟨h3, h1, h2⟩

/-- `a~#m{b~em{c}}⏎d`. -/
def exMark : List Tok := [.text ['a'], .opn "#m".toList, .text ['b'], .opn "em".toList, .text ['c'], .close, .close, .newline 1, .text ['d']]

theorem exMark_balanced : Balanced exMark :=
  .text _ _ (.block "#m".toList [.text ['b'], .opn "em".toList, .text ['c'], .close] _ (.text _ _ (.block "em".toList [.text ['c']] _ (.text _ _ .nil) .nil))
    (.newline _ _ (.text _ _ .nil)))

theorem sample_marks : ∀ n, isMarker n = true → sampleEnv.styles n = none := by
  intro n hn
  simp only [sampleEnv]
  split
  · rename_i h; subst h; revert hn; decide +kernel
  · rfl

theorem exMark_known : ∀ n, Tok.opn n ∈ exMark → sampleEnv.styles n = none → isMarker n = true := by
  intro n hn hs
  simp only [exMark, List.mem_cons, Tok.opn.injEq, List.not_mem_nil, or_false, reduceCtorEq, false_or] at hn
  rcases hn with rfl | rfl
  · rfl
  · revert hs; decide +kernel

/-- The conditions hold of `a~#m{b~em{c}}⏎d`. -/
theorem exMark_conditions : SafeBreaks sampleEnv.styles [sampleEnv.style.priority] [true] exMark ∧ Calm sampleEnv.styles [some sampleEnv.style] exMark ∧
    BreaksApplied sampleEnv.styles [some sampleEnv.style] exMark :=
  C138_equal_priorities_partial sampleEnv exMark exMark_balanced sample_marks exMark_known
    (by intro n s h; simp only [sampleEnv] at h; split at h; (injection h with h; subst h; rfl); cases h)
    (by simp only [exMark, BreaksOutside, List.tail_cons]; exact ⟨by simp, trivial⟩)

example : ∃ x1 s1 as1 l1 x2 s2 as2 l2, drawText sampleEnv {} exMark = .ok x1 ∧ x1.toString = .ok s1 ∧
      readXml s1 = some (.elem "text".toList as1 (linesForest l1) .nil) ∧
      drawText sampleEnv {} (without exMark) = .ok x2 ∧ x2.toString = .ok s2 ∧
      readXml s2 = some (.elem "text".toList as2 (linesForest l2) .nil) ∧ visible ((linesForest l1).chars []) = visible ((linesForest l2).chars []) := by
  obtain ⟨h1, h2, h3⟩ := exMark_conditions
  obtain ⟨x1, s1, as1, l1, x2, s2, as2, l2, a1, a2, a3, a4, a5, a6, -, -, -, -, -, -, a7⟩ :=
    C138_markers_svg_partial sampleEnv exMark sampleEnv_ok exMark_balanced sample_marks exMark_known (by
      intro s hs
      simp only [exMark, List.mem_cons, Tok.text.injEq, List.not_mem_nil, or_false, reduceCtorEq, false_or] at hs
      rcases hs with rfl | rfl | rfl | rfl <;> exact (okStr_of_decide (by decide)).1) (.inl rfl) h1 h2 h3
  exact ⟨x1, s1, as1, l1, x2, s2, as2, l2, a1, a2, a3, a4, a5, a6, a7⟩

/-- What is seen of it: the `c` has the italic style around it. -/
example : seen sampleEnv exMark = seen sampleEnv (without exMark) ∧ ((seen sampleEnv exMark).map fun l => l.map (·.1)) = some "abcd".toList := by decide +kernel

end Verif.Markers
