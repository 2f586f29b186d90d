import Verif.Model.TextItem
import Verif.Spec.TextItem
import Verif.Props.DrawText
import Verif.Props.TextLines
import Verif.Proofs.SvgDraw
import Verif.Props.SvgDraw

/-! # Property C102: the lines of a text are drawn in their line boxes -/

namespace Verif.TextItem
open Spec Verif.Text Verif.Text.Spec Verif.Xml Verif.Xml.Spec Verif.Style
open Verif.Layout (TextState)
open Verif.CairoDraw (Pt Mat nonzero midPoint)
open Verif.SvgDraw (joinWith rotateStr rotateStr_clean rotateStr_eq Clean clean_dec fmt_clean num_noParen words_split words_one words_close cut_append readNumbers_fmt readTransform_rotate readTransform_fun)
open Verif.SvgDraw.Spec (Numbers readTransform readFunction all? words trim num)

variable {fmt : Rat → Str} {read : Str → Option Rat}

def scaleStr (fmt : Rat → Str) (s : Rat) : Str := "scale(".toList ++ fmt s ++ ")".toList

theorem scaleStr_eq (fmt : Rat → Str) (s : Rat) : scaleStr fmt s = ("scale".toList ++ '(' :: joinWith [' '] ([s].map fmt)) ++ [')'] := by
  have h1 : "scale(".toList = "scale".toList ++ ['('] := by decide
  have h3 : ")".toList = [')'] := by decide
  unfold scaleStr
  rw [h1, h3]
  generalize "scale".toList = r
  simp only [joinWith, List.map_cons, List.map_nil, List.append_assoc, List.cons_append, List.nil_append]

theorem scaleStr_clean (hn : Numbers fmt read) (s : Rat) : Clean (scaleStr fmt s) :=
  ((clean_dec (by decide)).append (fmt_clean hn _)).append (clean_dec (by decide))

/-- The transformations as a reader sees them. -/
def seen (rect : Rect) (rotation scale : Option Rat) : List (Str × List Rat) :=
  (if nonzero rotation then [("rotate".toList, [rotation.getD 0, (midPoint rect).1, (midPoint rect).2])] else []) ++
  (if nonzero scale then [("scale".toList, [scale.getD 0])] else [])

theorem read_two (hn : Numbers fmt read) (a : Rat) (k : Pt) (s : Rat) :
    readTransform read (some (rotateStr fmt a k ++ " ".toList ++ scaleStr fmt s)) =
      some [("rotate".toList, [a, k.1, k.2]), ("scale".toList, [s])] := by
  have e : rotateStr fmt a k ++ " ".toList ++ scaleStr fmt s =
      ("rotate".toList ++ '(' :: joinWith [' '] ([a, k.1, k.2].map fmt)) ++ ')' ::
        ((" scale".toList ++ '(' :: joinWith [' '] ([s].map fmt)) ++ [')']) := by
    rw [rotateStr_eq, scaleStr_eq]
    have h1 : " scale".toList = " ".toList ++ "scale".toList := by decide
    rw [h1]
    simp only [List.append_assoc, List.cons_append, List.nil_append]
  rw [e]
  unfold readTransform
  dsimp only
  rw [words_split _ (by decide), words_one, words_close]
  · have f1 : ∀ (name : Str) (qs : List Rat), '(' ∉ name → readFunction read (name ++ '(' :: joinWith [' '] (qs.map fmt)) = some (trim name, qs) := by
      intro name qs hp
      unfold readFunction
      rw [cut_append hp]
      simp [readNumbers_fmt hn]
    have t1 : trim "rotate".toList = "rotate".toList := by decide +kernel
    have t2 : trim " scale".toList = "scale".toList := by decide +kernel
    simp only [List.cons_append, List.nil_append, all?, f1 _ [a, k.1, k.2] (show '(' ∉ "rotate".toList by decide),
      f1 _ [s] (show '(' ∉ " scale".toList by decide), t1, t2]
  · intro c h
    rcases List.mem_append.mp h with h | h
    · have all : ∀ c ∈ " scale".toList, decide (c = ')') = false := by decide
      exact all c h
    · rcases List.mem_cons.mp h with rfl | h
      · decide
      · exact num_noParen hn _ c h
  · simp
  · intro c h
    rcases List.mem_append.mp h with h | h
    · have all : ∀ c ∈ "rotate".toList, decide (c = ')') = false := by decide
      exact all c h
    · rcases List.mem_cons.mp h with rfl | h
      · decide
      · exact num_noParen hn _ c h
  · simp

theorem transform_reads (hn : Numbers fmt read) (rect : Rect) (rotation scale : Option Rat) :
    (∀ t, transform fmt rect rotation scale = some t → Clean t) ∧
    readTransform read ((transform fmt rect rotation scale).map attrText) = some (seen rect rotation scale) := by
  have hc : ∀ t, transform fmt rect rotation scale = some t → Clean t := by
    intro t ht
    unfold transform transforms at ht
    cases h1 : nonzero rotation <;> cases h2 : nonzero scale <;> simp only [h1, h2, if_true, Bool.false_eq_true, if_false, List.append_nil, List.nil_append, List.cons_append, List.cons_ne_nil, joinWith] at ht
    · cases ht
    · injection ht with ht; subst ht; exact scaleStr_clean hn _
    · injection ht with ht; subst ht; exact rotateStr_clean hn _ _
    · injection ht with ht; subst ht
      exact ((rotateStr_clean hn _ _).append (clean_dec (by decide))).append (scaleStr_clean hn _)
  refine ⟨hc, ?_⟩
  have e : (transform fmt rect rotation scale).map attrText = transform fmt rect rotation scale := by
    cases ht : transform fmt rect rotation scale with
    | none => rfl
    | some t => simp only [Option.map_some, (hc t ht).same]
  rw [e]
  unfold transform transforms seen
  cases h1 : nonzero rotation <;> cases h2 : nonzero scale <;> simp only [if_true, Bool.false_eq_true, if_false, List.append_nil, List.nil_append, List.cons_append, List.cons_ne_nil, joinWith]
  · rfl
  · exact (congrArg _ (congrArg _ (scaleStr_eq fmt _))).trans (readTransform_fun hn _ _ (by decide) (by decide +kernel) (by decide))
  · exact readTransform_rotate hn _ _
  · exact read_two hn _ _ _

theorem anchors_rows {env : Env} (hn : Numbers fmt read) (hf : env.fmt = fmt) {x : Rat} (hx : env.x = fmt x)
    {bs : List Nat} {lines : List (Attrs × Forest)} (h : List.Forall₂ (fun n l => ReadLineAttrs env n l.1) bs lines) :
    ∀ (y0 : Rat) (r : Nat), anchors read (x, y0 + env.lineSize * r) (lines.map (·.1)) =
      some ((rows r bs).map (fun i : Nat => (x, y0 + env.lineSize * i))) := by
  induction h with
  | nil => intro y0 r; rfl
  | @cons n l bs lines h _ ih =>
    intro y0 r
    obtain ⟨h1, h2⟩ := h
    have g1 : num read l.1 "x" = some x := by
      unfold num
      rw [h1, hx, (fmt_clean hn x).same]
      exact hn.back x
    have g2 : num read l.1 "dy" = some (env.lineSize * n) := by
      unfold num
      rw [h2, hf, (fmt_clean hn _).same]
      exact hn.back _
    simp only [List.map_cons, anchors, g1, g2, rows]
    have := ih y0 (r + n)
    have e : y0 + env.lineSize * ((r + n : Nat) : Rat) = y0 + env.lineSize * r + env.lineSize * n := by push_cast; ring
    rw [e] at this
    rw [this]
    rfl

/-- What the callback does to a fresh text: the size is scaled, and nothing is scaled unless asked for. -/
theorem state_scaled {w : Rat} {style : TextStyle} {toks : List Tok} {fit : Bool} {t0 : TextState} (h : makeState w style toks fit = .ok t0)
    (rect : Rect) : ∃ a b, style.size = some a ∧ style.lineSpacing = some b ∧
      (t0.onRect rect).height = numberOfLines toks * (a * b) * (t0.onRect rect).scale ∧
      (t0.onRect rect).scaleToFit = fit ∧ (fit = false → (t0.onRect rect).scale = 1) := by
  unfold makeState at h
  split at h
  · rename_i a b h1 h2
    injection h with h; subst h
    refine ⟨a, b, h1, h2, ?_⟩
    unfold TextState.onRect
    cases fit with
    | false => simp
    | true =>
      simp only [if_true]
      split
      · simp
      · simp
  · cases h

/-- The same as C102 anywhere in a document. -/
theorem render_at (hn : Numbers fmt read) (ang : Rat → Rat × Rat) (rect : Rect) (w : Rat) (toks : List Tok) (style : TextStyle)
    (styles : Str → Option TextStyle) (fit : Bool) (rotation : Option Rat) {t0 : TextState} (hq : makeState w style toks fit = .ok t0)
    (hvis : (t0.onRect rect).scale > 1 / 100000)
    (hs1 : StyleOk style) (hs2 : ∀ n s, styles n = some s → StyleOk s) (hb : Balanced toks)
    (hsty : ∀ n, Tok.opn n ∈ toks → styles n = none → n.head? = some '#') (hplain : ∀ s, Tok.text s ∈ toks → Plain s)
    (hal : style.align = some "left".toList ∨ style.align = some "middle".toList ∨ style.align = some "right".toList)
    (hsafe : SafeBreaks styles [style.priority] [true] toks) {x0 : Xml} {a0 : A} (hg : Good x0 a0) :
    ∃ x as K attrs first lines p tr m ps ax size, render fmt x0 rect ⟨toks, style, styles, rotation, t0.onRect rect⟩ = .ok x ∧
      Good x { cur := a0.cur ++ Forest.elem "text".toList as K .nil, up := a0.up, isOpen := false } ∧
      norm [] (.elem "text".toList as K .nil) = .elem "text".toList attrs (linesForest (first :: lines)) .nil ∧
      (first :: lines).map (fun l => l.2.textOf) = (lineTexts toks).map nbsp ∧
      num read attrs "x" = some p.1 ∧ num read attrs "y" = some p.2 ∧ anchors read p (lines.map (·.1)) = some ps ∧
      readTransform read (attrs.lookup "transform".toList) = some tr ∧ placement ang {} tr = some m ∧
      style.size = some size ∧ Side rect style.align ax (attrs.lookup "text-anchor".toList) ∧
      ps.map m.apply = (rows 0 (breaks toks)).map (fun i : Nat => (turn ang rotation (rect.x + rect.width / 2, rect.y + rect.height / 2)).apply
        (ax, (lineBox rect (t0.onRect rect).height toks i 1).1 + size * (t0.onRect rect).scale)) := by
  obtain ⟨a, b, ha, hb', hh, hfit, hone⟩ := state_scaled hq rect
  generalize t0.onRect rect = t at *
  obtain ⟨ax, hax, hside⟩ : ∃ ax, textX rect style.align = .ok ax ∧ ∀ an, Anchored style.align an → Side rect style.align ax an := by
    unfold textX
    rcases hal with h | h | h
    · refine ⟨_, by rw [h]; rfl, fun an ha => ?_⟩
      rcases ha with h' | h' | h'
      · exact .inl ⟨h, rfl, h'.2⟩
      · rw [h] at h'; exact absurd h'.1 (by decide)
      · rw [h] at h'; exact absurd h'.1 (by decide)
    · refine ⟨_, by rw [h]; rfl, fun an ha => ?_⟩
      rcases ha with h' | h' | h'
      · rw [h] at h'; exact absurd h'.1 (by decide)
      · exact .inr (.inl ⟨h, rfl, h'.2⟩)
      · rw [h] at h'; exact absurd h'.1 (by decide)
    · refine ⟨_, by rw [h]; rfl, fun an ha => ?_⟩
      rcases ha with h' | h' | h'
      · rw [h] at h'; exact absurd h'.1 (by decide)
      · rw [h] at h'; exact absurd h'.1 (by decide)
      · exact .inr (.inr ⟨h, rfl, h'.2⟩)
  have hpos : (0 : Rat) < t.scale := lt_trans (by norm_num) hvis
  set scale : Option Rat := if t.scaleToFit then some t.scale else none with hscale
  -- the factor by which the element is scaled
  obtain ⟨f, hf0, hun, hnz, hlast⟩ : ∃ f : Rat, f ≠ 0 ∧ (∀ x y, unscaled x y scale = .ok (x / f, y / f)) ∧
      (∀ m : Mat, placement ang m (if nonzero scale then [("scale".toList, [scale.getD 0])] else []) = some (m.scale f f)) ∧ f = t.scale := by
    cases hft : t.scaleToFit with
    | true =>
      rw [hft] at hscale
      simp only [if_true] at hscale
      refine ⟨t.scale, ne_of_gt hpos, ?_, ?_, rfl⟩
      · intro x y; rw [hscale]; simp [unscaled, ne_of_gt hpos]
      · intro m; rw [hscale]; simp [nonzero, ne_of_gt hpos, placement]
    | false =>
      rw [hft] at hscale
      simp only [Bool.false_eq_true, if_false] at hscale
      refine ⟨1, one_ne_zero, ?_, ?_, ?_⟩
      · intro x y; rw [hscale]; simp [unscaled]
      · intro m; rw [hscale]; simp [nonzero, placement, Mat.scale]
      · rw [hone (by rw [← hfit, hft])]
  set y : Rat := rect.y + (rect.height - t.height) / 2 + a * t.scale with hy
  obtain ⟨htc, htr⟩ := transform_reads hn rect rotation scale
  let env : Env := { fmt := fmt, x := fmt (ax / f), y := fmt (y / f), style := style, styles := styles, id := none, idIndex := none, transform := transform fmt rect rotation scale, lineSize := a * b }
  have henv : EnvOk env :=
    { fmt := fun r => (fmt_clean hn r).ok, x := (fmt_clean hn _).ok, y := (fmt_clean hn _).ok
      transform := fun t ht => (htc t ht).ok, id := (by intro t h; cases h), style := hs1, styles := hs2 }
  obtain ⟨xml, as, K, attrs, first, lines, h1, h2, h3, h4, h5, h6, h7, h8, h9⟩ := drawText_at env toks henv hb hsty hplain hal hsafe hg
  have hrender : render fmt x0 rect ⟨toks, style, styles, rotation, t⟩ = .ok xml := by
    simp only [render, hax, ha]
    rw [if_pos hvis]
    simp only [svgText, ← hscale, ← hy, hun, mkEnv, ha, hb']
    exact h1
  have hm : placement ang {} (seen rect rotation scale) = some ((turn ang rotation (midPoint rect)).scale f f) := by
    unfold seen
    generalize hl : (if nonzero scale then [("scale".toList, [scale.getD 0])] else [] : List (Str × List Rat)) = l at hnz
    cases hr : rotation with
    | none =>
      have hz : nonzero none = false := rfl
      rw [hz]
      simp only [Bool.false_eq_true, if_false, List.nil_append, hnz, turn]
    | some r =>
      by_cases h0 : r = 0
      · have hz : nonzero (some r) = false := by simp [nonzero, h0]
        rw [hz]
        simp only [Bool.false_eq_true, if_false, List.nil_append, hnz, turn, h0, if_true]
      · have hz : nonzero (some r) = true := by simp [nonzero, h0]
        rw [hz]
        simp only [if_true, List.cons_append, List.nil_append, Option.getD_some, placement, hnz, turn, h0, if_false]
  have hanch := anchors_rows (env := env) hn rfl (x := ax / f) rfl h5 (y / f) 0
  have e0 : y / f + env.lineSize * ((0 : Nat) : Rat) = y / f := by simp
  rw [e0] at hanch
  refine ⟨xml, as, K, attrs, first, lines, (ax / f, y / f), _, _, _, ax, a, hrender, h2, h3, h4, ?_, ?_, hanch, ?_, hm, ha, hside _ h9, ?_⟩
  · unfold num; rw [h6]; show read (attrText (fmt (ax / f))) = _
    rw [(fmt_clean hn _).same]; exact hn.back _
  · unfold num; rw [h7]; show read (attrText (fmt (y / f))) = _
    rw [(fmt_clean hn _).same]; exact hn.back _
  · rw [h8]; exact htr
  · rw [List.map_map]
    apply List.map_congr_left
    intro i _
    have hN : ((numberOfLines toks : Nat) : Rat) ≠ 0 := by
      rw [lines_length]
      have := List.length_pos_iff.mpr (lines_ne_nil toks)
      exact_mod_cast Nat.pos_iff_ne_zero.mp this
    have key : f * (y / f + a * b * i) = (lineBox rect t.height toks i 1).1 + a * t.scale := by
      simp only [lineBox, hy, hh, ← hlast]
      push_cast
      field_simp
      ring
    have key2 : f * (ax / f) = ax := by field_simp
    rw [← key]
    conv_rhs => rw [← key2]
    simp only [Function.comp_def, midPoint, Mat.apply, Mat.scale, env]
    refine Prod.ext ?_ ?_ <;> ring

/-- **C102.** A text is drawn line by line: on the page (after the transformations of the text) every line is anchored at the left
edge, the middle or the right edge of its box, as its alignment says, and its base line is the size of the font (scaled as the
text) below the top of the line box that `line_box` gives for that line; if the text is turned, all this is turned around the middle
of the box. This holds with and without `scale_to_fit`, for all texts for which C58 says that they are drawn. -/
theorem C102_lines (hn : Numbers fmt read) (ang : Rat → Rat × Rat) (rect : Rect) (w : Rat) (toks : List Tok) (style : TextStyle)
    (styles : Str → Option TextStyle) (fit : Bool) (rotation : Option Rat) {t0 : TextState} (hq : makeState w style toks fit = .ok t0)
    (hvis : (t0.onRect rect).scale > 1 / 100000)
    (hs1 : StyleOk style) (hs2 : ∀ n s, styles n = some s → StyleOk s) (hb : Balanced toks)
    (hsty : ∀ n, Tok.opn n ∈ toks → styles n = none → n.head? = some '#') (hplain : ∀ s, Tok.text s ∈ toks → Plain s)
    (hal : style.align = some "left".toList ∨ style.align = some "middle".toList ∨ style.align = some "right".toList)
    (hsafe : SafeBreaks styles [style.priority] [true] toks) :
    ∃ x s attrs first lines p tr m ps ax size, render fmt {} rect ⟨toks, style, styles, rotation, t0.onRect rect⟩ = .ok x ∧ x.toString = .ok s ∧
      readXml s = some (.elem "text".toList attrs (linesForest (first :: lines)) .nil) ∧
      (first :: lines).map (fun l => l.2.textOf) = (lineTexts toks).map nbsp ∧
      num read attrs "x" = some p.1 ∧ num read attrs "y" = some p.2 ∧ anchors read p (lines.map (·.1)) = some ps ∧
      readTransform read (attrs.lookup "transform".toList) = some tr ∧ placement ang {} tr = some m ∧
      style.size = some size ∧ Side rect style.align ax (attrs.lookup "text-anchor".toList) ∧
      ps.map m.apply = (rows 0 (breaks toks)).map (fun i : Nat => (turn ang rotation (rect.x + rect.width / 2, rect.y + rect.height / 2)).apply
        (ax, (lineBox rect (t0.onRect rect).height toks i 1).1 + size * (t0.onRect rect).scale)) := by
  obtain ⟨x, as, K, attrs, first, lines, p, tr, m, ps, ax, size, h1, hg, h2, h3⟩ :=
    render_at hn ang rect w toks style styles fit rotation hq hvis hs1 hs2 hb hsty hplain hal hsafe good_init
  have hst0 : x.stack = [] := by
    have := hg.stack
    simpa using this
  obtain ⟨s, hs⟩ : ∃ s, x.toString = .ok s := by
    unfold Xml.toString; rw [hst0]; exact ⟨_, rfl⟩
  obtain ⟨_, hread⟩ := hg.toString hs
  refine ⟨x, s, attrs, first, lines, p, tr, m, ps, ax, size, h1, hs, ?_, h3⟩
  rw [hread, ← h2]
  rfl

/-! A text of two lines, two rows apart, in a box that is half as large as the text. -/

def exToks : List Tok := [.text "ab".toList, .newline 2, .opn "em".toList, .text "c".toList, .close]

def exStyle : TextStyle := { font := some "Arial".toList, size := some 20, lineSpacing := some (6/5), align := some "right".toList, color := some "black".toList }

def exStyles : Str → Option TextStyle := fun n => if n = "em".toList then some { italic := some true } else none

def exState : TextState := { width := 40, height := 72, scaleToFit := true }

def exRect : Rect := ⟨100, 50, 20, 80⟩

/-- It is drawn with half its size. -/
example : makeState 40 exStyle exToks true = .ok exState ∧ (exState.onRect exRect).scale = 1 / 2 ∧
    (lineBox exRect (exState.onRect exRect).height exToks 0 1).1 + 20 * (exState.onRect exRect).scale = 82 ∧
    (lineBox exRect (exState.onRect exRect).height exToks 2 1).1 + 20 * (exState.onRect exRect).scale = 106 ∧
    rows 0 (breaks exToks) = [0, 2] := by decide +kernel

/-- The base lines of the first and the last row, turned: what C102 says for this text. -/
example (ang : Rat → Rat × Rat) : ∃ x s attrs first lines p tr m ps, render SvgDraw.sampleFmt {} exRect ⟨exToks, exStyle, exStyles, some 30, exState.onRect exRect⟩ = .ok x ∧
    x.toString = .ok s ∧ readXml s = some (.elem "text".toList attrs (linesForest (first :: lines)) .nil) ∧
    num SvgDraw.sampleRead attrs "x" = some p.1 ∧ num SvgDraw.sampleRead attrs "y" = some p.2 ∧
    anchors SvgDraw.sampleRead p (lines.map (·.1)) = some ps ∧ readTransform SvgDraw.sampleRead (attrs.lookup "transform".toList) = some tr ∧
    placement ang {} tr = some m ∧ ps.map m.apply = [(turn ang (some 30) (110, 90)).apply (120, 82), (turn ang (some 30) (110, 90)).apply (120, 106)] := by
  have hb : Balanced exToks := by
    have := Balanced.text "ab".toList _ (.newline 2 _ (Balanced.block "em".toList [.text "c".toList] [] (.text _ _ .nil) .nil))
    exact this
  have hem : exStyles "em".toList = some { italic := some true } := rfl
  obtain ⟨x, s, attrs, first, lines, p, tr, m, ps, ax, size, h1, h2, h3, -, h5, h6, h7, h8, h9, h10, h11, h12⟩ :=
    C102_lines SvgDraw.sampleNumbers ang exRect 40 exToks exStyle exStyles true (some 30) (t0 := exState) (by decide +kernel) (by decide +kernel)
      ⟨(by intro f h; injection h with h; subst h; exact okStr_of_decide (by decide)),
        (by intro f h; injection h with h; subst h; exact okStr_of_decide (by decide)), (by intro f h; cases h)⟩
      (by
        intro n s h
        simp only [exStyles] at h
        split at h
        · injection h with h; subst h
          exact ⟨(by intro f h; cases h), (by intro f h; cases h), (by intro f h; cases h)⟩
        · cases h)
      hb
      (by
        intro n hn h
        simp only [exToks, List.mem_cons, Tok.opn.injEq, List.not_mem_nil, or_false, reduceCtorEq, false_or] at hn
        subst hn; rw [hem] at h; cases h)
      (by
        intro s hs
        simp only [exToks, List.mem_cons, Tok.text.injEq, List.not_mem_nil, or_false, reduceCtorEq, false_or] at hs
        rcases hs with rfl | rfl
        · exact (okStr_of_decide (by decide)).1
        · exact (okStr_of_decide (by decide)).1)
      (.inr (.inr rfl)) (by simp only [SafeBreaks, exToks, hem]; simp)
  refine ⟨x, s, attrs, first, lines, p, tr, m, ps, h1, h2, h3, h5, h6, h7, h8, h9, ?_⟩
  have hax : ax = 120 := by
    rcases h11 with h | h | h
    · exact absurd h.1 (by decide)
    · exact absurd h.1 (by decide)
    · rw [h.2.1]; decide +kernel
  have hsz : size = 20 := by injection h10 with h10; exact h10.symm
  have hr : rows 0 (breaks exToks) = [0, 2] := by decide +kernel
  have k1 : (lineBox exRect (exState.onRect exRect).height exToks ((0 : Nat) : Int) 1).1 + 20 * (exState.onRect exRect).scale = 82 := by decide +kernel
  have k2 : (lineBox exRect (exState.onRect exRect).height exToks ((2 : Nat) : Int) 1).1 + 20 * (exState.onRect exRect).scale = 106 := by decide +kernel
  have k3 : (exRect.x + exRect.width / 2, exRect.y + exRect.height / 2) = ((110, 90) : Pt) := by decide +kernel
  rw [h12, hr, hax, hsz, k3]
  simp only [List.map_cons, List.map_nil, k1, k2]

end Verif.TextItem
