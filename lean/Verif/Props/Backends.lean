import Verif.Proofs.Backends
import Verif.Props.SvgDraw

/-! # Property C97: the two backends draw the same shapes -/

namespace Verif.Backends
open Spec
open Verif.CairoDraw (Mat Seg)
open Verif.SvgDraw (Item seen sampleFmt sampleRead sampleNumbers Shows)
open Verif.SvgDraw.Spec

/-- What is painted with Cairo is what a reader sees in the SVG. -/
def SameInBoth (fmt : Rat → Str) (read : Str → Option Rat) (known : Str → Bool) (ang : Rat → Rat × Rat) (m : Mat) (i : Item) : Prop :=
  ∀ d, seen fmt read [i] = some [d] → ∃ ps, drawCairo read known ang m i = .ok ps ∧ Paints true read ang m d ps

/-- Colours and angles for examples. -/
def sampleKnown (c : Str) : Bool := c = "red".toList || c = "black".toList
def sampleAng (a : Rat) : Rat × Rat := if a = 90 then (0, 1) else (1, 0)

/-- A rectangle with corners rounded only in one direction. -/
def oneRadius : Item := .rect ⟨10, 20, 30, 40⟩ (some 5) (some 0) none { color := some "red".toList }

/-- A triangle with an outline. -/
def triangle : Item := .polygon [(0, 0), (10, 0), (0, 10)] none { color := some "red".toList }

/-- A dash pattern with a comma, as usual in SVG (numbers written as `sampleFmt` does). -/
def commaDash : Item := .rect ⟨10, 20, 30, 40⟩ none none none { color := some "red".toList, dash := some "+4e1,+2e1".toList }

theorem red_only {p : SvgDraw.Paint} (hc : p.color = some "red".toList) (hb : p.bgColor = none) (hd : p.dash = none) : PaintOk p :=
  SvgDraw.paintOk_of (by
    rintro c (h | h | h)
    · rw [hc] at h; injection h with h; subst h; exact SvgDraw.red_ok
    · rw [hb] at h; cases h
    · rw [hd] at h; cases h)

theorem red_style {read : Str → Option Rat} : StyleOk read sampleKnown { color := some "red".toList } := by
  refine ⟨?_, ?_, ?_⟩
  · intro c hc _
    injection hc with hc
    subst hc
    decide
  · intro c hc; cases hc
  · intro d hd; cases hd

/-- Like `sampleRead`, but a comma is not part of a number. -/
def strictRead (s : Str) : Option Rat := if ',' ∈ s then none else sampleRead s

theorem strictNumbers : Numbers sampleFmt strictRead := by
  obtain ⟨h1, h2, h3⟩ := sampleNumbers
  refine ⟨fun q => ?_, h2, rfl⟩
  unfold strictRead
  rw [if_neg (fun h => absurd (h2 q ',' h) (by decide))]
  exact h1 q

/-- **C97 is false of the code** (first reason): of two radii of which one is zero, SVG rounds the corners in both directions, Cairo in none. -/
theorem C97_radius_false : ¬ ∀ (fmt : Rat → Str) (read : Str → Option Rat) (known : Str → Bool) (ang : Rat → Rat × Rat) (m : Mat) (i : Item),
    Numbers fmt read → known "none".toList = false → ang 0 = (1, 0) → m.det ≠ 0 → ItemOk i → outlineWidth i ≠ some 0 → Common read known i →
    closes i = true → SameInBoth fmt read known ang m i := by
  intro h
  obtain ⟨ps, h1, pm, pictures, fills, strokes, h2, h3, hpic, h4, h5⟩ := h sampleFmt sampleRead sampleKnown sampleAng {} oneRadius sampleNumbers (by decide) (by decide +kernel)
    (by decide +kernel) (red_only rfl rfl rfl) (by decide) ⟨by decide +kernel, by decide +kernel, red_style⟩ rfl
    ⟨.rect 10 20 30 40 5 5, [], none, some ⟨"red".toList, 1, none⟩⟩ (by decide +kernel)
  injection h2 with h2
  subst h2
  obtain ⟨path, dash, pen, h6, h7, -, -⟩ := h5
  have hf : fills = [] := h4
  have hpe : pictures = [] := hpic
  rw [hpe, List.nil_append] at h3
  rw [hf, h6, List.nil_append] at h3
  have hline : drawCairo sampleRead sampleKnown sampleAng {} oneRadius = .ok [.stroke path "red".toList 1 dash pen] := by rw [h1, h3]
  have hcorner : (Seg.curve (35 + 5 * CairoDraw.arcToBezier, 20) (40, 20) (40, 20)) ∈ path := by
    have e : (match drawCairo sampleRead sampleKnown sampleAng {} oneRadius with
      | .ok [.stroke p _ _ _ _] => decide ((Seg.curve (35 + 5 * CairoDraw.arcToBezier, 20) (40, 20) (40, 20)) ∈ p) | _ => false) = true := by decide +kernel
    rw [hline] at e
    simpa using e
  dsimp only [Traces] at h7
  rw [if_neg (by norm_num)] at h7
  obtain ⟨a1, b1, a2, b2, a3, b3, a4, b4, hp⟩ := h7
  rw [hp] at hcorner
  simp [Mat.apply] at hcorner
  norm_num at hcorner

/-- Second reason: the outline of a polygon is not closed with Cairo; the line returns to the first point, but the two ends are not joined there. -/
theorem C97_polygon_false : ¬ SameInBoth sampleFmt sampleRead sampleKnown sampleAng {} triangle := by
  intro h
  obtain ⟨ps, h1, pm, pictures, fills, strokes, h2, h3, hpic, h4, h5⟩ := h ⟨.polygon [(0, 0), (10, 0), (0, 10)], [], none, some ⟨"red".toList, 1, none⟩⟩ (by decide +kernel)
  injection h2 with h2
  subst h2
  obtain ⟨path, dash, pen, h6, h7, -, -⟩ := h5
  have hf : fills = [] := h4
  have hpe : pictures = [] := hpic
  rw [hpe, List.nil_append] at h3
  rw [hf, h6, List.nil_append] at h3
  have e : drawCairo sampleRead sampleKnown sampleAng {} triangle =
      .ok [.stroke [.move (0, 0), .line (10, 0), .line (0, 10), .line (0, 0)] "red".toList 1 [] {}] := by decide +kernel
  rw [e] at h1
  injection h1 with h1
  rw [← h1] at h3
  injection h3 with h3
  injection h3 with h3
  rcases h7 with h7 | ⟨h7, -⟩
  · rw [← h3] at h7
    simp at h7
  · cases h7

/-- Third reason: a dash pattern with commas is drawn in SVG and raises with Cairo. -/
theorem C97_dash_false : Numbers sampleFmt strictRead ∧
    seen sampleFmt strictRead [commaDash] = some [⟨.rect 10 20 30 40 0 0, [], none, some ⟨"red".toList, 1, some "+4e1,+2e1".toList⟩⟩] ∧
    readNumbers strictRead "+4e1,+2e1".toList = some [4, 2] ∧
    drawCairo strictRead sampleKnown sampleAng {} commaDash = .error .value :=
  ⟨strictNumbers, by decide +kernel, by decide +kernel, by decide +kernel⟩

/-- A horizontal line made with `ellipse`, and a picture without height. -/
def flatEllipse : Item := .ellipse ⟨10, 20, 30, 0⟩ none { color := some "red".toList }
def flatBitmap : Item := .bitmap ⟨10, 20, 30, 0⟩ "image/png".toList "QUJD".toList none

/-- Fourth reason: an ellipse or a bitmap without width or without height is a page in SVG and an error with Cairo. -/
theorem C97_flat_false :
    seen sampleFmt sampleRead [flatEllipse] = some [⟨.ellipse 25 20 15 0, [], none, some ⟨"red".toList, 1, none⟩⟩] ∧
    drawCairo sampleRead sampleKnown sampleAng {} flatEllipse = .error (.user "CairoError") ∧
    seen sampleFmt sampleRead [flatBitmap] ≠ none ∧
    drawCairo sampleRead sampleKnown sampleAng {} flatBitmap = .error .zeroDivision :=
  ⟨by decide +kernel, by decide +kernel, by decide +kernel, by decide +kernel⟩

/-- **C97, the part that holds**: for shapes with a size, known colours, even radii, outlines of a width other than zero, dash patterns written with blanks, and paths within the
part of C67, both backends draw what is meant: the SVG page reads as the item, and Cairo paints the same geometry, turned in the same way, with the
same colours, width and dash pattern, first the interior and then the outline; only the outline of a polygon is compared up to its last join.
The curves in the corners are compared by their ends (see C85). (Missing: the situations above.) -/
theorem C97_shapes_partial (fmt : Rat → Str) (read : Str → Option Rat) (hn : Numbers fmt read) (known : Str → Bool) (hk : known "none".toList = false)
    (ang : Rat → Rat × Rat) (h0 : ang 0 = (1, 0)) (m : Mat) (hm : m.det ≠ 0) (i : Item) (hi : ItemOk i) (hw : outlineWidth i ≠ some 0)
    (he : EvenRadii i) (hc : Common read known i) :
    ∃ d, Shows fmt read 100 100 none [i] ∧ seen fmt read [i] = some [d] ∧
      ∃ ps, drawCairo read known ang m i = .ok ps ∧ Paints (closes i) read ang m d ps := by
  have hcen : HasCenter i := by
    cases i with
    | polygon ps rot p => exact .inl hc.1
    | _ => trivial
  have hs : Shows fmt read 100 100 none [i] := SvgDraw.C96_shapes_partial fmt read hn 100 100 none [i] (by
    intro j hj
    rw [List.mem_singleton.mp hj]
    exact ⟨hi, hw, he, hcen⟩)
  exact ⟨meant i, hs, SvgDraw.seen_of hs, item_paints hk h0 hm hw he hc⟩

/-- A turned, dashed, rounded rectangle meets the hypotheses. -/
def sampleItem : Item := .rect ⟨10, 20, 30, 40⟩ (some 5) none (some 90) { color := some "red".toList, bgColor := some "black".toList, dash := some "+4e1 +2e1".toList }

example : Common sampleRead sampleKnown sampleItem ∧ EvenRadii sampleItem ∧ outlineWidth sampleItem ≠ some 0 := by
  refine ⟨⟨by decide +kernel, by decide +kernel, ⟨?_, ?_, ?_⟩⟩, ⟨?_, ?_, ?_⟩, by decide⟩
  · rintro c hc _; injection hc with hc; subst hc; decide
  · rintro c hc _; injection hc with hc; subst hc; decide
  · rintro d hd _
    injection hd with hd
    subst hd
    exact ⟨by decide, by decide, [4, 2], by decide +kernel, by decide +kernel, .inr ⟨4, by decide +kernel, by decide +kernel⟩⟩
  · intro a ha; injection ha with ha; subst ha; decide +kernel
  · intro b hb; cases hb
  · intro a b _ hb; cases hb

/-- A turned picture meets them, too. -/
def samplePicture : Item := .bitmap ⟨10, 20, 30, 40⟩ "image/png".toList "QUJD".toList (some 90)

example : Common sampleRead sampleKnown samplePicture ∧ EvenRadii samplePicture ∧ outlineWidth samplePicture ≠ some 0 :=
  ⟨⟨by decide +kernel, by decide +kernel⟩, trivial, by decide⟩

example : drawCairo sampleRead sampleKnown sampleAng {} samplePicture = .ok [.picture ⟨0, 30, -40, 0, 45, 25⟩ "QUJD".toList] := by decide +kernel

/-- It is filled and outlined. -/
example : (drawCairo sampleRead sampleKnown sampleAng {} sampleItem).toOption.map List.length = some 2 := by decide +kernel

end Verif.Backends
