import Verif.Model.Latex
import Verif.Proofs.ScenePicture
import Verif.Props.SceneCairo
import Verif.Props.SlideLayout

/-! # C126: formulas -/

namespace Verif.Latex
open Verif.Scene (Ext drawSvg_part placement_picture pictureFns pictureFns_str pictureFns_ok readTransform_join cairoSvg resolution pictureSize Part)
open Verif.Scene.Spec (Places DocOk factor centered onPaper)
open Verif.CairoDraw (Mat Pt)
open Verif.SvgDraw.Spec (Numbers readTransform)
open Verif.TextItem.Spec (placement turn)

variable {fmt : Rat → Str} {read : Str → Option Rat}

/-- On a page made with Cairo, the formula fills a rectangle of its size times the scale in the middle of its box. -/
def Right (png : Bool) (r : Rect) (f : Formula) (scale : Rat) (i : Verif.CairoDraw.Item) : Prop :=
  ∃ q m doc, q = centered r (f.width * scale) (f.height * scale) ∧ i = .svg m q.width q.height doc ∧ ∀ u v, m.apply (u, v) = onPaper png 1 1 none (q.x + u, q.y + v)

/-- **C126, SVG.** On an SVG page the formula is in the middle of its box, in its size times the scale. -/
theorem C126_svg (hn : Numbers fmt read) {ang : Rat → Rat × Rat} (h0 : ang 0 = (1, 0)) (r : Rect) (f : Formula) (scale : Rat) (hd : DocOk f.svg) :
    ∃ y G as tr m, Verif.Xml.Spec.readXml f.svg = some G ∧ (∀ x, drawInSvg fmt x r f scale = .ok (x.closeTag.over y)) ∧
      Part y (.elem "g".toList as G .nil) ∧ readTransform read (as.lookup "transform".toList) = some tr ∧ placement ang {} tr = some m ∧
      Places ang r f.width f.height (some scale) none m := by
  obtain ⟨y, G, as, h1, h2, h3, h4⟩ := drawSvg_part hn hd (place r f scale) scale none
  obtain ⟨m, h5, h6⟩ := placement_picture (fmt := fmt) h0 (place r f scale) scale none
  refine ⟨y, G, as, _, m, h1, h2, h3, ?_, h5, _, _, rfl, rfl, ?_⟩
  · rw [h4, pictureFns_str]
    exact (readTransform_join (pictureFns_ok hn _ _ _) (by simp [pictureFns])).1
  · intro u v
    rw [h6 u v]
    rfl

theorem base_apply (png : Bool) (q : Pt) : (({} : Mat).scale (resolution png) (resolution png)).apply q = onPaper png 1 1 none q := by
  have e : resolution png = if png then 1 else 3 / 4 := by cases png <;> decide +kernel
  simp only [e, onPaper, Mat.apply, Mat.scale]
  exact Prod.ext (by ring) (by ring)

/-- What is drawn with Cairo: the formula fills a rectangle of the size of its box. -/
theorem cairo_drawn (x : Ext) (png : Bool) (r : Rect) (f : Formula) (scale : Rat) {doc : Str} (hn : x.normalize f.svg = .ok doc)
    (hw : r.width ≠ 0) (hh : r.height ≠ 0) : ∃ m, drawInCairo x png r f scale = .ok (.svg m r.width r.height doc) ∧
      ∀ u v, m.apply (u, v) = onPaper png 1 1 none ((place r f scale).x + u, (place r f scale).y + v) := by
  have hres : resolution png ≠ 0 := by cases png <;> decide +kernel
  have e : pictureSize (x.natural doc) (place r f scale).width (place r f scale).height = (r.width, r.height) := by
    unfold pictureSize
    rw [if_pos ⟨hw, hh⟩]
    rfl
  have hrun : Verif.CairoDraw.run {} (.scale (resolution png) (resolution png) ::
      (Verif.CairoDraw.transform ((place r f scale).x + r.width / 2, (place r f scale).y + r.height / 2) ((none : Option Rat).map x.ang) 1 1 ++
        [.translate (place r f scale).x (place r f scale).y])) =
      .ok (Verif.CairoDraw.fresh ((Verif.CairoDraw.turned (({} : Mat).scale (resolution png) (resolution png))
        ((place r f scale).x + r.width / 2, (place r f scale).y + r.height / 2) ((none : Option Rat).map x.ang) 1 1).translate (place r f scale).x (place r f scale).y)) := by
    simp only [Verif.CairoDraw.run, Verif.CairoDraw.exec, mul_self_eq_zero, if_neg hres]
    rw [Verif.CairoDraw.run_append, Verif.CairoDraw.run_transform _ _ _ _ _ ⟨one_ne_zero, one_ne_zero⟩]
    rfl
  refine ⟨(Verif.CairoDraw.turned (({} : Mat).scale (resolution png) (resolution png)) ((place r f scale).x + r.width / 2, (place r f scale).y + r.height / 2)
    ((none : Option Rat).map x.ang) 1 1).translate (place r f scale).x (place r f scale).y, ?_, ?_⟩
  · simp only [drawInCairo, cairoSvg, hn]
    rw [e]
    dsimp only
    rw [if_neg (by rintro (h | h); exacts [hw h, hh h]), hrun]
    rfl
  · intro u v
    rw [← base_apply]
    have e1 : ∀ (T : Mat) (a b : Rat), (T.translate a b).apply (u, v) = T.apply (a + u, b + v) := by
      intro T a b
      simp only [Mat.apply, Mat.translate]
      exact Prod.ext (by ring) (by ring)
    have e2 : ∀ (k q : Pt), q = (k.1 + (q.1 - k.1), k.2 + (q.2 - k.2)) := fun k q => Prod.ext (by ring) (by ring)
    rw [e1, e2 ((place r f scale).x + r.width / 2, (place r f scale).y + r.height / 2) ((place r f scale).x + u, (place r f scale).y + v), Verif.CairoDraw.turned_apply]
    congr 1
    simp only [Option.map_none, Option.getD_none]
    exact Prod.ext (by ring) (by ring)

/-- **C126 is false with Cairo**: in a box larger than the formula, the formula is drawn as large as the box and partly outside of it. -/
theorem C126_latex_false : ¬ ∀ (x : Ext) (png : Bool) (r : Rect) (f : Formula) (scale : Rat) (doc : Str), x.normalize f.svg = .ok doc → r.width ≠ 0 → r.height ≠ 0 →
    ∃ i, drawInCairo x png r f scale = .ok i ∧ Right png r f scale i := by
  intro h
  let x : Ext := ⟨fun _ => none, fun _ => true, fun _ => (1, 0), fun _ => 0, fun _ => 0, fun d => .ok d, fun _ => (0, 0)⟩
  obtain ⟨i, h1, q, m, doc, rfl, rfl, -⟩ := h x true ⟨0, 0, 200, 100⟩ ⟨50, 20, []⟩ 1 [] rfl (by decide +kernel) (by decide +kernel)
  obtain ⟨m', h2, -⟩ := cairo_drawn x true ⟨0, 0, 200, 100⟩ ⟨50, 20, []⟩ 1 (doc := []) rfl (by decide +kernel) (by decide +kernel)
  rw [h1] at h2
  injection h2 with h2
  injection h2 with _ h2
  revert h2
  decide +kernel

/-- **C126, Cairo (partial).** With Cairo, the formula is in the middle of its box and in its size times the scale exactly if the box has this size. -/
theorem C126_cairo_partial (x : Ext) (png : Bool) (r : Rect) (f : Formula) (scale : Rat) {doc : Str} (hn : x.normalize f.svg = .ok doc)
    (hw : r.width ≠ 0) (hh : r.height ≠ 0) :
    ∃ i, drawInCairo x png r f scale = .ok i ∧ (Right png r f scale i ↔ r.width = f.width * scale ∧ r.height = f.height * scale) := by
  obtain ⟨m, h1, h2⟩ := cairo_drawn x png r f scale hn hw hh
  refine ⟨_, h1, ?_, ?_⟩
  · rintro ⟨q, m', doc', rfl, e, -⟩
    injection e with _ e1 e2
    exact ⟨e1, e2⟩
  · rintro ⟨e1, e2⟩
    refine ⟨_, m, doc, rfl, ?_, ?_⟩
    · rw [e1, e2]; rfl
    · exact h2

open Verif.Slide.Spec (sizeArg Bounded) in
open Verif.Slide (BoxCall newSlide history) in
/-- **C126, room.** Whatever else is put on the slide before and after, the formula lies in the area of its box on both axes, if the size of the box along the axis is not given as
`fill` or as a dynamic value (C99). -/
theorem C126_room_partial (w h width height : Rat) (pre mid post : List Verif.Slide.Call) (q : Nat) (c : BoxCall) (f : Formula) (scale : Rat) (s : Verif.Slide.State)
    (env : Verif.Layout.Env) (hr : Verif.Slide.run (newSlide w h) (history pre mid post q c (call (pre.length + 1) f scale)) = .ok s)
    (he : s.rects width height = .ok env) :
    ∃ r, env (pre.length + 1) = some r ∧ (Bounded (sizeArg true c) → f.width * scale ≤ r.width) ∧ (Bounded (sizeArg false c) → f.height * scale ≤ r.height) := by
  have hw : ∀ axis, Bounded (sizeArg axis c) → ∃ r, env (pre.length + 1) = some r ∧ (if axis then f.width * scale else f.height * scale) ≤ Verif.Layout.Spec.extent axis r :=
    fun axis hb => Verif.Slide.C99_fits_partial w h width height pre mid post q c _ s axis _ env hr rfl .text hb he
  obtain ⟨a, b, l, -, h2, -, -⟩ := Verif.Slide.takes_fits hr rfl (fun _ => True)
    (fun s1 s2 hx a b l h1 h2 h3 => by
      obtain ⟨b', l', g1, g2, -⟩ := Verif.Slide.exec_takes hx (.text (axis := true)) h1 h2 h3
      exact ⟨b', l', g1, g2, trivial⟩) (fun _ _ _ _ => trivial)
  obtain ⟨r, h5, -⟩ := Verif.Slide.rect_ge (Verif.Slide.run_laid hr (Verif.Slide.newSlide_laid w h)) he (by simp [call, Verif.Slide.Spec.target]) h2
  refine ⟨r, h5, fun hb => ?_, fun hb => ?_⟩
  · obtain ⟨r', h6, h7⟩ := hw true hb
    rw [show env (pre.length + 1) = some r from h5] at h6
    injection h6 with h6; subst h6
    exact h7
  · obtain ⟨r', h6, h7⟩ := hw false hb
    rw [show env (pre.length + 1) = some r from h5] at h6
    injection h6 with h6; subst h6
    exact h7

/-- A formula in a box of its own: the box has the size of the formula, so that it is right with Cairo, too. -/
example : (match Verif.Slide.run (Verif.Slide.newSlide 100 100) (Verif.Slide.history [] [] [] 0 {} (call 1 ⟨20, 10, []⟩ 2)) with
    | .ok s => (match s.rects 100 100 with | .ok env => env 1 | .error _ => none)
    | .error _ => none) = some ⟨30, 40, 40, 20⟩ := by decide +kernel

/-- With a width given to the box it is wrong with Cairo: the formula is drawn from x = 30 to x = 110. -/
example : (match Verif.Slide.run (Verif.Slide.newSlide 100 100) (Verif.Slide.history [] [] [] 0 { layout := { width := .num 80 } } (call 1 ⟨20, 10, []⟩ 2)) with
    | .ok s => (match s.rects 100 100 with | .ok env => (env 1).map fun r => (r, place r ⟨20, 10, []⟩ 2) | .error _ => none)
    | .error _ => none) = some (⟨10, 40, 80, 20⟩, ⟨30, 40, 80, 20⟩) := by decide +kernel

end Verif.Latex
