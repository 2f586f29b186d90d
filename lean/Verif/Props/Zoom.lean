import Verif.Proofs.Zoom
import Verif.Props.SceneCairo

/-! # Properties C132, C133: pages seen through a view box, and the rows of texts, with Cairo -/

namespace Verif.Scene
open Spec
open Verif.Layout (Env Arg Pos)
open Verif.CairoDraw (Pt Mat Paint fresh)
open Verif.Slide.Spec (OnPage ItemOf Level Walk Under)

/-! ### C132 -/

/-- The full claim: a view box only moves and zooms. The page with the view box is the page without it, moved and zoomed as a whole (and if one of them cannot be made, neither can the
other one). -/
def Zooms (x : Ext) (png : Bool) (w h : Rat) (v : Rect) (cs : List Call) (step : Int) : Prop :=
  ∀ s env, run (newScene w h) cs = .ok s → s.slide.rects w h = .ok env →
    ∃ Z, ViewBoxMap png w h v Z ∧ cairoPage x png s env w h (some v) step = (cairoPage x png s env w h none step).map (List.map (paintThrough Z))

/-- What is drawn on a page: every painter is a call of a drawing method on a box that is on the page. -/
theorem drawn_on_page {w h : Rat} {cs : List Call} {s : State} (hr : run (newScene w h) cs = .ok s) (step : Int) {u : Nat} {z : Int}
    (hu : Verif.Slide.Painter.item u z ∈ Verif.Slide.page s.slide step false) :
    ∃ (k p : Nat) (d : Draw) (c : Verif.Slide.Call) (kk : Content), (things cs)[k]? = some (Call.draw p d) ∧ OnPage ((things cs).map outline) step p ∧ begin_ p d = .ok (some (c, kk)) ∧ s.contents.lookup u = some (p, kk) := by
  obtain ⟨hrun, hkept⟩ := kept_run (kept_new w h) hr
  rw [List.nil_append] at hkept
  have hrun' : Verif.Slide.run (Verif.Slide.newSlide w h) ((things cs).map outline) = .ok s.slide := hrun
  obtain ⟨l, order, hpage, -, hmem, -, -, -, -⟩ := Verif.Slide.C106_page w h _ _ hrun' step
  rw [hpage] at hu
  obtain ⟨⟨u', z'⟩, hy, e⟩ := List.mem_map.mp hu
  injection e with e1 e2
  subst e1 e2
  obtain ⟨p, hi, -, hp⟩ := (hmem u' z').mp hy
  cases hi with
  | @mk k c hc hb ht =>
    rw [List.getElem?_map] at hc
    cases hk' : (things cs)[k]? with
    | none => rw [hk'] at hc; cases hc
    | some c' =>
      rw [hk'] at hc
      injection hc with hc
      cases c' with
      | box q b => subst hc; cases hb
      | draw q d =>
        have hq : q = p := by
          rw [← ht, ← hc]
          cases d <;> rfl
        subst hq
        obtain ⟨c0, kk, h3, h4⟩ := hkept.item k q d hk'
        exact ⟨k, q, d, c0, kk, hk', hp, h3, h4⟩

theorem begin_svg_of {p : Nat} {d : Draw} {c : Verif.Slide.Call} {kk : Content} (hb : begin_ p d = .ok (some (c, kk))) {b : Picture} {sc rot : Option Rat} (hk : kk = .svg b sc rot) :
    d = .svg b sc rot := by
  subst hk
  cases d with
  | text toks style styles rot fit wd =>
    simp only [begin_] at hb
    split at hb
    · cases hb
    · injection hb with hb; injection hb with hb; injection hb with _ hb; cases hb
  | svg b' sc' rot' => injection hb with hb; injection hb with hb; injection hb with _ hb; injection hb with e1 e2 e3; subst e1 e2 e3; rfl
  | _ =>
    simp only [begin_] at hb
    repeat' (split at hb)
    all_goals cases hb

/-- **C132, with the rows pulled apart.** If no SVG picture is drawn on the page, the page with a view box is the page without it, moved and zoomed as a whole, except that the space
between the rows of all texts is zoomed twice. -/
theorem C132_rows_partial (x : Ext) (hx : ∀ l k, x.baseline { l with spacing := k } = x.baseline l) (png : Bool) (w h : Rat) (hw : 0 < w) (hh : 0 < h)
    (v : Rect) (hv : 0 < v.width ∧ 0 < v.height) (cs : List Call) (s : State) (hr : run (newScene w h) cs = .ok s) (env : Env) (step : Int)
    (hd : ∀ p b sc rot, OnPage ((things cs).map outline) step p → Call.draw p (.svg b sc rot) ∉ things cs) :
    ∃ Z, ViewBoxMap png w h v Z ∧ cairoPage x png s env w h (some v) step =
      (cairoPage x png s env w h none step).map (List.map (fun p => spread (min (w / v.width) (h / v.height)) (paintThrough Z p))) := by
  obtain ⟨Z, hZ, hdet, hstart⟩ := viewBoxMap_exists png hw hh hv
  refine ⟨Z, hZ, ?_⟩
  unfold cairoPage
  rw [hstart]
  cases hc : cairoStart png w h none with
  | error e => rfl
  | ok a =>
    obtain ⟨M, hM, -⟩ := cairoStart_ok png hw hh none (fun _ e => by cases e)
    rw [hM] at hc
    injection hc with hc
    subst hc
    simp only [Except.map]
    rw [cairoAll_zoom hx hdet png _ env step s.contents _ _ (fun u z hu p q hl b sc rot hq => ?_)]
    · simp only [zoomOf]
      cases cairoAll x png 1 env step s.contents (fresh M) (Verif.Slide.page s.slide step false) <;> rfl
    · obtain ⟨k, p', d, c, kk, h1, h2, h3, h4⟩ := drawn_on_page hr step hu
      rw [hl] at h4
      injection h4 with h4; injection h4 with h5 h6
      subst h5 h6
      rw [begin_svg_of h3 hq] at h1
      exact hd p b sc rot h2 (List.mem_of_getElem? h1)

theorem begin_text_of {p : Nat} {d : Draw} {c : Verif.Slide.Call} {kk : Content} (hb : begin_ p d = .ok (some (c, kk))) {t : Verif.TextItem.Item} (hk : kk = .text t) :
    ∃ toks style styles rot fit wd, d = .text toks style styles rot fit wd ∧ t.style = style ∧ t.styles = styles ∧ ∃ a b, style.size = some a ∧ style.lineSpacing = some b := by
  subst hk
  cases d with
  | text toks style styles rot fit wd =>
    simp only [begin_] at hb
    split at hb
    · cases hb
    · rename_i t' ht
      injection hb with hb; injection hb with hb; injection hb with _ hb; injection hb with hb
      obtain ⟨sz, sp, ha, hsp, -⟩ := makeState_ok ht
      subst hb
      exact ⟨_, _, _, _, _, _, rfl, rfl, rfl, sz, sp, ha, hsp⟩
  | svg b' sc' rot' => injection hb with hb; injection hb with hb; injection hb with _ hb; cases hb
  | _ =>
    simp only [begin_] at hb
    repeat' (split at hb)
    all_goals cases hb

/-- **C132, the part that holds.** If no SVG picture is drawn on the page and nothing is left between the rows of its texts above the height of their fonts, the page with a view box is
the page without it, moved and zoomed as a whole. (Missing: SVG pictures, which are drawn without the view box, and texts whose `line_spacing * size` is not the height of the
font, for which the claim is false.) -/
theorem C132_zoom_partial (x : Ext) (hx : ∀ l k, x.baseline { l with spacing := k } = x.baseline l) (png : Bool) (w h : Rat) (hw : 0 < w) (hh : 0 < h)
    (v : Rect) (hv : 0 < v.width ∧ 0 < v.height) (cs : List Call) (step : Int)
    (hd : ∀ p b sc rot, OnPage ((things cs).map outline) step p → Call.draw p (.svg b sc rot) ∉ things cs)
    (ht : ∀ p toks style styles rot fit wd, OnPage ((things cs).map outline) step p → Call.draw p (.text toks style styles rot fit wd) ∈ things cs →
      ∀ default a b, styles "default".toList = some default → style.size = some a → style.lineSpacing = some b → b * a = x.fontHeight (Verif.Cairo.Spec.over style default)) :
    Zooms x png w h v cs step := by
  intro s env hr _
  obtain ⟨Z, hZ, hdet, hstart⟩ := viewBoxMap_exists png hw hh hv
  refine ⟨Z, hZ, ?_⟩
  unfold cairoPage
  rw [hstart]
  obtain ⟨M, hM, -⟩ := cairoStart_ok png hw hh none (fun _ e => by cases e)
  rw [hM]
  simp only [Except.map]
  rw [cairoAll_dense png _ env step s.contents _ _ (fun u z hu p q hl t hq => ?_)]
  · have e : zoomCtx Z (zoomOf w h (some v)) (fresh M) = zoomCtx Z 1 (fresh M) := rfl
    rw [e, cairoAll_zoom hx hdet png 1 env step s.contents _ _ (fun u z hu p q hl b sc rot hq => ?_)]
    · simp only [zoomOf]
      cases cairoAll x png 1 env step s.contents (fresh M) (Verif.Slide.page s.slide step false) with
      | error e => rfl
      | ok c => simp only [Except.map, zoomCtx, spread_one]
    · obtain ⟨k, p', d, c, kk, h1, h2, h3, h4⟩ := drawn_on_page hr step hu
      rw [hl] at h4
      injection h4 with h4; injection h4 with h5 h6
      subst h5 h6
      rw [begin_svg_of h3 hq] at h1
      exact hd p b sc rot h2 (List.mem_of_getElem? h1)
  · obtain ⟨k, p', d, c, kk, h1, h2, h3, h4⟩ := drawn_on_page hr step hu
    rw [hl] at h4
    injection h4 with h4; injection h4 with h5 h6
    subst h5 h6
    obtain ⟨toks, style, styles, rot, fit, wd, rfl, e1, e2, a, b, ha, hb⟩ := begin_text_of h3 hq
    rw [e1, e2]
    exact ⟨ht _ _ _ _ _ _ _ h2 (List.mem_of_getElem? h1), a, b, ha, hb⟩

/-- A text in a box. -/
def oneText (fit : Bool) : List Call :=
  [.box 0 { layout := { x := .num 20, y := .num 30, width := .num 20, height := .num 60 } }, .draw 1 (.text Verif.TextItem.exToks cairoStyle cairoStyles none fit 40)]

/-- The spaces between the rows of the texts. -/
def spaces (ps : List Paint) : List Rat := ps.filterMap (fun p => match p with | .text _ l => some l.spacing | _ => none)

theorem spaces_through (Z : Mat) (ps : List Paint) : spaces (ps.map (paintThrough Z)) = spaces ps := by
  induction ps with
  | nil => rfl
  | cons p ps ih =>
    unfold spaces at ih ⊢
    cases p <;> simp [paintThrough, ih]

theorem zooms_of {x : Ext} {png : Bool} {w h : Rat} {v : Rect} {cs : List Call} {step : Int} (hz : Zooms x png w h v cs step) {r : Option Rect} {ps : List Paint}
    (hp : paintedOn x png w h none cs step = some (r, ps)) {r' : Option Rect} {ps' : List Paint} (hp' : paintedOn x png w h (some v) cs step = some (r', ps')) :
    ∃ Z, ViewBoxMap png w h v Z ∧ ps' = ps.map (paintThrough Z) := by
  unfold paintedOn at hp hp'
  cases h1 : run (newScene w h) cs with
  | error e => rw [h1] at hp; cases hp
  | ok s =>
    rw [h1] at hp hp'
    dsimp only at hp hp'
    cases h2 : s.slide.rects w h with
    | error e => rw [h2] at hp; cases hp
    | ok env =>
      rw [h2] at hp hp'
      dsimp only at hp hp'
      obtain ⟨Z, hZ, e⟩ := hz s env h1 h2
      refine ⟨Z, hZ, ?_⟩
      cases h3 : cairoPage x png s env w h none step with
      | error e => rw [h3] at hp; cases hp
      | ok a =>
        rw [h3] at hp e
        rw [e] at hp'
        injection hp with hp; injection hp with _ hp
        injection hp' with hp'; injection hp' with _ hp'
        rw [← hp, ← hp']

/-- **C132 is false of the code** (first reason): the space between the rows of a text is multiplied by the scale of the view box, and drawn in a context with this scale. -/
theorem C132_text_false : ¬ ∀ (x : Ext) (png : Bool) (w h : Rat) (v : Rect) (cs : List Call) (step : Int), Zooms x png w h v cs step := by
  intro hall
  have e1 : (paintedOn exExt false 100 100 none (oneText false) 1).map (fun a => spaces a.2) = some [14] := by decide +kernel
  have e2 : (paintedOn exExt false 100 100 (some ⟨10, 10, 50, 50⟩) (oneText false) 1).map (fun a => spaces a.2) = some [28] := by decide +kernel
  cases h1 : paintedOn exExt false 100 100 none (oneText false) 1 with
  | none => rw [h1] at e1; cases e1
  | some a =>
    cases h2 : paintedOn exExt false 100 100 (some ⟨10, 10, 50, 50⟩) (oneText false) 1 with
    | none => rw [h2] at e2; cases e2
    | some b =>
      obtain ⟨Z, -, e⟩ := zooms_of (hall _ _ _ _ _ _ _) (Prod.eta a ▸ h1) (Prod.eta b ▸ h2)
      rw [h1] at e1; rw [h2] at e2
      injection e1 with e1; injection e2 with e2
      dsimp only at e1 e2
      rw [e, spaces_through, e1] at e2
      exact absurd e2 (by decide +kernel)

/-- Second reason: SVG pictures do not move with the view box. -/
theorem C132_svg_false : ¬ Zooms exExt false 100 100 ⟨10, 10, 50, 50⟩ (onePicture none) 2 := by
  intro hz
  have e1 : paintedOn exExt false 100 100 none (onePicture none) 2 = some (some ⟨20, 30, 16, 12⟩, [.svg { xx := 3/4, yy := 3/4, x0 := 15, y0 := 45/2 } 16 12 exDoc]) := by
    decide +kernel
  have e2 : paintedOn exExt false 100 100 (some ⟨10, 10, 50, 50⟩) (onePicture none) 2 =
      some (some ⟨20, 30, 16, 12⟩, [.svg { xx := 3/4, yy := 3/4, x0 := 15, y0 := 45/2 } 16 12 exDoc]) := by decide +kernel
  obtain ⟨Z, hZ, e⟩ := zooms_of hz e1 e2
  have h1 := hZ (20, 30)
  have h2 : onPaper false 100 100 none (20, 30) = (15, 45/2) := by decide +kernel
  have h3 : onPaper false 100 100 (some ⟨10, 10, 50, 50⟩) (20, 30) = (15, 30) := by decide +kernel
  rw [h2, h3] at h1
  simp only [List.map_cons, List.map_nil, paintThrough, List.cons.injEq, and_true, Paint.svg.injEq] at e
  have h4 := congrArg (fun m : Mat => m.apply (0, 0)) e
  rw [after_apply] at h4
  have h5 : Mat.apply { xx := 3/4, yy := 3/4, x0 := 15, y0 := 45/2 } (0, 0) = ((15, 45/2) : Pt) := by decide +kernel
  rw [h5, h1] at h4
  exact absurd h4 (by decide +kernel)

/-- A font that is as high as the rows are apart: the scene of C112 without its picture, on both pages. -/
def denseExt : Ext := { exExt with fontHeight := fun _ => 24 }

def denseScene : List Call := cairoScene.take 6

theorem dense_texts (p : Nat) (toks style styles rot fit wd) (h : Call.draw p (.text toks style styles rot fit wd) ∈ things denseScene) (default a b)
    (_ : styles "default".toList = some default) (ha : style.size = some a) (hb : style.lineSpacing = some b) : b * a = denseExt.fontHeight (Verif.Cairo.Spec.over style default) := by
  have e : things denseScene = denseScene := rfl
  rw [e] at h
  simp only [denseScene, cairoScene, List.take_succ_cons, List.take_zero, List.mem_cons, List.not_mem_nil, or_false, reduceCtorEq, false_or, Call.draw.injEq, Draw.text.injEq, and_false] at h
  obtain ⟨-, -, rfl, -⟩ := h
  injection ha with ha; injection hb with hb
  subst ha hb
  show (6 / 5 * 20 : Rat) = 24
  norm_num

/-- It can be drawn, and the claim applies to it: with the view box all lengths are twice as large. -/
example : Zooms denseExt false 100 100 ⟨10, 10, 50, 50⟩ denseScene 2 ∧
    (paintedOn denseExt false 100 100 (some ⟨10, 10, 50, 50⟩) denseScene 2).map (fun a => (a.2.length, (a.2.drop 1).take 1)) = some (4,
      [.fill [.move (105/2, 15/2), .line (105/2, 135/2), .line (15/2, 135/2), .line (15/2, 15/2), .close] "red".toList]) := by
  refine ⟨C132_zoom_partial denseExt (fun _ _ => rfl) false 100 100 (by norm_num) (by norm_num) _ (by decide +kernel) _ _ ?_ (fun p toks style styles rot fit wd _ h => dense_texts p toks style styles rot fit wd h), by decide +kernel⟩
  intro p b sc rot _ h
  have e : things denseScene = denseScene := rfl
  rw [e] at h
  simp only [denseScene, cairoScene, List.take_succ_cons, List.take_zero, List.mem_cons, List.not_mem_nil, or_false, reduceCtorEq, Call.draw.injEq, and_false] at h

/-! ### C133 -/

/-- What is asked of the rows of a text with the size `a`, the line spacing `b` and the scale `s`: they are `line_spacing * size` apart, as on an SVG page and as it is reserved
in the layout, scaled with the text. -/
def Apart (x : Ext) (over : Verif.Style.TextStyle) (a b s : Rat) (l : Verif.CairoDraw.Layout) : Prop := advance (x.fontHeight over) l = b * a * s

/-- The full claim: the rows of all texts of a page are as far apart as they should be. -/
def RowsApart (x : Ext) (png : Bool) (w h : Rat) (viewBox : Option Rect) (cs : List Call) (step : Int) : Prop :=
  ∀ s env, run (newScene w h) cs = .ok s → s.slide.rects w h = .ok env → ∀ ps, cairoPage x png s env w h viewBox step = .ok ps →
    ∀ m l, Paint.text m l ∈ ps → ∃ (p : Nat) (toks : List Verif.Text.Tok) (style default : Verif.Style.TextStyle) (styles : Str → Option Verif.Style.TextStyle) (rot : Option Rat)
      (fit : Bool) (wd a b : Rat) (r : Rect), Call.draw p (.text toks style styles rot fit wd) ∈ things cs ∧ styles "default".toList = some default ∧ style.size = some a ∧
      style.lineSpacing = some b ∧ env p = some r ∧ Apart x (Verif.Cairo.Spec.over style default) a b (textScale r wd (rowCount toks * (a * b)) fit) l

/-- **C133, the part that holds.** Every text of a page is drawn with rows that are as far apart as they should be exactly if nothing is left of `line_spacing * size` above the height of
its font, or the view box zooms by as much as the text is scaled (in particular, if there is no view box and the text is not scaled). -/
theorem C133_rows_partial (x : Ext) (hk : x.known "none".toList = false) (h0 : x.ang 0 = (1, 0)) (png : Bool) (w h : Rat) (hw : 0 < w) (hh : 0 < h)
    (cs : List Call) (s : State) (hr : run (newScene w h) cs = .ok s) (env : Env) (he : s.slide.rects w h = .ok env) (viewBox : Option Rect)
    (hv : ∀ v, viewBox = some v → 0 < v.width ∧ 0 < v.height) (step : Int)
    (hd : ∀ (k : Nat) p d, (things cs)[k]? = some (Call.draw p d) → OnPage ((things cs).map outline) step p → Paintable x viewBox env step p d) :
    ∃ l, InOrder (things cs) step l ∧ (Smooth (things cs) l → ∃ parts : List (List Paint), cairoPage x png s env w h viewBox step = .ok parts.flatten ∧
      List.Forall₂ (fun u part => ∀ (k p : Nat) (toks : List Verif.Text.Tok) (style : Verif.Style.TextStyle) (styles : Str → Option Verif.Style.TextStyle) (rot : Option Rat) (fit : Bool)
        (wd : Rat), u.1 = k + 1 → (things cs)[k]? = some (.draw p (.text toks style styles rot fit wd)) →
        ∃ a b r, style.size = some a ∧ style.lineSpacing = some b ∧ env p = some r ∧
          (textScale r wd (rowCount toks * (a * b)) fit > 1 / 100000 → ∃ default m lay, styles "default".toList = some default ∧ part = [.text m lay] ∧
            (Apart x (Verif.Cairo.Spec.over style default) a b (textScale r wd (rowCount toks * (a * b)) fit) lay ↔
              b * a = x.fontHeight (Verif.Cairo.Spec.over style default) ∨ zoomOf w h viewBox = textScale r wd (rowCount toks * (a * b)) fit))) l parts) := by
  obtain ⟨l, hl, h1⟩ := C112_page_partial x hk h0 png w h hw hh cs s hr env he viewBox hv step hd
  refine ⟨l, hl, fun hs => ?_⟩
  obtain ⟨ps, h2, parts, rfl, h3⟩ := h1 hs
  refine ⟨parts, h2, h3.imp ?_⟩
  rintro u part ⟨k, p, d, qs, e1, e2, e3, e4⟩ k' p' toks style styles rot fit wd e5 e6
  obtain rfl : k = k' := by omega
  rw [e2] at e6
  injection e6 with e6; injection e6 with e6 e7
  subst e6 e7
  obtain ⟨r, a, b, sc, f1, f2, f3, rfl, f5, -⟩ := e3
  refine ⟨a, b, r, f2, f3, f1, fun hsc => ?_⟩
  obtain ⟨m, lay, rfl, ⟨default, g1, -, -, -, -, g2, -, g3⟩, -⟩ := f5 hsc
  refine ⟨default, m, lay, g1, ?_, ?_⟩
  · match part, e4 with
    | [], e4 => cases e4
    | _ :: _ :: _, e4 => injection e4 with _ e4; cases e4
    | [q], e4 =>
      simp only [List.map_cons, List.map_nil, List.cons.injEq, and_true] at e4
      cases q with
      | text m' l' => simp only [Verif.CairoDraw.Spec.Paint.seen] at e4; rw [e4]
      | _ => cases e4
  · have hsc1 : lay.scale.getD 1 = textScale r wd (rowCount toks * (a * b)) fit := by
      rw [g2]
      cases fit with
      | true => rfl
      | false => rfl
    unfold Apart advance
    rw [hsc1, g3 a b f2 f3]
    generalize textScale r wd (rowCount toks * (a * b)) fit = t
    generalize x.fontHeight (Verif.Cairo.Spec.over style default) = H
    generalize zoomOf w h viewBox = z
    have e : t * H + (b * a - H) * z - b * a * t = (b * a - H) * (z - t) := by ring
    rw [← sub_eq_zero, e, mul_eq_zero, sub_eq_zero, sub_eq_zero]

/-- All texts in the calls are the one of `oneText`. -/
theorem oneText_only {fit' : Bool} {p : Nat} {toks style styles rot fit wd} (h : Call.draw p (.text toks style styles rot fit wd) ∈ things (oneText fit')) :
    p = 1 ∧ toks = Verif.TextItem.exToks ∧ style = cairoStyle ∧ styles = cairoStyles ∧ fit = fit' ∧ wd = 40 := by
  have e : things (oneText fit') = oneText fit' := rfl
  rw [e] at h
  simp only [oneText, List.mem_cons, List.not_mem_nil, or_false, reduceCtorEq, false_or, Call.draw.injEq, Draw.text.injEq] at h
  tauto

/-- What the claim says about `oneText`. -/
theorem oneText_apart {viewBox : Option Rect} {fit : Bool} (hc : RowsApart exExt false 100 100 viewBox (oneText fit) 1) {r : Rect} {m : Mat} {l : Verif.CairoDraw.Layout}
    (hp : paintedOn exExt false 100 100 viewBox (oneText fit) 1 = some (some r, [.text m l])) : advance 10 l = 24 * textScale r 40 72 fit := by
  unfold paintedOn at hp
  cases h1 : run (newScene 100 100) (oneText fit) with
  | error e => rw [h1] at hp; cases hp
  | ok s =>
    rw [h1] at hp
    dsimp only at hp
    cases h2 : s.slide.rects 100 100 with
    | error e => rw [h2] at hp; cases hp
    | ok env =>
      rw [h2] at hp
      dsimp only at hp
      cases h3 : cairoPage exExt false s env 100 100 viewBox 1 with
      | error e => rw [h3] at hp; cases hp
      | ok ps =>
        rw [h3] at hp
        injection hp with hp; injection hp with h4 h5
        obtain ⟨p, toks, style, default, styles, rot, fit', wd, a, b, r', g1, g2, g3, g4, g5, g6⟩ := hc s env h1 h2 ps h3 m l (by rw [h5]; exact .head _)
        obtain ⟨rfl, rfl, rfl, rfl, rfl, rfl⟩ := oneText_only g1
        injection g3 with g3; injection g4 with g4
        rw [h4] at g5; injection g5 with g5
        subst g3 g4 g5
        have e : ((rowCount Verif.TextItem.exToks : Nat) : Rat) * (20 * (6 / 5)) = 72 := by decide +kernel
        unfold Apart at g6
        rw [e] at g6
        rw [show (24 : Rat) = 6 / 5 * 20 by norm_num]
        exact g6

/-- The layout of `oneText`. -/
def oneLayout (scale : Option Rat) (spacing width : Rat) : Verif.CairoDraw.Layout :=
  match paintedOn exExt false 100 100 none (oneText false) 1 with
  | some (_, [.text _ l]) => { l with scale := scale, spacing := spacing, width := width }
  | _ => { text := [], ranges := [], align := none, scale := none, spacing := 0, width := 0 }

/-- **C133 is false of the code** (first reason): with a view box the space between the rows is zoomed twice. The rows that should be 24 apart are 38 apart. -/
theorem C133_viewbox_false : ¬ ∀ (x : Ext) (png : Bool) (w h : Rat) (viewBox : Option Rect) (cs : List Call) (step : Int), RowsApart x png w h viewBox cs step := by
  intro hall
  have hp : paintedOn exExt false 100 100 (some ⟨10, 10, 50, 50⟩) (oneText false) 1 =
      some (some ⟨20, 30, 40, 72⟩, [.text { xx := 3/2, yy := 3/2, x0 := 15, y0 := 48 } (oneLayout none 28 40)]) := by decide +kernel
  have h := oneText_apart (hall _ _ _ _ _ _ _) hp
  exact absurd h (by decide +kernel)

/-- Second reason: the space between the rows is not scaled with the text. The rows that should be 12 apart are 19 apart. -/
theorem C133_fit_false : ¬ RowsApart exExt false 100 100 none (oneText true) 1 := by
  intro hall
  have hp : paintedOn exExt false 100 100 none (oneText true) 1 =
      some (some ⟨20, 30, 20, 60⟩, [.text { xx := 3/4, yy := 3/4, x0 := 15, y0 := 33 } (oneLayout (some (1/2)) 14 20)]) := by decide +kernel
  have h := oneText_apart hall hp
  exact absurd h (by decide +kernel)

/-- An example for the part that holds: on page 2 of the scene of C112 the text is scaled to half its size, so its rows are right if the view box is twice as large as the slide. -/
example : zoomOf 100 100 (some ⟨0, 0, 200, 200⟩) = 1 / 2 ∧
    ((paintedOn exExt false 100 100 (some ⟨0, 0, 200, 200⟩) (oneText true) 1).map (fun a => a.2.filterMap (fun p => match p with | .text _ l => some (advance 10 l) | _ => none))) = some [12] := by
  decide +kernel

end Verif.Scene
