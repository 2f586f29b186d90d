import Verif.Spec.Zoom
import Verif.Proofs.SceneCairo

/-! # Proofs: drawing in a zoomed context -/

namespace Verif.Scene
open Spec
open Verif.Layout (Env)
open Verif.CairoDraw (Pt Mat Seg Paint Layout Ctx GS fresh drawItem)

theorem after_apply (Z m : Mat) (q : Pt) : (after Z m).apply q = Z.apply (m.apply q) := by
  simp only [after, Mat.apply]; exact Prod.ext (by ring) (by ring)

theorem after_dist (Z m : Mat) (p d : Pt) : Verif.CairoDraw.padd (Z.apply p) ((after Z m).dist d) = Z.apply (Verif.CairoDraw.padd p (m.dist d)) := by
  simp only [after, Mat.apply, Mat.dist, Verif.CairoDraw.padd]; exact Prod.ext (by ring) (by ring)

theorem mat_ext {m n : Mat} (h : ∀ q, m.apply q = n.apply q) : m = n := by
  have h0 := h (0, 0)
  have h1 := h (1, 0)
  have h2 := h (0, 1)
  simp only [Mat.apply, Prod.mk.injEq] at h0 h1 h2
  obtain ⟨a1, a2⟩ := h0
  obtain ⟨b1, b2⟩ := h1
  obtain ⟨c1, c2⟩ := h2
  cases m; cases n
  simp only [Mat.mk.injEq] at *
  refine ⟨?_, ?_, ?_, ?_, ?_, ?_⟩ <;> linarith

theorem after_translate (Z m : Mat) (x y : Rat) : after Z (m.translate x y) = (after Z m).translate x y := by
  refine mat_ext (fun q => ?_)
  simp only [after_apply, after, Mat.apply, Mat.translate]; exact Prod.ext (by ring) (by ring)

theorem after_scale (Z m : Mat) (x y : Rat) : after Z (m.scale x y) = (after Z m).scale x y := by
  refine mat_ext (fun q => ?_)
  simp only [after_apply, after, Mat.apply, Mat.scale]; exact Prod.ext (by ring) (by ring)

theorem after_rotate (Z m : Mat) (x y : Rat) : after Z (m.rotate x y) = (after Z m).rotate x y := by
  refine mat_ext (fun q => ?_)
  simp only [after_apply, after, Mat.apply, Mat.rotate]; exact Prod.ext (by ring) (by ring)

theorem after_det (Z m : Mat) : (after Z m).det = Z.det * m.det := by
  simp only [after, Mat.det]; ring

theorem after_unapply {Z : Mat} (hZ : Z.det ≠ 0) (m : Mat) (q : Pt) : (after Z m).unapply (Z.apply q) = m.unapply q := by
  unfold Mat.unapply
  rw [after_det]
  have e1 : (after Z m).yy * ((Z.apply q).1 - (after Z m).x0) - (after Z m).xy * ((Z.apply q).2 - (after Z m).y0) =
      Z.det * (m.yy * (q.1 - m.x0) - m.xy * (q.2 - m.y0)) := by simp only [after, Mat.apply, Mat.det]; ring
  have e2 : (after Z m).xx * ((Z.apply q).2 - (after Z m).y0) - (after Z m).yx * ((Z.apply q).1 - (after Z m).x0) =
      Z.det * (m.xx * (q.2 - m.y0) - m.yx * (q.1 - m.x0)) := by simp only [after, Mat.apply, Mat.det]; ring
  rw [e1, e2, mul_div_mul_left _ _ hZ, mul_div_mul_left _ _ hZ]

/-! ### contexts -/

def zoomGS (Z : Mat) (g : GS) : GS := { g with ctm := after Z g.ctm }

/-- The context, zoomed. -/
def zoomCtx (Z : Mat) (k : Rat) (c : Ctx) : Ctx where
  gs := zoomGS Z c.gs
  saved := c.saved.map (zoomGS Z)
  path := c.path.map (segThrough Z)
  cur := c.cur.map Z.apply
  start := c.start.map Z.apply
  painted := c.painted.map (fun p => spread k (paintThrough Z p))

theorem zoom_moveDev (Z : Mat) (k : Rat) (c : Ctx) (p : Pt) : (zoomCtx Z k c).moveDev (Z.apply p) = zoomCtx Z k (c.moveDev p) := by
  simp [Ctx.moveDev, zoomCtx, segThrough]

theorem zoom_lineDev (Z : Mat) (k : Rat) (c : Ctx) (p : Pt) : (zoomCtx Z k c).lineDev (Z.apply p) = zoomCtx Z k (c.lineDev p) := by
  unfold Ctx.lineDev
  cases h : c.cur with
  | none => simp only [zoomCtx, h, Option.map_none]; exact zoom_moveDev Z k c p
  | some q => simp [zoomCtx, h, segThrough]

theorem zoom_curveDev (Z : Mat) (k : Rat) (c : Ctx) (a b p : Pt) :
    (zoomCtx Z k c).curveDev (Z.apply a) (Z.apply b) (Z.apply p) = zoomCtx Z k (c.curveDev a b p) := by
  unfold Ctx.curveDev
  cases h : c.cur with
  | none => simp [zoomCtx, h, segThrough, Ctx.moveDev]
  | some q => simp [zoomCtx, h, segThrough]

def IsShow : Verif.CairoDraw.Call → Prop
  | .showLayout _ => True
  | _ => False

theorem exec_zoom (Z : Mat) (k : Rat) (c : Ctx) (a : Verif.CairoDraw.Call) (ha : ¬ IsShow a) :
    Verif.CairoDraw.exec (zoomCtx Z k c) a = (Verif.CairoDraw.exec c a).map (zoomCtx Z k) := by
  cases a with
  | save => rfl
  | restore =>
    simp only [Verif.CairoDraw.exec]
    cases h : c.saved with
    | nil => simp [zoomCtx, h, Except.map]
    | cons g r => simp [zoomCtx, h, Except.map]
  | translate x y => simp [Verif.CairoDraw.exec, Except.map, zoomCtx, zoomGS, after_translate]
  | scale x y =>
    simp only [Verif.CairoDraw.exec]
    by_cases h : x * y = 0
    · rw [if_pos h, if_pos h]; rfl
    · rw [if_neg h, if_neg h]; simp [Except.map, zoomCtx, zoomGS, after_scale]
  | rotate x y => simp [Verif.CairoDraw.exec, Except.map, zoomCtx, zoomGS, after_rotate]
  | newPath => rfl
  | moveTo p => simp only [Verif.CairoDraw.exec, Except.map]; rw [← zoom_moveDev, ← after_apply]; rfl
  | lineTo p => simp only [Verif.CairoDraw.exec, Except.map]; rw [← zoom_lineDev, ← after_apply]; rfl
  | curveTo a b p => simp only [Verif.CairoDraw.exec, Except.map]; rw [← zoom_curveDev, ← after_apply, ← after_apply, ← after_apply]; rfl
  | relLineTo d =>
    simp only [Verif.CairoDraw.exec]
    cases h : c.cur with
    | none => simp [zoomCtx, h, Except.map]
    | some q =>
      have e : (zoomCtx Z k c).cur = some (Z.apply q) := by simp [zoomCtx, h]
      rw [e]
      simp only [Except.map]
      rw [← zoom_lineDev, ← after_dist]; rfl
  | relCurveTo a b d =>
    simp only [Verif.CairoDraw.exec]
    cases h : c.cur with
    | none => simp [zoomCtx, h, Except.map]
    | some q =>
      have e : (zoomCtx Z k c).cur = some (Z.apply q) := by simp [zoomCtx, h]
      rw [e]
      simp only [Except.map]
      rw [← zoom_curveDev, ← after_dist, ← after_dist, ← after_dist]; rfl
  | circle p r =>
    simp only [Verif.CairoDraw.exec, Except.map]
    have e : (zoomCtx Z k c).gs.ctm.apply (p.1 + r, p.2) = Z.apply (c.gs.ctm.apply (p.1 + r, p.2)) := after_apply _ _ _
    rw [e, zoom_lineDev]
    simp [zoomCtx, segThrough, zoomGS]
  | closePath =>
    simp only [Verif.CairoDraw.exec]
    cases h : c.cur with
    | none => simp [zoomCtx, h, Except.map]
    | some q => simp [zoomCtx, h, Except.map, segThrough]
  | setSource s => rfl
  | setLineWidth s => rfl
  | setDash s => rfl
  | fill => simp [Verif.CairoDraw.exec, Except.map, zoomCtx, zoomGS, Ctx.clear, paintThrough, spread]
  | stroke => simp [Verif.CairoDraw.exec, Except.map, zoomCtx, zoomGS, Ctx.clear, paintThrough, spread]
  | showLayout l => exact (ha trivial).elim
  | paint x y w h d => simp [Verif.CairoDraw.exec, Except.map, zoomCtx, zoomGS, paintThrough, spread, after_scale, after_translate]

theorem run_zoom (Z : Mat) (k : Rat) : ∀ (ks : List Verif.CairoDraw.Call) (c : Ctx), (∀ a ∈ ks, ¬ IsShow a) →
    Verif.CairoDraw.run (zoomCtx Z k c) ks = (Verif.CairoDraw.run c ks).map (zoomCtx Z k)
  | [], c, _ => rfl
  | a :: ks, c, h => by
    unfold Verif.CairoDraw.run
    rw [exec_zoom Z k c a (h a (.head _))]
    cases Verif.CairoDraw.exec c a with
    | error e => rfl
    | ok c => exact run_zoom Z k ks c (fun a ha => h a (.tail _ ha))

/-- A layout is shown at the current point. -/
theorem show_zoom (Z : Mat) (k : Rat) (c : Ctx) (p : Pt) (l : Layout) :
    Verif.CairoDraw.run (zoomCtx Z k c) [.moveTo p, .showLayout { l with spacing := l.spacing * k }, .restore] =
      (Verif.CairoDraw.run c [.moveTo p, .showLayout l, .restore]).map (zoomCtx Z k) := by
  have e : ∀ (c : Ctx) (l : Layout), Verif.CairoDraw.run c [.moveTo p, .showLayout l, .restore] =
      Verif.CairoDraw.exec { c.moveDev (c.gs.ctm.apply p) with painted := c.painted ++ [.text { c.gs.ctm with x0 := (c.gs.ctm.apply p).1, y0 := (c.gs.ctm.apply p).2 } l] } .restore := by
    intro c l
    simp only [Verif.CairoDraw.run, Verif.CairoDraw.exec, Ctx.moveDev, Option.getD_some]
    cases c.saved <;> rfl
  rw [e, e, ← exec_zoom Z k _ .restore (fun h => h)]
  congr 1
  have e2 : (zoomCtx Z k c).gs.ctm.apply p = Z.apply (c.gs.ctm.apply p) := after_apply _ _ _
  rw [e2]
  simp only [Ctx.moveDev, zoomCtx, zoomGS, List.map_append, List.map_cons, List.map_nil, segThrough, Option.map_some, paintThrough, spread, after, Mat.apply]

/-! ### items -/

theorem userPoint_zoom {Z : Mat} (hZ : Z.det ≠ 0) (k : Rat) (c : Ctx) : (zoomCtx Z k c).userPoint = c.userPoint := by
  unfold Ctx.userPoint
  cases h : c.cur with
  | none => simp [zoomCtx, h]
  | some q =>
    have e : (zoomCtx Z k c).cur = some (Z.apply q) := by simp [zoomCtx, h]
    rw [e]
    exact after_unapply hZ _ _

theorem keep_zoom (Z : Mat) (k : Rat) (r : Except Err Ctx) (l : Verif.CairoDraw.Last) :
    Verif.CairoDraw.keep (r.map (zoomCtx Z k)) l = (Verif.CairoDraw.keep r l).map (fun a => (zoomCtx Z k a.1, a.2)) := by
  cases r <;> rfl

theorem pathCommand_zoom {Z : Mat} (hZ : Z.det ≠ 0) (k : Rat) (c : Ctx) (last : Verif.CairoDraw.Last) (n : Char) (args : List Pt) :
    Verif.CairoDraw.pathCommand (zoomCtx Z k c) last n args = (Verif.CairoDraw.pathCommand c last n args).map (fun a => (zoomCtx Z k a.1, a.2)) := by
  unfold Verif.CairoDraw.pathCommand
  rw [userPoint_zoom hZ]
  dsimp only
  split
  · split
    · rfl
    · rw [exec_zoom Z k c, keep_zoom]; exact fun h => h
  · split
    · rfl
    · rw [exec_zoom Z k c, keep_zoom]; exact fun h => h
  · split
    · rw [exec_zoom Z k c, keep_zoom]; exact fun h => h
    · rfl
  · split
    · rw [exec_zoom Z k c, keep_zoom]; exact fun h => h
    · rfl
  · split
    · rw [exec_zoom Z k c, keep_zoom]; exact fun h => h
    · rfl
  · split
    · rw [exec_zoom Z k c, keep_zoom]; exact fun h => h
    · rfl
  · rfl

theorem drawPathLoop_zoom {Z : Mat} (hZ : Z.det ≠ 0) (k : Rat) : ∀ (cmds : List (Char × List Pt)) (c : Ctx) (last : Verif.CairoDraw.Last),
    Verif.CairoDraw.drawPathLoop (zoomCtx Z k c) last cmds = (Verif.CairoDraw.drawPathLoop c last cmds).map (zoomCtx Z k)
  | [], _, _ => rfl
  | (n, args) :: cmds, c, last => by
    unfold Verif.CairoDraw.drawPathLoop
    rw [pathCommand_zoom hZ]
    cases Verif.CairoDraw.pathCommand c last n args with
    | error e => rfl
    | ok a => exact drawPathLoop_zoom hZ k cmds a.1 a.2

theorem around_zoom {Z : Mat} (hZ : Z.det ≠ 0) (k : Rat) (c : Ctx) (b a : List Verif.CairoDraw.Call) (cmds : List (Char × List Pt))
    (hb : ∀ x ∈ b, ¬ IsShow x) (ha : ∀ x ∈ a, ¬ IsShow x) :
    Verif.CairoDraw.around (zoomCtx Z k c) b cmds a = (Verif.CairoDraw.around c b cmds a).map (zoomCtx Z k) := by
  unfold Verif.CairoDraw.around
  rw [run_zoom Z k b c hb]
  cases Verif.CairoDraw.run c b with
  | error e => rfl
  | ok c =>
    simp only [Except.map, Verif.CairoDraw.drawPath]
    rw [drawPathLoop_zoom hZ]
    cases Verif.CairoDraw.drawPathLoop c {} cmds with
    | error e => rfl
    | ok c => exact run_zoom Z k a c ha

theorem before_quiet (c : Verif.CairoDraw.Color) (s : Verif.CairoDraw.Style) : ∀ x ∈ Verif.CairoDraw.strokeBefore c s, ¬ IsShow x := by
  intro x hx
  unfold Verif.CairoDraw.strokeBefore at hx
  simp only [List.mem_cons] at hx
  rcases hx with rfl | rfl | hx
  · exact fun h => h
  · exact fun h => h
  · split at hx
    · rw [List.mem_singleton.mp hx]; exact fun h => h
    · cases hx

theorem drawPathShape_zoom {Z : Mat} (hZ : Z.det ≠ 0) (k : Rat) (c : Ctx) (cmds : List (Char × List Pt)) (s : Verif.CairoDraw.Style) :
    Verif.CairoDraw.drawPathShape (zoomCtx Z k c) cmds s = (Verif.CairoDraw.drawPathShape c cmds s).map (zoomCtx Z k) := by
  have hs : ∀ {a x : Verif.CairoDraw.Call}, ¬ IsShow a → x ∈ [a] → ¬ IsShow x := fun h hx => by rw [List.mem_singleton.mp hx]; exact h
  unfold Verif.CairoDraw.drawPathShape
  have e : ({ zoomCtx Z k c with saved := (zoomCtx Z k c).gs :: (zoomCtx Z k c).saved } : Ctx) = zoomCtx Z k { c with saved := c.gs :: c.saved } := rfl
  rw [e]
  have h1 : ∀ c, Verif.CairoDraw.fillPart (zoomCtx Z k c) cmds s = (Verif.CairoDraw.fillPart c cmds s).map (zoomCtx Z k) := by
    intro c
    unfold Verif.CairoDraw.fillPart
    split
    · exact around_zoom hZ k c _ _ _ (fun _ => hs (fun h => h)) (fun _ => hs (fun h => h))
    · rfl
  have h2 : ∀ c, Verif.CairoDraw.strokePart (zoomCtx Z k c) cmds s = (Verif.CairoDraw.strokePart c cmds s).map (zoomCtx Z k) := by
    intro c
    unfold Verif.CairoDraw.strokePart
    split
    · exact around_zoom hZ k c _ _ _ (before_quiet _ _) (fun _ => hs (fun h => h))
    · rfl
  rw [h1]
  cases Verif.CairoDraw.fillPart { c with saved := c.gs :: c.saved } cmds s with
  | error e => rfl
  | ok c =>
    simp only [Except.map]
    rw [h2]
    cases Verif.CairoDraw.strokePart c cmds s with
    | error e => rfl
    | ok c => exact run_zoom Z k _ c (fun _ => hs (fun h => h))

/-- The item with its rows pulled apart. -/
def spreadItem (k : Rat) : Verif.CairoDraw.Item → Verif.CairoDraw.Item
  | .text p c rot l => .text p c rot { l with spacing := l.spacing * k }
  | i => i

def IsSvg : Verif.CairoDraw.Item → Prop
  | .svg _ _ _ _ => True
  | _ => False

/-- No call shows a layout. -/
abbrev Quiet (ks : List Verif.CairoDraw.Call) : Prop := ∀ a ∈ ks, ¬ IsShow a

theorem Quiet.app {a b : List Verif.CairoDraw.Call} (ha : Quiet a) (hb : Quiet b) : Quiet (a ++ b) := fun x hx => (List.mem_append.mp hx).elim (ha x) (hb x)

theorem Quiet.con {a : Verif.CairoDraw.Call} {b : List Verif.CairoDraw.Call} (ha : ¬ IsShow a) (hb : Quiet b) : Quiet (a :: b) := List.forall_mem_cons.mpr ⟨ha, hb⟩

theorem quiet_nil : Quiet [] := fun _ h => by cases h

theorem quiet_transform (p : Pt) (rot : Option (Rat × Rat)) (sx sy : Rat) : Quiet (Verif.CairoDraw.transform p rot sx sy) := by
  unfold Verif.CairoDraw.transform
  refine .con (fun h => h) (.app ?_ (.app ?_ (.con (fun h => h) quiet_nil)))
  · split
    · exact .con (fun h => h) quiet_nil
    · exact quiet_nil
  · split
    · exact .con (fun h => h) quiet_nil
    · exact quiet_nil

theorem quiet_fill {d : List Verif.CairoDraw.Call} (hd : Quiet d) (c : Verif.CairoDraw.Color) : Quiet (Verif.CairoDraw.fillShape d c) :=
  .con (fun h => h) (.app hd (.con (fun h => h) quiet_nil))

theorem quiet_stroke {d : List Verif.CairoDraw.Call} (hd : Quiet d) (c : Verif.CairoDraw.Color) (s : Verif.CairoDraw.Style) : Quiet (Verif.CairoDraw.strokeShape d c s) :=
  .app (before_quiet c s) (.app hd (.con (fun h => h) quiet_nil))

theorem quiet_fillStroke {d : List Verif.CairoDraw.Call} (hd : Quiet d) (s : Verif.CairoDraw.Style) : Quiet (Verif.CairoDraw.fillStrokeShape d s) := by
  unfold Verif.CairoDraw.fillStrokeShape
  refine .app ?_ ?_
  · split
    · exact quiet_fill hd _
    · exact quiet_nil
  · split
    · exact quiet_stroke hd _ _
    · exact quiet_nil

theorem quiet_scope {d : List Verif.CairoDraw.Call} (hd : Quiet d) : Quiet (Verif.CairoDraw.scope d) := .con (fun h => h) (.app hd (.con (fun h => h) quiet_nil))

theorem quiet_lines (ps : List Pt) : Quiet (ps.map .lineTo) := by
  intro a ha
  obtain ⟨p, -, rfl⟩ := List.mem_map.mp ha
  exact fun h => h

theorem quiet_rounded (x y w h rx ry : Rat) : Quiet (Verif.CairoDraw.roundedRectangle x y w h rx ry) := by
  unfold Verif.CairoDraw.roundedRectangle
  dsimp only
  repeat (first | exact quiet_nil | refine .con (fun h => h) ?_)

theorem quiet_rectangle (x y w h : Rat) : Quiet (Verif.CairoDraw.rectangle x y w h) := by
  unfold Verif.CairoDraw.rectangle
  repeat (first | exact quiet_nil | refine .con (fun h => h) ?_)

/-- Drawing in a zoomed context is drawing, zoomed. -/
theorem drawItem_zoom {Z : Mat} (hZ : Z.det ≠ 0) (k : Rat) (c : Ctx) (i : Verif.CairoDraw.Item) (hi : ¬ IsSvg i) :
    drawItem (zoomCtx Z k c) (spreadItem k i) = (drawItem c i).map (zoomCtx Z k) := by
  cases i with
  | rect r rx ry rot s =>
    refine run_zoom Z k _ c (quiet_scope (.app (quiet_transform _ _ _ _) (quiet_fillStroke ?_ s)))
    split
    · exact quiet_rounded _ _ _ _ _ _
    · exact quiet_rectangle _ _ _ _
  | ellipse r rot s =>
    simp only [spreadItem, drawItem]
    cases h : Verif.CairoDraw.drawEllipse r rot s with
    | error e => rfl
    | ok ks =>
      refine run_zoom Z k _ c (show Quiet _ from ?_)
      unfold Verif.CairoDraw.drawEllipse at h
      dsimp only at h
      generalize (if r.width < r.height then r.height else r.width) = larger at h
      generalize (if r.width < r.height then r.width else r.height) = smaller at h
      split at h
      · cases h
      · injection h with h
        rw [← h]
        have hc : ∀ p q, Quiet [Verif.CairoDraw.Call.circle p q] := fun p q => .con (fun h => h) quiet_nil
        refine .app (quiet_scope (.app (quiet_transform _ _ _ _) (.app ?_ ?_))) ?_
        · split
          · exact quiet_fill (hc _ _) _
          · exact quiet_nil
        · split
          · exact hc _ _
          · exact quiet_nil
        · split
          · exact quiet_stroke quiet_nil _ _
          · exact quiet_nil
  | polygon ps rot s =>
    simp only [spreadItem, drawItem]
    cases h : Verif.CairoDraw.drawPolygon ps rot s with
    | error e => rfl
    | ok ks =>
      refine run_zoom Z k _ c (show Quiet _ from ?_)
      unfold Verif.CairoDraw.drawPolygon at h
      split at h
      · cases h
      · cases h
      · injection h with h
        rw [← h]
        exact quiet_scope (.app (quiet_transform _ _ _ _) (quiet_fillStroke (.con (a := .moveTo _) (fun h => h) (quiet_lines _)) s))
  | polyline ps color s =>
    simp only [spreadItem, drawItem]
    cases h : Verif.CairoDraw.drawPolyline ps color s with
    | error e => rfl
    | ok ks =>
      refine run_zoom Z k _ c (show Quiet _ from ?_)
      unfold Verif.CairoDraw.drawPolyline at h
      split at h
      · cases h
      · injection h with h
        rw [← h]
        exact quiet_scope (quiet_stroke (.con (a := .moveTo _) (fun h => h) (quiet_lines _)) _ s)
  | path cmds s => exact drawPathShape_zoom hZ k c cmds s
  | text p ce rot l =>
    simp only [spreadItem, drawItem, Verif.CairoDraw.drawText, Verif.CairoDraw.scope]
    have hq : Quiet (.save :: Verif.CairoDraw.rotated ce rot) := by
      refine .con (fun h => h) ?_
      unfold Verif.CairoDraw.rotated
      split
      · exact quiet_nil
      · exact quiet_transform _ _ _ _
    have e : ∀ l, Verif.CairoDraw.Call.save :: ((Verif.CairoDraw.rotated ce rot ++ [.moveTo p, .showLayout l]) ++ [.restore]) =
        (.save :: Verif.CairoDraw.rotated ce rot) ++ [.moveTo p, .showLayout l, .restore] := by intro l; simp
    rw [e, e, Verif.CairoDraw.run_append, Verif.CairoDraw.run_append, run_zoom Z k _ c hq]
    cases Verif.CairoDraw.run c (.save :: Verif.CairoDraw.rotated ce rot) with
    | error e => rfl
    | ok c => exact show_zoom Z k c p l
  | bitmap r rot data =>
    exact run_zoom Z k _ c (quiet_scope (.app (quiet_transform _ _ _ _) (.con (fun h => h) (.con (fun h => h) quiet_nil))))
  | svg m w h doc => exact (hi trivial).elim

/-! ### the page -/

/-- The transformation of a view box. -/
theorem viewBoxMap_exists (png : Bool) {w h : Rat} (hw : 0 < w) (hh : 0 < h) {v : Rect} (hv : 0 < v.width ∧ 0 < v.height) :
    ∃ Z, ViewBoxMap png w h v Z ∧ Z.det ≠ 0 ∧ cairoStart png w h (some v) = (cairoStart png w h none).map (fun a => (zoomCtx Z (zoomOf w h (some v)) a.1, zoomOf w h (some v))) := by
  obtain ⟨M, h1, h2, -⟩ := cairoStart_ok png hw hh (some v) (fun _ e => by injection e with e; subst e; exact hv)
  obtain ⟨N, h3, h4, -⟩ := cairoStart_ok png hw hh none (fun _ e => by cases e)
  have hs : min (w / v.width) (h / v.height) ≠ 0 := (lt_min (div_pos hw hv.1) (div_pos hh hv.2)).ne'
  let k : Rat := if png then 1 else 3 / 4
  let s := min (w / v.width) (h / v.height)
  let Z : Mat := { xx := s, yy := s, x0 := k * (w / 2 - s * (v.x + v.width / 2)), y0 := k * (h / 2 - s * (v.y + v.height / 2)) }
  have hZ : ViewBoxMap png w h v Z := by
    intro q
    simp only [onPaper, Mat.apply, Z, k, s]
    exact Prod.ext (by ring) (by ring)
  refine ⟨Z, hZ, by simpa [Mat.det, Z, s] using hs, ?_⟩
  have e : M = after Z N := mat_ext (fun q => by rw [h2, after_apply, h4, hZ])
  rw [h1, h3, e]
  rfl

theorem buildLayout_scale (x : Ext) (toks : List Verif.Text.Tok) (style : Verif.Style.TextStyle) (styles : Str → Option Verif.Style.TextStyle) (k : Rat) (scale : Option Rat) (width : Rat) :
    buildLayout x toks style styles k scale width = (buildLayout x toks style styles 1 scale width).map (fun l => { l with spacing := l.spacing * k }) := by
  unfold buildLayout
  split
  · rfl
  · dsimp only
    split
    · rfl
    · split
      · rfl
      · split
        · rfl
        · split
          · split
            · rfl
            · simp [Except.map]
          · rfl

/-- The item with the view box. -/
theorem cairoItem_scale {x : Ext} (hb : ∀ l k, x.baseline { l with spacing := k } = x.baseline l) (png : Bool) (k : Rat) (env : Env) (step : Int) (p : Nat) (c : Content)
    (hc : ∀ b sc rot, c ≠ .svg b sc rot) :
    cairoItem x png k env step p c = (cairoItem x png 1 env step p c).map (Option.map (spreadItem k)) ∧ ∀ i, cairoItem x png 1 env step p c = .ok (some i) → ¬ IsSvg i := by
  have hshape : ∀ i, (∀ j, Verif.Backends.toCairo x.read x.known x.ang i = .ok j → spreadItem k j = j ∧ ¬ IsSvg j) := by
    intro i j hj
    unfold Verif.Backends.toCairo Verif.Backends.withStyle at hj
    repeat' (split at hj)
    all_goals first | (cases hj; done) | (injection hj with hj; subst hj; exact ⟨rfl, fun h => h⟩)
  cases c with
  | text t =>
    simp only [cairoItem]
    cases env p with
    | none => exact ⟨rfl, fun i h => by cases h⟩
    | some r =>
      dsimp only [renderText]
      split
      · exact ⟨rfl, fun i h => by cases h⟩
      · split
        · exact ⟨rfl, fun i h => by cases h⟩
        · split
          · unfold cairoText
            rw [buildLayout_scale x _ _ _ k]
            split
            · rename_i h
              split at h
              · rename_i h'
                cases hl : buildLayout x t.toks t.style t.styles 1 (if (t.state.onRect r).scaleToFit then some (t.state.onRect r).scale else none) r.width with
                | error e => 
                  rw [hl] at h'
                  simp only [Except.map] at h' h
                  injection h' with h'; injection h with h
                  subst h' h
                  exact ⟨rfl, fun i h => by cases h⟩
                | ok l => rw [hl] at h'; cases h'
              · cases h
            · rename_i i h
              split at h
              · cases h
              · rename_i l h'
                cases hl : buildLayout x t.toks t.style t.styles 1 (if (t.state.onRect r).scaleToFit then some (t.state.onRect r).scale else none) r.width with
                | error e => rw [hl] at h'; cases h'
                | ok l0 =>
                  rw [hl] at h'
                  simp only [Except.map] at h'
                  injection h' with h'; injection h with h
                  subst h' h
                  refine ⟨by simp [Except.map, spreadItem, hb], fun i h => ?_⟩
                  injection h with h; injection h with h
                  subst h
                  exact fun h => h
          · exact ⟨rfl, fun i h => by cases h⟩
  | svg b sc rot => exact (hc b sc rot rfl).elim
  | _ =>
    simp only [cairoItem]
    generalize shape env p _ = o
    cases o with
    | error e => exact ⟨rfl, fun i h => by cases h⟩
    | ok o =>
      cases o with
      | none => exact ⟨rfl, fun i h => by cases h⟩
      | some i =>
        dsimp only
        cases hj : Verif.Backends.toCairo x.read x.known x.ang i with
        | error e => exact ⟨rfl, fun i h => by cases h⟩
        | ok j =>
          obtain ⟨e1, e2⟩ := hshape i j hj
          refine ⟨by simp [Except.map, e1], fun i h => ?_⟩
          injection h with h; injection h with h
          exact h ▸ e2

theorem cairoAll_zoom {x : Ext} (hb : ∀ l k, x.baseline { l with spacing := k } = x.baseline l) {Z : Mat} (hZ : Z.det ≠ 0) (png : Bool) (k : Rat) (env : Env) (step : Int)
    (contents : List (Nat × Nat × Content)) : ∀ (ps : List Verif.Slide.Painter) (c : Ctx), (∀ u z, Verif.Slide.Painter.item u z ∈ ps → ∀ p q, contents.lookup u = some (p, q) → ∀ b sc rot, q ≠ .svg b sc rot) →
    cairoAll x png k env step contents (zoomCtx Z k c) ps = (cairoAll x png 1 env step contents c ps).map (zoomCtx Z k)
  | [], _, _ => rfl
  | .debug _ _ :: _, _, _ => rfl
  | .item u z :: ps, c, h => by
    have ih := fun c => cairoAll_zoom hb hZ png k env step contents ps c (fun u z hu => h u z (.tail _ hu))
    unfold cairoAll
    cases hu : contents.lookup u with
    | none => rfl
    | some a =>
      obtain ⟨p, q⟩ := a
      dsimp only
      obtain ⟨e1, e2⟩ := cairoItem_scale hb png k env step p q (h u z (.head _) p q hu)
      rw [e1]
      cases hi : cairoItem x png 1 env step p q with
      | error e => rfl
      | ok o =>
        cases o with
        | none => exact ih c
        | some i =>
          simp only [Except.map, Option.map_some]
          rw [drawItem_zoom hZ k c i (e2 i hi)]
          cases drawItem c i with
          | error e => rfl
          | ok c => exact ih c

/-! ### texts without space between their rows -/

/-- Nothing is left of `line_spacing * size` above the height of the font. -/
def Dense (x : Ext) (style : Verif.Style.TextStyle) (styles : Str → Option Verif.Style.TextStyle) : Prop :=
  ∀ default a b, styles "default".toList = some default → style.size = some a → style.lineSpacing = some b → b * a = x.fontHeight (Verif.Cairo.Spec.over style default)

theorem buildLayout_dense {x : Ext} {style : Verif.Style.TextStyle} {styles : Str → Option Verif.Style.TextStyle} (hd : Dense x style styles) {a b : Rat}
    (ha : style.size = some a) (hb : style.lineSpacing = some b) (toks : List Verif.Text.Tok) (k : Rat) (scale : Option Rat) (width : Rat) :
    buildLayout x toks style styles k scale width = buildLayout x toks style styles 1 scale width := by
  unfold buildLayout
  split
  · rfl
  · rename_i default hdef
    dsimp only
    split
    · rfl
    · split
      · rfl
      · split
        · rfl
        · rw [Verif.Cairo.compose_over]
          split
          · rename_i f size ls h1 h2 h3
            have e2 : size = a := by simp only [Verif.Cairo.Spec.over, ha, Option.some_or] at h2; injection h2 with h2; exact h2.symm
            have e3 : ls = b := by simp only [Verif.Cairo.Spec.over, hb, Option.some_or] at h3; injection h3 with h3; exact h3.symm
            subst e2 e3
            rw [hd default _ _ hdef ha hb, sub_self, zero_mul, zero_mul]
          · rfl

theorem cairoItem_dense {x : Ext} (png : Bool) (k : Rat) (env : Env) (step : Int) (p : Nat) (c : Content)
    (hc : ∀ t, c = .text t → Dense x t.style t.styles ∧ ∃ a b, t.style.size = some a ∧ t.style.lineSpacing = some b) :
    cairoItem x png k env step p c = cairoItem x png 1 env step p c := by
  cases c with
  | text t =>
    obtain ⟨h1, a, b, h2, h3⟩ := hc t rfl
    simp only [cairoItem, renderText, cairoText, buildLayout_dense h1 h2 h3 _ k]
  | _ => rfl

theorem cairoAll_dense {x : Ext} (png : Bool) (k : Rat) (env : Env) (step : Int) (contents : List (Nat × Nat × Content)) : ∀ (ps : List Verif.Slide.Painter) (c : Ctx),
    (∀ u z, Verif.Slide.Painter.item u z ∈ ps → ∀ p q, contents.lookup u = some (p, q) → ∀ t, q = .text t →
      Dense x t.style t.styles ∧ ∃ a b, t.style.size = some a ∧ t.style.lineSpacing = some b) →
    cairoAll x png k env step contents c ps = cairoAll x png 1 env step contents c ps
  | [], _, _ => rfl
  | .debug _ _ :: _, _, _ => rfl
  | .item u z :: ps, c, h => by
    have ih := fun c => cairoAll_dense png k env step contents ps c (fun u z hu => h u z (.tail _ hu))
    unfold cairoAll
    cases hu : contents.lookup u with
    | none => rfl
    | some a =>
      obtain ⟨p, q⟩ := a
      dsimp only
      rw [cairoItem_dense png k env step p q (h u z (.head _) p q hu)]
      simp only [ih]

theorem spread_one (p : Paint) : spread 1 p = p := by
  cases p <;> simp [spread]

end Verif.Scene
