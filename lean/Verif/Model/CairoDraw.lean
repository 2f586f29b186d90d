import Verif.Model.Geom
import Verif.Model.Py
import Verif.Model.Style
import Mathlib.Tactic.Ring
import Mathlib.Tactic.FieldSimp
import Mathlib.Tactic.Linarith
import Mathlib.Tactic.LinearCombination

/-! # Model of drawing with Cairo

elsie/render/backends/cairo/draw.py, elsie/render/backends/cairo/shapes.py and the shapes of
elsie/render/backends/cairo/rcontext.py, on top of a model of a Cairo context (external library, modelled after its documentation):
a graphics state with a transformation, a stack of saved states (the path is not saved with them), and a path in device
coordinates. Numbers are exact rationals; an angle is given by its cosine and sine. Colours are not translated (webcolors),
they are passed on as they are. -/

namespace Verif.CairoDraw

abbrev Pt := Rat × Rat

/-- A Cairo matrix: `(x, y) ↦ (xx*x + xy*y + x0, yx*x + yy*y + y0)`. -/
structure Mat where
  xx : Rat := 1
  yx : Rat := 0
  xy : Rat := 0
  yy : Rat := 1
  x0 : Rat := 0
  y0 : Rat := 0
  deriving DecidableEq, Repr

def Mat.apply (m : Mat) (p : Pt) : Pt := (m.xx * p.1 + m.xy * p.2 + m.x0, m.yx * p.1 + m.yy * p.2 + m.y0)

/-- A distance, not a point. -/
def Mat.dist (m : Mat) (d : Pt) : Pt := (m.xx * d.1 + m.xy * d.2, m.yx * d.1 + m.yy * d.2)

def Mat.det (m : Mat) : Rat := m.xx * m.yy - m.xy * m.yx

/-- The point of user space at a point of device space. -/
def Mat.unapply (m : Mat) (q : Pt) : Pt :=
  ((m.yy * (q.1 - m.x0) - m.xy * (q.2 - m.y0)) / m.det, (m.xx * (q.2 - m.y0) - m.yx * (q.1 - m.x0)) / m.det)

def Mat.translate (m : Mat) (tx ty : Rat) : Mat :=
  { m with x0 := m.xx * tx + m.xy * ty + m.x0, y0 := m.yx * tx + m.yy * ty + m.y0 }

def Mat.scale (m : Mat) (sx sy : Rat) : Mat :=
  { m with xx := m.xx * sx, yx := m.yx * sx, xy := m.xy * sy, yy := m.yy * sy }

def Mat.rotate (m : Mat) (c s : Rat) : Mat :=
  { m with xx := m.xx * c + m.xy * s, yx := m.yx * c + m.yy * s, xy := - m.xx * s + m.xy * c, yy := - m.yx * s + m.yy * c }

/-- A segment of a path in device coordinates; a full circle keeps the transformation it was drawn with. -/
inductive Seg where
  | move (p : Pt)
  | line (p : Pt)
  | curve (a b p : Pt)
  | circle (m : Mat) (center : Pt) (radius : Rat)
  | close
  deriving DecidableEq, Repr

abbrev Color := List Char

/-- The graphics state. -/
structure GS where
  ctm : Mat := {}
  source : Color := []
  lineWidth : Rat := 2
  dash : List Rat := []
  deriving DecidableEq, Repr

/-- A layout of Pango (external): its text, the styles of its bytes, its alignment, the factor for the sizes of the fonts, the space between its rows and its
width. -/
structure Layout where
  text : Str
  ranges : List (Verif.Style.TextStyle × Nat × Nat)
  align : Option Str
  scale : Option Rat
  spacing : Rat
  width : Rat
  deriving DecidableEq, Repr

/-- Something painted on the page. -/
inductive Paint where
  | fill (path : List Seg) (color : Color)
  | stroke (path : List Seg) (color : Color) (lineWidth : Rat) (dash : List Rat) (pen : Mat)
  /-- a layout; its upper left corner is at the origin -/
  | text (m : Mat) (l : Layout)
  /-- a bitmap on the unit square -/
  | picture (m : Mat) (data : Str)
  /-- an SVG document that fills a rectangle of the given size; the upper left corner is at the origin -/
  | svg (m : Mat) (w h : Rat) (doc : Str)
  deriving DecidableEq, Repr

/-- A Cairo context. -/
structure Ctx where
  gs : GS := {}
  saved : List GS := []
  path : List Seg := []
  /-- the current point and the start of the current sub-path, in device coordinates -/
  cur : Option Pt := none
  start : Option Pt := none
  painted : List Paint := []
  deriving DecidableEq, Repr

/-- Calls of Cairo used by the code. -/
inductive Call where
  | save
  | restore
  | translate (x y : Rat)
  | scale (x y : Rat)
  | rotate (c s : Rat)
  | newPath
  | moveTo (p : Pt)
  | lineTo (p : Pt)
  | curveTo (a b p : Pt)
  | relLineTo (d : Pt)
  | relCurveTo (a b d : Pt)
  | circle (center : Pt) (radius : Rat)
  | closePath
  | setSource (c : Color)
  | setLineWidth (w : Rat)
  | setDash (d : List Rat)
  | fill
  | stroke
  /-- `pangocairocffi.show_layout` -/
  | showLayout (l : Layout)
  /-- `set_source_surface` with the bitmap scaled to the given size at the given point, and `paint` -/
  | paint (x y w h : Rat) (data : Str)
  deriving DecidableEq, Repr

def Ctx.moveDev (c : Ctx) (p : Pt) : Ctx := { c with path := c.path ++ [.move p], cur := some p, start := some p }

/-- A line to a point of device space; without a current point it is a `move_to`. -/
def Ctx.lineDev (c : Ctx) (p : Pt) : Ctx :=
  match c.cur with
  | none => c.moveDev p
  | some _ => { c with path := c.path ++ [.line p], cur := some p }

/-- A curve in device space; without a current point it starts at its first control point. -/
def Ctx.curveDev (c : Ctx) (a b p : Pt) : Ctx :=
  let c := match c.cur with | none => c.moveDev a | some _ => c
  { c with path := c.path ++ [.curve a b p], cur := some p }

/-- Adding. -/
def padd (p d : Pt) : Pt := (p.1 + d.1, p.2 + d.2)

/-- A path that starts anew. -/
def Ctx.clear (c : Ctx) : Ctx := { c with path := [], cur := none, start := none }

/-- What a call does, after the documentation of Cairo. -/
def exec (c : Ctx) : Call → Except Err Ctx
  | .save => .ok { c with saved := c.gs :: c.saved }
  | .restore =>
    match c.saved with
    | [] => .error (.user "CairoError")
    | g :: rest => .ok { c with gs := g, saved := rest }
  | .translate x y => .ok { c with gs := { c.gs with ctm := c.gs.ctm.translate x y } }
  | .scale x y =>
    -- `_cairo_gstate_scale`: the matrix has to stay invertible
    if x * y = 0 then .error (.user "CairoError") else .ok { c with gs := { c.gs with ctm := c.gs.ctm.scale x y } }
  | .rotate k s => .ok { c with gs := { c.gs with ctm := c.gs.ctm.rotate k s } }
  | .newPath => .ok c.clear
  | .moveTo p => .ok (c.moveDev (c.gs.ctm.apply p))
  | .lineTo p => .ok (c.lineDev (c.gs.ctm.apply p))
  | .curveTo a b p => .ok (c.curveDev (c.gs.ctm.apply a) (c.gs.ctm.apply b) (c.gs.ctm.apply p))
  | .relLineTo d =>
    match c.cur with
    | none => .error (.user "CairoError")
    | some q => .ok (c.lineDev (padd q (c.gs.ctm.dist d)))
  | .relCurveTo a b d =>
    match c.cur with
    | none => .error (.user "CairoError")
    | some q => .ok (c.curveDev (padd q (c.gs.ctm.dist a)) (padd q (c.gs.ctm.dist b)) (padd q (c.gs.ctm.dist d)))
  | .circle k r =>
    -- `arc(..., 0, 2*pi)`: starts (with a line from the current point, if there is one) and ends at angle 0
    let p := c.gs.ctm.apply (k.1 + r, k.2)
    let c := c.lineDev p
    .ok { c with path := c.path ++ [.circle c.gs.ctm k r], cur := some p }
  | .closePath =>
    match c.cur with
    | none => .ok c
    | some _ => .ok { c with path := c.path ++ [.close], cur := c.start }
  | .setSource k => .ok { c with gs := { c.gs with source := k } }
  | .setLineWidth w => .ok { c with gs := { c.gs with lineWidth := w } }
  | .setDash d => .ok { c with gs := { c.gs with dash := d } }
  | .fill => .ok { c.clear with painted := c.painted ++ [.fill c.path c.gs.source] }
  | .stroke => .ok { c.clear with painted := c.painted ++ [.stroke c.path c.gs.source c.gs.lineWidth c.gs.dash c.gs.ctm] }
  | .showLayout l =>
    .ok { c with painted := c.painted ++ [.text { c.gs.ctm with x0 := (c.cur.getD (0, 0)).1, y0 := (c.cur.getD (0, 0)).2 } l] }
  | .paint x y w h data => .ok { c with painted := c.painted ++ [.picture ((c.gs.ctm.translate x y).scale w h) data] }

def run (c : Ctx) : List Call → Except Err Ctx
  | [] => .ok c
  | k :: ks =>
    match exec c k with
    | .error e => .error e
    | .ok c => run c ks

/-- `ctx.get_current_point()`: in user space, `(0, 0)` if there is none. -/
def Ctx.userPoint (c : Ctx) : Pt :=
  match c.cur with
  | none => (0, 0)
  | some q => c.gs.ctm.unapply q

/-! ### elsie/render/backends/cairo/draw.py -/

/-- `a if a > b - a else ...`, elsie/render/backends/cairo/draw.py:13-16: clamping of a radius. -/
def clampRadius (r size : Rat) : Rat := if r > size - r then size / 2 else r

/-- The constant of elsie/render/backends/cairo/draw.py:12. -/
def arcToBezier : Rat := 55228475 / 100000000

/-- elsie/render/backends/cairo/draw.py:10-31 `rounded_rectangle`. -/
def roundedRectangle (x y w h rx ry : Rat) : List Call :=
  let rx := clampRadius rx w
  let ry := clampRadius ry h
  let c1 := arcToBezier * rx
  let c2 := arcToBezier * ry
  [.newPath, .moveTo (x + rx, y), .relLineTo (w - 2 * rx, 0), .relCurveTo (c1, 0) (rx, c2) (rx, ry),
    .relLineTo (0, h - 2 * ry), .relCurveTo (0, c2) (c1 - rx, ry) (-rx, ry), .relLineTo (-w + 2 * rx, 0),
    .relCurveTo (-c1, 0) (-rx, -c2) (-rx, -ry), .relLineTo (0, -h + 2 * ry), .relCurveTo (0, -c2) (rx - c1, -ry) (rx, -ry),
    .closePath]

/-- `ctx.rectangle`, as documented by Cairo. -/
def rectangle (x y w h : Rat) : List Call :=
  [.moveTo (x, y), .relLineTo (w, 0), .relLineTo (0, h), .relLineTo (-w, 0), .closePath]

/-- The arguments for painting a shape; an empty dash pattern is none. -/
structure Style where
  color : Option Color := none
  bgColor : Option Color := none
  strokeWidth : Option Rat := none
  dash : List Rat := []
  deriving DecidableEq, Repr

/-- Truth of a colour argument. -/
def given : Option Color → Bool
  | none => false
  | some c => c ≠ []

/-- elsie/render/backends/cairo/draw.py:34-37 `fill_shape`. -/
def fillShape (draw : List Call) (bg : Color) : List Call := .setSource bg :: (draw ++ [.fill])

/-- elsie/render/backends/cairo/draw.py:41-45: the part of `stroke_shape` before the callback. -/
def strokeBefore (color : Color) (s : Style) : List Call :=
  .setSource color :: .setLineWidth (match s.strokeWidth with | none => 1 | some w => if w = 0 then 1 else w) ::
    (if s.dash ≠ [] then [.setDash s.dash] else [])

/-- elsie/render/backends/cairo/draw.py:40-47 `stroke_shape`. -/
def strokeShape (draw : List Call) (color : Color) (s : Style) : List Call := strokeBefore color s ++ (draw ++ [.stroke])

/-- elsie/render/backends/cairo/draw.py:50-62 `fill_stroke_shape`. -/
def fillStrokeShape (draw : List Call) (s : Style) : List Call :=
  (if given s.bgColor then fillShape draw (s.bgColor.getD []) else []) ++
    (if given s.color then strokeShape draw (s.color.getD []) s else [])

/-- elsie/render/backends/cairo/draw.py:65-71 `ctx_scope` around calls that do not raise. -/
def scope (body : List Call) : List Call := .save :: (body ++ [.restore])

/-- elsie/render/backends/cairo/draw.py:74-86 `transform`; the rotation is given by cosine and sine. -/
def transform (p : Pt) (rotation : Option (Rat × Rat)) (sx sy : Rat) : List Call :=
  .translate p.1 p.2 :: ((match rotation with | some (c, s) => [.rotate c s] | none => []) ++
    ((if sx ≠ 1 ∨ sy ≠ 1 then [.scale sx sy] else []) ++ [.translate (-p.1) (-p.2)]))

/-- elsie/render/backends/cairo/draw.py:89-98 `apply_viewbox`: the calls and the returned scale. `ctx.scale(0, 0)` raises. -/
def applyViewbox (width height vx vy vw vh : Rat) : Except Err (List Call × Rat) :=
  if vw = 0 ∨ vh = 0 then .error .zeroDivision
  else
    let scale := min (width / vw) (height / vh)
    if scale = 0 then .error (.user "CairoError")
    else
      .ok ([.translate (-vx * scale) (-vy * scale), .scale scale scale,
        .translate ((width / scale - vw) / 2) ((height / scale - vh) / 2)], scale)

/-! ### elsie/render/backends/cairo/rcontext.py -/

/-- Middle of a rectangle, elsie/utils/geom.py:28-38. -/
def midPoint (r : Rect) : Pt := (r.x + r.width / 2, r.y + r.height / 2)

/-- Truth of an optional number. -/
def nonzero : Option Rat → Bool
  | none => false
  | some r => r ≠ 0

/-- `if rx is None: rx = ry`. -/
def firstOf (a b : Option Rat) : Option Rat :=
  match a with
  | none => b
  | some v => some v

/-- elsie/render/backends/cairo/rcontext.py:84-109 `draw_rect`. (`rounded_rectangle` with one radius is not possible: if one
is missing, it is the other.) -/
def drawRect (r : Rect) (rx ry : Option Rat) (rotation : Option (Rat × Rat)) (s : Style) : List Call :=
  let rx := firstOf rx ry
  let ry := firstOf ry rx
  let draw := if nonzero rx || nonzero ry then roundedRectangle r.x r.y r.width r.height (rx.getD 0) (ry.getD 0)
    else rectangle r.x r.y r.width r.height
  scope (transform (midPoint r) rotation 1 1 ++ fillStrokeShape draw s)

/-- elsie/render/backends/cairo/rcontext.py:111-135 `draw_ellipse`. -/
def drawEllipse (r : Rect) (rotation : Option (Rat × Rat)) (s : Style) : Except Err (List Call) :=
  let larger := if r.width < r.height then r.height else r.width
  let smaller := if r.width < r.height then r.width else r.height
  if larger = 0 ∧ ¬ (larger = r.width ∧ larger = r.height) then .error .zeroDivision
  else
    let sx := if larger = r.width then 1 else smaller / larger
    let sy := if larger = r.height then 1 else smaller / larger
    let draw := [Call.circle (midPoint r) (larger / 2)]
    .ok (scope (transform (midPoint r) rotation sx sy ++
        ((if given s.bgColor then fillShape draw (s.bgColor.getD []) else []) ++ (if given s.color then draw else []))) ++
      (if given s.color then strokeShape [] (s.color.getD []) s else []))

/-- elsie/utils/geom.py:89-92 `find_centroid`. -/
def findCentroid (ps : List Pt) : Except Err Pt :=
  if ps.length = 0 then .error .zeroDivision
  else .ok ((ps.map (·.1)).sum / ps.length, (ps.map (·.2)).sum / ps.length)

/-- elsie/render/backends/cairo/rcontext.py:137-146 `draw_polygon`. -/
def drawPolygon (ps : List Pt) (rotation : Option (Rat × Rat)) (s : Style) : Except Err (List Call) :=
  match findCentroid ps, ps with
  | .error e, _ => .error e
  | .ok _, [] => .error .index
  | .ok k, p :: rest =>
    .ok (scope (transform k rotation 1 1 ++ fillStrokeShape (.moveTo p :: (rest ++ [p]).map .lineTo) s))

/-- elsie/render/backends/cairo/rcontext.py:148-156 `draw_polyline`. The colour is a required argument; `stroke_shape`
uses it even if it is empty. -/
def drawPolyline (ps : List Pt) (color : Color) (s : Style) : Except Err (List Call) :=
  match ps with
  | [] => .error .index
  | p :: rest => .ok (scope (strokeShape (.moveTo p :: rest.map .lineTo) color s))

/-- elsie/render/backends/cairo/rcontext.py:212-213: `if rotation is not None`. -/
def rotated (center : Pt) : Option (Rat × Rat) → List Call
  | none => []
  | some r => transform center (some r) 1 1

/-- elsie/render/backends/cairo/rcontext.py:185-215 `draw_text`, for a layout that is built; `p` is the point of the `move_to`. -/
def drawText (p center : Pt) (rotation : Option (Rat × Rat)) (l : Layout) : List Call :=
  scope (rotated center rotation ++ [.moveTo p, .showLayout l])

/-- elsie/render/backends/cairo/rcontext.py:217-235 `draw_bitmap`; decoding the bitmap is not modelled, see Model/Backends.lean for
a width or a height of 0. -/
def drawBitmap (r : Rect) (rotation : Option (Rat × Rat)) (data : Str) : List Call :=
  scope (transform (midPoint r) rotation 1 1 ++ [.moveTo (r.x, r.y), .paint r.x r.y r.width r.height data])

/-! ### elsie/render/backends/cairo/shapes.py -/

/-- elsie/render/backends/cairo/shapes.py:4-10 `reflect`. -/
def reflect (cp anchor : Pt) : Pt :=
  let vec : Pt := (cp.1 - anchor.1, cp.2 - anchor.2)
  let neg : Pt := (-vec.1, -vec.2)
  (anchor.1 + neg.1, anchor.2 + neg.2)

/-- elsie/render/backends/cairo/shapes.py:44-48 `draw_quadratic_bezier`. -/
def quadraticCall (p1 p2 cp : Pt) : Call :=
  .curveTo ((2 * cp.1 + p1.1) / 3, (2 * cp.2 + p1.2) / 3) ((2 * cp.1 + p2.1) / 3, (2 * cp.2 + p2.2) / 3) p2

/-- `args[i]`. -/
def arg (args : List Pt) (i : Nat) : Except Err Pt :=
  match args[i]? with
  | none => .error .index
  | some p => .ok p

/-- The two variables of `draw_path`. -/
structure Last where
  cubic : Option Pt := none
  quadratic : Option Pt := none

/-- The context after a call and the new values of the variables. -/
def keep (r : Except Err Ctx) (l : Last) : Except Err (Ctx × Last) :=
  match r with
  | .error e => .error e
  | .ok c => .ok (c, l)

/-- elsie/render/backends/cairo/shapes.py:16-42: one command. Other names do nothing. -/
def pathCommand (c : Ctx) (last : Last) (name : Char) (args : List Pt) : Except Err (Ctx × Last) :=
  let location := c.userPoint
  match name with
  | 'M' =>
    match arg args 0 with
    | .error e => .error e
    | .ok p => keep (exec c (.moveTo p)) {}
  | 'L' =>
    match arg args 0 with
    | .error e => .error e
    | .ok p => keep (exec c (.lineTo p)) {}
  | 'C' =>
    match arg args 1, arg args 0, arg args 2 with
    | .ok b, .ok a, .ok p => keep (exec c (.curveTo a b p)) { cubic := some b }
    | _, _, _ => .error .index
  | 'S' =>
    let cp := reflect (last.cubic.getD location) location
    match arg args 0, arg args 1 with
    | .ok b, .ok p => keep (exec c (.curveTo cp b p)) { cubic := some cp }
    | _, _ => .error .index
  | 'Q' =>
    match arg args 0, arg args 1 with
    | .ok cp, .ok p => keep (exec c (quadraticCall location p cp)) { quadratic := some cp }
    | _, _ => .error .index
  | 'T' =>
    let cp := reflect (last.quadratic.getD location) location
    match arg args 0 with
    | .ok p => keep (exec c (quadraticCall location p cp)) { quadratic := some cp }
    | .error e => .error e
  | _ => .ok (c, last)

/-- elsie/render/backends/cairo/shapes.py:13-42 `draw_path`. -/
def drawPathLoop (c : Ctx) (last : Last) : List (Char × List Pt) → Except Err Ctx
  | [] => .ok c
  | (n, args) :: rest =>
    match pathCommand c last n args with
    | .error e => .error e
    | .ok (c, last) => drawPathLoop c last rest

def drawPath (c : Ctx) (commands : List (Char × List Pt)) : Except Err Ctx := drawPathLoop c {} commands

/-- Calls around a `draw_path`. -/
def around (c : Ctx) (before : List Call) (commands : List (Char × List Pt)) (after : List Call) : Except Err Ctx :=
  match run c before with
  | .error e => .error e
  | .ok c =>
    match drawPath c commands with
    | .error e => .error e
    | .ok c => run c after

/-- `fill_shape` with a path as callback. -/
def fillPart (c : Ctx) (commands : List (Char × List Pt)) (s : Style) : Except Err Ctx :=
  if given s.bgColor then around c [.setSource (s.bgColor.getD [])] commands [.fill] else .ok c

/-- `stroke_shape` with a path as callback. -/
def strokePart (c : Ctx) (commands : List (Char × List Pt)) (s : Style) : Except Err Ctx :=
  if given s.color then around c (strokeBefore (s.color.getD []) s) commands [.stroke] else .ok c

/-- elsie/render/backends/cairo/rcontext.py:158-164 `draw_path`: `fill_stroke_shape` (see above) with the path as callback,
inside a `ctx_scope`. -/
def drawPathShape (c : Ctx) (commands : List (Char × List Pt)) (s : Style) : Except Err Ctx :=
  match fillPart { c with saved := c.gs :: c.saved } commands s with
  | .error e => .error e
  | .ok c =>
    match strokePart c commands s with
    | .error e => .error e
    | .ok c => run c [.restore]

/-- The drawing methods of the context. -/
inductive Item where
  | rect (r : Rect) (rx ry : Option Rat) (rotation : Option (Rat × Rat)) (s : Style)
  | ellipse (r : Rect) (rotation : Option (Rat × Rat)) (s : Style)
  | polygon (ps : List Pt) (rotation : Option (Rat × Rat)) (s : Style)
  | polyline (ps : List Pt) (color : Color) (s : Style)
  | path (commands : List (Char × List Pt)) (s : Style)
  | text (p center : Pt) (rotation : Option (Rat × Rat)) (l : Layout)
  | bitmap (r : Rect) (rotation : Option (Rat × Rat)) (data : Str)
  /-- an SVG picture is drawn by cairosvg with a context of its own on the same surface -/
  | svg (m : Mat) (w h : Rat) (doc : Str)
  deriving DecidableEq

/-- Drawing one item. -/
def drawItem (c : Ctx) : Item → Except Err Ctx
  | .rect r rx ry rot s => run c (drawRect r rx ry rot s)
  | .ellipse r rot s =>
    match drawEllipse r rot s with
    | .error e => .error e
    | .ok ks => run c ks
  | .polygon ps rot s =>
    match drawPolygon ps rot s with
    | .error e => .error e
    | .ok ks => run c ks
  | .polyline ps color s =>
    match drawPolyline ps color s with
    | .error e => .error e
    | .ok ks => run c ks
  | .path cmds s => drawPathShape c cmds s
  | .text p k rot l => run c (drawText p k rot l)
  | .bitmap r rot data => run c (drawBitmap r rot data)
  | .svg m w h doc => .ok { c with painted := c.painted ++ [.svg m w h doc] }

/-- Drawing the items of a page, elsie/render/backends/cairo/backend.py:31-32. -/
def drawItems (c : Ctx) : List Item → Except Err Ctx
  | [] => .ok c
  | i :: is =>
    match drawItem c i with
    | .error e => .error e
    | .ok c => drawItems c is

end Verif.CairoDraw
