import Verif.Model.Ora
import Verif.Model.CairoDraw

/-! # Model of drawing shapes and pictures in SVG

elsie/render/backends/svg/draw.py (without `draw_text`, which is in Model/Xml.lean),
elsie/render/backends/svg/utils.py (`svg_begin`, `svg_end`, `apply_rotation`) and the methods of
elsie/render/backends/svg/rcontext.py that pass shapes on. A number is written by `fmt` (`str` on an `int` or a `float`); the
calls of the XML writer are collected first and then executed. `draw_svg` (raw text) is not here. -/

namespace Verif.SvgDraw
open Verif.Xml Verif.Ora
open Verif.CairoDraw (Pt midPoint findCentroid given nonzero)

/-- The arguments for painting a shape; `dash` is the string `stroke_dasharray`. -/
structure Paint where
  color : Option Str := none
  bgColor : Option Str := none
  strokeWidth : Option Rat := none
  dash : Option Str := none
  deriving DecidableEq, Repr

/-- `sep.join(...)`. -/
def joinWith (sep : Str) : List Str → Str
  | [] => []
  | [a] => a
  | a :: as => a ++ sep ++ joinWith sep as

/-- `stroke_width or 1`. -/
def orOne : Option Rat → Rat
  | none => 1
  | some w => if w = 0 then 1 else w

/-- elsie/render/backends/svg/draw.py:31-43: the declarations. -/
def paintDecls (fmt : Rat → Str) (p : Paint) : List Str :=
  (if given p.bgColor then ["fill:".toList ++ p.bgColor.getD []] else ["fill:none".toList]) ++
  (if given p.color then
    ["stroke:".toList ++ p.color.getD [], "stroke-width:".toList ++ fmt (orOne p.strokeWidth)] ++
      (if given p.dash then ["stroke-dasharray:".toList ++ p.dash.getD []] else [])
  else ["stroke:none".toList])

/-- elsie/render/backends/svg/draw.py:27-45 `set_paint_style`. -/
def paintSets (fmt : Rat → Str) (p : Paint) : List (Str × Str × Bool) := [("style".toList, joinWith ";".toList (paintDecls fmt p), true)]

/-- elsie/render/backends/svg/utils.py:56-57 `apply_rotation`, called if the rotation is true. -/
def rotationSets (fmt : Rat → Str) (rotation : Option Rat) (center : Pt) : List (Str × Str × Bool) :=
  if nonzero rotation then
    [("transform".toList, "rotate(".toList ++ fmt (rotation.getD 0) ++ " ".toList ++ fmt center.1 ++ " ".toList ++ fmt center.2 ++ ")".toList, true)]
  else []

/-- `if rx: xml.set("rx", rx)`. -/
def optSet (fmt : Rat → Str) (name : Str) (v : Option Rat) : List (Str × Str × Bool) :=
  if nonzero v then [(name, fmt (v.getD 0), true)] else []

/-- elsie/render/backends/svg/draw.py:144-157 `draw_rect`. -/
def drawRect (fmt : Rat → Str) (r : Rect) (rx ry rotation : Option Rat) (p : Paint) : List Op :=
  block "rect".toList ([("x".toList, fmt r.x, true), ("y".toList, fmt r.y, true), ("width".toList, fmt r.width, true),
    ("height".toList, fmt r.height, true)] ++ optSet fmt "rx".toList rx ++ optSet fmt "ry".toList ry ++
    rotationSets fmt rotation (midPoint r) ++ paintSets fmt p) []

/-- elsie/render/backends/svg/draw.py:160-169 `draw_ellipse`. -/
def drawEllipse (fmt : Rat → Str) (r : Rect) (rotation : Option Rat) (p : Paint) : List Op :=
  block "ellipse".toList ([("cx".toList, fmt (midPoint r).1, true), ("cy".toList, fmt (midPoint r).2, true),
    ("rx".toList, fmt (r.width / 2), true), ("ry".toList, fmt (r.height / 2), true)] ++
    rotationSets fmt rotation (midPoint r) ++ paintSets fmt p) []

/-- `f"{x},{y}"`. -/
def pairStr (fmt : Rat → Str) (p : Pt) : Str := fmt p.1 ++ ",".toList ++ fmt p.2

/-- `" ".join(f"{x},{y}" for x, y in points)`. -/
def pointsStr (fmt : Rat → Str) (ps : List Pt) : Str := joinWith " ".toList (ps.map (pairStr fmt))

/-- elsie/render/backends/svg/draw.py:172-181 `draw_polygon`; the centre is computed only if there is a rotation. -/
def drawPolygon (fmt : Rat → Str) (ps : List Pt) (rotation : Option Rat) (p : Paint) : Except Err (List Op) :=
  if nonzero rotation then
    match findCentroid ps with
    | .error e => .error e
    | .ok k => .ok (block "polygon".toList ([("points".toList, pointsStr fmt ps, true)] ++ rotationSets fmt rotation k ++ paintSets fmt p) [])
  else .ok (block "polygon".toList ([("points".toList, pointsStr fmt ps, true)] ++ paintSets fmt p) [])

/-- elsie/render/backends/svg/draw.py:184-191 `draw_polyline`. -/
def drawPolyline (fmt : Rat → Str) (ps : List Pt) (p : Paint) : List Op :=
  block "polyline".toList ([("points".toList, pointsStr fmt ps, true)] ++ paintSets fmt p) []

/-- elsie/render/backends/svg/draw.py:201-203 `command_to_str`. -/
def commandStr (fmt : Rat → Str) (c : Char × List Pt) : Str := c.1 :: pointsStr fmt c.2

/-- elsie/render/backends/svg/draw.py:194-198 `draw_path`. -/
def drawPath (fmt : Rat → Str) (cmds : List (Char × List Pt)) (p : Paint) : List Op :=
  block "path".toList ([("d".toList, joinWith " ".toList (cmds.map (commandStr fmt)), true)] ++ paintSets fmt p) []

/-- elsie/render/backends/svg/draw.py:124-141 `draw_bitmap` with base64 data; size and data are given and there are no extra
arguments, as in elsie/render/image.py. -/
def drawBitmap (fmt : Rat → Str) (r : Rect) (mime data : Str) (rotation : Option Rat) : List Op :=
  block "image".toList ([("x".toList, fmt r.x, true), ("y".toList, fmt r.y, true), ("width".toList, fmt r.width, true),
    ("height".toList, fmt r.height, true)] ++ rotationSets fmt rotation (midPoint r) ++
    [("xlink:href".toList, "data:".toList ++ mime ++ ";base64,".toList ++ data, false)]) []

/-- The drawing methods of the context. -/
inductive Item where
  | rect (r : Rect) (rx ry rotation : Option Rat) (p : Paint)
  | ellipse (r : Rect) (rotation : Option Rat) (p : Paint)
  | polygon (ps : List Pt) (rotation : Option Rat) (p : Paint)
  | polyline (ps : List Pt) (p : Paint)
  | path (cmds : List (Char × List Pt)) (p : Paint)
  | bitmap (r : Rect) (mime data : Str) (rotation : Option Rat)
  deriving DecidableEq, Repr

/-- elsie/render/backends/svg/rcontext.py:22-36 and 72-73: the calls of the writer. -/
def itemOps (fmt : Rat → Str) : Item → Except Err (List Op)
  | .rect r rx ry rot p => .ok (drawRect fmt r rx ry rot p)
  | .ellipse r rot p => .ok (drawEllipse fmt r rot p)
  | .polygon ps rot p => drawPolygon fmt ps rot p
  | .polyline ps p => .ok (drawPolyline fmt ps p)
  | .path cmds p => .ok (drawPath fmt cmds p)
  | .bitmap r mime data rot => .ok (drawBitmap fmt r mime data rot)

/-- The items of a page, one after the other. -/
def itemsOps (fmt : Rat → Str) : List Item → Except Err (List Op)
  | [] => .ok []
  | i :: is =>
    match itemOps fmt i with
    | .error e => .error e
    | .ok a =>
      match itemsOps fmt is with
      | .error e => .error e
      | .ok b => .ok (a ++ b)

/-- elsie/render/backends/svg/utils.py:7-18 `svg_begin(xml, width, height, view_box)`: the attributes. -/
def svgSets (fmt : Rat → Str) (width height : Rat) (viewBox : Option Rect) : List (Str × Str × Bool) :=
  [("xmlns".toList, "http://www.w3.org/2000/svg".toList, true),
    ("xmlns:xlink".toList, "http://www.w3.org/1999/xlink".toList, true),
    ("width".toList, fmt width, true), ("height".toList, fmt height, true)] ++
  (match viewBox with
    | some v => [("viewBox".toList, joinWith " ".toList [fmt v.x, fmt v.y, fmt v.width, fmt v.height], true)]
    | none => [])

/-- elsie/render/backends/svg/rcontext.py:16-20 and 97-99: `__init__`, the items, `render`. -/
def page (fmt : Rat → Str) (width height : Rat) (viewBox : Option Rect) (items : List Item) : Except Err Str :=
  match itemsOps fmt items with
  | .error e => .error e
  | .ok ops =>
    match run {} (block "svg".toList (svgSets fmt width height viewBox) ops) with
    | .error e => .error e
    | .ok x => x.toString

end Verif.SvgDraw
