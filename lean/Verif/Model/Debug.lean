import Verif.Model.Scene

/-! # Model of pages with `debug_boxes`

elsie/boxtree/box.py:80-136 and elsie/render/backends/svg/backend.py:74-80. Which frames are painted is in `Tree.painters`
(Model/Slide.lean); here is what they look like on an SVG page. -/

namespace Verif.Scene
open Verif.Layout (Env)
open Verif.Style (TextStyle)

/-- What the frame of a box shows besides its size: the name of the box (empty if it has none), and its styles. -/
structure BoxInfo where
  name : Str := []
  /-- the style `default` -/
  dflt : TextStyle
  styles : Str → Option TextStyle

/-- elsie/boxtree/box.py:80-89: the depth with which the painter of each box is created. -/
def depths (d : Nat) : Verif.Slide.Tree → List (Nat × Nat)
  | .nil => []
  | .item _ _ rest => depths d rest
  | .box u _ _ kids rest => (u, d) :: (depths (d + 1) kids ++ depths d rest)

/-- elsie/boxtree/box.py:101-103 -/
def frameRect (r : Rect) : Rect := { r with width := max r.width (1 / 10), height := max r.height (1 / 10) }

/-- elsie/boxtree/box.py:108: `[None, "4 2", "1 2"][depth % 3]` -/
def frameDash (depth : Nat) : Option Str :=
  if depth % 3 = 0 then none else if depth % 3 = 1 then some "4 2".toList else some "1 2".toList

/-- elsie/boxtree/box.py:111-114 `format_num`: `fmt` is `str`, `fmt2` the format `.2f`. -/
def formatNum (fmt fmt2 : Rat → Str) (v : Rat) : Str := if v.num.tdiv v.den = v then fmt v else fmt2 v

/-- elsie/boxtree/box.py:116-124: the text (`r` is the rectangle of the frame). -/
def frameText (fmt fmt2 : Rat → Str) (name : Str) (depth : Nat) (r : Rect) : Str :=
  (if depth % 2 = 1 then "↖".toList else "↙".toList) ++ (" ".toList ++ (if name = [] then [] else name ++ " ".toList) ++
    "[".toList ++ formatNum fmt fmt2 r.width ++ ",".toList ++ formatNum fmt fmt2 r.height ++ "]".toList)

/-- elsie/boxtree/box.py:119-124 -/
def frameY (depth : Nat) (r : Rect) : Rat :=
  if depth % 2 = 1 then r.y + 14 * (9 / 10) else r.y + r.height - 14 * (1 / 10)

/-- elsie/boxtree/box.py:126 -/
def frameStyle : TextStyle :=
  Verif.Style.construct { color := some "#ff00ff".toList, size := some 14, align := some "left".toList }

/-- elsie/boxtree/box.py:98-136 `_debug_paint` of the box `u`, with an SVG context. -/
def drawFrame (fmt fmt2 : Rat → Str) (info : Nat → BoxInfo) (env : Env) (depth : Nat) (xml : Verif.Xml.Xml) (u : Nat) :
    Except Err Verif.Xml.Xml :=
  match env u with
  | none => .error .attribute
  | some r0 =>
    let r := frameRect r0
    match Verif.SvgDraw.itemOps fmt (.rect r none none none
        { color := some "#ff00ff".toList, strokeWidth := some 2, dash := frameDash depth }) with
    | .error e => .error e
    | .ok ops =>
      match Verif.Xml.run xml ops with
      | .error e => .error e
      | .ok xml =>
        Verif.TextItem.svgText fmt xml { r with y := frameY depth r } r.x (frameY depth r)
          [.text (frameText fmt fmt2 (info u).name depth r)] ((info u).dflt.compose frameStyle) (info u).styles none none

/-- `p.render(ctx)` for a painter. -/
def paint (fmt fmt2 : Rat → Str) (info : Nat → BoxInfo) (s : State) (env : Env) (step : Int) (xml : Verif.Xml.Xml) :
    Verif.Slide.Painter → Except Err Verif.Xml.Xml
  | .item u _ =>
    match s.contents.lookup u with
    | none => .error .key
    | some (p, k) => render fmt env step xml p k
  | .debug u _ =>
    match (depths 0 s.slide.tree).lookup u with
    | none => .error .key
    | some d => drawFrame fmt fmt2 info env d xml u

/-- elsie/render/backends/svg/backend.py:78-79: the loop over the painters. -/
def paintAll (fmt fmt2 : Rat → Str) (info : Nat → BoxInfo) (s : State) (env : Env) (step : Int) (xml : Verif.Xml.Xml) :
    List Verif.Slide.Painter → Except Err Verif.Xml.Xml
  | [] => .ok xml
  | q :: qs =>
    match paint fmt fmt2 info s env step xml q with
    | .error e => .error e
    | .ok xml => paintAll fmt fmt2 info s env step xml qs

/-- elsie/render/backends/svg/backend.py:74-80 `create_render_unit` with `debug_boxes` as given: the page as a string. -/
def svgPageDebug (fmt fmt2 : Rat → Str) (info : Nat → BoxInfo) (s : State) (env : Env) (width height : Rat)
    (viewBox : Option Rect) (step : Int) (debug : Bool) : Except Err Str :=
  match Verif.Xml.run {} (.element "svg".toList :: (Verif.SvgDraw.svgSets fmt width height viewBox).map (fun a => Verif.Xml.Op.set a.1 a.2.1 a.2.2)) with
  | .error e => .error e
  | .ok xml =>
    match paintAll fmt fmt2 info s env step xml (Verif.Slide.page s.slide step debug) with
    | .error e => .error e
    | .ok xml =>
      match Verif.Xml.run xml [.close (some "svg".toList)] with
      | .error e => .error e
      | .ok xml => xml.toString

end Verif.Scene
