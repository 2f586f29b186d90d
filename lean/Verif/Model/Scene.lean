import Verif.Model.Slide
import Verif.Model.SvgDraw
import Verif.Model.TextItem
import Verif.Model.PathArrow

/-! # Model of the drawing methods of a box and of an SVG page of a slide

The drawing methods of elsie/boxtree/boxmixin.py with their points (elsie/boxtree/lazy.py, elsie/boxtree/layout.py,
elsie/shapes/path.py), and elsie/render/backends/svg/backend.py (`create_render_unit`). A method called on an item is the method
called on its box (elsie/boxtree/boxitem.py:16-17), so the receiver is always given as a box. Arrows at the ends of lines
and paths are in Model/Arrow.lean and Model/PathArrow.lean. Of pictures in SVG and ORA the document that is shown on a page is given
(Model/Image.lean and Model/Ora.lean say which one it is). -/

namespace Verif.Scene
open Verif.Layout (Arg Pos Env)
open Verif.Slide (BoxCall)
open Verif.SvgDraw (Paint Item)
open Verif.Style (TextStyle)
open Verif.Text (Tok)
open Verif.CairoDraw (Pt)

/-! ### points -/

/-- A point given to a drawing method: two coordinates, a lazy point, or something else. -/
inductive PointArg where
  | pair (x y : Arg)
  | lazy (x y : Pos)
  | other

/-- elsie/boxtree/layout.py:203-211 (`hor`: `Layout.x`, otherwise `Layout.y`); elsie/boxtree/boxmixin.py:801-807. -/
def boxCoord (p : Nat) (hor : Bool) (a : Arg) : Except Err Pos :=
  match Verif.Layout.parsePos a with
  | .error e => .error e
  | .ok v => .ok (.ref p hor v)

/-- elsie/boxtree/layout.py:213-215 `Layout.point`; elsie/boxtree/boxmixin.py:809-811 `p`. -/
def boxPoint (p : Nat) (x y : Arg) : Except Err PointArg :=
  match boxCoord p true x with
  | .error e => .error e
  | .ok vx =>
    match boxCoord p false y with
    | .error e => .error e
    | .ok vy => .ok (.lazy vx vy)

/-- elsie/boxtree/boxmixin.py:813-815 `mid_point`. -/
def midPoint (p : Nat) : Except Err PointArg := boxPoint p (.str "50%".toList) (.str "50%".toList)

/-- elsie/boxtree/lazy.py:36-47 `LazyPoint.add`; a tuple has no such method. -/
def PointArg.add (dx dy : Rat) : PointArg → Except Err PointArg
  | .lazy x y => .ok (.lazy (.map (· + dx) x) (.map (· + dy) y))
  | _ => .error .attribute

/-- elsie/boxtree/lazy.py:54-59 `unpack_point`. -/
def unpackPoint (p : Nat) : PointArg → Except Err (Pos × Pos)
  | .lazy x y => .ok (x, y)
  | .pair x y =>
    match boxCoord p true x with
    | .error e => .error e
    | .ok vx =>
      match boxCoord p false y with
      | .error e => .error e
      | .ok vy => .ok (vx, vy)
  | .other => .error (.user "Invalid point")

/-- `[unpack_point(p, self) for p in points]`. -/
def unpackPoints (p : Nat) : List PointArg → Except Err (List (Pos × Pos))
  | [] => .ok []
  | a :: as =>
    match unpackPoint p a with
    | .error e => .error e
    | .ok v =>
      match unpackPoints p as with
      | .error e => .error e
      | .ok vs => .ok (v :: vs)

/-- elsie/shapes/path.py:6-25 `check_and_unpack_path_commands`. -/
def unpackPath (p : Nat) : List (Char × List PointArg) → Except Err (List (Char × List (Pos × Pos)))
  | [] => .ok []
  | (name, args) :: rest =>
    match Verif.CairoDraw.nargs name with
    | none => .error (.user "Invalid command name")
    | some n =>
      if args.length % n ≠ 0 then .error (.user "Invalid number of arguments for command")
      else
        match unpackPoints p args with
        | .error e => .error e
        | .ok vs =>
          match unpackPath p rest with
          | .error e => .error e
          | .ok r => .ok ((name, vs) :: r)

/-- elsie/boxtree/lazy.py:62-70, `eval_pair`. -/
def evalPair (env : Env) (v : Pos × Pos) : Except Err Pt :=
  match v.1.compute env 0 0 0 with
  | .error e => .error e
  | .ok x =>
    match v.2.compute env 0 0 0 with
    | .error e => .error e
    | .ok y => .ok (x, y)

/-- `[eval_pair(p) for p in points]`. -/
def evalPairs (env : Env) : List (Pos × Pos) → Except Err (List Pt)
  | [] => .ok []
  | v :: vs =>
    match evalPair env v with
    | .error e => .error e
    | .ok q =>
      match evalPairs env vs with
      | .error e => .error e
      | .ok qs => .ok (q :: qs)

/-- elsie/shapes/path.py:28-32 `eval_path_commands`. -/
def evalPath (env : Env) : List (Char × List (Pos × Pos)) → Except Err (List (Char × List Pt))
  | [] => .ok []
  | (name, vs) :: rest =>
    match evalPairs env vs with
    | .error e => .error e
    | .ok qs =>
      match evalPath env rest with
      | .error e => .error e
      | .ok r => .ok ((name, qs) :: r)

/-! ### drawing methods -/

/-- A picture: its size in pixels, the type and the data (in base64). -/
structure Bitmap where
  width : Rat
  height : Rat
  mime : Str
  data : Str

/-- A picture in SVG (or ORA): its size, the number of pages it needs (the argument of `_ensure_steps`, elsie/boxtree/boxmixin.py:615), and the
document that `draw` takes on each page, written out (lines 617-640, Model/Image.lean `drawData`); `none` if nothing is drawn. -/
structure Picture where
  width : Rat
  height : Rat
  steps : Int
  doc : Int → Except Err (Option Str)

/-- The drawing methods with their arguments. A text is given after parsing and with the style found for it (C01, C101); `width` is
the width that the backend measures. -/
inductive Draw where
  | rect (rx ry rotation : Option Rat) (p : Paint)
  | ellipse (rotation : Option Rat) (p : Paint)
  | polygon (ps : List PointArg) (rotation : Option Rat) (p : Paint)
  | line (ps : List PointArg) (color : Option Str) (strokeWidth : Option Rat) (dash : Option Str)
  | path (cmds : List (Char × List PointArg)) (p : Paint)
  | bitmap (b : Bitmap) (scale rotation : Option Rat)
  | svg (b : Picture) (scale rotation : Option Rat)
  | text (toks : List Tok) (style : TextStyle) (styles : Str → Option TextStyle) (rotation : Option Rat) (fit : Bool) (width : Rat)

/-- What the item keeps until it is rendered. -/
inductive Content where
  | rect (rx ry rotation : Option Rat) (p : Paint)
  | ellipse (rotation : Option Rat) (p : Paint)
  | polygon (ps : List (Pos × Pos)) (rotation : Option Rat) (p : Paint)
  | polyline (ps : List (Pos × Pos)) (p : Paint)
  | path (cmds : List (Char × List (Pos × Pos))) (p : Paint)
  | bitmap (b : Bitmap) (scale rotation : Option Rat)
  | svg (b : Picture) (scale rotation : Option Rat)
  | text (t : Verif.TextItem.Item)

/-- `scale or 1`. -/
def orOne : Option Rat → Rat
  | none => 1
  | some s => if s = 0 then 1 else s

/-- The beginning of a drawing method, before the item is created: what it does to the layout (as a call in Model/Slide.lean) and
what the item keeps; `none` if no item is created. elsie/boxtree/boxmixin.py:195-240 `rect`, 242-280 `ellipse`, 282-325 `polygon`,
327-376 `path`, 378-430 `line`, 515-565 `_image_bitmap`, 585-667 `_image_svg`; elsie/text/textboxitem.py:25-45 and 66-81 for `text`. -/
def begin_ (p : Nat) : Draw → Except Err (Option (Verif.Slide.Call × Content))
  | .rect rx ry rot pt => .ok (some (.shape p, .rect rx ry rot pt))
  | .ellipse rot pt => .ok (some (.shape p, .ellipse rot pt))
  | .polygon ps rot pt =>
    match unpackPoints p ps with
    | .error e => .error e
    | .ok vs => .ok (some (.shape p, .polygon vs rot pt))
  | .line ps color sw dash =>
    if ps.length < 2 then .error .assertion
    else
      match unpackPoints p ps with
      | .error e => .error e
      | .ok vs => .ok (some (.shape p, .polyline vs { color := color, strokeWidth := sw, dash := dash }))
  | .path cmds pt =>
    match unpackPath p cmds with
    | .error e => .error e
    | .ok vs => if vs.isEmpty then .ok none else .ok (some (.shape p, .path vs pt))
  | .bitmap b scale rot => .ok (some (.image p (b.width * orOne scale) (b.height * orOne scale) none, .bitmap b scale rot))
  | .svg b scale rot => .ok (some (.image p (b.width * orOne scale) (b.height * orOne scale) (some b.steps), .svg b scale rot))
  | .text toks style styles rot fit w =>
    match Verif.TextItem.makeState w style toks fit with
    | .error e => .error e
    | .ok t => .ok (some (.text p t.width t.height fit, .text ⟨toks, style, styles, rot, t⟩))

/-- Calls on a box of the slide. -/
inductive Call where
  | box (parent : Nat) (c : BoxCall)
  | draw (parent : Nat) (d : Draw)

/-- The slide, and for each item its number, its box and what it keeps. -/
structure State where
  slide : Verif.Slide.State
  contents : List (Nat × Nat × Content)

/-- A new slide. -/
def newScene (width height : Rat) : State := ⟨Verif.Slide.newSlide width height, []⟩

/-- One call. -/
def exec (s : State) : Call → State × Option Err
  | .box p c => ({ s with slide := (Verif.Slide.exec s.slide (.box p c)).1 }, (Verif.Slide.exec s.slide (.box p c)).2)
  | .draw p d =>
    match begin_ p d with
    | .error e => (s, some e)
    | .ok none => (s, none)
    | .ok (some (c, k)) =>
      match Verif.Slide.exec s.slide c with
      | (t, some e) => ({ s with slide := t }, some e)
      | (t, none) => (⟨t, s.contents ++ [(s.slide.next, p, k)]⟩, none)

/-- A sequence of calls, stopping at the first exception. -/
def run (s : State) : List Call → Except Err State
  | [] => .ok s
  | c :: cs =>
    match exec s c with
    | (_, some e) => .error e
    | (s, none) => run s cs

/-! ### the page -/

/-- The `render` of a shape or bitmap: the call of the context. elsie/boxtree/boxmixin.py:227-238, 269-278, 314-323, 358-374,
406-426, 544-563. A layout without rectangle would raise an `AttributeError`. -/
def shape (env : Env) (p : Nat) : Content → Except Err (Option Item)
  | .rect rx ry rot pt =>
    match env p with
    | none => .error .attribute
    | some r => .ok (some (.rect r rx ry rot pt))
  | .ellipse rot pt =>
    match env p with
    | none => .error .attribute
    | some r => .ok (some (.ellipse r rot pt))
  | .polygon vs rot pt =>
    match evalPairs env vs with
    | .error e => .error e
    | .ok qs => .ok (some (.polygon qs rot pt))
  | .polyline vs pt =>
    match evalPairs env vs with
    | .error e => .error e
    | .ok qs => .ok (some (.polyline qs pt))
  | .path vs pt =>
    match evalPath env vs with
    | .error e => .error e
    | .ok qs => .ok (some (.path qs pt))
  | .bitmap b scale rot =>
    match env p with
    | none => .error .attribute
    | some r =>
      match Verif.Layout.imageRect r b.width b.height scale with
      | .error e => .error e
      | .ok r => .ok (some (.bitmap r b.mime b.data rot))
  | .svg _ _ _ => .ok none
  | .text _ => .ok none

/-- elsie/render/backends/svg/rcontext.py:84-91: the transformations of a picture. -/
def pictureTransform (fmt : Rat → Str) (r : Rect) (scale : Rat) (rotation : Option Rat) : Str :=
  Verif.SvgDraw.joinWith " ".toList (
    (match rotation with
      | some a => ["rotate(".toList ++ fmt a ++ " ".toList ++ fmt (r.x + r.width / 2) ++ " ".toList ++ fmt (r.y + r.height / 2) ++ ")".toList]
      | none => []) ++
    ["translate(".toList ++ fmt r.x ++ ", ".toList ++ fmt r.y ++ ")".toList] ++
    (if scale ≠ 1 then ["scale(".toList ++ fmt scale ++ ")".toList] else []))

/-- elsie/render/backends/svg/rcontext.py:75-95 `draw_svg`; the centre of the rotation is the middle of the picture
(elsie/boxtree/boxmixin.py:664). -/
def drawSvg (fmt : Rat → Str) (xml : Verif.Xml.Xml) (doc : Str) (r : Rect) (scale : Rat) (rotation : Option Rat) : Except Err Verif.Xml.Xml :=
  match Verif.Xml.run {} [.element "g".toList, .set "transform".toList (pictureTransform fmt r scale rotation) true, .raw doc, .close (some "g".toList)] with
  | .error e => .error e
  | .ok g =>
    match g.toString with
    | .error e => .error e
    | .ok str => Verif.Xml.run xml [.raw str]

/-- elsie/boxtree/boxmixin.py:622-665: `draw` of a picture, with an SVG context. -/
def renderPicture (fmt : Rat → Str) (env : Env) (step : Int) (xml : Verif.Xml.Xml) (p : Nat) (b : Picture) (scale rotation : Option Rat) :
    Except Err Verif.Xml.Xml :=
  match env p with
  | none => .error .attribute
  | some r =>
    match b.doc step with
    | .error e => .error e
    | .ok none => .ok xml
    | .ok (some doc) =>
      match Verif.Layout.imageScale r b.width b.height scale with
      | .error e => .error e
      | .ok s =>
        match Verif.Layout.imageRect r b.width b.height scale with
        | .error e => .error e
        | .ok q => drawSvg fmt xml doc q s rotation

/-- `p.render(ctx)` for an item of the box `p`. The scale of a text was set when its box got its rectangle
(elsie/text/textboxitem.py:36-45). -/
def render (fmt : Rat → Str) (env : Env) (step : Int) (xml : Verif.Xml.Xml) (p : Nat) (k : Content) : Except Err Verif.Xml.Xml :=
  match k with
  | .svg b scale rot => renderPicture fmt env step xml p b scale rot
  | .text t =>
    match env p with
    | none => .error .attribute
    | some r => Verif.TextItem.render fmt xml r { t with state := t.state.onRect r }
  | k =>
    match shape env p k with
    | .error e => .error e
    | .ok none => .ok xml
    | .ok (some i) =>
      match Verif.SvgDraw.itemOps fmt i with
      | .error e => .error e
      | .ok ops => Verif.Xml.run xml ops

/-- elsie/render/backends/svg/backend.py:78-79: the loop over the painters. -/
def renderAll (fmt : Rat → Str) (env : Env) (step : Int) (contents : List (Nat × Nat × Content)) (xml : Verif.Xml.Xml) :
    List Verif.Slide.Painter → Except Err Verif.Xml.Xml
  | [] => .ok xml
  | .item u _ :: ps =>
    match contents.lookup u with
    | none => .error .key
    | some (p, k) =>
      match render fmt env step xml p k with
      | .error e => .error e
      | .ok xml => renderAll fmt env step contents xml ps
  | .debug _ _ :: _ => .error .type

/-- elsie/render/backends/svg/backend.py:74-80 `create_render_unit` (without `debug_boxes`) for a slide whose boxes have the
rectangles `env`: the page as a string. -/
def svgPage (fmt : Rat → Str) (s : State) (env : Env) (width height : Rat) (viewBox : Option Rect) (step : Int) : Except Err Str :=
  match Verif.Xml.run {} (.element "svg".toList :: (Verif.SvgDraw.svgSets fmt width height viewBox).map (fun a => Verif.Xml.Op.set a.1 a.2.1 a.2.2)) with
  | .error e => .error e
  | .ok xml =>
    match renderAll fmt env step s.contents xml (Verif.Slide.page s.slide step false) with
    | .error e => .error e
    | .ok xml =>
      match Verif.Xml.run xml [.close (some "svg".toList)] with
      | .error e => .error e
      | .ok xml => xml.toString

end Verif.Scene
