import Verif.Model.Xml
import Verif.Model.SvgDraw
import Verif.Model.Draw
import Verif.Model.TextBoxItem

/-! # Model of drawing a text item on an SVG page

elsie/text/textboxitem.py (`_make_query`, `render`) and elsie/render/backends/svg/rcontext.py (`draw_text`). -/

namespace Verif.TextItem
open Verif.Text Verif.Xml Verif.Style Verif.Layout
open Verif.SvgDraw (joinWith)
open Verif.CairoDraw (nonzero midPoint)

/-- elsie/text/textboxitem.py:26-34: the fields of a text item. -/
structure Item where
  toks : List Tok
  style : TextStyle
  styles : Str → Option TextStyle
  rotation : Option Rat
  state : TextState

/-- elsie/text/textboxitem.py:66-81 `_make_query`: the size of the text; `width` is the answer of the backend. (What it does
to the layout is in Model/Slide.lean.) -/
def makeState (width : Rat) (style : TextStyle) (toks : List Tok) (fit : Bool) : Except Err TextState :=
  match style.size, style.lineSpacing with
  | some a, some b => .ok { width := width, height := numberOfLines toks * (a * b), scaleToFit := fit }
  | _, _ => .error .type

/-- elsie/text/textboxitem.py:12-21 `text_x_in_rect`. -/
def textX (rect : Rect) (align : Option Str) : Except Err Rat :=
  if align = some "left".toList then .ok rect.x
  else if align = some "middle".toList then .ok (rect.x + rect.width / 2)
  else if align = some "right".toList then .ok (rect.x + rect.width)
  else .error (.user "Invalid value of align")

/-- elsie/render/backends/svg/rcontext.py:53-59: the list of transformations. -/
def transforms (fmt : Rat → Str) (rect : Rect) (rotation scale : Option Rat) : List Str :=
  (if nonzero rotation then
    ["rotate(".toList ++ fmt (rotation.getD 0) ++ " ".toList ++ fmt (midPoint rect).1 ++ " ".toList ++ fmt (midPoint rect).2 ++ ")".toList]
  else []) ++
  (if nonzero scale then ["scale(".toList ++ fmt (scale.getD 0) ++ ")".toList] else [])

/-- elsie/render/backends/svg/rcontext.py:60. -/
def transform (fmt : Rat → Str) (rect : Rect) (rotation scale : Option Rat) : Option Str :=
  if transforms fmt rect rotation scale = [] then none else some (joinWith " ".toList (transforms fmt rect rotation scale))

/-- elsie/render/backends/svg/rcontext.py:49-51. -/
def unscaled (x y : Rat) : Option Rat → Except Err (Rat × Rat)
  | none => .ok (x, y)
  | some s => if s = 0 then .error .zeroDivision else .ok (x / s, y / s)

/-- elsie/render/backends/svg/rcontext.py:37-70 `SvgRenderingContext.draw_text`. -/
def svgText (fmt : Rat → Str) (xml : Xml) (rect : Rect) (x y : Rat) (toks : List Tok) (style : TextStyle)
    (styles : Str → Option TextStyle) (rotation scale : Option Rat) : Except Err Xml :=
  match unscaled x y scale with
  | .error e => .error e
  | .ok p =>
    match mkEnv fmt (fmt p.1) (fmt p.2) style styles none none (transform fmt rect rotation scale) with
    | .error e => .error e
    | .ok env => drawText env xml toks

/-- elsie/text/textboxitem.py:47-64 `TextBoxItem.render` with an SVG context. -/
def render (fmt : Rat → Str) (xml : Xml) (rect : Rect) (t : Item) : Except Err Xml :=
  match textX rect t.style.align with
  | .error e => .error e
  | .ok x =>
    match t.style.size with
    | none => .error .type
    | some size =>
      let y := rect.y + (rect.height - t.state.height) / 2 + size * t.state.scale
      if t.state.scale > 1 / 100000 then
        svgText fmt xml rect x y t.toks t.style t.styles t.rotation (if t.state.scaleToFit then some t.state.scale else none)
      else .ok xml

end Verif.TextItem
