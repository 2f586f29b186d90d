import Verif.Model.Scene
import Verif.Model.Backends
import Verif.Model.CairoText

/-! # Model of a page of a slide made with Cairo

elsie/render/backends/cairo/backend.py (`create_render_unit`), the context of elsie/render/backends/cairo/rcontext.py with texts and SVG pictures,
and elsie/render/backends/cairo/svg.py. Shapes and bitmaps are in Model/CairoDraw.lean and Model/Backends.lean, the parts
that do not depend on the backend in Model/Scene.lean. Numbers are exact: the rounding to units of Pango is left out. -/

namespace Verif.Scene
open Verif.Layout (Env)
open Verif.CairoDraw (Pt Mat Ctx Layout Paint)
open Verif.Style (TextStyle)
open Verif.Text (Tok)

/-- The external libraries: readers of numbers and colours, cosine and sine, the metrics of Pango, and what cairosvg finds in a document. -/
structure Ext where
  /-- `float(s)` -/
  read : Str → Option Rat
  /-- the colours that webcolors knows, elsie/render/backends/cairo/utils.py:7-18 -/
  known : Str → Bool
  /-- cosine and sine of an angle in degrees -/
  ang : Rat → Rat × Rat
  /-- elsie/render/backends/cairo/text.py:117-127 `get_text_height` -/
  fontHeight : TextStyle → Rat
  /-- `layout.get_baseline()`: the distance of the first base line from the upper edge -/
  baseline : Layout → Rat
  /-- elsie/render/backends/cairo/rcontext.py:247-249: the document is read, elements `flow...` are removed (elsie/render/backends/cairo/utils.py:28-31), and it is written again -/
  normalize : Str → Except Err Str
  /-- the size that cairosvg finds in a document (`node_format`; it depends also on the resolution) -/
  natural : Str → Rat × Rat

/-! ### the context -/

/-- elsie/render/backends/cairo/rcontext.py:32-36 and 59-76: the resolution. The context of a PDF is scaled by 72/96. -/
def resolution (png : Bool) : Rat := if png then 1 else 72 / 96

/-- elsie/render/backends/cairo/rcontext.py:40-82 `__init__`: the context and `line_scaling`. -/
def cairoStart (png : Bool) (width height : Rat) (viewBox : Option Rect) : Except Err (Ctx × Rat) :=
  match Verif.CairoDraw.run {} (if png then [] else [.scale (resolution png) (resolution png)]) with
  | .error e => .error e
  | .ok c =>
    match viewBox with
    | none => .ok (c, 1)
    | some v =>
      match Verif.CairoDraw.applyViewbox width height v.x v.y v.width v.height with
      | .error e => .error e
      | .ok (ks, scale) =>
        match Verif.CairoDraw.run c ks with
        | .error e => .error e
        | .ok c => .ok (c, scale)

/-! ### texts -/

/-- elsie/render/backends/cairo/text.py:37-56 `style_to_attributes`: whether it raises. `get_rgb_color(None)` raises in `len(None)`. -/
def attributes (x : Ext) (s : TextStyle) : Except Err Unit :=
  match s.size, s.font, s.color with
  | some _, some _, some c => if x.known c then .ok () else .error .value
  | _, _, _ => .error .type

/-- The attributes of all ranges. (In the code they are made together with the ranges.) -/
def allAttributes (x : Ext) : List (TextStyle × Nat × Nat) → Except Err Unit
  | [] => .ok ()
  | r :: rs =>
    match attributes x r.1 with
    | .error e => .error e
    | .ok _ => allAttributes x rs

/-- elsie/render/backends/cairo/text.py:228-229 `get_pango_alignment`. -/
def alignments : List (Option Str) := [some "middle".toList, some "left".toList, some "right".toList]

/-- elsie/render/backends/cairo/text.py:130-156 `build_layout`, and `set_width` of elsie/render/backends/cairo/rcontext.py:209. -/
def buildLayout (x : Ext) (toks : List Tok) (style : TextStyle) (styles : Str → Option TextStyle) (spacingScale : Rat) (scale : Option Rat) (width : Rat) :
    Except Err Layout :=
  match styles "default".toList with
  | none => .error .key
  | some default =>
    let style := default.compose style
    if style.align ∉ alignments then .error .key
    else
      match Verif.Cairo.getTextAndAttributes styles default style toks with
      | .error e => .error e
      | .ok (text, ranges) =>
        match allAttributes x ranges with
        | .error e => .error e
        | .ok _ =>
          match style.font, style.size, style.lineSpacing with
          | some _, some size, some ls =>
            if ls < 1 then .error .assertion
            else .ok { text := text, ranges := ranges, align := style.align, scale := scale, spacing := (ls * size - x.fontHeight style) * spacingScale, width := width }
          | _, _, _ => .error .type

/-- elsie/render/backends/cairo/rcontext.py:185-215 `draw_text`. -/
def cairoText (x : Ext) (lineScaling : Rat) (r : Rect) (y : Rat) (toks : List Tok) (style : TextStyle) (styles : Str → Option TextStyle)
    (rotation scale : Option Rat) : Except Err Verif.CairoDraw.Item :=
  match buildLayout x toks style styles lineScaling scale r.width with
  | .error e => .error e
  | .ok l => .ok (.text (r.x, y - x.baseline l) (Verif.CairoDraw.midPoint r) (rotation.map x.ang) l)

/-- elsie/text/textboxitem.py:47-64 `TextBoxItem.render` with a Cairo context. -/
def renderText (x : Ext) (lineScaling : Rat) (r : Rect) (t : Verif.TextItem.Item) : Except Err (Option Verif.CairoDraw.Item) :=
  match Verif.TextItem.textX r t.style.align with
  | .error e => .error e
  | .ok _ =>
    match t.style.size with
    | none => .error .type
    | some size =>
      let y := r.y + (r.height - t.state.height) / 2 + size * t.state.scale
      if t.state.scale > 1 / 100000 then
        match cairoText x lineScaling r y t.toks t.style t.styles t.rotation (if t.state.scaleToFit then some t.state.scale else none) with
        | .error e => .error e
        | .ok i => .ok (some i)
      else .ok none

/-! ### SVG pictures -/

/-- elsie/render/backends/cairo/svg.py:62-76: the size of a picture. -/
def pictureSize (natural : Rat × Rat) (w h : Rat) : Rat × Rat :=
  if w ≠ 0 ∧ h ≠ 0 then (w, h)
  else if w ≠ 0 then (w, if natural.1 ≠ 0 then natural.2 * (w / natural.1) else natural.2)
  else if h ≠ 0 then (if natural.2 ≠ 0 then natural.1 * (h / natural.2) else natural.1, h)
  else natural

/-- elsie/render/backends/cairo/rcontext.py:237-259 `draw_svg` and elsie/render/backends/cairo/svg.py:11-124: a new context on the surface. What cairosvg
draws inside is not modelled. -/
def cairoSvg (x : Ext) (png : Bool) (doc : Str) (r : Rect) (rotation : Option Rat) : Except Err Verif.CairoDraw.Item :=
  match x.normalize doc with
  | .error e => .error e
  | .ok doc =>
    let size := pictureSize (x.natural doc) r.width r.height
    if size.1 = 0 ∨ size.2 = 0 then .error .value
    else
      match Verif.CairoDraw.run {} (.scale (resolution png) (resolution png) ::
          (Verif.CairoDraw.transform (r.x + size.1 / 2, r.y + size.2 / 2) (rotation.map x.ang) 1 1 ++ [.translate r.x r.y])) with
      | .error e => .error e
      | .ok c => .ok (.svg c.gs.ctm size.1 size.2 doc)

/-- elsie/boxtree/boxmixin.py:622-665: `draw` of a picture, with a Cairo context. -/
def renderSvg (x : Ext) (png : Bool) (env : Env) (step : Int) (p : Nat) (b : Picture) (scale rotation : Option Rat) : Except Err (Option Verif.CairoDraw.Item) :=
  match env p with
  | none => .error .attribute
  | some r =>
    match b.doc step with
    | .error e => .error e
    | .ok none => .ok none
    | .ok (some doc) =>
      match Verif.Layout.imageRect r b.width b.height scale with
      | .error e => .error e
      | .ok q =>
        match cairoSvg x png doc q rotation with
        | .error e => .error e
        | .ok i => .ok (some i)

/-! ### the page -/

/-- `p.render(ctx)` for an item of the box `p`: what is drawn. -/
def cairoItem (x : Ext) (png : Bool) (lineScaling : Rat) (env : Env) (step : Int) (p : Nat) (k : Content) : Except Err (Option Verif.CairoDraw.Item) :=
  match k with
  | .svg b scale rot => renderSvg x png env step p b scale rot
  | .text t =>
    match env p with
    | none => .error .attribute
    | some r => renderText x lineScaling r { t with state := t.state.onRect r }
  | k =>
    match shape env p k with
    | .error e => .error e
    | .ok none => .ok none
    | .ok (some i) =>
      match Verif.Backends.toCairo x.read x.known x.ang i with
      | .error e => .error e
      | .ok j => .ok (some j)

/-- elsie/render/backends/cairo/backend.py:31-32: the loop over the painters. -/
def cairoAll (x : Ext) (png : Bool) (lineScaling : Rat) (env : Env) (step : Int) (contents : List (Nat × Nat × Content)) (c : Ctx) :
    List Verif.Slide.Painter → Except Err Ctx
  | [] => .ok c
  | .item u _ :: ps =>
    match contents.lookup u with
    | none => .error .key
    | some (p, k) =>
      match cairoItem x png lineScaling env step p k with
      | .error e => .error e
      | .ok none => cairoAll x png lineScaling env step contents c ps
      | .ok (some i) =>
        match Verif.CairoDraw.drawItem c i with
        | .error e => .error e
        | .ok c => cairoAll x png lineScaling env step contents c ps
  | .debug _ _ :: _ => .error .type

/-- elsie/render/backends/cairo/backend.py:19-33 `create_render_unit` (without `debug_boxes`) for a slide whose boxes have the rectangles `env`: what
is painted. -/
def cairoPage (x : Ext) (png : Bool) (s : State) (env : Env) (width height : Rat) (viewBox : Option Rect) (step : Int) : Except Err (List Paint) :=
  match cairoStart png width height viewBox with
  | .error e => .error e
  | .ok (c, lineScaling) =>
    match cairoAll x png lineScaling env step s.contents c (Verif.Slide.page s.slide step false) with
    | .error e => .error e
    | .ok c => .ok c.painted

end Verif.Scene
