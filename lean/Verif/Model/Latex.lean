import Verif.Model.SceneCairo

/-! # Model of elsie/ext/latex.py: formulas in their boxes

What `_render_latex` makes of a source is a parameter; for the cache see Model/Cache.lean (`get`), for the ids Model/SvgUtils.lean. -/

namespace Verif.Latex
open Verif.Scene (Ext)

/-- A formula as it comes from the cache: the document, and its size as read by `svg_size_to_pixels` (Model/SvgUtils.lean). -/
structure Formula where
  width : Rat
  height : Rat
  svg : Str

/-- elsie/ext/latex.py:57-67: what `latex` does to the slide. `ensure_width` and `ensure_height` are what a text does that is not scaled
(elsie/text/textboxitem.py:44-45), then an item is added. -/
def call (p : Nat) (f : Formula) (scale : Rat) : Verif.Slide.Call := .text p (f.width * scale) (f.height * scale) false

/-- elsie/ext/latex.py:73-82: the arguments `x`, `y`, `width` and `height` that `_draw` gives to the context; the last two are the size of the box. -/
def place (r : Rect) (f : Formula) (scale : Rat) : Rect :=
  ⟨r.x + (r.width - f.width * scale) / 2, r.y + (r.height - f.height * scale) / 2, r.width, r.height⟩

/-- elsie/ext/latex.py:71-83 `_draw` with an SVG context. `draw_svg` looks at width and height of the place only for a rotation
(elsie/render/backends/svg/rcontext.py:75). -/
def drawInSvg (fmt : Rat → Str) (xml : Verif.Xml.Xml) (r : Rect) (f : Formula) (scale : Rat) : Except Err Verif.Xml.Xml :=
  Verif.Scene.drawSvg fmt xml f.svg (place r f scale) scale none

/-- elsie/ext/latex.py:71-83 `_draw` with a Cairo context, which does not look at the scale (elsie/render/backends/cairo/rcontext.py:237-246). -/
def drawInCairo (x : Ext) (png : Bool) (r : Rect) (f : Formula) (scale : Rat) : Except Err Verif.CairoDraw.Item :=
  Verif.Scene.cairoSvg x png f.svg (place r f scale) none

end Verif.Latex
