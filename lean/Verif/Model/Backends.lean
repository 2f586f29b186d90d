import Verif.Model.SvgDraw

/-! # Model: the arguments of a drawing method as the Cairo backend takes them

The methods of both backends have the same arguments (elsie/render/backends/rcontext.py). Model/SvgDraw.lean describes what the SVG
backend does with them; here they are translated to the items of Model/CairoDraw.lean. Which colours are known is decided by
webcolors (external), the cosine and the sine of an angle by the library of C (external). -/

namespace Verif.Backends
open Verif.CairoDraw (Pt Mat given)
open Verif.SvgDraw (Item Paint)

/-- `s.split()`; `cur` is the word being read. -/
def splitWs (cur : Str) : Str → List Str
  | [] => if cur = [] then [] else [cur]
  | c :: s => if isSpace c then (if cur = [] then splitWs [] s else cur :: splitWs [] s) else splitWs (cur ++ [c]) s

/-- `[float(v) for v in ...]`; `float` is the reader of numbers. -/
def floats (read : Str → Option Rat) : List Str → Except Err (List Rat)
  | [] => .ok []
  | w :: ws =>
    match read w with
    | none => .error .value
    | some q =>
      match floats read ws with
      | .error e => .error e
      | .ok qs => .ok (q :: qs)

/-- Cairo refuses a dash pattern with a negative number or of zeros only (documentation of `cairo_set_dash`). -/
def badDash (ds : List Rat) : Bool := ds ≠ [] && (ds.any (· < 0) || ds.all (· = 0))

/-- elsie/render/backends/cairo/draw.py:44-45. -/
def dashOf (read : Str → Option Rat) : Option Str → Except Err (List Rat)
  | none => .ok []
  | some s =>
    if s = [] then .ok []
    else
      match floats read (splitWs [] s) with
      | .error e => .error e
      | .ok ds => if badDash ds then .error (.user "CairoError") else .ok ds

/-- The colour of a shape is looked up if it is true, elsie/render/backends/cairo/utils.py:7-18 `get_rgb_color`. -/
def unknown (known : Str → Bool) (c : Option Str) : Bool := given c && !known (c.getD [])

/-- elsie/render/backends/cairo/draw.py:40-62: what `fill_stroke_shape` and `stroke_shape` do with the arguments for painting. The dash pattern is read only if there
is an outline. -/
def styleOf (read : Str → Option Rat) (known : Str → Bool) (p : Paint) : Except Err CairoDraw.Style :=
  if unknown known p.bgColor || unknown known p.color then .error .value
  else if given p.color then
    match dashOf read p.dash with
    | .error e => .error e
    | .ok ds => .ok { color := p.color, bgColor := p.bgColor, strokeWidth := p.strokeWidth, dash := ds }
  else .ok { color := p.color, bgColor := p.bgColor, strokeWidth := p.strokeWidth }

/-- An item with its arguments for painting. -/
def withStyle (s : Except Err CairoDraw.Style) (f : CairoDraw.Style → CairoDraw.Item) : Except Err CairoDraw.Item :=
  match s with
  | .error e => .error e
  | .ok s => .ok (f s)

/-- The methods of elsie/render/backends/cairo/rcontext.py:84-164 and 217-235. `draw_polyline` passes its arguments to `stroke_shape`, which has
no background colour and needs a colour: with `None`, `len(None)` raises; the empty name is not known. A bitmap of size 0 raises in line 228
(`img_width / width`). -/
def toCairo (read : Str → Option Rat) (known : Str → Bool) (ang : Rat → Rat × Rat) : Item → Except Err CairoDraw.Item
  | .rect r rx ry rot p => withStyle (styleOf read known p) (.rect r rx ry (rot.map ang))
  | .ellipse r rot p => withStyle (styleOf read known p) (.ellipse r (rot.map ang))
  | .polygon ps rot p => withStyle (styleOf read known p) (.polygon ps (rot.map ang))
  | .polyline ps p =>
    match p.bgColor, p.color with
    | some _, _ => .error .type
    | none, none => .error .type
    | none, some c => if c = [] then .error .value else withStyle (styleOf read known p) (.polyline ps c)
  | .path cmds p => withStyle (styleOf read known p) (.path cmds)
  | .bitmap r _ data rot => if r.width = 0 ∨ r.height = 0 then .error .zeroDivision else .ok (.bitmap r (rot.map ang) data)

/-- What is painted on a new page with a transformation (resolution and view box). -/
def drawCairo (read : Str → Option Rat) (known : Str → Bool) (ang : Rat → Rat × Rat) (m : Mat) (i : Item) : Except Err (List CairoDraw.Paint) :=
  match toCairo read known ang i with
  | .error e => .error e
  | .ok j =>
    match CairoDraw.drawItem { gs := { ctm := m } } j with
    | .error e => .error e
    | .ok c => .ok c.painted

end Verif.Backends
